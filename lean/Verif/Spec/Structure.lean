import Verif.Spec.Reader
/-! # The chunks of a file with their devices and positions -/

namespace TsFile.Spec

/-- Scan from position `pos`, where the current chunk group belongs to `cur`: device, position and content of each chunk
up to the end marker (byte 2). Byte 0 begins a chunk group, any other byte a chunk. A chunk outside of a chunk group
is an error. -/
def chunksFrom (unsnap : Bytes → Option Bytes) (F : Bytes) :
    Nat → Nat → Option Bytes → Option (List (Bytes × Nat × Chunk))
  | 0, _, _ => none
  | fuel + 1, pos, cur =>
    match (F.drop pos).head? with
    | none => none
    | some marker =>
      if marker = 2 then some []
      else if marker = 0 then
        match pStr (F.drop (pos + 1)) with
        | none => none
        | some (d, rest) => chunksFrom unsnap F fuel (F.length - rest.length) (some d)
      else
        match cur with
        | none => none
        | some d =>
          match pChunk unsnap (F.drop pos) with
          | none => none
          | some (c, rest) =>
            (chunksFrom unsnap F fuel (F.length - rest.length) (some d)).map ((d, pos, c) :: ·)

/-- All the chunks of a file: device, position, content. -/
def chunksOf (unsnap : Bytes → Option Bytes) (F : Bytes) : Option (List (Bytes × Nat × Chunk)) :=
  chunksFrom unsnap F F.length 7 none

end TsFile.Spec
