import Verif.Spec.Reader
/-! # Recovering what a crash left

A scan of a file that may end at any byte: it keeps the chunk group headers and the chunks that are complete and
can be read, and stops at the first place where that is not so. It needs no index and no end marker. -/

namespace TsFile.Spec

/-- Complete chunk group headers and chunks from a marker byte on, until the end marker, the end of the bytes or the
first thing that is not complete. -/
def recoverFuel (unsnap : Bytes → Option Bytes) : Nat → Bytes → List Item
  | 0, _ => []
  | _ + 1, [] => []
  | fuel + 1, marker :: b =>
    if marker = 2 then []
    else if marker = 0 then
      match pStr b with
      | none => []
      | some (d, b) => .group d :: recoverFuel unsnap fuel b
    else
      match pChunk unsnap (marker :: b) with
      | none => []
      | some (c, b) => .chunk c :: recoverFuel unsnap fuel b

/-- What can be recovered from the bytes a crash left. -/
def recover (unsnap : Bytes → Option Bytes) (left : Bytes) : List Item :=
  if left.take 7 = head then recoverFuel unsnap left.length (left.drop 7) else []

/-- The points of a series that can be recovered from the bytes a crash left. -/
def recovered (unsnap : Bytes → Option Bytes) (left d m : Bytes) : List Point :=
  scanPoints d m none (recover unsnap left)

/-- Like `recoverFuel`, with the position just after each thing found; `total` is the length of the file. -/
def pieceFuel (unsnap : Bytes → Option Bytes) (total : Nat) : Nat → Bytes → List (Item × Nat)
  | 0, _ => []
  | _ + 1, [] => []
  | fuel + 1, marker :: b =>
    if marker = 2 then []
    else if marker = 0 then
      match pStr b with
      | none => []
      | some (d, b) => (.group d, total - b.length) :: pieceFuel unsnap total fuel b
    else
      match pChunk unsnap (marker :: b) with
      | none => []
      | some (c, b) => (.chunk c, total - b.length) :: pieceFuel unsnap total fuel b

/-- The chunk group headers and chunks of a file, each with the position of the byte after it. -/
def pieces (unsnap : Bytes → Option Bytes) (F : Bytes) : List (Item × Nat) :=
  if F.take 7 = head then pieceFuel unsnap F.length F.length (F.drop 7) else []

end TsFile.Spec
