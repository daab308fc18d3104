import Verif.Spec.Reader
/-! # A reader that searches by bisection

`Spec/Reader` looks through the entries of an index node one by one. Readers of the format (`MetadataIndexNode.java`,
`binarySearchInChildren`) search by bisection: the names in a node have to be in ascending order. This is such a reader. Names are
compared byte by byte. -/

namespace TsFile.Spec

/-- The search for a key among names, between the positions `low` (included) and `high` (excluded), with at most `fuel` comparisons:
whether it was found, and where; if not, the position at which the search ended. -/
def bisect (names : List Bytes) (key : Bytes) : Nat → Nat → Nat → Bool × Nat
  | 0, low, _ => (false, low)
  | fuel + 1, low, high =>
    if low < high then
      let mid := (low + (high - 1)) / 2
      let name := names.getD mid []
      if name = key then (true, mid)
      else if name < key then bisect names key fuel (mid + 1) high
      else bisect names key fuel low mid
    else (false, low)

/-- The search among all names. It takes no more comparisons than the number of names has binary digits. -/
def search (names : List Bytes) (key : Bytes) : Bool × Nat := bisect names key (names.length.log2 + 1) 0 names.length

/-- The element with a name. -/
def findBinary {α : Type} (name : α → Bytes) (key : Bytes) (l : List α) : Option α :=
  let r := search (l.map name) key
  if r.1 then l[r.2]? else none

/-- The part of the file that an entry of an index node stands for. -/
def entryAt (entries : List Entry) (stop i : Nat) : Option (Nat × Nat) :=
  entries[i]?.map (fun e => (e.offset, (entries[i + 1]?.map Entry.offset).getD stop))

/-- The part of the file that an index node gives for a name: that of the entry with this name, or else of the one before the position
where the search ended, or of the first one. -/
def selectBinary (m : Bytes) (entries : List Entry) (stop : Nat) : Option (Nat × Nat) :=
  let r := search (entries.map Entry.name) m
  entryAt entries stop (if r.1 then r.2 else r.2 - 1)

/-- Descend from a measurement node to the part of the file with the series metadata. -/
def locateBinary (F m : Bytes) : Nat → Node → Option (Option (Nat × Nat))
  | 0, _ => none
  | fuel + 1, node =>
    match selectBinary m node.entries node.endOffset with
    | none => some none
    | some (lo, hi) =>
      if node.kind = 3 then some (some (lo, hi))
      else if node.kind = 2 then
        match readNode F lo with
        | none => none
        | some child => locateBinary F m fuel child
      else none

/-- The metadata of a series. -/
def lookupMeta (F d m : Bytes) : Option (Option SeriesMeta) := do
  let footer ← readFooter F
  if footer.root.kind = 1 then
    match findBinary Entry.name d footer.root.entries with
    | none => some none
    | some e => do
      let node ← readNode F e.offset
      match ← locateBinary F m F.length node with
      | none => some none
      | some (lo, hi) => do
        let metas ← pAll pSeriesMeta (slice F lo hi)
        some (findBinary SeriesMeta.measurement m metas)
  else none

/-- The points of a series. A series that is not found has no points. -/
def lookupSeries (unsnap : Bytes → Option Bytes) (F d m : Bytes) : Option (List Point) :=
  match lookupMeta F d m with
  | none => none
  | some none => some []
  | some (some s) => (readChunks unsnap F m s.chunks).map (fun cs => cs.flatMap Chunk.points)

end TsFile.Spec
