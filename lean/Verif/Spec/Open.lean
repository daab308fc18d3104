import Verif.Model.Open
/-! # What a user expects of opening a file by name -/

namespace TsFile.Spec
open TsFile

/-- A proper name of a file or directory. -/
def ProperName (n : Bytes) : Prop := n ≠ [] ∧ n ≠ [0x2e] ∧ n ≠ [0x2e, 0x2e] ∧ 0x2f ∉ n ∧ 0 ∉ n

/-- Names joined with slashes. -/
def joinSlash : List Bytes → Bytes
  | [] => []
  | [n] => n
  | n :: ns => n ++ 0x2f :: joinSlash ns

/-- A path written plainly: one slash between the names, and one in front if it starts at the root. -/
def plainPath (absolute : Bool) (names : List Bytes) : Bytes :=
  if absolute then 0x2f :: joinSlash names else joinSlash names

/-- The file `base/n1/…/nk` can be made: `base` is a directory, every directory on the way is there or can be made, and
at the place of the file is no directory and the system lets the process write there. -/
structure Openable (d : Disk) (base : Loc) (names : List Bytes) : Prop where
  there : d.node base = some .dir
  way : ∀ k, 0 < k → k < names.length → d.node (base ++ names.take k) = some .dir
    ∨ (d.node (base ++ names.take k) = none ∧ d.may (base ++ names.take k) = true)
  free : d.node (base ++ names) ≠ some .dir
  may : d.may (base ++ names) = true

/-- A path that names nothing below the root: put together from `/` and `/.`. -/
inductive NamesNothing : Bytes → Prop
  | empty : NamesNothing []
  | slash (rest : Bytes) : NamesNothing rest → NamesNothing (0x2f :: rest)
  | slashDot (rest : Bytes) : NamesNothing rest → NamesNothing (0x2f :: 0x2e :: rest)

end TsFile.Spec
