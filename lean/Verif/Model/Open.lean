import Verif.Model.Writer
/-! # Opening a file by name: `TsFileWriter::new`, `writer/tsfile_writer.rs:277-296`

The crate calls `std::path::Path::parent`, `std::fs::create_dir_all` and `std::fs::File::create`. The first part of this
file models these three and the file system below them, on Unix and without links. It is not code of the crate. -/

namespace TsFile

/-- A place in the tree of directories: the names from the root. -/
abbrev Loc := List Bytes

/-- What is at a place. -/
inductive Node | dir | file (content : Bytes)
  deriving DecidableEq, Repr

/-- A file system. `may l`: the system lets this process make or open for writing what is at `l` (permissions, quota,
length of names, read only media). -/
structure Disk where
  node : Loc → Option Node
  may : Loc → Bool
  cwd : Loc

namespace Disk

/-- Replace what is at a place. -/
def set (d : Disk) (l : Loc) (n : Node) : Disk := { d with node := fun l' => if l' = l then some n else d.node l' }

/-- Whether there is a directory at a place. -/
def isDir (d : Disk) (l : Loc) : Bool := d.node l = some .dir

end Disk

/-- The parts of a path between slashes. -/
def splitSlash : Bytes → List Bytes
  | [] => [[]]
  | b :: bs =>
    if b = 0x2f then [] :: splitSlash bs
    else match splitSlash bs with
      | [] => [[b]]
      | p :: ps => (b :: p) :: ps

/-- One component of a path. -/
inductive Comp | cur | up | name (b : Bytes)
  deriving DecidableEq, Repr

/-- The component that a part is. -/
def Comp.of (part : Bytes) : Comp :=
  if part = [0x2e] then .cur else if part = [0x2e, 0x2e] then .up else .name part

/-- The components that the operating system sees: all non-empty parts. -/
def rawComps (path : Bytes) : List Comp := ((splitSlash path).filter (fun p => !p.isEmpty)).map Comp.of

/-- Whether a path starts at the root. -/
def isAbsolute (path : Bytes) : Bool := path.head? = some 0x2f

/-- `Path::components` without the root: `.` counts only as the first component of a relative path. -/
def pathComps (path : Bytes) : List Comp :=
  if isAbsolute path then (rawComps path).filter (· ≠ .cur)
  else match rawComps path with
    | [] => []
    | c :: cs => c :: cs.filter (· ≠ .cur)

/-- `Path::parent`: `none` for the empty path and for the root. -/
def pathParent (path : Bytes) : Option (List Comp) :=
  match pathComps path with
  | [] => none
  | cs => some cs.dropLast

namespace Disk

/-- Where a path starts. -/
def start (d : Disk) (path : Bytes) : Loc := if isAbsolute path then [] else d.cwd

/-- Follow a path. Every step needs a directory; what is at the result is not looked at. -/
def walk (d : Disk) : Loc → List Comp → Option Loc
  | l, [] => some l
  | l, c :: cs =>
    if d.isDir l then
      match c with
      | .cur => d.walk l cs
      | .up => d.walk l.dropLast cs
      | .name n => d.walk (l ++ [n]) cs
    else none

/-- Results of `mkdir`. -/
inductive Mk | done (d : Disk) | notFound | failed

/-- Whether following a path fails at a place where there is nothing (`ENOENT`). -/
def missing (d : Disk) : Loc → List Comp → Bool
  | _, [] => false
  | l, c :: cs =>
    match d.node l with
    | none => true
    | some (.file _) => false
    | some .dir =>
      match c with
      | .cur => d.missing l cs
      | .up => d.missing l.dropLast cs
      | .name n => d.missing (l ++ [n]) cs

/-- Whether a component contains a zero byte. -/
def hasZero : Comp → Bool
  | .name n => 0 ∈ n
  | _ => false

/-- `std::fs::create_dir` of a path from `base`. A path with a zero byte is refused. -/
def mkdir (d : Disk) (base : Loc) (cs : List Comp) : Mk :=
  if cs.any hasZero then .failed else
  match d.walk base cs with
  | none => if d.missing base cs then .notFound else .failed
  | some l => if (d.node l).isNone && d.may l then .done (d.set l .dir) else .failed

/-- Whether a path leads to a directory: `Path::is_dir`. -/
def leadsToDir (d : Disk) (base : Loc) (cs : List Comp) : Bool :=
  match d.walk base cs with
  | none => false
  | some l => d.isDir l

/-- `create_dir_all` with the components in reverse order, the last first. -/
def createDirAllRev (d : Disk) (base : Loc) : List Comp → Disk × Bool
  | [] => (d, true)
  | c :: parent =>
    match d.mkdir base (c :: parent).reverse with
    | .done d' => (d', true)
    | .failed => (d, d.leadsToDir base (c :: parent).reverse)
    | .notFound =>
      let r := d.createDirAllRev base parent
      if r.2 then
        match r.1.mkdir base (c :: parent).reverse with
        | .done d' => (d', true)
        | _ => (r.1, r.1.leadsToDir base (c :: parent).reverse)
      else r

/-- `create_dir_all`: the new file system and whether it succeeded. It tries the whole path first, and the parents
only if the system says that something is missing. -/
def createDirAll (d : Disk) (base : Loc) (cs : List Comp) : Disk × Bool := d.createDirAllRev base cs.reverse

/-- `File::create`: the new file system with an empty file, and where it is; `none` if the system reports an error. A
path with a zero byte, with a slash at the end, or ending in `.` or `..` cannot name a file. -/
def createFile (d : Disk) (path : Bytes) : Option (Disk × Loc) :=
  if 0 ∈ path ∨ path.getLast? = some 0x2f then none
  else
    match (rawComps path).getLast? with
    | some (.name _) =>
      match d.walk (d.start path) (rawComps path) with
      | none => none
      | some l => if !d.isDir l && d.may l then some (d.set l (.file []), l) else none
    | _ => none

end Disk

/-- `TsFileWriter::new`, `writer/tsfile_writer.rs:278-295`: the file system afterwards and the result. `room` is the
number of bytes that the new file can take. The result of `create_dir_all` is not used. A failed `File::create` is a
panic (`expect`, line 292). -/
def Writer.create (env : Env) (schema : Schema) (d : Disk) (room : Option Nat) (filename : Bytes) : Disk × Res Writer :=
  match pathParent filename with
  | none => (d, .err (.error none))
  | some folder =>
    let d1 := (d.createDirAll (d.start filename) folder).1
    match d1.createFile filename with
    | none => (d1, .panic)
    | some (d2, l) =>
      let out : Sink := { bytes := [], cap := room }
      match Writer.new env schema out with
      | .error e => (d2.set l (.file (out.write (magic ++ [3])).bytes), .err e)
      | .ok w => (d2.set l (.file w.io.out.bytes), .ok w)

/-- `PartialEq for TsFileError`, `writer/errors.rs:16-36`. -/
def TsFileError.eq (self other : TsFileError) : Bool :=
  match self with
  | .error a => match other with
    | .error b => a = b
    | _ => false
  | .ioError => false
  | .writeError => match other with
    | .writeError => true
    | _ => false
  | .outOfOrderData => match other with
    | .outOfOrderData => true
    | _ => false
  | .illegalState a => match other with
    | .illegalState b => a = b
    | _ => false
  | .compression => match other with
    | .compression => true
    | _ => false
  | .wrongTypeForSeries => match other with
    | .wrongTypeForSeries => true
    | _ => false
  | .encoding => match other with
    | .encoding => true
    | _ => false

end TsFile
