import Verif.Model.FileUtils

/-!
`FilesystemPath`: bant/util/file-utils.h 35-71, file-utils.cc 41-102. Strings that are passed to the
operating system have no NUL.
-/
namespace Bant
namespace FsPath
open FileUtils

/-- The members; what is memoized is `none` if it is not known. -/
structure Path where
  path : Str
  offset : Option Nat := none
  canRead : Option Bool := none
  isDir : Option Bool := none
  isLink : Option Bool := none
deriving DecidableEq, Repr

/-- What the operating system answers: `access(R_OK)`; `stat`: whether it is a directory; `lstat`:
whether it is a symbolic link. `none`: the call fails. -/
structure System where
  access : Str → Bool
  stat : Str → Option Bool
  lstat : Str → Option Bool

/-- file-utils.h:39. -/
def ofString (path : Str) : Path := { path }

/-- file-utils.cc:41-47. -/
def ofParts (upTo filename : Str) : Path :=
  { path := stripBack '/' upTo ++ '/' :: filename, offset := some ((stripBack '/' upTo).length + 1) }

/-- file-utils.cc:49-64. -/
def ofDirent (upTo : Str) (e : Dirent) : Path :=
  let p := ofParts upTo e.name
  match e.type with
  | .link => { p with isLink := some true, isDir := none }
  | .dir => { p with isDir := some true, isLink := some false }
  | _ => p

/-- file-utils.cc:69-70: `find_last_of('/')`, and one more; 0 if there is none. -/
def lastStart (path : Str) : Nat :=
  match splitLast '/' path with
  | some (a, _) => a.length + 1
  | none => 0

/-- file-utils.cc:66-74, `filename`. -/
def filename (p : Path) : Path × Str :=
  match p.offset with
  | some o => (p, p.path.drop o)
  | none => ({ p with offset := some (lastStart p.path) }, p.path.drop (lastStart p.path))

/-- file-utils.cc:76-82, `can_read`. -/
def canRead (os : System) (p : Path) : Path × Bool :=
  match p.canRead with
  | some b => (p, b)
  | none => ({ p with canRead := some (os.access p.path) }, os.access p.path)

/-- file-utils.cc:84-91, `is_directory`. -/
def isDirectory (os : System) (p : Path) : Path × Bool :=
  match p.isDir with
  | some b => (p, b)
  | none =>
    match os.stat p.path with
    | none => (p, false)
    | some b => ({ p with isDir := some b }, b)

/-- file-utils.cc:93-101, `is_symlink`. -/
def isSymlink (os : System) (p : Path) : Path × Bool :=
  match p.isLink with
  | some b => (p, b)
  | none =>
    match os.lstat p.path with
    | none => (p, false)
    | some b => ({ p with isLink := some b }, b)

/-- What can be asked. -/
inductive Query
  | path
  | filename
  | canRead
  | isDirectory
  | isSymlink
deriving DecidableEq, Repr

inductive Answer
  | text (s : Str)
  | bool (b : Bool)
deriving DecidableEq, Repr

def ask (os : System) (p : Path) : Query → Path × Answer
  | .path => (p, .text p.path)
  | .filename => ((filename p).1, .text (filename p).2)
  | .canRead => ((canRead os p).1, .bool (canRead os p).2)
  | .isDirectory => ((isDirectory os p).1, .bool (isDirectory os p).2)
  | .isSymlink => ((isSymlink os p).1, .bool (isSymlink os p).2)

/-- Many questions to the same object. -/
def askAll (os : System) (p : Path) : List Query → List Answer
  | [] => []
  | q :: qs => (ask os p q).2 :: askAll os (ask os p q).1 qs

end FsPath
end Bant
