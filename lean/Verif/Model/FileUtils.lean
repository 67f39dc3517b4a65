import Verif.Model.Workspace

/-!
Files and directories: bant/util/file-utils.cc.

The operating system is a parameter: which files there are, and what the calls return. What is
remembered for the pre-warm cache is in `Model/Prewarm`.
-/
namespace Bant
namespace FileUtils

/-! ### Reading -/

/-- What the operating system tells about an opened file: the size according to `fstat`, and
what can be read from it. -/
structure OpenFile where
  size : Nat
  content : Str

/-- What a call of `read` does: fail, or transfer some bytes (at most as many as asked for, and as
there are; 0 is the end of the file). -/
inductive ReadCall
  | error
  | upTo (n : Nat)

/-- Write to the buffer at an offset. -/
def overwrite (buf : Str) (offset : Nat) (chunk : Str) : Str :=
  buf.take offset ++ chunk ++ buf.drop (offset + chunk.length)

/-- bant/util/file-utils.cc:141-147: the loop. `offset` is `buf` relative to its begin (and the
offset in the file), `calls` what the calls of `read` do. Result: the buffer and `bytes_left`. -/
def readLoop (content : Str) : (calls : List ReadCall) → (buf : Str) → (offset left : Nat) → Str × Nat
  | [], buf, _, left => (buf, left)
  | call :: calls, buf, offset, left =>
    if left = 0 then (buf, left)
    else
      match call with
      | .error => (buf, left)
      | .upTo n =>
        let chunk := (content.drop offset).take (min n left)
        if chunk.length = 0 then (buf, left)
        else readLoop content calls (overwrite buf offset chunk) (offset + chunk.length)
          (left - chunk.length)

/-- bant/util/file-utils.cc:125-154, `ReadFileToString`. `file` is `none` if it cannot be opened.
`memory` is the uninitialised buffer, of the size of the file. -/
def readFileToString (file : Option OpenFile) (calls : List ReadCall) (memory : Nat → Str) : Option Str :=
  match file with
  | none => none
  | some f =>
    let r := readLoop f.content calls (memory f.size) 0 f.size
    if r.2 = 0 then some r.1 else none

/-! ### Walking -/

/-- `d_type` of a directory entry; `other` is everything that is neither of the others. -/
inductive DirentType
  | dir
  | link
  | unknown
  | other
deriving DecidableEq, Repr

/-- A directory entry. -/
structure Dirent where
  name : Str
  inode : Nat
  type : DirentType
deriving DecidableEq, Repr

/-- Directories as the operating system shows them: what is listed in them, and inode and whether
it is a directory for what is at a path. `none`: the call fails. -/
structure Tree where
  list : Str → Option (List Dirent)
  stat : Str → Option (Nat × Bool)

/-- bant/util/file-utils.cc:161-164, `LooksLikeValidInode`. -/
def looksLikeValidInode (inode : Nat) : Bool := inode ≠ 0 && inode % 2 ^ 32 ≠ 2 ^ 32 - 1

/-- bant/util/file-utils.cc:192-199 with 104-109: if this is a directory, its inode. -/
def directoryInode (t : Tree) (path : Str) (e : Dirent) : Option Nat :=
  if e.type = .dir then some e.inode
  else if e.type = .unknown ∨ e.type = .link then
    match t.stat path with
    | some (inode, true) => some inode
    | _ => none
  else none

/-- The variables of the walk. -/
structure Walk where
  work : List Str
  seen : List Nat := []
  out : List Str := []

/-- bant/util/file-utils.cc:184-212: one entry of a directory. -/
def entry (t : Tree) (wantDir wantFile : Str → Bool) (dir : Str) (st : Walk) (e : Dirent) : Walk :=
  if e.name = c!"." ∨ e.name = c!".." then st
  else
    let path := Workspace.join dir e.name
    match directoryInode t path e with
    | some inode =>
      if looksLikeValidInode inode && inode ∈ st.seen then st
      else
        { st with
          seen := if looksLikeValidInode inode then inode :: st.seen else st.seen
          work := if wantDir path then st.work ++ [path] else st.work }
    | none => if wantFile path then { st with out := st.out ++ [path] } else st

/-- bant/util/file-utils.cc:175-213: one directory. -/
def directory (t : Tree) (wantDir wantFile : Str → Bool) (dir : Str) (st : Walk) : Walk :=
  match t.list dir with
  | none => st
  | some es => es.foldl (entry t wantDir wantFile dir) st

/-- bant/util/file-utils.cc:174-214: the loop. `none`: it is not finished after `n` iterations. -/
def walk (t : Tree) (wantDir wantFile : Str → Bool) : (n : Nat) → Walk → Option (List Str)
  | 0, st => if st.work = [] then some st.out else none
  | n + 1, st =>
    match st.work with
    | [] => some st.out
    | dir :: rest => walk t wantDir wantFile n (directory t wantDir wantFile dir { st with work := rest })

/-- bant/util/file-utils.cc:166-216, `CollectFilesRecursive`. -/
def collectFilesRecursive (t : Tree) (dir : Str) (wantDir wantFile : Str → Bool) (n : Nat) :
    Option (List Str) :=
  walk t wantDir wantFile n { work := [dir] }

end FileUtils
end Bant
