import Verif.Model.ThreadPool

/-!
The log of accesses to the file system: bant/util/filesystem-prewarm-cache.cc 97-189.
The pool that does the accesses is in `Model/ThreadPool`. Logs are written in full (no crash, no
full disk).
-/
namespace Bant
namespace Prewarm

/-- An access: a file (`file`), or else a directory. -/
structure Access where
  file : Bool
  path : Str
deriving DecidableEq, Repr

/-- The members of `FilesystemPrewarmCache`: what has been written (`none`: no writer), and which
paths have been seen. -/
structure Cache where
  writer : Option Str := none
  seen : List Str := []
deriving DecidableEq, Repr

/-- filesystem-prewarm-cache.cc:111-115, `WritePrefixed`. -/
def Cache.writePrefixed (c : Cache) (type : Char) (f : Str) : Cache :=
  match c.writer with
  | none => c
  | some text => if f ∈ c.seen then c else ⟨some (text ++ type :: f ++ ['\n']), f :: c.seen⟩

/-- filesystem-prewarm-cache.cc:107-108, `FileWasAccessed` and `DirWasAccessed`. -/
def Cache.access (c : Cache) (a : Access) : Cache := c.writePrefixed (if a.file then 'F' else 'D') a.path

/-- All lines that `std::getline` reads; what follows the last newline is a line if it is not
empty. -/
def getlines : Str → List Str
  | [] => []
  | c :: cs =>
    if c = '\n' then [] :: getlines cs
    else match getlines cs with
      | [] => [[c]]
      | l :: ls => (c :: l) :: ls

/-- A string as the operating system sees it: up to the first NUL. -/
def cString (s : Str) : Str := s.takeWhile (· ≠ '\x00')

/-- filesystem-prewarm-cache.cc:128-143: the job for a line, as the access that the operating system
is asked for. -/
def replayLine (line : Str) : Option Access :=
  match line with
  | 'F' :: p :: path => some ⟨true, cString (p :: path)⟩
  | 'D' :: p :: path => some ⟨false, cString (p :: path)⟩
  | _ => none

/-- filesystem-prewarm-cache.cc:122-154, `InitCacheFile`. `log`: the content of the file, if it can
be read; `writable`: it can be opened for writing. Result: the jobs that are handed to the pool, before
the one that stops it, and the new state. -/
def init (log : Option Str) (writable : Bool) : List Access × Cache :=
  ((match log with
    | some text => (getlines text).filterMap replayLine
    | none => []),
   { writer := if writable then some [] else none })

/-- A run of the program: what is replayed, and the log that is there afterwards. -/
def session (log : Option Str) (writable : Bool) (accesses : List Access) : List Access × Option Str :=
  let r := init log writable
  (r.1, match (accesses.foldl Cache.access r.2).writer with
    | some text => some text
    | none => log)

/-! ### The name of the log -/

/-- filesystem-prewarm-cache.cc:171-174. -/
def ignoredFlags : List Str := [c!"-v", c!"-q", c!"-vq", c!"-qv", c!"-k"]

/-- filesystem-prewarm-cache.cc:176-177. -/
def ignoredOptions : List Str := [c!"-C", c!"-o", c!"-f"]

/-- filesystem-prewarm-cache.cc:167-183: the loop over the arguments. `hash` is
`std::hash<std::string>`. -/
def hashArgs (hash : Str → BitVec 64) : List Str → BitVec 64 → BitVec 64
  | [], h => h
  | [arg], h =>
    if arg ∈ ignoredFlags then h
    else if arg ∈ ignoredOptions then h
    else h ^^^ hash arg
  | arg :: next :: args, h =>
    if arg ∈ ignoredFlags then hashArgs hash (next :: args) h
    else if arg ∈ ignoredOptions then hashArgs hash args h
    else hashArgs hash (next :: args) (h ^^^ hash arg)

/-- filesystem-prewarm-cache.cc:185-186, the number in the name. -/
def logNumber (hash : Str → BitVec 64) (cwd : Str) (args : List Str) : BitVec 32 :=
  (hashArgs hash args (hash cwd)).setWidth 32

end Prewarm
end Bant
