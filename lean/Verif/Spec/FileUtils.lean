import Verif.Model.FileUtils

/-! Specification of the file walk (C33). -/
namespace Bant
namespace FileSpec
open FileUtils

/-- `path` is what is called `e` in the directory `dir`. -/
structure In (t : Tree) (dir : Str) (e : Dirent) (path : Str) : Prop where
  listed : ∃ es, t.list dir = some es ∧ e ∈ es
  proper : e.name ≠ c!"." ∧ e.name ≠ c!".."
  path : ∃ d n, dir = d ++ List.replicate n '/' ∧ d.getLast? ≠ some '/' ∧ path = d ++ c!"/" ++ e.name

/-- It is a directory, or a link to one, with that inode. -/
inductive IsDir (t : Tree) (path : Str) (e : Dirent) : Nat → Prop
  | plain : e.type = .dir → IsDir t path e e.inode
  | link {i} : e.type = .link ∨ e.type = .unknown → t.stat path = some (i, true) → IsDir t path e i

/-- The directories that are to be looked into. -/
inductive Entered (t : Tree) (wantDir : Str → Bool) (start : Str) : Str → Prop
  | start : Entered t wantDir start start
  | sub {dir e path i} : Entered t wantDir start dir → In t dir e path → IsDir t path e i →
      wantDir path = true → Entered t wantDir start path

/-- The files that are to be reported. -/
def Wanted (t : Tree) (wantDir wantFile : Str → Bool) (start : Str) (path : Str) : Prop :=
  ∃ dir e, Entered t wantDir start dir ∧ In t dir e path ∧ (¬ ∃ i, IsDir t path e i) ∧ wantFile path = true

/-- Names in a directory are different, and they are not paths. -/
def Named (t : Tree) : Prop :=
  ∀ dir es, t.list dir = some es → (es.map (·.name)).Nodup ∧ ∀ e ∈ es, e.name ≠ [] ∧ '/' ∉ e.name

/-- An inode that is usable as such. -/
def Valid (i : Nat) : Prop := i ≠ 0 ∧ ∀ k, i ≠ k * 4294967296 + 4294967295

/-- Directories that look the same by inode are the same. -/
def Distinct (t : Tree) (wantDir : Str → Bool) (start : Str) : Prop :=
  ∀ d₁ e₁ p₁ d₂ e₂ p₂ i, Entered t wantDir start d₁ → In t d₁ e₁ p₁ → IsDir t p₁ e₁ i →
    Entered t wantDir start d₂ → In t d₂ e₂ p₂ → IsDir t p₂ e₂ i → Valid i → p₁ = p₂

end FileSpec
end Bant
