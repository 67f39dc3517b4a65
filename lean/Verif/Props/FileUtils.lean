import Verif.Lemmas.FileUtils
import Verif.Lemmas.Lookup

/-! # Reading files and walking directories (C33, C34) -/
namespace Bant
namespace Props
open FileUtils FileSpec Headers

/-! ## C34: reading -/

/-- **C34**, full statement: what is returned is the content of the file. -/
def C34_statement : Prop :=
  ∀ (file : Option OpenFile) (calls : List ReadCall) (memory : Nat → Str) (s : Str),
    (∀ n, (memory n).length = n) → readFileToString file calls memory = some s →
    ∃ f, file = some f ∧ s = f.content

/-- Files in `/proc` have size 0: their content is taken to be empty. -/
theorem C34_counterexample : ¬ C34_statement := by
  intro h
  obtain ⟨f, h1, h2⟩ := h (some ⟨0, c!"content"⟩) [] (fun n => List.replicate n 'x') [] (by simp) rfl
  cases h1
  cases h2

/-- **C34** for files whose size is the length of their content: whatever the calls of `read` do,
the result is the content or nothing; and it is the content if all of them transfer something.
There is no result for a file that cannot be opened. -/
theorem C34_read_partial (f : OpenFile) (calls : List ReadCall) (memory : Nat → Str)
    (hm : ∀ n, (memory n).length = n) (hsize : f.size = f.content.length) :
    (∀ s, readFileToString (some f) calls memory = some s → s = f.content) ∧
    (f.size ≤ calls.length → (∀ c ∈ calls, ∃ n, c = .upTo n ∧ 0 < n) →
      readFileToString (some f) calls memory = some f.content) ∧
    readFileToString none calls memory = none := by
  have key : ∀ s, readFileToString (some f) calls memory = some s → s = f.content := by
    intro s hs
    unfold readFileToString at hs
    simp only [] at hs
    obtain ⟨got, h1, h2, h3, h4⟩ := readLoop_spec f.content calls (memory f.size) 0 f.size
      (by rw [hm]; omega) (by omega) (by simp)
    generalize readLoop f.content calls (memory f.size) 0 f.size = r at *
    split at hs
    · next hz =>
      cases hs
      have hgot : got = f.content.length := by rw [hm] at h2; omega
      rw [hm] at h1
      rw [List.take_of_length_le (by omega), List.take_of_length_le (by omega)] at h4
      exact h4
    · cases hs
  refine ⟨key, ?_, rfl⟩
  intro hc hok
  have hz := readLoop_all f.content calls (memory f.size) 0 f.size (by omega) hc hok
  have : readFileToString (some f) calls memory =
      some (readLoop f.content calls (memory f.size) 0 f.size).1 := by
    unfold readFileToString; simp [hz]
  rw [this, key _ this]

/-- Short reads; an error; a file that has become shorter. -/
example : readFileToString (some ⟨5, c!"hello"⟩) [.upTo 2, .upTo 1, .upTo 7] (fun n => List.replicate n 'x') =
    some c!"hello" := by decide
example : readFileToString (some ⟨5, c!"hello"⟩) [.upTo 2, .error] (fun n => List.replicate n 'x') = none := by
  decide
example : readFileToString (some ⟨5, c!"hel"⟩) [.upTo 2, .upTo 2, .upTo 2] (fun n => List.replicate n 'x') =
    none := by decide

/-! ## C33: walking -/

/-- Some directory. -/
def listing (dirs : List (Str × List Dirent)) (links : List (Str × Nat)) : Tree :=
  ⟨fun p => lookup dirs p, fun p => (lookup links p).map fun i => (i, true)⟩

/-- **C33**, full statement: in trees without links, whose inodes are usable, the walk ends, and
reports exactly what is wanted, once. -/
def C33_statement : Prop :=
  ∀ (t : Tree) (wantDir wantFile : Str → Bool) (start : Str) (paths : List Str), Named t →
    (∀ d, Entered t wantDir start d → d ∈ paths) →
    (∀ d es, t.list d = some es → ∀ e ∈ es, (e.type = .dir ∨ e.type = .other) ∧ Valid e.inode) →
    ∃ n out, collectFilesRecursive t start wantDir wantFile n = some out ∧ out.Nodup ∧
      ∀ p, p ∈ out ↔ Wanted t wantDir wantFile start p

/-- Directories of two file systems (one is mounted below the other) may have the same inode. -/
def mounted : Tree := listing
  [(c!"r", [⟨c!"a", 7, .dir⟩, ⟨c!"b", 8, .dir⟩]), (c!"r/a", [⟨c!"x", 3, .other⟩]),
   (c!"r/b", [⟨c!"c", 7, .dir⟩]), (c!"r/b/c", [⟨c!"y", 4, .other⟩])] []

theorem C33_counterexample : ¬ C33_statement := by
  intro h
  have hlist : ∀ d es, mounted.list d = some es → (d, es) ∈
      [(c!"r", [⟨c!"a", 7, .dir⟩, ⟨c!"b", 8, .dir⟩]), (c!"r/a", [⟨c!"x", 3, .other⟩]),
       (c!"r/b", [⟨c!"c", 7, .dir⟩]), (c!"r/b/c", [(⟨c!"y", 4, .other⟩ : Dirent)])] :=
    fun d es hl => lookup_mem hl
  have hN : Named mounted := by
    intro d es hl
    have := hlist d es hl
    simp only [List.mem_cons, Prod.mk.injEq, List.not_mem_nil, or_false] at this
    rcases this with ⟨rfl, rfl⟩ | ⟨rfl, rfl⟩ | ⟨rfl, rfl⟩ | ⟨rfl, rfl⟩ <;> decide
  have hE : ∀ d, Entered mounted (fun _ => true) c!"r" d → d ∈ [c!"r", c!"r/a", c!"r/b", c!"r/b/c"] := by
    intro d hd
    induction hd with
    | start => decide
    | sub _ hin hdir _ ih =>
      obtain ⟨⟨es, hl, he⟩, _, rfl⟩ := in_iff.1 hin
      have := hlist _ es hl
      simp only [List.mem_cons, Prod.mk.injEq, List.not_mem_nil, or_false] at this
      rcases this with ⟨rfl, rfl⟩ | ⟨rfl, rfl⟩ | ⟨rfl, rfl⟩ | ⟨rfl, rfl⟩
      · simp only [List.mem_cons, List.not_mem_nil, or_false] at he
        rcases he with rfl | rfl <;> decide
      · simp only [List.mem_cons, List.not_mem_nil, or_false] at he
        subst he; exact absurd (isDir_iff.1 hdir) (by simp [directoryInode])
      · simp only [List.mem_cons, List.not_mem_nil, or_false] at he
        subst he; decide
      · simp only [List.mem_cons, List.not_mem_nil, or_false] at he
        subst he; exact absurd (isDir_iff.1 hdir) (by simp [directoryInode])
  obtain ⟨n, out, hw, _, hout⟩ := h mounted (fun _ => true) (fun _ => true) c!"r" _ hN hE (by
    intro d es hl e he
    have := hlist d es hl
    simp only [List.mem_cons, Prod.mk.injEq, List.not_mem_nil, or_false] at this
    rcases this with ⟨rfl, rfl⟩ | ⟨rfl, rfl⟩ | ⟨rfl, rfl⟩ | ⟨rfl, rfl⟩ <;>
      (simp only [List.mem_cons, List.not_mem_nil, or_false] at he
       rcases he with rfl | rfl <;> exact ⟨by decide, valid_iff.2 (by decide)⟩))
  have h4 : collectFilesRecursive mounted c!"r" (fun _ => true) (fun _ => true) 4 = some [c!"r/a/x"] := by
    decide
  have e1 := walk_more n (n + 4) _ _ hw (by omega)
  have e2 := walk_more 4 (n + 4) _ _ h4 (by omega)
  rw [e1] at e2
  cases e2
  have hin : In mounted c!"r" ⟨c!"b", 8, .dir⟩ c!"r/b" := in_iff.2 ⟨⟨_, rfl, by simp⟩, by decide, rfl⟩
  have hin2 : In mounted c!"r/b" ⟨c!"c", 7, .dir⟩ c!"r/b/c" := in_iff.2 ⟨⟨_, rfl, by simp⟩, by decide, rfl⟩
  have := (hout c!"r/b/c/y").2 ⟨c!"r/b/c", ⟨c!"y", 4, .other⟩,
    .sub (.sub .start hin (.plain rfl) rfl) hin2 (.plain rfl) rfl,
    in_iff.2 ⟨⟨_, rfl, by simp⟩, by decide, rfl⟩, by
      rintro ⟨i, hi⟩; rw [isDir_iff] at hi; simp [directoryInode] at hi, rfl⟩
  revert this
  decide

/-- **C33**, in any file system: only wanted files are reported, that are in directories that are
wanted; never a directory. Each path is reported once. -/
theorem C33_sound (t : Tree) (wantDir wantFile : Str → Bool) (start : Str) (n : Nat) (out : List Str)
    (h : collectFilesRecursive t start wantDir wantFile n = some out) :
    (∀ p ∈ out, Wanted t wantDir wantFile start p) ∧ (Named t → out.Nodup) := by
  constructor
  · obtain ⟨st, h1, _, h3⟩ := walk_induct (SoundWalk t wantDir wantFile start)
      (fun _ _ _ hw hs => sound_step hw hs) n _
      ⟨by intro d hd; simp only [List.mem_singleton] at hd; subst hd; exact .start, by simp⟩ out h
    rw [← h3]; exact h1.out
  · intro hn
    obtain ⟨st, ⟨D, h1⟩, _, h3⟩ := walk_induct (fun st => ∃ D, OnceWalk start D (fun _ _ => True) st)
      (fun _ _ _ hw ⟨D, hs⟩ => ⟨_, once_step hn hw hs⟩) n _ ⟨[], once_init start⟩ out h
    rw [← h3]; exact h1.nodup

/-- **C33**, termination, also if there are cycles by links: there is a result, after as many
iterations as there are inodes of directories at most, and one. -/
theorem C33_terminates_partial (t : Tree) (wantDir wantFile : Str → Bool) (start : Str) (inodes : List Nat)
    (hv : ∀ d e path i, Entered t wantDir start d → In t d e path → IsDir t path e i →
      Valid i ∧ i ∈ inodes) :
    ∃ out, ∀ n, inodes.length + 1 ≤ n → collectFilesRecursive t start wantDir wantFile n = some out := by
  obtain ⟨out, h⟩ := walk_ends (t := t) (wantDir := wantDir) (wantFile := wantFile)
    (fun m st => SoundWalk t wantDir wantFile start st ∧ st.work.length + unseen inodes st ≤ m)
    (fun m dir rest st hw hs => by
      have := directory_measure (wantDir := wantDir) (wantFile := wantFile) (dir := dir) (inodes := inodes)
        (fun e path i => hv dir e path i (hs.1.work dir (by simp [hw]))) { st with work := rest }
      have e1 : ({ st with work := rest } : Walk).work.length + 1 = st.work.length := by simp [hw]
      have e2 : unseen inodes { st with work := rest } = unseen inodes st := rfl
      rw [e2] at this
      have := hs.2
      exact ⟨m - 1, by omega, sound_step hw hs.1, by omega⟩)
    (inodes.length + 1) { work := [start] }
    ⟨⟨by intro d hd; simp only [List.mem_singleton] at hd; subst hd; exact .start, by simp⟩, by
      have : unseen inodes { work := [start] } ≤ inodes.length := List.length_filter_le _ _
      simp only [List.length_singleton]; omega⟩
  exact ⟨out, fun n hn => walk_more _ n _ _ h hn⟩

/-- **C33**, trees without links: if there are finitely many directories, and inodes that look
usable tell them apart, the walk ends, and it reports exactly what is wanted, once. -/
theorem C33_tree_partial (t : Tree) (wantDir wantFile : Str → Bool) (start : Str) (paths : List Str)
    (hn : Named t) (hfin : ∀ d, Entered t wantDir start d → d ∈ paths)
    (hdist : Distinct t wantDir start) :
    ∃ out, (∀ n, paths.length ≤ n → collectFilesRecursive t start wantDir wantFile n = some out) ∧
      out.Nodup ∧ ∀ p, p ∈ out ↔ Wanted t wantDir wantFile start p := by
  have init : SoundWalk t wantDir wantFile start { work := [start] } :=
    ⟨by intro d hd; simp only [List.mem_singleton] at hd; subst hd; exact .start, by simp⟩
  obtain ⟨out, h⟩ := walk_ends (t := t) (wantDir := wantDir) (wantFile := wantFile)
    (fun m st => ∃ D, OnceWalk start D (fun _ _ => True) st ∧ SoundWalk t wantDir wantFile start st ∧
      (∀ d ∈ D, Entered t wantDir start d) ∧ D.length + m = paths.length)
    (fun m dir rest st hw ⟨D, h1, h2, h3, h4⟩ => by
      have hdir := h2.work dir (by simp [hw])
      have hlen : (D ++ st.work).length ≤ paths.length := by
        refine List.Nodup.length_le_of_subset
          (List.Pairwise.of_map (stripBack '/') (fun a b h e => h (congrArg _ e)) h1.dirs) ?_
        intro d hd
        rcases List.mem_append.1 hd with hd | hd
        · exact hfin d (h3 d hd)
        · exact hfin d (h2.work d hd)
      rw [hw] at hlen
      simp only [List.length_append, List.length_cons] at hlen
      refine ⟨m - 1, by omega, D ++ [dir], once_step hn hw h1, sound_step hw h2, ?_, ?_⟩
      · intro d hd
        rcases List.mem_append.1 hd with hd | hd
        · exact h3 d hd
        · simp only [List.mem_singleton] at hd; subst hd; exact hdir
      · simp only [List.length_append, List.length_singleton]; omega)
    paths.length { work := [start] } ⟨[], once_init start, init, by simp, by simp⟩
  refine ⟨out, fun n hn => walk_more _ n _ _ h hn, (C33_sound t wantDir wantFile start _ out h).2 hn, ?_⟩
  intro p
  refine ⟨(C33_sound t wantDir wantFile start _ out h).1 p, ?_⟩
  obtain ⟨st, ⟨D, H, hall, hH⟩, hw, hout⟩ := walk_induct
    (fun st => ∃ D H, AllWalk t wantDir wantFile start D H st ∧
      ∀ d ∈ D, ∀ es, t.list d = some es → ∀ e ∈ es, (d, e) ∈ H)
    (fun dir rest st hw ⟨D, H, h1, h2⟩ => ⟨D ++ [dir], _, all_step hdist hw h1, by
      intro d hd es hl e he
      rcases List.mem_append.1 hd with hd | hd
      · exact List.mem_append.2 (.inl (h2 d hd es hl e he))
      · simp only [List.mem_singleton] at hd
        subst hd
        rw [hl]
        exact List.mem_append.2 (.inr (List.mem_map.2 ⟨e, he, rfl⟩))⟩)
    _ _ ⟨[], [], ⟨init, by simp, by simp, by simp, by simp, by simp, by simp⟩, by simp⟩ out h
  have hD : ∀ d, Entered t wantDir start d → d ∈ D := by
    intro d hd
    induction hd with
    | start => have := hall.start; rw [hw] at this; simpa using this
    | sub _ hin hdir hwant ih =>
      obtain ⟨⟨es, hl, he⟩, hdots, rfl⟩ := in_iff.1 hin
      have := hall.dirs _ _ _ (hH _ ih es hl _ he) hdots hdir hwant
      rw [hw] at this; simpa using this
  rintro ⟨d, e, hd, hin, hno, hwant⟩
  obtain ⟨⟨es, hl, he⟩, hdots, rfl⟩ := in_iff.1 hin
  rw [← hout]
  exact hall.files d e (hH d (hD d hd) es hl e he) hdots hno hwant

/-! ### Examples -/

/-- A directory, a file, a hidden directory, and a link back to the begin. -/
def looping : Tree := listing
  [(c!"r", [⟨c!".", 1, .dir⟩, ⟨c!"..", 9, .dir⟩, ⟨c!"a", 2, .dir⟩, ⟨c!"x", 3, .other⟩, ⟨c!".h", 4, .dir⟩]),
   (c!"r/a", [⟨c!"loop", 5, .link⟩, ⟨c!"y", 6, .other⟩, ⟨c!"l", 8, .link⟩]),
   (c!"r/.h", [⟨c!"z", 7, .other⟩]),
   (c!"r/a/loop", [⟨c!"a", 2, .dir⟩, ⟨c!"x", 3, .other⟩])]
  [(c!"r/a/loop", 1)]

/-- The begin is not known to have been seen: there, files are found twice. -/
example : collectFilesRecursive looping c!"r" (fun p => p ≠ c!"r/.h") (fun _ => true) 4 =
    some [c!"r/x", c!"r/a/y", c!"r/a/l", c!"r/a/loop/x"] := by decide

/-- A tree in which inodes tell directories apart. -/
example : Distinct (listing [(c!"r", [⟨c!"a", 2, .dir⟩, ⟨c!"x", 3, .other⟩]), (c!"r/a", [⟨c!"y", 6, .other⟩])] [])
    (fun _ => true) c!"r" := by
  have only : ∀ d e p i, In (listing [(c!"r", [⟨c!"a", 2, .dir⟩, ⟨c!"x", 3, .other⟩]),
      (c!"r/a", [⟨c!"y", 6, .other⟩])] []) d e p → IsDir (listing [(c!"r", [⟨c!"a", 2, .dir⟩,
      ⟨c!"x", 3, .other⟩]), (c!"r/a", [⟨c!"y", 6, .other⟩])] []) p e i → p = c!"r/a" := by
    intro d e p i hin hdir
    obtain ⟨⟨es, hl, he⟩, _, rfl⟩ := in_iff.1 hin
    have := lookup_mem hl
    simp only [List.mem_cons, Prod.mk.injEq, List.not_mem_nil, or_false] at this
    rcases this with ⟨rfl, rfl⟩ | ⟨rfl, rfl⟩
    · simp only [List.mem_cons, List.not_mem_nil, or_false] at he
      rcases he with rfl | rfl
      · rfl
      · exact absurd (isDir_iff.1 hdir) (by simp [directoryInode])
    · simp only [List.mem_cons, List.not_mem_nil, or_false] at he
      subst he; exact absurd (isDir_iff.1 hdir) (by simp [directoryInode])
  intro d₁ e₁ p₁ d₂ e₂ p₂ i _ h1 h2 _ h3 h4 _
  rw [only _ _ _ _ h1 h2, only _ _ _ _ h3 h4]

/-- What is not wanted under one name is not looked at under another. -/
example : collectFilesRecursive
    (listing [(c!"r", [⟨c!"link", 5, .link⟩, ⟨c!"real", 2, .dir⟩]), (c!"r/real", [⟨c!"x", 3, .other⟩])]
      [(c!"r/link", 2)]) c!"r" (fun p => p ≠ c!"r/link") (fun _ => true) 5 = some [] := by decide

/-- A file system without inodes, with a link to the directory it is in. -/
def noInodes : Tree := ⟨fun _ => some [⟨c!"l", 0, .dir⟩], fun _ => none⟩

/-- Without inodes, cycles are not noticed. -/
theorem C33_no_inodes_counterexample (n : Nat) :
    collectFilesRecursive noInodes c!"r" (fun _ => true) (fun _ => true) n = none := by
  have key : ∀ n (st : Walk), st.work ≠ [] → walk noInodes (fun _ => true) (fun _ => true) n st = none := by
    intro n
    induction n with
    | zero => intro st h; rw [walk, if_neg h]
    | succ n ih =>
      intro st h
      rw [walk]
      cases hw : st.work with
      | nil => exact absurd hw h
      | cons d rest =>
        simp only []
        apply ih
        simp [directory, noInodes, entry, directoryInode, looksLikeValidInode]
  exact key n _ (by simp)

end Props
end Bant
