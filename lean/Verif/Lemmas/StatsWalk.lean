import Verif.Lemmas.StatsRun
import Verif.Lemmas.FileUtils

/-! Helper lemmas: how many files and directories are looked at. -/
namespace Bant
namespace Stats
open FileUtils FileSpec

/-- Neither of the two special entries. -/
def ordinary (e : Dirent) : Bool := e.name ≠ c!"." && e.name ≠ c!".."

theorem ordinary_iff {e : Dirent} : ordinary e = true ↔ e.name ≠ c!"." ∧ e.name ≠ c!".." := by
  simp [ordinary]

/-- Some of the entries of a directory are looked at; among them are the files that are found. -/
theorem lookedIn_list (t : Tree) (wantDir wantFile : Str → Bool) (dir : Str) (es : List Dirent) (st : Walk) :
    ∃ ls : List Dirent, ls.Sublist es ∧ (∀ e ∈ ls, ordinary e = true) ∧
      lookedIn t wantDir wantFile dir st es = ls.length ∧
      ∀ p ∈ (es.foldl (entry t wantDir wantFile dir) st).out, p ∈ st.out ∨ p ∈ ls.map fun e => Workspace.join dir e.name := by
  induction es generalizing st with
  | nil => exact ⟨[], .slnil, by simp, rfl, fun p hp => .inl hp⟩
  | cons e es ih =>
    obtain ⟨ls, h1, h2, h3, h4⟩ := ih (entry t wantDir wantFile dir st e)
    rw [lookedIn, List.foldl_cons, h3]
    have hdid := entry_did t wantDir wantFile dir st e
    generalize hst : entry t wantDir wantFile dir st e = st2 at hdid h4 ⊢
    have skip : looked t dir st e = 0 → (∀ p ∈ st2.out, p ∈ st.out) →
        ∃ ls' : List Dirent, ls'.Sublist (e :: es) ∧ (∀ e ∈ ls', ordinary e = true) ∧ looked t dir st e + ls.length = ls'.length ∧
        ∀ p ∈ (es.foldl (entry t wantDir wantFile dir) st2).out, p ∈ st.out ∨ p ∈ ls'.map fun e => Workspace.join dir e.name := by
      intro h hout
      refine ⟨ls, h1.cons _, h2, by omega, fun p hp => ?_⟩
      rcases h4 p hp with h | h
      · exact .inl (hout p h)
      · exact .inr h
    have count : looked t dir st e = 1 → (e.name ≠ c!"." ∧ e.name ≠ c!"..") →
        (∀ p ∈ st2.out, p ∈ st.out ∨ p = Workspace.join dir e.name) →
        ∃ ls' : List Dirent, ls'.Sublist (e :: es) ∧ (∀ e ∈ ls', ordinary e = true) ∧ looked t dir st e + ls.length = ls'.length ∧
        ∀ p ∈ (es.foldl (entry t wantDir wantFile dir) st2).out, p ∈ st.out ∨ p ∈ ls'.map fun e => Workspace.join dir e.name := by
      intro h hord hout
      refine ⟨e :: ls, h1.cons₂ _, ?_, by rw [h, List.length_cons]; omega, fun p hp => ?_⟩
      · intro x hx
        rcases List.mem_cons.1 hx with rfl | hx
        · exact ordinary_iff.2 hord
        · exact h2 x hx
      · rcases h4 p hp with h | h
        · rcases hout p h with h | h
          · exact .inl h
          · exact .inr (by rw [List.map_cons, h]; exact .head _)
        · exact .inr (by rw [List.map_cons]; exact .tail _ h)
    cases hdid with
    | dots h => exact skip (by rw [looked, if_pos h]) fun p hp => hp
    | again hn hd hv hs =>
      refine skip ?_ fun p hp => hp
      rw [looked, if_neg (by simp [hn]), isDir_iff.1 hd]
      simp [valid_iff.1 hv, hs]
    | skipped hn hd hs _ =>
      refine count ?_ hn fun p hp => .inl hp
      rw [looked, if_neg (by simp [hn]), isDir_iff.1 hd]
      simp only []
      rcases hs with ⟨_, hs, _⟩ | ⟨hv, _⟩
      · simp [hs]
      · rw [if_neg]
        intro h
        exact hv (valid_iff.2 (by simpa using (Bool.and_eq_true _ _ ▸ h).1))
    | queued hn hd hs _ =>
      refine count ?_ hn fun p hp => .inl hp
      rw [looked, if_neg (by simp [hn]), isDir_iff.1 hd]
      simp only []
      rcases hs with ⟨_, hs, _⟩ | ⟨hv, _⟩
      · simp [hs]
      · rw [if_neg]
        intro h
        exact hv (valid_iff.2 (by simpa using (Bool.and_eq_true _ _ ▸ h).1))
    | unwanted hn hno _ =>
      refine count ?_ hn fun p hp => .inl hp
      rw [looked, if_neg (by simp [hn])]
      cases hd : directoryInode t (Workspace.join dir e.name) e with
      | none => rfl
      | some i => exact absurd ⟨i, isDir_iff.2 hd⟩ hno
    | found hn hno _ =>
      refine count ?_ hn fun p hp => ?_
      · rw [looked, if_neg (by simp [hn])]
        cases hd : directoryInode t (Workspace.join dir e.name) e with
        | none => rfl
        | some i => exact absurd ⟨i, isDir_iff.2 hd⟩ hno
      · simpa using hp

theorem paths_nodup {t : Tree} (hn : Named t) {dir : Str} {es ls : List Dirent} (hl : t.list dir = some es)
    (h : ls.Sublist es) : (ls.map fun e => Workspace.join dir e.name).Nodup := by
  obtain ⟨h1, h2⟩ := hn dir es hl
  have hs : (ls.map (·.name)).Nodup := h1.sublist (h.map _)
  rw [List.nodup_iff_pairwise_ne, List.pairwise_map] at hs ⊢
  refine List.Pairwise.imp_of_mem ?_ hs
  intro a b ha hb hab he
  exact hab (join_inj (h2 a (h.subset ha)).2 (h2 b (h.subset hb)).2 he).2

/-- The number is that of some paths in directories that are entered. -/
theorem lookedAll_sound {t : Tree} (hn : Named t) {wantDir wantFile : Str → Bool} {start : Str} (n : Nat) {st : Walk}
    {D : List Str} {k : Nat} {out : List Str} (ho : OnceWalk start D (fun _ _ => True) st)
    (hs : SoundWalk t wantDir wantFile start st) (hk : lookedAll t wantDir wantFile n st = some k)
    (hw : FileUtils.walk t wantDir wantFile n st = some out) :
    ∃ P : List Str, P.length = k ∧ P.Nodup ∧ (∀ p ∈ P, ∃ dir e, Entered t wantDir start dir ∧ In t dir e p) ∧
      (∀ p ∈ P, ∀ d ∈ D, ∀ x, '/' ∉ x → p ≠ Workspace.join d x) ∧ ∀ p ∈ out, p ∈ st.out ∨ p ∈ P := by
  induction n generalizing st D k with
  | zero =>
    rw [lookedAll] at hk
    rw [FileUtils.walk] at hw
    split at hk
    · rename_i he
      rw [if_pos he] at hw
      cases hk; cases hw
      exact ⟨[], rfl, by simp, by simp, by simp, fun p hp => .inl hp⟩
    · cases hk
  | succ n ih =>
    rw [lookedAll] at hk
    rw [FileUtils.walk] at hw
    cases hwork : st.work with
    | nil =>
      rw [hwork] at hk hw
      cases hk; cases hw
      exact ⟨[], rfl, by simp, by simp, by simp, fun p hp => .inl hp⟩
    | cons dir rest =>
      rw [hwork] at hk hw
      simp only [] at hk hw
      obtain ⟨k', hk', rfl⟩ := Option.map_eq_some_iff.1 hk
      have hdir := hs.work dir (by simp [hwork])
      obtain ⟨P, h1, h2, h3, h4, h5⟩ := ih (once_step hn hwork ho) (sound_step hwork hs) hk' hw
      cases hl : t.list dir with
      | none =>
        rw [directory, hl] at h5
        exact ⟨P, by simp [lookedIn, h1], h2, h3, fun p hp d hd => h4 p hp d (by simp [hd]), h5⟩
      | some es =>
        rw [directory, hl] at h5
        obtain ⟨ls, l1, l2, l3, l4⟩ := lookedIn_list t wantDir wantFile dir es { st with work := rest }
        have hes := (hn dir es hl).2
        refine ⟨(ls.map fun e => Workspace.join dir e.name) ++ P, ?_, ?_, ?_, ?_, ?_⟩
        · rw [List.length_append, List.length_map, h1, Option.getD_some, l3]
        · rw [List.nodup_append]
          refine ⟨paths_nodup hn hl l1, h2, ?_⟩
          intro a ha b hb hab
          obtain ⟨e, he, rfl⟩ := List.mem_map.1 ha
          exact h4 b hb dir (by simp) e.name (hes e (l1.subset he)).2 hab.symm
        · intro p hp
          rcases List.mem_append.1 hp with hp | hp
          · obtain ⟨e, he, rfl⟩ := List.mem_map.1 hp
            exact ⟨dir, e, hdir, in_iff.2 ⟨⟨es, hl, l1.subset he⟩, ordinary_iff.1 (l2 e he), rfl⟩⟩
          · exact h3 p hp
        · intro p hp d hd x hx
          rcases List.mem_append.1 hp with hp | hp
          · obtain ⟨e, he, rfl⟩ := List.mem_map.1 hp
            intro heq
            have := (join_inj (hes e (l1.subset he)).2 hx heq).1
            have hnd := ho.dirs
            rw [hwork, List.map_append, List.nodup_append] at hnd
            exact hnd.2.2 _ (List.mem_map.2 ⟨d, hd, rfl⟩) _ (by simp) this.symm
          · exact h4 p hp d (by simp [hd]) x hx
        · intro p hp
          rcases h5 p hp with h | h
          · rcases l4 p h with h | h
            · exact .inl h
            · exact .inr (List.mem_append.2 (.inl h))
          · exact .inr (List.mem_append.2 (.inr h))

/-- The inodes are those of the entries. -/
def SeenIn (t : Tree) (H : List (Str × Dirent)) (st : Walk) : Prop :=
  ∀ i ∈ st.seen, ∃ d e, (d, e) ∈ H ∧ (e.name ≠ c!"." ∧ e.name ≠ c!"..") ∧ IsDir t (Workspace.join d e.name) e i

theorem seen_entry {t : Tree} {wantDir wantFile : Str → Bool} {dir : Str} {H : List (Str × Dirent)} {st : Walk}
    {e : Dirent} (h : SeenIn t H st) : SeenIn t (H ++ [(dir, e)]) (entry t wantDir wantFile dir st e) := by
  have keep : SeenIn t (H ++ [(dir, e)]) st := by
    intro i hi
    obtain ⟨d, e', h1, h2⟩ := h i hi
    exact ⟨d, e', by simp [h1], h2⟩
  have more : ∀ {i}, (e.name ≠ c!"." ∧ e.name ≠ c!"..") → IsDir t (Workspace.join dir e.name) e i →
      ∀ j ∈ i :: st.seen, ∃ d e', (d, e') ∈ H ++ [(dir, e)] ∧ (e'.name ≠ c!"." ∧ e'.name ≠ c!"..") ∧
        IsDir t (Workspace.join d e'.name) e' j := by
    intro i hn hd j hj
    rcases List.mem_cons.1 hj with rfl | hj
    · exact ⟨dir, e, by simp, hn, hd⟩
    · exact keep j hj
  have hdid := entry_did t wantDir wantFile dir st e
  generalize entry t wantDir wantFile dir st e = st2 at hdid ⊢
  cases hdid with
  | dots _ => exact keep
  | again => exact keep
  | unwanted => exact keep
  | found => exact keep
  | skipped hn hd' hs _ =>
    rcases hs with ⟨hv, _, rfl⟩ | ⟨_, rfl⟩
    · exact more hn hd'
    · exact keep
  | queued hn hd' hs _ =>
    rcases hs with ⟨hv, _, rfl⟩ | ⟨_, rfl⟩
    · exact more hn hd'
    · exact keep

/-- If inodes tell directories apart, then all entries are looked at. -/
theorem lookedIn_all {t : Tree} (hn : Named t) {wantDir wantFile : Str → Bool} {start dir : Str}
    (hdist : Distinct t wantDir start) (hdir : Entered t wantDir start dir) {H : List (Str × Dirent)}
    (hH : ∀ d e, (d, e) ∈ H → Entered t wantDir start d ∧ stripBack '/' d ≠ stripBack '/' dir ∧
      ∃ es, t.list d = some es ∧ e ∈ es)
    {es : List Dirent} (hl : t.list dir = some es) (post pre : List Dirent) (st : Walk) (he : es = pre ++ post)
    (hseen : SeenIn t (H ++ pre.map (dir, ·)) st) :
    lookedIn t wantDir wantFile dir st post = (post.filter ordinary).length := by
  induction post generalizing pre st with
  | nil => rfl
  | cons e post ih =>
    have hseen' : SeenIn t (H ++ (pre ++ [e]).map (dir, ·)) (entry t wantDir wantFile dir st e) := by
      have := seen_entry (wantDir := wantDir) (wantFile := wantFile) (dir := dir) (e := e) hseen
      simpa using this
    rw [lookedIn, ih (pre ++ [e]) _ (by simp [he]) hseen', List.filter_cons]
    by_cases ho : ordinary e = true
    · have hord := ordinary_iff.1 ho
      rw [if_pos ho, List.length_cons, looked, if_neg (by simp [hord])]
      cases hd : directoryInode t (Workspace.join dir e.name) e with
      | none => simp only []; omega
      | some i =>
        simp only []
        rw [if_neg, Nat.add_comm]
        intro hc
        rw [Bool.and_eq_true] at hc
        have hs : i ∈ st.seen := by simpa using hc.2
        obtain ⟨d2, e2, h1, h2, h3⟩ := hseen i hs
        have hmem : e ∈ es := by simp [he]
        have hin := in_iff.2 ⟨⟨es, hl, hmem⟩, hord, rfl⟩
        rcases List.mem_append.1 h1 with h1 | h1
        · obtain ⟨g1, g2, g3⟩ := hH d2 e2 h1
          have heq := hdist dir e _ d2 e2 _ i hdir hin (isDir_iff.2 hd) g1 (in_iff.2 ⟨g3, h2, rfl⟩) h3 (valid_iff.2 hc.1)
          obtain ⟨es2, g4, g5⟩ := g3
          exact g2 (join_inj ((hn dir es hl).2 e hmem).2 ((hn d2 es2 g4).2 e2 g5).2 heq).1.symm
        · obtain ⟨e3, h4, h5⟩ := List.mem_map.1 h1
          cases h5
          have hmem2 : e2 ∈ es := by simp [he, h4]
          have heq := hdist dir e _ dir e2 _ i hdir hin (isDir_iff.2 hd) hdir (in_iff.2 ⟨⟨es, hl, hmem2⟩, h2, rfl⟩) h3
            (valid_iff.2 hc.1)
          have hname := (join_inj ((hn dir es hl).2 e hmem).2 ((hn dir es hl).2 e2 hmem2).2 heq).2
          have hnd := (hn dir es hl).1
          rw [he, List.map_append, List.nodup_append] at hnd
          exact hnd.2.2 _ (List.mem_map.2 ⟨e2, h4, rfl⟩) _ (List.mem_map.2 ⟨e, .head _, rfl⟩) hname.symm
    · rw [if_neg ho, looked, if_pos, Nat.zero_add]
      by_cases h1 : e.name = c!"."
      · exact .inl h1
      · by_cases h2 : e.name = c!".."
        · exact .inr h2
        · exact absurd (ordinary_iff.2 ⟨h1, h2⟩) ho

/-- What is in a directory. -/
def pathsIn (t : Tree) (dir : Str) : List Str :=
  (((t.list dir).getD []).filter ordinary).map fun e => Workspace.join dir e.name

theorem lookedAll_complete {t : Tree} (hn : Named t) {wantDir wantFile : Str → Bool} {start : Str}
    (hdist : Distinct t wantDir start) (n : Nat) {st : Walk} {D : List Str} {H : List (Str × Dirent)} {k : Nat}
    (ho : OnceWalk start D (fun _ _ => True) st) (ha : AllWalk t wantDir wantFile start D H st)
    (hH : ∀ d ∈ D, ∀ es, t.list d = some es → ∀ e ∈ es, (d, e) ∈ H)
    (hk : lookedAll t wantDir wantFile n st = some k) :
    ∃ ds : List Str, k = (ds.flatMap (pathsIn t)).length ∧ ((D ++ ds).map (stripBack '/')).Nodup ∧
      (∀ d ∈ ds, Entered t wantDir start d) ∧ ∀ d, Entered t wantDir start d → d ∈ D ++ ds := by
  have done : st.work = [] → k = 0 → ∃ ds : List Str, k = (ds.flatMap (pathsIn t)).length ∧
      ((D ++ ds).map (stripBack '/')).Nodup ∧ (∀ d ∈ ds, Entered t wantDir start d) ∧
      ∀ d, Entered t wantDir start d → d ∈ D ++ ds := by
    intro hw hk0
    refine ⟨[], by simp [hk0], ?_, by simp, ?_⟩
    · have := ho.dirs
      rwa [hw] at this
    · intro d hd
      induction hd with
      | start => have := ha.start; rwa [hw] at this
      | sub _ hin hdir hwant ih =>
        obtain ⟨⟨es, hl, he⟩, hdots, rfl⟩ := in_iff.1 hin
        have := ha.dirs _ _ _ (hH _ (by simpa using ih) es hl _ he) hdots hdir hwant
        rwa [hw] at this
  induction n generalizing st D H k with
  | zero =>
    rw [lookedAll] at hk
    split at hk
    · rename_i he
      cases hk
      exact done he rfl
    · cases hk
  | succ n ih =>
    rw [lookedAll] at hk
    cases hwork : st.work with
    | nil =>
      rw [hwork] at hk
      cases hk
      exact done hwork rfl
    | cons dir rest =>
      rw [hwork] at hk
      simp only [] at hk
      obtain ⟨k', hk', rfl⟩ := Option.map_eq_some_iff.1 hk
      have hdir := ha.sound.work dir (by simp [hwork])
      have hH' : ∀ d ∈ D ++ [dir], ∀ es, t.list d = some es → ∀ e ∈ es,
          (d, e) ∈ H ++ ((t.list dir).getD []).map (dir, ·) := by
        intro d hd es hl e he
        rcases List.mem_append.1 hd with hd | hd
        · exact List.mem_append.2 (.inl (hH d hd es hl e he))
        · simp only [List.mem_singleton] at hd
          subst hd
          rw [hl]
          exact List.mem_append.2 (.inr (List.mem_map.2 ⟨e, he, rfl⟩))
      have ho' := once_step (wantDir := wantDir) (wantFile := wantFile) hn hwork ho
      have ha' := all_step hdist hwork ha
      obtain ⟨ds, h1, h2, h3, h4⟩ := ih ho' ha' hH' hk' (by
        intro hw hk0
        refine ⟨[], by simp [hk0], ?_, by simp, ?_⟩
        · have := ho'.dirs
          rwa [hw] at this
        · intro d hd
          induction hd with
          | start => have := ha'.start; rwa [hw] at this
          | sub _ hin hdir hwant ih =>
            obtain ⟨⟨es, hl, he⟩, hdots, rfl⟩ := in_iff.1 hin
            have := ha'.dirs _ _ _ (hH' _ (by simpa using ih) es hl _ he) hdots hdir hwant
            rwa [hw] at this)
      refine ⟨dir :: ds, ?_, by simpa using h2, ?_, by simpa using h4⟩
      · rw [List.flatMap_cons, List.length_append, ← h1]
        congr 1
        unfold pathsIn
        rw [List.length_map]
        cases hl : t.list dir with
        | none => rfl
        | some es =>
          refine lookedIn_all hn hdist hdir (H := H) ?_ hl es [] _ rfl ?_
          · intro d e hm
            obtain ⟨g1, g2⟩ := ha.hist d e hm
            refine ⟨ha.entered d g1, ?_, g2⟩
            intro heq
            have hnd := ho.dirs
            rw [hwork, List.map_append, List.nodup_append] at hnd
            exact hnd.2.2 _ (List.mem_map.2 ⟨d, g1, rfl⟩) _ (by simp) heq
          · intro i hi
            obtain ⟨_, d, e, g1, g2⟩ := ha.seen i hi
            exact ⟨d, e, by simpa using g1, g2⟩
      · intro d hd
        rcases List.mem_cons.1 hd with rfl | hd
        · exact hdir
        · exact h3 d hd

theorem pathsIn_nodup {t : Tree} (hn : Named t) (ds : List Str) (h : (ds.map (stripBack '/')).Nodup) :
    (ds.flatMap (pathsIn t)).Nodup := by
  have one : ∀ d, (pathsIn t d).Nodup := by
    intro d
    unfold pathsIn
    cases hl : t.list d with
    | none => simp
    | some es => exact paths_nodup hn hl List.filter_sublist
  induction ds with
  | nil => simp
  | cons d ds ih =>
    rw [List.map_cons, List.nodup_cons] at h
    rw [List.flatMap_cons, List.nodup_append]
    refine ⟨one d, ih h.2, ?_⟩
    intro a ha b hb hab
    subst hab
    obtain ⟨d2, hd2, hb⟩ := List.mem_flatMap.1 hb
    unfold pathsIn at ha hb
    obtain ⟨e, he, rfl⟩ := List.mem_map.1 ha
    obtain ⟨e2, he2, heq⟩ := List.mem_map.1 hb
    have name : ∀ {d e}, e ∈ ((t.list d).getD []).filter ordinary → '/' ∉ e.name := by
      intro d e he
      cases hl : t.list d with
      | none => rw [hl] at he; cases he
      | some es =>
        rw [hl] at he
        exact ((hn d es hl).2 e (List.mem_filter.1 he).1).2
    exact h.1 (List.mem_map.2 ⟨d2, hd2, (join_inj (name he2) (name he) heq).1⟩)

open StatsSpec Commands Cli Headers CommandSpec

theorem runCommand_walk {m : Machine} {globs : BazelPackage → Option Nat} {flags : Flags} {cmd : Command}
    {pattern : BazelPattern} {p : Prepared} {l : List Event} (hneed : needsProject cmd pattern = true)
    (hp : prepare m flags cmd pattern = some (some p)) (h : runCommand m globs flags cmd pattern = some l) :
    ∃ n found, walk m p.workspace (searched cmd pattern) = some [⟨walkKey, c!"files/directories", n, none⟩] ∧
      Collect.collectBuildFiles m.tree m.symlink p.workspace (searched cmd pattern) m.steps = some found ∧
      total l walkKey = n := by
  obtain ⟨files, n, found, news, c, d, _, h2, _, h4, _, h6, h7, rfl⟩ := runCommand_counted hneed hp h
  refine ⟨n, found, h4, h2, ?_⟩
  have hfile : ∀ S : List (Option Nat), ofKey (S.flatMap addFile) walkKey = [] := by
    intro S
    refine ofKey_none fun e he => ?_
    obtain ⟨x, _, hx⟩ := List.mem_flatMap.1 he
    have k1 : readKey ≠ walkKey := by decide
    have k2 : parseKey ≠ walkKey := by decide
    cases x <;> simp [addFile] at hx <;> rcases hx with rfl | hx <;> simp_all
    all_goals (rcases hx with rfl | rfl | rfl <;> assumption)
  unfold total
  rw [List.cons_append, List.cons_append, List.cons_append]
  have hrest : ofKey ((sizes m p.workspace (searched cmd pattern).pattern.package.project [] found).flatMap addFile ++
      (if elaborates flags cmd then files.flatMap fun f => elaborate globs f.1 else []) ++ c ++ d) walkKey = [] := by
    rw [ofKey_append, ofKey_append, ofKey_append, h6.events walkKey (by decide) (by decide),
      loaded_files globs news (by decide) (by decide), hfile, hfile, ofKey_none, ofKey_none]
    · rfl
    · intro e he hk
      have := perform_keys h7 e he
      rw [hk] at this
      revert this
      decide
    · intro e he
      split at he
      · obtain ⟨f, _, hf⟩ := List.mem_flatMap.1 he
        rcases elaborate_keys e hf with h | h <;> rw [h] <;> decide
      · cases he
  have hcons : ∀ (e : Event) (l : List Event), e.key = walkKey → ofKey l walkKey = [] → ofKey (e :: l) walkKey = [e] := by
    intro e l he hl
    unfold ofKey at hl ⊢
    rw [List.filter_cons_of_pos (by simpa using he), hl]
  rw [hcons _ _ rfl hrest]
  simp

end Stats
end Bant
