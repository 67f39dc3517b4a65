import Verif.Lemmas.DepGraph

/-! Helper lemmas: the order of the maps in the dependency graph. -/
namespace Bant
open Query Rules Headers DepGraph GraphSpec

/-- The maps are sorted; nobody is a key in the second without having dependents. -/
structure GraphSorted (g : Graph) : Prop where
  keys : Ascending (g.dependsOn.map (·.1))
  keys' : Ascending (g.hasDependents.map (·.1))
  some : ∀ e ∈ g.hasDependents, e.2 ≠ []

theorem mem_appendAt {α β : Type} [DecidableEq α] {k : α} {v : β} {m : List (α × List β)}
    {e : α × List β} (h : e ∈ appendAt k v m) : (e.1 = k ∧ e.2 ≠ []) ∨ e ∈ m := by
  induction m with
  | nil => cases h
  | cons x m ih =>
    rw [appendAt] at h
    split at h
    · next hx =>
      rcases List.mem_cons.1 h with rfl | h
      · exact .inl ⟨hx, by simp⟩
      · exact .inr (by simp [h])
    · rcases List.mem_cons.1 h with rfl | h
      · exact .inr (by simp)
      · exact (ih h).imp id (fun h => by simp [h])

theorem mem_push {α β : Type} [Ordered α] [DecidableEq α] {k : α} {v : β} {m : List (α × List β)}
    {e : α × List β} (h : e ∈ push k v m) : (e.1 = k ∧ e.2 ≠ []) ∨ e ∈ m := by
  unfold push at h
  split at h
  · exact mem_appendAt h
  · rcases mem_place.1 h with rfl | h
    · exact .inl ⟨rfl, by simp⟩
    · exact .inr h

theorem follow_sorted {t : BazelTarget} {st : Round} {dep : Str} (h : GraphSorted st.graph) :
    GraphSorted (follow t st dep).graph := by
  unfold follow
  cases BazelTarget.parseFrom dep t.package with
  | none => exact h
  | some d =>
    refine ⟨?_, ?_, ?_⟩
    · show Ascending ((push _ _ _).map _)
      rw [push_keys_eq]; exact add_ascending h.keys
    · show Ascending ((push _ _ _).map _)
      rw [push_keys_eq]; exact add_ascending h.keys'
    · intro e he
      rcases mem_push he with h' | h'
      · exact h'.2
      · exact h.some e h'

theorem visit_sorted {pkg : BazelPackage} {st st' : Round} {r : Result} (h : GraphSorted st.graph)
    (hv : DepGraph.visit pkg st r = .some st') : GraphSorted st'.graph := by
  unfold DepGraph.visit at hv
  cases hq : pkg.qualifiedTarget r.name with
  | none => rw [hq] at hv; cases hv; exact h
  | some t =>
    rw [hq] at hv
    simp only [] at hv
    split at hv
    · cases hv; exact h
    · cases hd : stringList r.deps with
      | none => rw [hd] at hv; cases hv
      | some deps =>
        rw [hd] at hv
        simp only [Option.some.injEq] at hv
        subst hv
        generalize (if r.actual = [] then deps else deps ++ [r.actual]) = l
        have : ∀ (l : List Str) (st : Round), GraphSorted st.graph →
            GraphSorted (l.foldl (follow t) st).graph := by
          intro l
          induction l with
          | nil => exact fun _ h => h
          | cons x l ih => exact fun st h => ih _ (follow_sorted h)
        apply this
        refine ⟨?_, h.keys', h.some⟩
        show Ascending ((insertNew _ _ _).map _)
        rw [insertNew_keys]; exact add_ascending h.keys

theorem visitAll_sorted {pkg : BazelPackage} (rs : List Result) {st st' : Round}
    (h : GraphSorted st.graph) (hv : visitAll pkg st rs = .some st') : GraphSorted st'.graph := by
  induction rs generalizing st with
  | nil => cases hv; exact h
  | cons r rs ih =>
    rw [visitAll] at hv
    cases h1 : DepGraph.visit pkg st r with
    | none => rw [h1] at hv; cases hv
    | some st1 => rw [h1] at hv; exact ih (visit_sorted h h1) hv

theorem scan_sorted {files : Files} (ps : List BazelPackage) {st st' : Round} (h : GraphSorted st.graph)
    (hs : scan files st ps = .some st') : GraphSorted st'.graph := by
  induction ps generalizing st with
  | nil => cases hs; exact h
  | cons p ps ih =>
    rw [scan] at hs
    cases hl : lookup files p with
    | none => rw [hl] at hs; exact ih h hs
    | some ast =>
      rw [hl] at hs
      simp only [] at hs
      cases hf : findTargets false ast [] with
      | none => rw [hf] at hs; cases hs
      | some rs =>
        rw [hf] at hs
        simp only [] at hs
        cases hv : visitAll p st rs with
        | none => rw [hv] at hs; cases hs
        | some st1 => rw [hv] at hs; exact ih (visitAll_sorted rs h hv) hs

theorem parseMissing_sorted {w : World} (ps : List BazelPackage) {files files' : Files}
    (h : Ascending (files.map (·.1))) (hp : parseMissing w files ps = .some files') :
    Ascending (files'.map (·.1)) := by
  induction ps generalizing files with
  | nil => cases hp; exact h
  | cons p ps ih =>
    rw [parseMissing] at hp
    cases hl : lookup files p with
    | some ast => rw [hl] at hp; exact ih h hp
    | none =>
      rw [hl] at hp
      simp only [] at hp
      cases ht : load w p with
      | none => rw [ht] at hp; cases hp
      | some tree =>
        rw [ht] at hp
        cases tree with
        | none => exact ih h hp
        | some ast =>
          refine ih ?_ hp
          rw [insertNew_keys]; exact add_ascending h

theorem round_sorted {w : World} {files : Files} {g : Graph} {todo : List BazelTarget} {files' : Files}
    {st : Round} (hg : GraphSorted g) (h : round w files g todo = .some (files', st)) :
    GraphSorted st.graph ∧ (Ascending (files.map (·.1)) → Ascending (files'.map (·.1))) := by
  unfold round at h
  generalize todo.foldl (fun s t => add t.package s) [] = ps at h
  simp only [] at h
  cases hp : parseMissing w files ps with
  | none => rw [hp] at h; cases h
  | some now =>
    rw [hp] at h
    simp only [] at h
    cases hs : scan now { todo := todo, graph := g } ps with
    | none => rw [hs] at h; cases h
    | some st1 =>
      rw [hs] at h
      cases h
      exact ⟨scan_sorted ps (st := { todo := todo, graph := g }) hg hs, fun h => parseMissing_sorted ps h hp⟩

theorem rounds_sorted {w : World} (n : Nat) {files : Files} {g : Graph} {todo : List BazelTarget}
    {files' : Files} {g' : Graph} (hg : GraphSorted g)
    (h : rounds w files g todo n = .some (files', g')) :
    GraphSorted g' ∧ (Ascending (files.map (·.1)) → Ascending (files'.map (·.1))) := by
  induction n generalizing files g todo with
  | zero =>
    rw [rounds] at h
    cases hr : round w files g todo with
    | none => rw [hr] at h; cases h
    | some r =>
      obtain ⟨now, st⟩ := r
      rw [hr] at h
      cases h
      exact round_sorted hg hr
  | succ n ih =>
    rw [rounds] at h
    cases hr : round w files g todo with
    | none => rw [hr] at h; cases h
    | some r =>
      obtain ⟨now, st⟩ := r
      rw [hr] at h
      simp only [] at h
      obtain ⟨h1, h2⟩ := round_sorted hg hr
      split at h
      · cases h; exact ⟨h1, h2⟩
      · obtain ⟨h3, h4⟩ := ih h1 h
        exact ⟨h3, fun h => h4 (h2 h)⟩

/-- The graph is sorted, and so are the files if they were before. -/
theorem build_sorted {w : World} {pattern : BazelPattern} {depth : Int} {files files' : Files} {g : Graph}
    (h : build w pattern depth files = .some (files', g)) :
    GraphSorted g ∧ (Ascending (files.map (·.1)) → Ascending (files'.map (·.1))) := by
  unfold build at h
  cases hi : initial pattern files with
  | none => rw [hi] at h; cases h
  | some todo =>
    rw [hi] at h
    exact rounds_sorted _ (g := {}) ⟨.nil, .nil, by simp⟩ h

end Bant
