import Verif.Lemmas.Headers
import Verif.Lemmas.Lookup
import Verif.Lemmas.Ordered
import Verif.Lemmas.Searchable
import Verif.Lemmas.TypesBazel
import Verif.Props.Patterns
import Verif.Spec.DepGraph

/-! Helper lemmas: the dependency graph. -/
namespace Bant
open Query Rules Headers DepGraph GraphSpec

/-! ### One rule -/

/-- The effect of one dependency. -/
def followT (t : BazelTarget) (st : Round) (d : BazelTarget) : Round :=
  { st with
    next := if (lookup st.graph.dependsOn d).isNone && d ∉ st.todo then add d st.next else st.next
    graph := ⟨push t d st.graph.dependsOn, push d t st.graph.hasDependents⟩ }

theorem follow_fold (t : BazelTarget) (l : List Str) (st : Round) :
    l.foldl (follow t) st =
      (l.filterMap (BazelTarget.parseFrom · t.package)).foldl (followT t) st := by
  induction l generalizing st with
  | nil => rfl
  | cons x l ih =>
    rw [List.foldl_cons, ih, List.filterMap_cons]
    unfold follow
    cases h : BazelTarget.parseFrom x t.package with
    | none => rfl
    | some d => rfl

/-- Each dependency is recorded in both directions. -/
def Symmetric (g : Graph) : Prop :=
  ∀ a b, (dependents g a).count b = (dependencies g b).count a

theorem followT_fold (t : BazelTarget) (ds : List BazelTarget) (st : Round) (v : List BazelTarget)
    (hv : lookup st.graph.dependsOn t = some v) (st' : Round) (hst : ds.foldl (followT t) st = st') :
    st'.todo = st.todo ∧
    (∀ x, lookup st'.graph.dependsOn x =
      if x = t then some (v ++ ds) else lookup st.graph.dependsOn x) ∧
    (∀ u, u ∈ st'.next ↔ u ∈ st.next ∨
      (u ∈ ds ∧ lookup st.graph.dependsOn u = none ∧ u ∉ st.todo)) ∧
    (st.next.Nodup → st'.next.Nodup) ∧
    (Symmetric st.graph → Symmetric st'.graph) ∧
    ((st.graph.dependsOn.map (·.1)).Nodup → (st'.graph.dependsOn.map (·.1)).Nodup) ∧
    ((st.graph.hasDependents.map (·.1)).Nodup → (st'.graph.hasDependents.map (·.1)).Nodup) := by
  induction ds generalizing st v with
  | nil =>
    subst hst
    refine ⟨rfl, ?_, by simp, id, id, id, id⟩
    intro x
    by_cases h : x = t
    · subst h; simp [hv]
    · simp [h]
  | cons d ds ih =>
    rw [List.foldl_cons] at hst
    have hl : ∀ x, lookup (followT t st d).graph.dependsOn x =
        if x = t then some (v ++ [d]) else lookup st.graph.dependsOn x := by
      intro x
      show lookup (push _ _ _) x = _
      rw [lookup_push, hv]; rfl
    obtain ⟨h1, h2, h3, h4, h5, h6, h7⟩ := ih (followT t st d) (v ++ [d]) (by rw [hl]; simp) hst
    have hn : ∀ u, lookup (followT t st d).graph.dependsOn u = none ↔
        lookup st.graph.dependsOn u = none := by
      intro u
      rw [hl]
      by_cases h : u = t
      · subst h; simp [hv]
      · simp [h]
    refine ⟨h1, ?_, ?_, ?_, ?_, fun h => h6 (push_keys _ _ _ h), fun h => h7 (push_keys _ _ _ h)⟩
    · intro x
      rw [h2, hl]
      by_cases h : x = t
      · simp [h]
      · simp [h]
    · intro u
      rw [h3, hn]
      have hnext : u ∈ (followT t st d).next ↔ u ∈ st.next ∨
          (u = d ∧ lookup st.graph.dependsOn d = none ∧ d ∉ st.todo) := by
        show u ∈ (if _ then _ else _) ↔ _
        split
        · next hc =>
          simp only [Bool.and_eq_true, Option.isNone_iff_eq_none, decide_eq_true_eq] at hc
          rw [mem_add]; simp [hc, or_comm]
        · next hc =>
          simp only [Bool.and_eq_true, Option.isNone_iff_eq_none, decide_eq_true_eq] at hc
          simp [hc]
      rw [hnext]
      show (_ ∨ (u ∈ ds ∧ _ ∧ u ∉ st.todo)) ↔ _
      simp only [List.mem_cons]
      constructor
      · rintro ((h | ⟨rfl, h⟩) | h)
        · exact .inl h
        · exact .inr ⟨.inl rfl, h⟩
        · exact .inr ⟨.inr h.1, h.2⟩
      · rintro (h | ⟨rfl | h, h'⟩)
        · exact .inl (.inl h)
        · exact .inl (.inr ⟨rfl, h'⟩)
        · exact .inr ⟨h, h'⟩
    · intro h
      apply h4
      show (if _ then _ else _ : List BazelTarget).Nodup
      split
      · exact nodup_add h
      · exact h
    · intro h
      apply h5
      intro a b
      show (Option.getD (lookup (push _ _ _) a) []).count b = (Option.getD (lookup (push _ _ _) b) []).count a
      rw [lookup_push, lookup_push]
      have := h a b
      unfold dependents dependencies at this
      by_cases ha : a = d <;> by_cases hb : b = t
      · subst ha; subst hb; simp [List.count_append, this]
      · subst ha; simp [hb, List.count_append, this, Ne.symm hb]
      · subst hb; simp [ha, List.count_append, this, Ne.symm ha]
      · simp [ha, hb, this]

/-- The effect of one rule. -/
def stepT (st : Round) (e : BazelTarget × List BazelTarget) : Round :=
  if e.1 ∉ st.todo then st
  else e.2.foldl (followT e.1) { st with
    todo := st.todo.erase e.1
    graph := { st.graph with dependsOn := insertNew e.1 [] st.graph.dependsOn } }

/-- What is known of the variables in one round: sets, and who is in the graph is done. -/
structure RoundOk (st : Round) : Prop where
  todo_nodup : st.todo.Nodup
  next_nodup : st.next.Nodup
  todo_new : ∀ x ∈ st.todo, lookup st.graph.dependsOn x = none
  next_new : ∀ x ∈ st.next, lookup st.graph.dependsOn x = none ∧ x ∉ st.todo
  symmetric : Symmetric st.graph
  keys : (st.graph.dependsOn.map (·.1)).Nodup
  keys' : (st.graph.hasDependents.map (·.1)).Nodup

theorem stepT_spec {st : Round} (hst : RoundOk st) {t : BazelTarget} (ds : List BazelTarget)
    (ht : t ∈ st.todo) :
    RoundOk (stepT st (t, ds)) ∧
    (∀ x, x ∈ (stepT st (t, ds)).todo ↔ x ∈ st.todo ∧ x ≠ t) ∧
    (∀ x, lookup (stepT st (t, ds)).graph.dependsOn x =
      if x = t then some ds else lookup st.graph.dependsOn x) ∧
    (∀ u, u ∈ (stepT st (t, ds)).next → u ∈ st.next ∨ u ∈ ds) ∧
    (∀ u, u ∈ st.next → u ∈ (stepT st (t, ds)).next) ∧
    (∀ u ∈ ds, u ∈ (stepT st (t, ds)).next ∨ u ∈ (stepT st (t, ds)).todo ∨
      lookup (stepT st (t, ds)).graph.dependsOn u ≠ none) := by
  have hnew := hst.todo_new t ht
  generalize hs : stepT st (t, ds) = st'
  unfold stepT at hs
  rw [if_neg (by simpa using ht)] at hs
  have hins : ∀ x, lookup (insertNew t [] st.graph.dependsOn) x =
      if x = t then some [] else lookup st.graph.dependsOn x := by
    intro x
    rw [lookup_insertNew, hnew]
    rfl
  obtain ⟨h1, h2, h3, h4, h5, h6, h7⟩ := followT_fold t ds _ [] (by rw [hins]; simp) st' hs
  have h2' : ∀ x, lookup st'.graph.dependsOn x =
      if x = t then some ds else lookup st.graph.dependsOn x := by
    intro x
    rw [h2]
    show (if x = t then _ else lookup (insertNew _ _ _) x) = _
    rw [hins]
    by_cases h : x = t <;> simp [h]
  have hmem : ∀ x, x ∈ st'.todo ↔ x ∈ st.todo ∧ x ≠ t := by
    intro x
    rw [h1]
    show x ∈ st.todo.erase t ↔ _
    rw [hst.todo_nodup.mem_erase_iff, and_comm]
  have h3' : ∀ u, u ∈ st'.next ↔ u ∈ st.next ∨
      (u ∈ ds ∧ u ≠ t ∧ lookup st.graph.dependsOn u = none ∧ u ∉ st.todo) := by
    intro u
    rw [h3]
    show _ ∨ (u ∈ ds ∧ lookup (insertNew _ _ _) u = none ∧ u ∉ st.todo.erase t) ↔ _
    rw [hins, hst.todo_nodup.mem_erase_iff]
    by_cases h : u = t
    · simp [h]
    · simp [h]
  refine ⟨⟨?_, ?_, ?_, ?_, ?_, ?_, ?_⟩, hmem, h2', ?_, ?_, ?_⟩
  · rw [h1]; exact hst.todo_nodup.erase _
  · exact h4 hst.next_nodup
  · intro x hx
    rw [hmem] at hx
    rw [h2', if_neg hx.2]; exact hst.todo_new x hx.1
  · intro x hx
    rw [h3'] at hx
    rw [h2', hmem]
    rcases hx with hx | ⟨_, h, h', h''⟩
    · have := hst.next_new x hx
      have hxt : x ≠ t := fun h => this.2 (h ▸ ht)
      simp [hxt, this]
    · simp [h, h', h'']
  · apply h5
    intro a b
    have := hst.symmetric a b
    unfold dependents dependencies at *
    show (Option.getD (lookup _ a) []).count b = (Option.getD (lookup (insertNew _ _ _) b) []).count a
    rw [hins]
    by_cases h : b = t
    · subst h; simpa [hnew] using this
    · simpa [h] using this
  · apply h6
    show ((insertNew t [] st.graph.dependsOn).map (·.1)).Nodup
    rw [insertNew_keys]
    exact nodup_add hst.keys
  · exact h7 hst.keys'
  · intro u hu
    rw [h3'] at hu
    exact hu.imp id (·.1)
  · intro u hu
    exact (h3' u).2 (.inl hu)
  · intro u hu
    rw [h3', hmem, h2']
    by_cases h : u = t
    · simp [h]
    · by_cases h' : u ∈ st.todo
      · simp [h, h']
      · by_cases h'' : lookup st.graph.dependsOn u = none
        · simp [h, h', h'', hu]
        · simp [h, h'']

/-- The effect of the rules of one round. -/
theorem stepT_fold (V : List (BazelTarget × List BazelTarget)) (st : Round) (hst : RoundOk st)
    (st' : Round) (hs : V.foldl stepT st = st') :
    RoundOk st' ∧
    (∀ x, x ∈ st'.todo ↔ x ∈ st.todo ∧ lookup V x = none) ∧
    (∀ x, lookup st'.graph.dependsOn x =
      if x ∈ st.todo then lookup V x else lookup st.graph.dependsOn x) ∧
    (∀ u, u ∈ st'.next → u ∈ st.next ∨ ∃ t ds, t ∈ st.todo ∧ lookup V t = some ds ∧ u ∈ ds) ∧
    (∀ u, u ∈ st.next → u ∈ st'.next) ∧
    (∀ t ds u, t ∈ st.todo → lookup V t = some ds → u ∈ ds →
      u ∈ st'.next ∨ u ∈ st'.todo ∨ lookup st'.graph.dependsOn u ≠ none) := by
  induction V generalizing st with
  | nil =>
    subst hs
    refine ⟨hst, fun x => by simp [lookup], ?_, fun u h => .inl h, fun u h => h, ?_⟩
    · intro x
      by_cases h : x ∈ st.todo
      · rw [if_pos h]; exact hst.todo_new x h
      · simp [h]
    · intro t ds u _ h; cases h
  | cons e V ih =>
    obtain ⟨t, ds⟩ := e
    rw [List.foldl_cons] at hs
    by_cases ht : t ∈ st.todo
    · obtain ⟨a1, a2, a3, a4, a5, a6⟩ := stepT_spec hst ds ht
      obtain ⟨b1, b2, b3, b4, b5, b6⟩ := ih _ a1 hs
      refine ⟨b1, ?_, ?_, ?_, fun u h => b5 u (a5 u h), ?_⟩
      · intro x
        rw [b2, a2, lookup_cons]
        by_cases h : t = x
        · subst h; simp
        · simp [h, Ne.symm h]
      · intro x
        rw [b3, lookup_cons]
        by_cases h : t = x
        · subst h
          simp [a2, a3, ht]
        · have hx := Ne.symm h
          simp [h, hx, a2, a3]
      · intro u hu
        rcases b4 u hu with h | ⟨t', ds', h1, h2, h3⟩
        · rcases a4 u h with h | h
          · exact .inl h
          · exact .inr ⟨t, ds, ht, by simp [lookup_cons], h⟩
        · rw [a2] at h1
          exact .inr ⟨t', ds', h1.1, by rw [lookup_cons, if_neg (Ne.symm h1.2)]; exact h2, h3⟩
      · intro t' ds' u h1 h2 h3
        rw [lookup_cons] at h2
        by_cases h : t = t'
        · subst h
          simp at h2; subst h2
          rcases a6 u h3 with h | h | h
          · exact .inl (b5 u h)
          · rw [b2, b3]
            cases hv : lookup V u with
            | none => simp [h]
            | some x => simp [h]
          · have : u ∉ (stepT st (t, ds)).todo := fun hu => h (a1.todo_new u hu)
            rw [b3, if_neg this]
            exact .inr (.inr h)
        · simp [h] at h2
          exact b6 t' ds' u ((a2 t').2 ⟨h1, Ne.symm h⟩) h2 h3
    · have : stepT st (t, ds) = st := by unfold stepT; rw [if_pos ht]
      rw [this] at hs
      obtain ⟨b1, b2, b3, b4, b5, b6⟩ := ih _ hst hs
      have hl : ∀ x ∈ st.todo, lookup ((t, ds) :: V) x = lookup V x := by
        intro x hx
        rw [lookup_cons, if_neg]
        rintro rfl
        exact ht hx
      refine ⟨b1, ?_, ?_, ?_, b5, ?_⟩
      · intro x
        rw [b2]
        constructor
        · rintro ⟨h, h'⟩; exact ⟨h, (hl x h).trans h'⟩
        · rintro ⟨h, h'⟩; exact ⟨h, (hl x h).symm.trans h'⟩
      · intro x
        rw [b3]
        by_cases h : x ∈ st.todo
        · rw [if_pos h, if_pos h, hl x h]
        · rw [if_neg h, if_neg h]
      · intro u hu
        rcases b4 u hu with h | ⟨t', ds', h1, h2, h3⟩
        · exact .inl h
        · exact .inr ⟨t', ds', h1, (hl t' h1).trans h2, h3⟩
      · intro t' ds' u h1 h2 h3
        exact b6 t' ds' u h1 ((hl t' h1).symm.trans h2) h3

/-! ### The rules of files -/

/-- The targets of a file with their dependencies. -/
def entries (pkg : BazelPackage) (ast : Node) : List (BazelTarget × List BazelTarget) :=
  (rulesOf [] ast).filterMap fun r =>
    (pkg.qualifiedTarget r.name).map fun t => (t, depsOf t.package r)

/-- The dependencies of a defined target. -/
def defn (w : World) (files : Files) (t : BazelTarget) : Option (List BazelTarget) :=
  (treeOf w files t.package).bind fun ast => lookup (entries t.package ast) t

theorem lookup_entries {pkg : BazelPackage} {l : List Result} {t : BazelTarget} {ds : List BazelTarget} :
    lookup (l.filterMap fun r =>
      (pkg.qualifiedTarget r.name).map fun t => (t, depsOf t.package r)) t = some ds ↔
    ∃ before r after, l = before ++ r :: after ∧ pkg.qualifiedTarget r.name = some t ∧
      (∀ r' ∈ before, pkg.qualifiedTarget r'.name ≠ some t) ∧ ds = depsOf t.package r := by
  induction l with
  | nil => simp [lookup]
  | cons r l ih =>
    rw [List.filterMap_cons]
    have tail : pkg.qualifiedTarget r.name ≠ some t →
        ((∃ before r' after, l = before ++ r' :: after ∧ pkg.qualifiedTarget r'.name = some t ∧
          (∀ r' ∈ before, pkg.qualifiedTarget r'.name ≠ some t) ∧ ds = depsOf t.package r') ↔
        ∃ before r' after, r :: l = before ++ r' :: after ∧ pkg.qualifiedTarget r'.name = some t ∧
          (∀ r' ∈ before, pkg.qualifiedTarget r'.name ≠ some t) ∧ ds = depsOf t.package r') := by
      intro hne
      constructor
      · rintro ⟨before, r', after, rfl, h1, h2, h3⟩
        refine ⟨r :: before, r', after, rfl, h1, ?_, h3⟩
        simpa [hne] using h2
      · rintro ⟨before, r', after, h0, h1, h2, h3⟩
        cases before with
        | nil => cases h0; exact absurd h1 hne
        | cons b before =>
          cases h0
          exact ⟨before, r', after, rfl, h1, fun x hx => h2 x (by simp [hx]), h3⟩
    cases hq : pkg.qualifiedTarget r.name with
    | none => rw [← tail (by simp [hq])]; exact ih
    | some t' =>
      simp only [Option.map_some]
      rw [lookup_cons]
      by_cases h : t' = t
      · subst h
        rw [if_pos rfl]
        constructor
        · intro h; cases h
          exact ⟨[], r, l, rfl, hq, by simp, rfl⟩
        · rintro ⟨before, r', after, h0, h1, h2, h3⟩
          cases before with
          | nil => cases h0; rw [h3]
          | cons b before => cases h0; exact absurd hq (h2 _ (by simp))
      · rw [if_neg h, ← tail (by simp [hq, h])]; exact ih

theorem defn_iff {w : World} {files : Files} {t : BazelTarget} {ds : List BazelTarget} :
    defn w files t = some ds ↔ ∃ r, Defines w files t r ∧ ds = depsOf t.package r := by
  unfold defn Defines
  cases treeOf w files t.package with
  | none => simp
  | some ast =>
    simp only [Option.bind_some]
    unfold entries
    rw [lookup_entries]
    constructor
    · rintro ⟨b, r, a, h1, h2, h3, h4⟩
      exact ⟨r, ⟨ast, b, a, rfl, h1, h2, h3⟩, h4⟩
    · rintro ⟨r, ⟨_, b, a, h0, h1, h2, h3⟩, h4⟩
      cases h0
      exact ⟨b, r, a, h1, h2, h3, h4⟩

theorem edge_iff {w : World} {files : Files} {t u : BazelTarget} :
    Edge w files t u ↔ ∃ ds, defn w files t = some ds ∧ u ∈ ds := by
  simp only [Edge, defn_iff]
  constructor
  · rintro ⟨r, h, hu⟩; exact ⟨_, ⟨r, h, rfl⟩, hu⟩
  · rintro ⟨_, ⟨r, h, rfl⟩, hu⟩; exact ⟨r, h, hu⟩

/-- The targets of some packages. -/
def entriesOf (files : Files) (ps : List BazelPackage) : List (BazelTarget × List BazelTarget) :=
  ps.flatMap fun pkg => match lookup files pkg with
    | none => []
    | some ast => entries pkg ast

theorem entries_package {pkg : BazelPackage} {ast : Node} {t : BazelTarget} (h : t.package ≠ pkg) :
    lookup (entries pkg ast) t = none := by
  rw [lookup_none]
  simp only [entries, List.map_filterMap, List.mem_filterMap, not_exists, not_and]
  intro r _ hq
  cases hp : pkg.qualifiedTarget r.name with
  | none => simp [hp] at hq
  | some t' =>
    simp only [hp, Option.map_some, Option.some.injEq] at hq
    subst hq
    exact h (qualifiedTarget_package hp)

theorem lookup_entriesOf (files : Files) (ps : List BazelPackage) (t : BazelTarget) :
    lookup (entriesOf files ps) t =
      if t.package ∈ ps then (lookup files t.package).bind fun ast => lookup (entries t.package ast) t
      else none := by
  induction ps with
  | nil => rfl
  | cons pkg ps ih =>
    unfold entriesOf at *
    rw [List.flatMap_cons, lookup_append, ih]
    by_cases h : t.package = pkg
    · subst h
      cases lookup files t.package with
      | none => simp [lookup]
      | some ast =>
        simp only [List.mem_cons, true_or, if_true, Option.bind_some]
        cases lookup (entries t.package ast) t <;> simp
    · have : lookup (match lookup files pkg with | none => [] | some ast => entries pkg ast) t = none := by
        cases lookup files pkg with
        | none => rfl
        | some ast => exact entries_package h
      rw [this]
      simp [h]

theorem visitAll_eq {ast : Node} (hs : Searchable ast) (pkg : BazelPackage) (l : List Result)
    (hl : ∀ r ∈ l, r ∈ rulesOf [] ast) (st : Round) :
    visitAll pkg st l = some ((l.filterMap fun r =>
      (pkg.qualifiedTarget r.name).map fun t => (t, depsOf t.package r)).foldl stepT st) := by
  induction l generalizing st with
  | nil => rfl
  | cons r l ih =>
    have ih' := fun st => ih (fun r hr => hl r (by simp [hr])) st
    have : visit pkg st r = some (match pkg.qualifiedTarget r.name with
        | none => st
        | some t => stepT st (t, depsOf t.package r)) := by
      unfold DepGraph.visit
      cases hq : pkg.qualifiedTarget r.name with
      | none => rfl
      | some t =>
        simp only []
        unfold stepT
        by_cases ht : t ∉ st.todo
        · rw [if_pos ht, if_pos ht]
        · rw [if_neg ht, if_neg ht]
          rw [stringList_rule hs (hl r (by simp)) (l := r.deps) (by simp [listsOf])]
          simp only [follow_fold, depsOf]
          by_cases ha : r.actual = []
          · simp [ha]
          · simp [ha]
    rw [visitAll, this]
    simp only []
    rw [ih', List.filterMap_cons]
    cases hq : pkg.qualifiedTarget r.name with
    | none => rfl
    | some t => rfl

theorem scan_eq {files : Files} (hs : ∀ f ∈ files, Searchable f.2) (ps : List BazelPackage) (st : Round) :
    scan files st ps = some ((entriesOf files ps).foldl stepT st) := by
  induction ps generalizing st with
  | nil => rfl
  | cons pkg ps ih =>
    rw [scan]
    unfold entriesOf at *
    rw [List.flatMap_cons, List.foldl_append]
    cases h : lookup files pkg with
    | none => exact ih st
    | some ast =>
      have hse : Searchable ast := hs _ (lookup_mem h)
      simp only []
      rw [findTargets_report ast hse.proper]
      simp only []
      rw [visitAll_eq hse pkg (report kwArgsIn [] false none (sites ast)) (fun r hr => hr)]
      exact ih _

/-! ### Loading -/

theorem treeOf_of_lookup {w : World} {files : Files} {pkg : BazelPackage} {ast : Node}
    (h : lookup files pkg = some ast) : treeOf w files pkg = some ast := by
  simp [treeOf, h]

theorem parseMissing_spec {w : World} (ps : List BazelPackage) (files : Files)
    (hs : ∀ f ∈ files, Searchable f.2)
    (hl : ∀ pkg ∈ ps, lookup files pkg = none → LoadsWell w pkg) :
    ∃ files', parseMissing w files ps = some files' ∧ (∀ f ∈ files', Searchable f.2) ∧
      ∀ pkg, lookup files' pkg = if pkg ∈ ps then treeOf w files pkg else lookup files pkg := by
  induction ps generalizing files with
  | nil => exact ⟨files, rfl, hs, by simp⟩
  | cons p ps ih =>
    rw [parseMissing]
    cases h : lookup files p with
    | some ast =>
      obtain ⟨files', h1, h2, h3⟩ := ih files hs (fun pkg hp => hl pkg (by simp [hp]))
      refine ⟨files', h1, h2, ?_⟩
      intro pkg
      rw [h3]
      by_cases hp : pkg = p
      · subst hp
        simp [treeOf_of_lookup h, h]
      · simp [hp]
    | none =>
      obtain ⟨tree, ht, hse⟩ := hl p (by simp) h
      rw [ht]
      cases tree with
      | none =>
        obtain ⟨files', h1, h2, h3⟩ := ih files hs (fun pkg hp => hl pkg (by simp [hp]))
        refine ⟨files', h1, h2, ?_⟩
        intro pkg
        rw [h3]
        by_cases hp : pkg = p
        · subst hp
          simp [treeOf, h, ht]
        · simp [hp]
      | some ast =>
        have hlook : ∀ pkg, lookup (insertNew p ast files) pkg =
            if pkg = p then some ast else lookup files pkg := by
          intro pkg
          rw [lookup_insertNew, h]
          rfl
        obtain ⟨files', h1, h2, h3⟩ := ih (insertNew p ast files) (by
            intro f hf
            unfold insertNew at hf
            split at hf
            · exact hs f hf
            · rcases mem_place.1 hf with rfl | hf
              · exact hse _ rfl
              · exact hs f hf) (by
            intro pkg hp hn
            rw [hlook] at hn
            split at hn
            · cases hn
            · exact hl pkg (by simp [hp]) hn)
        refine ⟨files', h1, h2, ?_⟩
        intro pkg
        rw [h3]
        by_cases hp : pkg = p
        · subst hp
          simp [treeOf, hlook, h, ht]
        · simp [hp, treeOf, hlook]

/-! ### The rounds -/

/-- What is known before round `k`. -/
structure Before (w : World) (pattern : BazelPattern) (files : Files) (k : Nat) (now : Files) (g : Graph)
    (todo : List BazelTarget) : Prop where
  searchable : ∀ f ∈ now, Searchable f.2
  loaded : ∀ pkg ast, lookup now pkg = some ast ↔ treeOf w files pkg = some ast ∧ lookup now pkg ≠ none
  kept : ∀ pkg, lookup now pkg = none → lookup files pkg = none
  wanted : ∀ pkg, lookup now pkg ≠ none → lookup files pkg ≠ none ∨
    ∃ j t, j < k ∧ ReachIn w pattern files j t ∧ t.package = pkg
  todo_nodup : todo.Nodup
  todo_new : ∀ x ∈ todo, lookup g.dependsOn x = none
  todo_reach : ∀ x ∈ todo, ReachIn w pattern files k x
  reach_todo : ∀ x, ReachIn w pattern files k x → x ∈ todo ∨
    (lookup now x.package = treeOf w files x.package ∧
      (defn w files x ≠ none → lookup g.dependsOn x ≠ none))
  reach_old : ∀ x, ReachIn w pattern files k x → x ∈ todo ∨ ∃ j, j < k ∧ ReachIn w pattern files j x
  tried : ∀ j x, j < k → ReachIn w pattern files j x → lookup now x.package = treeOf w files x.package
  found : ∀ j x, j < k → ReachIn w pattern files j x → defn w files x ≠ none → lookup g.dependsOn x ≠ none
  value : ∀ x ds, lookup g.dependsOn x = some ds → defn w files x = some ds ∧
    ∃ j, j < k ∧ ReachIn w pattern files j x
  symmetric : Symmetric g
  keys : (g.dependsOn.map (·.1)).Nodup
  keys' : (g.hasDependents.map (·.1)).Nodup

theorem round_spec {w : World} {pattern : BazelPattern} {files : Files} {k : Nat} {now : Files} {g : Graph}
    {todo : List BazelTarget} (hb : Before w pattern files k now g todo)
    (hl : ∀ t, ReachIn w pattern files k t → lookup files t.package = none → LoadsWell w t.package) :
    ∃ now' st, round w now g todo = some (now', st) ∧
      Before w pattern files (k + 1) now' st.graph st.next ∧ (∀ x, x ∈ st.todo ↔ x ∈ todo ∧ defn w files x = none) := by
  unfold round
  generalize hps : todo.foldl (fun s t => add t.package s) [] = ps
  have hmem : ∀ pkg, pkg ∈ ps ↔ ∃ t ∈ todo, t.package = pkg := by
    intro pkg
    rw [← hps, (foldl_add (fun t : BazelTarget => t.package) todo []).1]
    simp
  have htree : ∀ pkg, treeOf w now pkg = treeOf w files pkg := by
    intro pkg
    cases h : lookup now pkg with
    | some ast => rw [treeOf_of_lookup h, ((hb.loaded pkg ast).1 h).1]
    | none => simp [treeOf, h, hb.kept pkg h]
  obtain ⟨now', h1, h2, h3⟩ := parseMissing_spec (w := w) ps now hb.searchable (by
    intro pkg hp hn
    obtain ⟨t, ht, rfl⟩ := (hmem pkg).1 hp
    exact hl t (hb.todo_reach t ht) (hb.kept _ hn))
  simp only [htree] at h3
  have mono : ∀ pkg ast, lookup now pkg = some ast → lookup now' pkg = some ast := by
    intro pkg ast h
    rw [h3]
    split
    · exact ((hb.loaded pkg ast).1 h).1
    · exact h
  have hdefn : ∀ t ∈ todo, lookup (entriesOf now' ps) t = defn w files t := by
    intro t ht
    have hp := (hmem t.package).2 ⟨t, ht, rfl⟩
    rw [lookup_entriesOf, if_pos hp, h3, if_pos hp]; rfl
  simp only [h1]
  rw [scan_eq h2]
  obtain ⟨c1, c2, c3, c4, c5, c6⟩ := stepT_fold (entriesOf now' ps) { todo := todo, graph := g }
    ⟨hb.todo_nodup, List.nodup_nil, hb.todo_new, by simp, hb.symmetric, hb.keys, hb.keys'⟩ _ rfl
  generalize hst' : (entriesOf now' ps).foldl stepT { todo := todo, graph := g } = st' at *
  refine ⟨now', st', rfl, ?_⟩
  simp only [List.not_mem_nil, false_or] at c4
  -- who is in the graph now
  have key : ∀ x, lookup st'.graph.dependsOn x =
      if x ∈ todo then defn w files x else lookup g.dependsOn x := by
    intro x
    rw [c3]
    show (if x ∈ todo then _ else _) = _
    split
    · next h => exact hdefn x h
    · rfl
  have keep : ∀ x, lookup g.dependsOn x ≠ none → lookup st'.graph.dependsOn x ≠ none := by
    intro x h
    rw [key, if_neg (fun hx => h (hb.todo_new x hx))]; exact h
  have tried : ∀ x : BazelTarget, lookup now x.package = treeOf w files x.package →
      lookup now' x.package = treeOf w files x.package := by
    intro x h
    rw [h3]
    split
    · rfl
    · exact h
  have todo_tried : ∀ x ∈ todo, lookup now' x.package = treeOf w files x.package := by
    intro x h
    rw [h3, if_pos ((hmem _).2 ⟨x, h, rfl⟩)]
  have all_tried : ∀ j x, j < k + 1 → ReachIn w pattern files j x →
      lookup now' x.package = treeOf w files x.package := by
    intro j x hj hr
    by_cases hjk : j < k
    · exact tried x (hb.tried j x hjk hr)
    · have : j = k := by omega
      subst this
      rcases hb.reach_todo x hr with h | h
      · exact todo_tried x h
      · exact tried x h.1
  have all_found : ∀ j x, j < k + 1 → ReachIn w pattern files j x → defn w files x ≠ none →
      lookup st'.graph.dependsOn x ≠ none := by
    intro j x hj hr hd
    by_cases hjk : j < k
    · exact keep x (hb.found j x hjk hr hd)
    · have : j = k := by omega
      subst this
      rcases hb.reach_todo x hr with h | h
      · rw [key, if_pos h]; exact hd
      · exact keep x (h.2 hd)
  have all_value : ∀ x ds, lookup st'.graph.dependsOn x = some ds → defn w files x = some ds ∧
      ∃ j, j < k + 1 ∧ ReachIn w pattern files j x := by
    intro x ds h
    rw [key] at h
    split at h
    · next hx => exact ⟨h, k, by omega, hb.todo_reach x hx⟩
    · obtain ⟨h1, j, h2, h3⟩ := hb.value x ds h
      exact ⟨h1, j, by omega, h3⟩
  have hleft : ∀ x, x ∈ st'.todo ↔ x ∈ todo ∧ defn w files x = none := by
    intro x
    rw [c2]
    constructor
    · rintro ⟨h, h'⟩; exact ⟨h, (hdefn x h).symm.trans h'⟩
    · rintro ⟨h, h'⟩; exact ⟨h, (hdefn x h).trans h'⟩
  have hold : ∀ x, ReachIn w pattern files (k + 1) x → x ∈ st'.next ∨ ∃ j, j < k + 1 ∧ ReachIn w pattern files j x := by
    intro x hx
    cases hx with
    | step ht he =>
      rename_i t
      obtain ⟨ds, hd, hu⟩ := edge_iff.1 he
      rcases hb.reach_todo t ht with h | h
      · rcases c6 t ds x h ((hdefn t h).trans hd) hu with h' | h' | h'
        · exact .inl h'
        · rw [c2] at h'
          exact .inr ⟨k, by omega, hb.todo_reach x h'.1⟩
        · cases hlk : lookup st'.graph.dependsOn x with
          | none => exact absurd hlk h'
          | some v =>
            obtain ⟨_, j, hj, hr⟩ := all_value x v hlk
            exact .inr ⟨j, hj, hr⟩
      · have := h.2 (by simp [hd])
        cases hlk : lookup g.dependsOn t with
        | none => exact absurd hlk this
        | some v =>
          obtain ⟨_, j, hj, hr⟩ := hb.value t v hlk
          exact .inr ⟨j + 1, by omega, .step hr he⟩
  refine ⟨⟨h2, ?_, ?_, ?_, c1.next_nodup, fun x hx => (c1.next_new x hx).1, ?_, ?_, hold, all_tried,
    all_found, all_value, c1.symmetric, c1.keys, c1.keys'⟩, hleft⟩
  · intro pkg ast
    constructor
    · intro h
      refine ⟨?_, by simp [h]⟩
      rw [h3] at h
      split at h
      · exact h
      · exact ((hb.loaded pkg ast).1 h).1
    · rintro ⟨h, h'⟩
      rw [h3] at h' ⊢
      split at h'
      · next hp => rw [if_pos hp]; exact h
      · next hp => rw [if_neg hp]; exact (hb.loaded pkg ast).2 ⟨h, h'⟩
  · intro pkg h
    apply hb.kept
    cases h' : lookup now pkg with
    | none => rfl
    | some ast => rw [mono pkg ast h'] at h; cases h
  · intro pkg h
    rw [h3] at h
    split at h
    · next hp =>
      obtain ⟨t, ht, rfl⟩ := (hmem pkg).1 hp
      exact .inr ⟨k, t, by omega, hb.todo_reach t ht, rfl⟩
    · rcases hb.wanted pkg h with h | ⟨j, t, h1, h2⟩
      · exact .inl h
      · exact .inr ⟨j, t, by omega, h2⟩
  · intro x hx
    obtain ⟨t, ds, ht, hds, hu⟩ := c4 x hx
    refine .step (hb.todo_reach t ht) (edge_iff.2 ⟨ds, ?_, hu⟩)
    rw [← hdefn t ht]; exact hds
  · intro x hx
    rcases hold x hx with h | ⟨j, hj, hr⟩
    · exact .inl h
    · exact .inr ⟨all_tried j x hj hr, all_found j x hj hr⟩

/-- What the graph is, if all that can be reached in less than `k` steps is followed. -/
structure After (w : World) (pattern : BazelPattern) (files : Files) (k : Nat) (now : Files) (g : Graph) :
    Prop where
  value : ∀ x ds, lookup g.dependsOn x = some ds ↔ defn w files x = some ds ∧
    ∃ j, j < k ∧ ReachIn w pattern files j x
  loaded : ∀ pkg ast, lookup now pkg = some ast ↔ treeOf w files pkg = some ast ∧
    (lookup files pkg ≠ none ∨ ∃ j t, j < k ∧ ReachIn w pattern files j t ∧ t.package = pkg)
  searchable : ∀ f ∈ now, Searchable f.2
  symmetric : Symmetric g
  keys : (g.dependsOn.map (·.1)).Nodup
  keys' : (g.hasDependents.map (·.1)).Nodup

theorem Before.after {w : World} {pattern : BazelPattern} {files : Files} {k : Nat} {now : Files}
    {g : Graph} {todo : List BazelTarget} (hb : Before w pattern files k now g todo) :
    After w pattern files k now g := by
  refine ⟨?_, ?_, hb.searchable, hb.symmetric, hb.keys, hb.keys'⟩
  · intro x ds
    refine ⟨hb.value x ds, ?_⟩
    rintro ⟨hd, j, hj, hr⟩
    cases h : lookup g.dependsOn x with
    | none => exact absurd h (hb.found j x hj hr (by simp [hd]))
    | some v => rw [← hd, (hb.value x v h).1]
  · intro pkg ast
    constructor
    · intro h
      exact ⟨((hb.loaded pkg ast).1 h).1, hb.wanted pkg (by simp [h])⟩
    · rintro ⟨h, h' | ⟨j, t, hj, hr, rfl⟩⟩
      · exact (hb.loaded pkg ast).2 ⟨h, fun hn => h' (hb.kept pkg hn)⟩
      · rw [hb.tried j t hj hr]; exact h

/-- If there is nothing left to follow, all that can be reached is. -/
theorem Before.closed {w : World} {pattern : BazelPattern} {files : Files} {k : Nat} {now : Files}
    {g : Graph} (hb : Before w pattern files (k + 1) now g []) (m : Nat) (x : BazelTarget)
    (hm : ReachIn w pattern files m x) :
    lookup now x.package = treeOf w files x.package ∧
      (defn w files x ≠ none → lookup g.dependsOn x ≠ none) := by
  have base : ∀ j y, j ≤ k + 1 → ReachIn w pattern files j y →
      lookup now y.package = treeOf w files y.package ∧
      (defn w files y ≠ none → lookup g.dependsOn y ≠ none) := by
    intro j y hj hr
    by_cases h : j < k + 1
    · exact ⟨hb.tried j y h hr, hb.found j y h hr⟩
    · have : j = k + 1 := by omega
      subst this
      exact (hb.reach_todo y hr).resolve_left (by simp)
  induction hm with
  | root h => exact base 0 _ (by omega) (.root h)
  | step hr he ih =>
    obtain ⟨ds, hd, hu⟩ := edge_iff.1 he
    have := ih.2 (by simp [hd])
    rename_i n t u
    cases hlk : lookup g.dependsOn t with
    | none => exact absurd hlk this
    | some v =>
      obtain ⟨_, j, hj, hr'⟩ := hb.value _ v hlk
      exact base (j + 1) _ (by omega) (.step hr' he)

theorem Before.after_all {w : World} {pattern : BazelPattern} {files : Files} {k : Nat} {now : Files}
    {g : Graph} (hb : Before w pattern files (k + 1) now g []) (m : Nat) (hm : k + 1 ≤ m) :
    After w pattern files m now g := by
  refine ⟨?_, ?_, hb.searchable, hb.symmetric, hb.keys, hb.keys'⟩
  · intro x ds
    constructor
    · intro h
      obtain ⟨h1, j, hj, hr⟩ := hb.value x ds h
      exact ⟨h1, j, by omega, hr⟩
    rintro ⟨hd, j, hj, hr⟩
    cases h : lookup g.dependsOn x with
    | none => exact absurd h ((hb.closed j x hr).2 (by simp [hd]))
    | some v => rw [← hd, (hb.value x v h).1]
  · intro pkg ast
    constructor
    · intro h
      refine ⟨((hb.loaded pkg ast).1 h).1, ?_⟩
      rcases hb.wanted pkg (by simp [h]) with h | ⟨j, t, hj, hr⟩
      · exact .inl h
      · exact .inr ⟨j, t, by omega, hr⟩
    · rintro ⟨h, h' | ⟨j, t, hj, hr, rfl⟩⟩
      · exact (hb.loaded pkg ast).2 ⟨h, fun hn => h' (hb.kept pkg hn)⟩
      · rw [(hb.closed j t hr).1]; exact h

theorem rounds_spec {w : World} {pattern : BazelPattern} {files : Files} (n : Nat) {k : Nat} {now : Files}
    {g : Graph} {todo : List BazelTarget} (hb : Before w pattern files k now g todo)
    (hl : ∀ j t, j ≤ k + n → ReachIn w pattern files j t → lookup files t.package = none →
      LoadsWell w t.package) :
    ∃ now' g', rounds w now g todo n = some (now', g') ∧
      After w pattern files (k + n + 1) now' g' := by
  induction n generalizing k now g todo with
  | zero =>
    obtain ⟨now', st, h1, h2, _⟩ := round_spec hb (fun t => hl k t (by omega))
    exact ⟨now', st.graph, by rw [rounds, h1]; rfl, h2.after⟩
  | succ n ih =>
    obtain ⟨now', st, h1, h2, _⟩ := round_spec hb (fun t => hl k t (by omega))
    rw [rounds, h1]
    simp only []
    by_cases hn : st.next = []
    · rw [if_pos hn]
      rw [hn] at h2
      exact ⟨now', st.graph, rfl, h2.after_all _ (by omega)⟩
    · rw [if_neg hn]
      obtain ⟨a, b, h3, h4⟩ := ih h2 (fun j t hj => hl j t (by omega))
      exact ⟨a, b, h3, by rwa [show k + (n + 1) + 1 = k + 1 + n + 1 by omega]⟩

theorem initial_spec {pattern : BazelPattern} {files : Files} (hs : ∀ f ∈ files, Searchable f.2) :
    ∃ todo, initial pattern files = some todo ∧ todo.Nodup ∧ ∀ t, t ∈ todo ↔ Root pattern files t := by
  have := mapAll_spec (f := fun f : BazelPackage × Node =>
    if !pattern.matchPackage f.1 then some []
    else forTargets f.2 [] fun r =>
      match f.1.qualifiedTarget r.name with
      | none => some []
      | some t => if pattern.matchTarget t then some [t] else some [])
    (P := fun f t => ∃ r ∈ rulesOf [] f.2, f.1.qualifiedTarget r.name = some t ∧
      pattern.matchTarget t = true) (l := files) (by
    intro f hf
    by_cases hp : pattern.matchPackage f.1 = true
    · simp only [hp, Bool.not_true, Bool.false_eq_true, if_false]
      refine forTargets_spec (P := fun r t => f.1.qualifiedTarget r.name = some t ∧
        pattern.matchTarget t = true) (hs f hf).proper ?_
      intro r _
      cases hq : f.1.qualifiedTarget r.name with
      | none => exact ⟨[], rfl, by simp⟩
      | some t =>
        by_cases ht : pattern.matchTarget t = true
        · refine ⟨[t], by simp [ht], ?_⟩
          intro y
          simp only [List.mem_singleton, Option.some.injEq]
          constructor
          · rintro rfl; exact ⟨rfl, ht⟩
          · rintro ⟨rfl, _⟩; rfl
        · refine ⟨[], by simp [ht], ?_⟩
          intro y
          simp only [List.not_mem_nil, Option.some.injEq, false_iff]
          rintro ⟨rfl, h⟩; exact ht h
    · refine ⟨[], by simp [hp], ?_⟩
      intro y
      simp only [List.not_mem_nil, false_iff]
      rintro ⟨r, _, hq, hm⟩
      have := Props.C01_match_target_implies_package _ _ hm
      rw [qualifiedTarget_package hq] at this
      exact hp this)
  obtain ⟨l, h1, h2⟩ := this
  refine ⟨l.foldl (fun s t => add t s) [], ?_, (foldl_add id l []).2 List.nodup_nil, ?_⟩
  · exact congrArg (Option.map (·.foldl (fun s t => add t s) [])) h1
  · intro t
    have := (foldl_add id l []).1 t
    simp only [id_eq, List.not_mem_nil, false_or, exists_eq_right] at this
    rw [this, h2]; rfl

/-- Before the first round. -/
theorem initial_before {w : World} {pattern : BazelPattern} {files : Files} {todo : List BazelTarget}
    (hs : ∀ f ∈ files, Searchable f.2) (h2 : todo.Nodup) (h3 : ∀ t, t ∈ todo ↔ Root pattern files t) :
    Before w pattern files 0 files {} todo := by
  refine ⟨hs, ?_, fun _ h => h, fun _ h => .inl h, h2, fun _ _ => rfl, fun x hx => .root ((h3 x).1 hx),
    ?_, ?_, by omega, by omega, ?_, ?_, List.nodup_nil, List.nodup_nil⟩
  · intro pkg ast
    constructor
    · intro h; exact ⟨treeOf_of_lookup h, by simp [h]⟩
    · rintro ⟨h, h'⟩
      cases hk : lookup files pkg with
      | none => exact absurd hk h'
      | some a => rw [← h, treeOf_of_lookup hk]
  · intro x hx
    cases hx with
    | root h => exact .inl ((h3 x).2 h)
  · intro x hx
    cases hx with
    | root h => exact .inl ((h3 x).2 h)
  · intro x ds h; cases h
  · intro a b; rfl

theorem build_spec {w : World} {pattern : BazelPattern} {files : Files} (depth : Int)
    (hs : ∀ f ∈ files, Searchable f.2)
    (hl : ∀ j t, j ≤ depth.toNat → ReachIn w pattern files j t → lookup files t.package = none →
      LoadsWell w t.package) :
    ∃ now g, build w pattern depth files = some (now, g) ∧
      After w pattern files (depth.toNat + 1) now g := by
  obtain ⟨todo, h1, h2, h3⟩ := initial_spec (pattern := pattern) hs
  unfold build
  rw [h1]
  have hb : Before w pattern files 0 files {} todo := initial_before hs h2 h3
  obtain ⟨now, g, h4, h5⟩ := rounds_spec depth.toNat hb (fun j t hj => hl j t (by omega))
  exact ⟨now, g, h4, by rwa [Nat.zero_add] at h5⟩

/-! ### Any project -/

theorem visit_ok {pkg : BazelPackage} {st st' : Round} {r : Result} (hst : RoundOk st)
    (h : DepGraph.visit pkg st r = some st') : RoundOk st' := by
  unfold DepGraph.visit at h
  cases hq : pkg.qualifiedTarget r.name with
  | none => rw [hq] at h; cases h; exact hst
  | some t =>
    rw [hq] at h
    simp only [] at h
    by_cases ht : t ∉ st.todo
    · rw [if_pos ht] at h; cases h; exact hst
    · rw [if_neg ht] at h
      cases hd : stringList r.deps with
      | none => rw [hd] at h; cases h
      | some deps =>
        rw [hd] at h
        simp only [follow_fold, Option.some.injEq] at h
        have := (stepT_spec hst ((if r.actual = [] then deps else deps ++ [r.actual]).filterMap
          (BazelTarget.parseFrom · t.package)) (by simpa using ht)).1
        unfold stepT at this
        rw [if_neg ht] at this
        rw [← h]; exact this

theorem visitAll_ok {pkg : BazelPackage} (l : List Result) {st st' : Round} (hst : RoundOk st)
    (h : visitAll pkg st l = some st') : RoundOk st' := by
  induction l generalizing st with
  | nil => cases h; exact hst
  | cons r l ih =>
    rw [visitAll] at h
    cases hv : DepGraph.visit pkg st r with
    | none => rw [hv] at h; cases h
    | some st1 => rw [hv] at h; exact ih (visit_ok hst hv) h

theorem scan_ok {files : Files} (ps : List BazelPackage) {st st' : Round} (hst : RoundOk st)
    (h : scan files st ps = some st') : RoundOk st' := by
  induction ps generalizing st with
  | nil => cases h; exact hst
  | cons p ps ih =>
    rw [scan] at h
    cases hl : lookup files p with
    | none => rw [hl] at h; exact ih hst h
    | some ast =>
      rw [hl] at h
      simp only [] at h
      cases hf : findTargets false ast [] with
      | none => rw [hf] at h; cases h
      | some rs =>
        rw [hf] at h
        simp only [] at h
        cases hv : visitAll p st rs with
        | none => rw [hv] at h; cases h
        | some st1 => rw [hv] at h; exact ih (visitAll_ok rs hst hv) h

/-- The two maps. -/
structure GraphOk (g : Graph) : Prop where
  symmetric : Symmetric g
  keys : (g.dependsOn.map (·.1)).Nodup
  keys' : (g.hasDependents.map (·.1)).Nodup

theorem round_ok {w : World} {files : Files} {g : Graph} {todo : List BazelTarget} {files' : Files}
    {st : Round} (hg : GraphOk g) (hn : todo.Nodup) (ht : ∀ x ∈ todo, lookup g.dependsOn x = none)
    (h : round w files g todo = some (files', st)) : RoundOk st := by
  unfold round at h
  generalize todo.foldl (fun s t => add t.package s) [] = ps at h
  simp only [] at h
  cases hp : parseMissing w files ps with
  | none => rw [hp] at h; cases h
  | some now =>
    rw [hp] at h
    simp only [] at h
    cases hs : scan now { todo := todo, graph := g } ps with
    | none => rw [hs] at h; cases h
    | some st1 =>
      rw [hs] at h
      cases h
      exact scan_ok ps ⟨hn, List.nodup_nil, ht, by simp, hg.symmetric, hg.keys, hg.keys'⟩ hs

theorem rounds_ok {w : World} (n : Nat) {files : Files} {g : Graph} {todo : List BazelTarget}
    {files' : Files} {g' : Graph} (hg : GraphOk g) (hn : todo.Nodup)
    (ht : ∀ x ∈ todo, lookup g.dependsOn x = none)
    (h : rounds w files g todo n = some (files', g')) : GraphOk g' := by
  induction n generalizing files g todo with
  | zero =>
    rw [rounds] at h
    cases hr : round w files g todo with
    | none => rw [hr] at h; cases h
    | some r =>
      obtain ⟨now, st⟩ := r
      rw [hr] at h
      cases h
      have := round_ok hg hn ht hr
      exact ⟨this.symmetric, this.keys, this.keys'⟩
  | succ n ih =>
    rw [rounds] at h
    cases hr : round w files g todo with
    | none => rw [hr] at h; cases h
    | some r =>
      obtain ⟨now, st⟩ := r
      rw [hr] at h
      simp only [] at h
      have := round_ok hg hn ht hr
      have hg' : GraphOk st.graph := ⟨this.symmetric, this.keys, this.keys'⟩
      split at h
      · cases h; exact hg'
      · exact ih hg' this.next_nodup (fun x hx => (this.next_new x hx).1) h

theorem build_ok {w : World} {pattern : BazelPattern} {depth : Int} {files files' : Files} {g : Graph}
    (h : build w pattern depth files = some (files', g)) : GraphOk g := by
  unfold build at h
  cases hi : initial pattern files with
  | none => rw [hi] at h; cases h
  | some todo =>
    rw [hi] at h
    have hn : todo.Nodup := by
      unfold initial at hi
      cases hm : mapAll (fun f : BazelPackage × Node =>
        if !pattern.matchPackage f.1 then some []
        else forTargets f.2 [] fun r =>
          match f.1.qualifiedTarget r.name with
          | none => some []
          | some t => if pattern.matchTarget t then some [t] else some []) files with
      | none =>
        have := congrArg (Option.map (·.foldl (fun s t => add t s) [])) hm
        exact absurd (hi.symm.trans this) (by simp)
      | some l =>
        have := congrArg (Option.map (·.foldl (fun s t => add t s) [])) hm
        have := hi.symm.trans this
        simp only [Option.map_some, Option.some.injEq] at this
        rw [this]
        exact (foldl_add id l []).2 List.nodup_nil
    exact rounds_ok (g := {}) _ ⟨fun a b => rfl, List.nodup_nil, List.nodup_nil⟩ hn (fun _ _ => rfl) h

/-! ### Distances -/

/-- The least number of steps. -/
def MinDist (w : World) (pattern : BazelPattern) (files : Files) (n : Nat) (x : BazelTarget) : Prop :=
  ReachIn w pattern files n x ∧ ∀ j, j < n → ¬ ReachIn w pattern files j x

theorem minDist_exists {w : World} {pattern : BazelPattern} {files : Files} (n : Nat) (x : BazelTarget)
    (h : ReachIn w pattern files n x) : ∃ m, m ≤ n ∧ MinDist w pattern files m x := by
  induction n using Nat.strongRecOn with
  | ind n ih =>
    by_cases hm : ∃ j, j < n ∧ ReachIn w pattern files j x
    · obtain ⟨j, hj, hr⟩ := hm
      obtain ⟨m, h1, h2⟩ := ih j hj hr
      exact ⟨m, by omega, h2⟩
    · exact ⟨n, by omega, h, fun j hj hr => hm ⟨j, hj, hr⟩⟩

/-- On the way to a target there are as many other targets as there are steps. -/
theorem minDist_path {w : World} {pattern : BazelPattern} {files : Files} (n : Nat) (x : BazelTarget)
    (h : MinDist w pattern files n x) : ∃ ys : List BazelTarget, ys.length = n ∧ ys.Nodup ∧
      ∀ y ∈ ys, defn w files y ≠ none ∧ ∃ j, j < n ∧ MinDist w pattern files j y := by
  induction n generalizing x with
  | zero => exact ⟨[], rfl, List.nodup_nil, by simp⟩
  | succ n ih =>
    obtain ⟨hr, hmin⟩ := h
    cases hr with
    | step ht he =>
      rename_i t
      have hd : MinDist w pattern files n t :=
        ⟨ht, fun j hj hr => hmin (j + 1) (by omega) (.step hr he)⟩
      obtain ⟨ys, h1, h2, h3⟩ := ih t hd
      refine ⟨t :: ys, by simp [h1], ?_, ?_⟩
      · rw [List.nodup_cons]
        refine ⟨?_, h2⟩
        intro hy
        obtain ⟨_, j, hj, hm⟩ := h3 t hy
        exact hd.2 j hj hm.1
      · intro y hy
        rcases List.mem_cons.1 hy with rfl | hy
        · obtain ⟨ds, hds, _⟩ := edge_iff.1 he
          exact ⟨by simp [hds], n, by omega, hd⟩
        · obtain ⟨h, j, hj, hm⟩ := h3 y hy
          exact ⟨h, j, by omega, hm⟩

end Bant
