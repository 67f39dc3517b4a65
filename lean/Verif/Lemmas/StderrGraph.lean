import Verif.Lemmas.StderrKnown
import Verif.Spec.Stderr
import Verif.Props.DepGraph

/-! What is said while the graph is built. -/
namespace Bant
namespace Stderr
open Commands Headers Cli GraphSpec StderrSpec

/-- What is said about the file of a package. -/
def saysOf (w : DepGraph.World) (pkg : BazelPackage) : List Str :=
  match DepGraph.pathForPackage w pkg with
  | none => []
  | some path => textsFor w.fs path

/-- The packages of which there is no file, of those that are not loaded. -/
def lost (w : DepGraph.World) (files : Files) (pkg : BazelPackage) : Bool :=
  (lookup files pkg).isNone && (DepGraph.pathForPackage w pkg).isNone

/-- The packages of which there is a file, of those that are not loaded. -/
def fresh (w : DepGraph.World) (files : Files) (pkg : BazelPackage) : Bool :=
  (lookup files pkg).isNone && (DepGraph.pathForPackage w pkg).isSome

theorem missing_spec {w : DepGraph.World} {ps : List BazelPackage} (hn : ps.Nodup) {files now : Files}
    (h : DepGraph.parseMissing w files ps = some now) :
    missing w files ps = some (ps.filter (lost w files), (ps.filter (fresh w files)).flatMap (saysOf w)) ∧
      ∀ pkg, (lookup now pkg).isSome = true ↔ (lookup files pkg).isSome = true ∨ pkg ∈ ps.filter (fresh w files) := by
  induction ps generalizing files with
  | nil => cases h; exact ⟨rfl, by simp⟩
  | cons pkg ps ih =>
    obtain ⟨hn1, hn2⟩ := List.nodup_cons.1 hn
    rw [DepGraph.parseMissing] at h
    rw [missing]
    cases hl : lookup files pkg with
    | some a =>
      rw [hl] at h
      obtain ⟨h1, h2⟩ := ih hn2 h
      have e1 : lost w files pkg = false := by simp [lost, hl]
      have e2 : fresh w files pkg = false := by simp [fresh, hl]
      simp only [List.filter_cons, e1, e2, Bool.false_eq_true, if_false]
      exact ⟨h1, h2⟩
    | none =>
      rw [hl] at h
      simp only at h ⊢
      cases hp : DepGraph.pathForPackage w pkg with
      | none =>
        simp only [DepGraph.load, hp] at h
        obtain ⟨h1, h2⟩ := ih hn2 h
        have e1 : lost w files pkg = true := by simp [lost, hl, hp]
        have e2 : fresh w files pkg = false := by simp [fresh, hp]
        simp only [List.filter_cons, e1, e2, Bool.false_eq_true, if_false, if_true, h1, Option.map_some]
        exact ⟨trivial, h2⟩
      | some path =>
        have e1 : lost w files pkg = false := by simp [lost, hp]
        have e2 : fresh w files pkg = true := by simp [fresh, hl, hp]
        cases hload : DepGraph.load w pkg with
        | none => rw [hload] at h; cases h
        | some o =>
          have hload0 := hload
          unfold DepGraph.load at hload
          rw [hp] at hload
          simp only at hload
          cases hc : w.fs.content path with
          | none => rw [hc] at hload; cases hload
          | some content =>
            rw [hc] at hload
            simp only at hload
            cases hf : Parser.parseFile content with
            | none => rw [hf] at hload; cases hload
            | some a =>
              rw [hf] at hload
              obtain ⟨t, _, rfl⟩ := Option.map_eq_some_iff.1 hload
              rw [hload0] at h
              simp only at h
              obtain ⟨h1, h2⟩ := ih hn2 h
              obtain ⟨ms, hm, _⟩ := ofFile_known path content
              have hlook : ∀ q, lookup (insertNew pkg t files) q = if q = pkg then some t else lookup files q := by
                intro q
                rw [lookup_insertNew, hl]
                rfl
              have e3 : ∀ q ∈ ps, lost w (insertNew pkg t files) q = lost w files q := by
                intro q hq
                have : q ≠ pkg := fun e => hn1 (e ▸ hq)
                simp [lost, hlook, this]
              have e4 : ∀ q ∈ ps, fresh w (insertNew pkg t files) q = fresh w files q := by
                intro q hq
                have : q ≠ pkg := fun e => hn1 (e ▸ hq)
                simp [fresh, hlook, this]
              rw [List.filter_congr e3, List.filter_congr e4] at h1
              rw [List.filter_congr e4] at h2
              have hsays : saysOf w pkg = ms := by simp [saysOf, hp, textsFor, hc, hm]
              constructor
              · simp only [List.filter_cons, e1, e2, Bool.false_eq_true, if_false, if_true, List.flatMap_cons, hsays,
                  hc, Option.bind_some, hm, DepGraph.parseMissing, hl, hload0, h1, Option.map_some]
              · intro q
                rw [h2, hlook]
                simp only [List.filter_cons, e2, if_true, List.mem_cons]
                by_cases hq : q = pkg
                · simp [hq]
                · simp [hq]

theorem packages_nodup (todo : List BazelTarget) :
    (todo.foldl (fun s t => add t.package s) ([] : List BazelPackage)).Nodup ∧
      ∀ pkg, pkg ∈ todo.foldl (fun s t => add t.package s) ([] : List BazelPackage) ↔ ∃ t ∈ todo, t.package = pkg := by
  have h := foldl_add (fun t : BazelTarget => t.package) todo ([] : List BazelPackage)
  exact ⟨h.2 List.nodup_nil, fun pkg => by rw [h.1]; simp⟩

theorem round_said {w : DepGraph.World} {files now : Files} {g : DepGraph.Graph} {todo : List BazelTarget}
    {st : DepGraph.Round} {a a' : Account} (h : round w files g todo a = some (now, st, a')) :
    DepGraph.round w files g todo = some (now, st) ∧
    ∃ news : List BazelPackage, a'.said = a.said ++ news.flatMap (saysOf w) ∧ news.Nodup ∧
      (∀ pkg, pkg ∈ news ↔ lookup files pkg = none ∧ (lookup now pkg).isSome = true) ∧
      (∀ pkg, (lookup files pkg).isSome = true → (lookup now pkg).isSome = true) ∧
      a'.packages = ((todo.foldl (fun s t => add t.package s) []).filter (lost w files)).foldl
        (fun s p => add p s) a.packages ∧
      a'.targets = st.todo.foldl (fun s t => add t s) a.targets := by
  unfold round at h
  split at h
  · rename_i packages said files' st' h1 h2
    simp only [Option.some.injEq, Prod.mk.injEq] at h
    obtain ⟨rfl, rfl, rfl⟩ := h
    refine ⟨h2, ?_⟩
    have h3 := h2
    unfold DepGraph.round at h3
    cases hp : DepGraph.parseMissing w files (todo.foldl (fun s t => add t.package s) []) with
    | none => simp only [hp] at h3; cases h3
    | some x =>
      simp only [hp] at h3
      obtain ⟨_, _, h4⟩ := Option.map_eq_some_iff.1 h3
      cases h4
      obtain ⟨h5, h6⟩ := missing_spec (packages_nodup todo).1 hp
      rw [h1] at h5
      cases h5
      refine ⟨_, rfl, (packages_nodup todo).1.sublist List.filter_sublist, ?_, ?_, rfl, rfl⟩
      · intro pkg
        rw [h6]
        constructor
        · intro h
          refine ⟨?_, .inr h⟩
          have := (List.mem_filter.1 h).2
          simp only [fresh, Bool.and_eq_true, Option.isNone_iff_eq_none] at this
          exact this.1
        · rintro ⟨h, h' | h'⟩
          · rw [h] at h'; cases h'
          · exact h'
      · exact fun pkg h => (h6 pkg).2 (.inl h)
  · cases h

/-- What is said about files while the graph is built: for each package that is loaded, once what the parser says. -/
theorem rounds_said {w : DepGraph.World} (n : Nat) {files now : Files} {g g' : DepGraph.Graph} {todo : List BazelTarget}
    {a a' : Account} (h : rounds w files g todo a n = some a')
    (hb : DepGraph.rounds w files g todo n = some (now, g')) :
    ∃ news : List BazelPackage, a'.said = a.said ++ news.flatMap (saysOf w) ∧ news.Nodup ∧
      (∀ pkg, pkg ∈ news ↔ lookup files pkg = none ∧ (lookup now pkg).isSome = true) ∧
      (∀ pkg, (lookup files pkg).isSome = true → (lookup now pkg).isSome = true) := by
  induction n generalizing files g todo a with
  | zero =>
    rw [rounds] at h
    rw [DepGraph.rounds] at hb
    obtain ⟨⟨f, st, a1⟩, h1, rfl⟩ := Option.map_eq_some_iff.1 h
    obtain ⟨h2, news, h3, h4, h5, h6, _⟩ := round_said h1
    rw [h2] at hb
    cases hb
    exact ⟨news, h3, h4, h5, h6⟩
  | succ n ih =>
    rw [rounds] at h
    rw [DepGraph.rounds] at hb
    cases h1 : round w files g todo a with
    | none => rw [h1] at h; cases h
    | some x =>
      obtain ⟨f, st, a1⟩ := x
      obtain ⟨h2, news, h3, h4, h5, h6, _⟩ := round_said h1
      rw [h1] at h
      rw [h2] at hb
      simp only at h hb
      by_cases hn : st.next = []
      · rw [if_pos hn] at h hb
        cases h; cases hb
        exact ⟨news, h3, h4, h5, h6⟩
      · rw [if_neg hn] at h hb
        obtain ⟨more, g3, g4, g5, g6⟩ := ih h hb
        refine ⟨news ++ more, by rw [g3, h3]; simp, ?_, fun pkg => ?_, fun pkg hp => g6 pkg (h6 pkg hp)⟩
        · refine List.nodup_append.2 ⟨h4, g4, fun x hx y hy e => ?_⟩
          subst e
          have := (h5 x).1 hx
          rw [(g5 x).1 hy |>.1] at this
          exact absurd this.2 (by simp)
        · rw [List.mem_append, h5, g5]
          constructor
          · rintro (⟨h, h'⟩ | ⟨h, h'⟩)
            · exact ⟨h, g6 pkg h'⟩
            · refine ⟨?_, h'⟩
              cases hl : lookup files pkg with
              | none => rfl
              | some v =>
                have := h6 pkg (by rw [hl]; rfl)
                rw [h] at this; cases this
          · rintro ⟨h, h'⟩
            cases hl : lookup f pkg with
            | none => exact .inr ⟨rfl, h'⟩
            | some v => exact .inl ⟨h, rfl⟩

/-! ### What is not found -/

/-- What is known before round `k`: of what has been reached in less steps, the packages and targets that are not there. -/
structure Listed (w : DepGraph.World) (pattern : BazelPattern) (files : Files) (k : Nat) (a : Account) : Prop where
  packages : ∀ pkg, pkg ∈ a.packages ↔ treeOf w files pkg = none ∧
    ∃ j t, j < k ∧ ReachIn w pattern files j t ∧ t.package = pkg
  targets : ∀ t, t ∈ a.targets ↔ defn w files t = none ∧ ∃ j, j < k ∧ ReachIn w pattern files j t
  ascending : Ascending a.packages
  ascending' : Ascending a.targets

/-- There is no file if there is none to load. -/
theorem treeOf_none {w : DepGraph.World} {files : Files} {pkg : BazelPackage} (hl : lookup files pkg = none)
    (hw : LoadsWell w pkg) : treeOf w files pkg = none ↔ DepGraph.pathForPackage w pkg = none := by
  obtain ⟨tree, h1, _⟩ := hw
  unfold treeOf
  rw [hl, h1]
  unfold DepGraph.load at h1
  cases hp : DepGraph.pathForPackage w pkg with
  | none => rw [hp] at h1; cases h1; simp
  | some path =>
    rw [hp] at h1
    simp only at h1
    split at h1
    · cases h1
    · split at h1
      · cases h1
      · obtain ⟨t, _, rfl⟩ := Option.map_eq_some_iff.1 h1
        simp

theorem round_listed {w : DepGraph.World} {pattern : BazelPattern} {files now now' : Files} {k : Nat}
    {g : DepGraph.Graph} {todo : List BazelTarget} {st : DepGraph.Round} {a a' : Account}
    (hb : Before w pattern files k now g todo) (ha : Listed w pattern files k a)
    (hl : ∀ t, ReachIn w pattern files k t → lookup files t.package = none → LoadsWell w t.package)
    (h : round w now g todo a = some (now', st, a')) :
    Before w pattern files (k + 1) now' st.graph st.next ∧ Listed w pattern files (k + 1) a' := by
  obtain ⟨h1, _, _, _, _, _, hp, ht⟩ := round_said h
  obtain ⟨now2, st2, h2, hb2, hleft⟩ := round_spec hb hl
  rw [h1] at h2
  cases h2
  refine ⟨hb2, ⟨fun pkg => ?_, fun t => ?_, ?_, ?_⟩⟩
  · rw [hp, (foldl_add (fun p : BazelPackage => p) _ _).1]
    simp only [exists_eq_right, List.mem_filter, (packages_nodup todo).2, ha.packages]
    constructor
    · rintro (⟨h, j, t, hj, hr⟩ | ⟨⟨t, ht, rfl⟩, hlost⟩)
      · exact ⟨h, j, t, by omega, hr⟩
      · simp only [lost, Bool.and_eq_true, Option.isNone_iff_eq_none] at hlost
        have hf := hb.kept _ hlost.1
        exact ⟨(treeOf_none hf (hl t (hb.todo_reach t ht) hf)).2 hlost.2, k, t, by omega, hb.todo_reach t ht, rfl⟩
    · rintro ⟨h, j, t, hj, hr, rfl⟩
      by_cases hjk : j < k
      · exact .inl ⟨h, j, t, hjk, hr, rfl⟩
      · have : j = k := by omega
        subst this
        rcases hb.reach_old t hr with hin | ⟨i, hi, hr'⟩
        · refine .inr ⟨⟨t, hin, rfl⟩, ?_⟩
          have hnow : lookup now t.package = none := by
            cases hk : lookup now t.package with
            | none => rfl
            | some ast =>
              have := ((hb.loaded _ ast).1 hk).1
              rw [h] at this; cases this
          have hf := hb.kept _ hnow
          simp only [lost, Bool.and_eq_true, Option.isNone_iff_eq_none]
          exact ⟨hnow, (treeOf_none hf (hl t hr hf)).1 h⟩
        · exact .inl ⟨h, i, t, hi, hr', rfl⟩
  · rw [ht, (foldl_add (fun p : BazelTarget => p) _ _).1]
    simp only [exists_eq_right, hleft, ha.targets]
    constructor
    · rintro (⟨h, j, hj, hr⟩ | ⟨hin, hd⟩)
      · exact ⟨h, j, by omega, hr⟩
      · exact ⟨hd, k, by omega, hb.todo_reach t hin⟩
    · rintro ⟨h, j, hj, hr⟩
      by_cases hjk : j < k
      · exact .inl ⟨h, j, hjk, hr⟩
      · have : j = k := by omega
        subst this
        rcases hb.reach_old t hr with hin | ⟨i, hi, hr'⟩
        · exact .inr ⟨hin, h⟩
        · exact .inl ⟨h, i, hi, hr'⟩
  · rw [hp]; exact foldl_add_ascending (fun p : BazelPackage => p) _ _ ha.ascending
  · rw [ht]; exact foldl_add_ascending (fun p : BazelTarget => p) _ _ ha.ascending'

/-- If there is nothing left to follow, all that can be reached has been reached already. -/
theorem reached_before {w : DepGraph.World} {pattern : BazelPattern} {files now : Files} {k : Nat} {g : DepGraph.Graph}
    (hb : Before w pattern files (k + 1) now g []) {m : Nat} {x : BazelTarget} (h : ReachIn w pattern files m x) :
    ∃ j, j < k + 1 ∧ ReachIn w pattern files j x := by
  induction h with
  | root h => exact ⟨0, by omega, .root h⟩
  | step hr he ih =>
    obtain ⟨j, hj, hr'⟩ := ih
    have h := ReachIn.step hr' he
    by_cases hjk : j + 1 < k + 1
    · exact ⟨j + 1, hjk, h⟩
    · have : j = k := by omega
      subst this
      exact (hb.reach_old _ h).resolve_left (by simp)

theorem rounds_listed {w : DepGraph.World} {pattern : BazelPattern} {files : Files} (n : Nat) {k : Nat} {now : Files}
    {g : DepGraph.Graph} {todo : List BazelTarget} {a a' : Account} (hb : Before w pattern files k now g todo)
    (ha : Listed w pattern files k a)
    (hl : ∀ j t, j ≤ k + n → ReachIn w pattern files j t → lookup files t.package = none → LoadsWell w t.package)
    (h : rounds w now g todo a n = some a') : Listed w pattern files (k + n + 1) a' := by
  induction n generalizing k now g todo a with
  | zero =>
    rw [rounds] at h
    obtain ⟨⟨f, st, a1⟩, h1, rfl⟩ := Option.map_eq_some_iff.1 h
    exact (round_listed hb ha (fun t => hl k t (by omega)) h1).2
  | succ n ih =>
    rw [rounds] at h
    cases h1 : round w now g todo a with
    | none => rw [h1] at h; cases h
    | some x =>
      obtain ⟨f, st, a1⟩ := x
      obtain ⟨hb2, ha2⟩ := round_listed hb ha (fun t => hl k t (by omega)) h1
      rw [h1] at h
      simp only at h
      by_cases hn : st.next = []
      · rw [if_pos hn] at h
        cases h
        rw [hn] at hb2
        refine ⟨fun pkg => ?_, fun t => ?_, ha2.ascending, ha2.ascending'⟩
        · rw [ha2.packages]
          constructor
          · rintro ⟨h, j, t, hj, hr⟩; exact ⟨h, j, t, by omega, hr⟩
          · rintro ⟨h, j, t, _, hr, hp⟩
            obtain ⟨i, hi, hr'⟩ := reached_before hb2 hr
            exact ⟨h, i, t, hi, hr', hp⟩
        · rw [ha2.targets]
          constructor
          · rintro ⟨h, j, hj, hr⟩; exact ⟨h, j, by omega, hr⟩
          · rintro ⟨h, j, _, hr⟩
            exact ⟨h, reached_before hb2 hr⟩
      · rw [if_neg hn] at h
        have := ih hb2 ha2 (fun j t hj => hl j t (by omega)) h
        rwa [show k + (n + 1) + 1 = k + 1 + n + 1 by omega]

end Stderr
end Bant
