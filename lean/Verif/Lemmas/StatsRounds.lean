import Verif.Lemmas.StatsRun

/-! Helper lemmas: how many rounds there are until all dependencies are followed. -/
namespace Bant
namespace Stats
open Commands Cli CommandSpec StatsSpec Headers DepGraph GraphSpec

/-- On the way to a target there is one of each smaller distance. -/
theorem minDist_below {w : World} {pattern : BazelPattern} {files : Files} {n : Nat} {x : BazelTarget}
    (h : MinDist w pattern files n x) {k : Nat} (hk : k ≤ n) : ∃ y, MinDist w pattern files k y := by
  induction n generalizing x with
  | zero =>
    have : k = 0 := by omega
    exact ⟨x, this ▸ h⟩
  | succ n ih =>
    by_cases hkn : k = n + 1
    · exact ⟨x, hkn ▸ h⟩
    · obtain ⟨hr, hmin⟩ := h
      cases hr with
      | step ht he =>
        exact ih ⟨ht, fun j hj hr => hmin (j + 1) (by omega) (.step hr he)⟩ (by omega)

/-- What is to be followed next is either new, or not there at all. -/
theorem before_new {w : World} {pattern : BazelPattern} {files : Files} {k : Nat} {now : Files} {g : Graph}
    {todo : List BazelTarget} (hb : Before w pattern files k now g todo) {x : BazelTarget} (hx : x ∈ todo) :
    ReachIn w pattern files k x ∧ (defn w files x = none ∨ MinDist w pattern files k x) := by
  have hr := hb.todo_reach x hx
  refine ⟨hr, ?_⟩
  by_cases hd : defn w files x = none
  · exact .inl hd
  · exact .inr ⟨hr, fun j hj h => hb.found j x hj h hd (hb.todo_new x hx)⟩

theorem total_round (l : List Event) : total (⟨roundKey, c!"rounds", 1, none⟩ :: l) roundKey = total l roundKey + 1 := by
  unfold total ofKey
  rw [List.filter_cons_of_pos (by simp)]
  simp only [List.map_cons, List.sum_cons]
  omega

theorem total_append_ne {l l' : List Event} {k : Str} (h : ∀ e ∈ l, e.key ≠ k) : total (l ++ l') k = total l' k := by
  unfold total
  rw [ofKey_append, ofKey_none h, List.nil_append]

theorem rounds_number {w : World} (globs : BazelPackage → Option Nat) {pattern : BazelPattern} {files : Files} (n : Nat)
    {k : Nat} {now : Files} {g : Graph} {todo : List BazelTarget} (hb : Before w pattern files k now g todo)
    (hl : ∀ j t, j ≤ k + n → ReachIn w pattern files j t → lookup files t.package = none → LoadsWell w t.package) :
    ∃ l r, Stats.rounds w globs now g todo n = some l ∧ total l roundKey = r + 1 ∧ r ≤ n ∧
      (∀ d x, d ≤ k + n → MinDist w pattern files d x → d ≤ k + r) ∧
      (r = 0 ∨ ∃ x, ReachIn w pattern files (k + r) x ∧ (defn w files x = none ∨ MinDist w pattern files (k + r) x)) := by
  have hmiss : ∀ {now now' : Files} {g : Graph} {todo : List BazelTarget} {st : Round},
      DepGraph.round w now g todo = some (now', st) →
      ∃ l, missing w globs now (todo.foldl (fun s t => add t.package s) []) = some l ∧ ∀ e ∈ l, e.key ≠ roundKey := by
    intro now now' g todo st h
    unfold DepGraph.round at h
    cases hp : DepGraph.parseMissing w now (todo.foldl (fun s t => add t.package s) []) with
    | none => simp only [hp] at h; cases h
    | some x =>
      obtain ⟨l, h1, h2, _⟩ := missing_counted globs (Stderr.packages_nodup todo).1 hp
      exact ⟨l, h1, h2⟩
  induction n generalizing k now g todo with
  | zero =>
    obtain ⟨now', st, h1, h2, _⟩ := round_spec hb (fun t => hl k t (by omega))
    obtain ⟨l, h3, h4⟩ := hmiss h1
    refine ⟨_, 0, by rw [Stats.rounds, h3]; rfl, ?_, by omega, fun d x hd _ => by omega, .inl rfl⟩
    rw [total_round]
    have := total_append_ne (l' := []) h4
    rw [List.append_nil] at this
    rw [this]
    rfl
  | succ n ih =>
    obtain ⟨now', st, h1, h2, _⟩ := round_spec hb (fun t => hl k t (by omega))
    obtain ⟨l, h3, h4⟩ := hmiss h1
    rw [Stats.rounds, h1, h3]
    simp only []
    by_cases hn : st.next = []
    · rw [if_pos hn]
      refine ⟨_, 0, rfl, ?_, by omega, fun d x _ hx => ?_, .inl rfl⟩
      · rw [total_round, total_append_ne h4]
        rfl
      · by_cases hdk : d ≤ k
        · omega
        · obtain ⟨y, hy, hmin⟩ := minDist_below hx (k := k + 1) (by omega)
          rw [hn] at h2
          rcases h2.reach_old y hy with h | ⟨j, hj, hr⟩
          · cases h
          · exact absurd hr (hmin j hj)
    · rw [if_neg hn]
      obtain ⟨l', r, g1, g2, g3, g4, g5⟩ := ih h2 (fun j t hj => hl j t (by omega))
      refine ⟨_, r + 1, by rw [g1]; rfl, ?_, by omega, fun d x hd hx => ?_, .inr ?_⟩
      · rw [total_round, total_append_ne h4, g2]
      · have := g4 d x (by omega) hx
        omega
      · rcases g5 with rfl | ⟨x, hx⟩
        · obtain ⟨x, hx⟩ := List.exists_mem_of_ne_nil _ hn
          exact ⟨x, before_new h2 hx⟩
        · exact ⟨x, by rwa [show k + 1 + r = k + (r + 1) by omega] at hx⟩

theorem graph_number {m : Machine} (hh : Healthy m) (globs : BazelPackage → Option Nat) {ws : Workspace.Map}
    {flags : Flags} {cmd : Command} {pattern : BazelPattern} {files : Loaded} {msg : Str}
    (ho : opened m ws flags cmd pattern = some (files, msg)) (hu : usesGraph cmd = true) (hd : 0 ≤ depthOf flags cmd) :
    ∃ l r, Stats.graph m globs ws flags cmd pattern (trees files) = some l ∧ total l roundKey = r + 1 ∧
      r ≤ (depthOf flags cmd).toNat ∧
      (∀ d x, d ≤ (depthOf flags cmd).toNat → MinDist (world m ws) (searched cmd pattern) (trees files) d x → d ≤ r) ∧
      (r = 0 ∨ ∃ x, ReachIn (world m ws) (searched cmd pattern) (trees files) r x ∧
        (defn (world m ws) (trees files) x = none ∨ MinDist (world m ws) (searched cmd pattern) (trees files) r x)) := by
  have hs := healthy_sound hh ho (searched cmd pattern) (depthOf flags cmd).toNat
  obtain ⟨todo, h1, h2, h3⟩ := initial_spec (pattern := searched cmd pattern) hs.loaded
  have hb := initial_before (w := world m ws) hs.loaded h2 h3
  obtain ⟨l, r, g1, g2, g3, g4, g5⟩ := rounds_number globs (depthOf flags cmd).toNat hb
    (fun j t hj hr hn => hs.needed j t (by omega) hr hn)
  have hdp : depPattern cmd pattern = searched cmd pattern := rfl
  refine ⟨⟨roundKey, c!"rounds", 0, none⟩ :: l, r, ?_, ?_, g3, by simpa using g4, by simpa using g5⟩
  · unfold Stats.graph
    rw [if_pos (by simp [hu, hd]), hdp, h1]
    simp only [Option.bind_some]
    rw [show (⟨m.fs, ws, m.glob⟩ : World) = world m ws from rfl, g1]
    rfl
  · rw [← g2]
    unfold total ofKey
    rw [List.filter_cons_of_pos (by simp)]
    simp

/-- Nothing but following dependencies has rounds. -/
theorem runCommand_rounds {m : Machine} {globs : BazelPackage → Option Nat} {flags : Flags} {cmd : Command}
    {pattern : BazelPattern} {p : Prepared} {l : List Event} (hneed : needsProject cmd pattern = true)
    (hp : prepare m flags cmd pattern = some (some p)) (h : runCommand m globs flags cmd pattern = some l) :
    ∃ files c, opened m p.workspace flags cmd pattern = some (files, p.message) ∧
      Stats.graph m globs p.workspace flags cmd pattern (trees files) = some c ∧ total l roundKey = total c roundKey := by
  obtain ⟨files, n, found, news, c, d, h1, h2, _, h4, h5, h6, h7, rfl⟩ := runCommand_counted hneed hp h
  refine ⟨files, c, h1, h5, ?_⟩
  have hfile : ∀ S : List (Option Nat), ofKey (S.flatMap addFile) roundKey = [] := by
    intro S
    refine ofKey_none fun e he => ?_
    obtain ⟨x, _, hx⟩ := List.mem_flatMap.1 he
    have k1 : readKey ≠ roundKey := by decide
    have k2 : parseKey ≠ roundKey := by decide
    cases x <;> simp [addFile] at hx <;> rcases hx with rfl | hx <;> simp_all
    all_goals (rcases hx with rfl | rfl | rfl <;> assumption)
  unfold total
  congr 2
  have hne : roundKey ≠ walkKey := by decide
  rw [List.cons_append, List.cons_append, List.cons_append, ofKey_cons_ne hne, ofKey_append, ofKey_append,
    ofKey_append, hfile, ofKey_none (l := d),
    ofKey_none (l := if elaborates flags cmd = true then files.flatMap fun f => elaborate globs f.1 else [])]
  · simp
  · intro e he
    split at he
    · obtain ⟨f, _, hf⟩ := List.mem_flatMap.1 he
      rcases elaborate_keys e hf with h | h <;> rw [h] <;> decide
    · cases he
  · intro e he hk
    have := perform_keys h7 e he
    rw [hk] at this
    revert this
    decide

/-! ### Looking for files of packages -/

theorem tried_attempts {w : World} {pkg : BazelPackage} {path : Str} (h : pathForPackage w pkg = some path) :
    tried w pkg = attempts path := by
  have hbelow : ∀ start : Str, ([c!"BUILD", c!"BUILD.bazel"].map (Workspace.join start)).find? w.fs.canRead = some path →
      (if w.fs.canRead (Workspace.join start c!"BUILD") then 1 else 2) = attempts path := by
    intro start hf
    have hj : ∀ name, ∃ x, Workspace.join start name = x ++ name := by
      intro name
      exact ⟨stripBack '/' start ++ ['/'], by simp [Workspace.join]⟩
    simp only [List.map_cons, List.map_nil, List.find?_cons] at hf
    unfold attempts
    cases hc : w.fs.canRead (Workspace.join start c!"BUILD") with
    | true =>
      rw [hc] at hf
      cases hf
      rw [if_pos rfl, if_neg]
      intro hs
      obtain ⟨x, hx⟩ := hj c!"BUILD"
      rw [hx] at hs
      have h1 := hs.getLast (by simp)
      simp at h1
    | false =>
      rw [hc] at hf
      cases hc' : w.fs.canRead (Workspace.join start c!"BUILD.bazel") with
      | false => rw [hc'] at hf; cases hf
      | true =>
        rw [hc'] at hf
        cases hf
        rw [if_neg (by simp), if_pos]
        obtain ⟨x, hx⟩ := hj c!"BUILD.bazel"
        rw [hx]
        exact ⟨x ++ c!"BUILD", by simp⟩
  unfold pathForPackage at h
  unfold tried
  simp only at h ⊢
  split at h
  · next hp => rw [if_pos hp]; exact hbelow _ h
  · next hp =>
    rw [if_neg hp]
    cases hf : Workspace.findPath w.workspace pkg.project with
    | none => rw [hf] at h; cases h
    | some root => rw [hf] at h; exact hbelow _ h

theorem parseMissing_other {w : World} {files now : Files} {pkg q : BazelPackage} (hq : q ≠ pkg)
    (h : parseMissing w files [pkg] = some now) : lookup now q = lookup files q := by
  rw [parseMissing] at h
  cases hl : lookup files pkg with
  | some a => rw [hl] at h; cases h; rfl
  | none =>
    rw [hl] at h
    cases hload : load w pkg with
    | none => rw [hload] at h; cases h
    | some o =>
      rw [hload] at h
      cases o with
      | none => cases h; rfl
      | some t =>
        cases h
        rw [lookup_insertNew, hl]
        simp [hq]

theorem loaded_exist (globs : BazelPackage → Option Nat) (n : Nat) (pkg : BazelPackage) :
    ∀ e ∈ addFile (some n) ++ elaborate globs pkg, e.key ≠ existKey := by
  have h1 : readKey ≠ existKey := by decide
  have h2 : parseKey ≠ existKey := by decide
  have h3 : elabKey ≠ existKey := by decide
  have h4 : globKey ≠ existKey := by decide
  cases hg : globs pkg <;> simp [addFile, elaborate, hg, h1, h2, h3, h4]

theorem total_cons (e : Event) (l : List Event) : total (e :: l) e.key = e.count + total l e.key := by
  unfold total ofKey
  rw [List.filter_cons_of_pos (by simp)]
  simp

theorem missing_checked {w : World} {globs : BazelPackage → Option Nat} {ps : List BazelPackage} (hn : ps.Nodup)
    {files : Files} {l : List Event} (h : missing w globs files ps = some l) :
    total l existKey = ((ps.filter fun q => (lookup files q).isNone).map (tried w)).sum := by
  induction ps generalizing files l with
  | nil => cases h; rfl
  | cons pkg ps ih =>
    obtain ⟨hn1, hn2⟩ := List.nodup_cons.1 hn
    rw [missing] at h
    cases hl : lookup files pkg with
    | some a =>
      rw [hl] at h
      simpa [hl] using ih hn2 h
    | none =>
      rw [hl] at h
      simp only at h
      rw [List.filter_cons, hl, if_pos (by rfl), List.map_cons, List.sum_cons]
      cases hp : pathForPackage w pkg with
      | none =>
        rw [hp] at h
        obtain ⟨l', h1, rfl⟩ := Option.map_eq_some_iff.1 h
        have := total_cons ⟨existKey, c!"BUILD files", tried w pkg, none⟩ l'
        rw [show total _ existKey = _ from this, ih hn2 h1]
      | some path =>
        rw [hp] at h
        simp only at h
        cases hc : w.fs.content path with
        | none => rw [hc] at h; cases h
        | some content =>
          rw [hc] at h
          cases hm : parseMissing w files [pkg] with
          | none => rw [hm] at h; cases h
          | some now =>
            rw [hm] at h
            obtain ⟨l', h1, rfl⟩ := Option.map_eq_some_iff.1 h
            have := total_cons ⟨existKey, c!"BUILD files", tried w pkg, none⟩
              (addFile (some content.length) ++ elaborate globs pkg ++ l')
            rw [show total _ existKey = _ from this, total_append_ne (loaded_exist globs _ pkg), ih hn2 h1]
            congr 3
            refine List.filter_congr fun q hq => ?_
            have hne : q ≠ pkg := fun e => hn1 (e ▸ hq)
            rw [parseMissing_other hne hm]

theorem sublist_sum {l l' : List Nat} (h : l.Sublist l') : l.sum ≤ l'.sum := by
  induction h with
  | slnil => exact Nat.le_refl _
  | cons _ _ ih => simp only [List.sum_cons]; omega
  | cons_cons _ _ ih => simp only [List.sum_cons]; omega

theorem rounds_checked {w : World} {globs : BazelPackage → Option Nat} {pattern : BazelPattern} {files : Files} (n : Nat)
    {k : Nat} {now now' : Files} {g g' : Graph} {todo : List BazelTarget} (hb : Before w pattern files k now g todo)
    (hl : ∀ j t, j ≤ k + n → ReachIn w pattern files j t → lookup files t.package = none → LoadsWell w t.package)
    {l : List Event} (h : Stats.rounds w globs now g todo n = some l) (h' : DepGraph.rounds w now g todo n = some (now', g')) :
    ∃ news : List BazelPackage, news.Nodup ∧
      (∀ pkg, pkg ∈ news ↔ lookup now pkg = none ∧ (lookup now' pkg).isSome = true) ∧
      (∀ pkg, (lookup now pkg).isSome = true → (lookup now' pkg).isSome = true) ∧
      (news.map (tried w)).sum ≤ total l existKey ∧
      ((∀ j t, j ≤ k + n → ReachIn w pattern files j t → lookup files t.package = none →
        pathForPackage w t.package ≠ none) → total l existKey = (news.map (tried w)).sum) := by
  have hne : existKey ≠ roundKey := by decide
  have hround : ∀ {now now' : Files} {g : Graph} {todo : List BazelTarget} {st : Round} {l : List Event},
      DepGraph.round w now g todo = some (now', st) →
      missing w globs now (todo.foldl (fun s t => add t.package s) []) = some l →
      ∃ news : List BazelPackage, news.Nodup ∧
        (∀ pkg, pkg ∈ news ↔ lookup now pkg = none ∧ (lookup now' pkg).isSome = true) ∧
        (∀ pkg, (lookup now pkg).isSome = true → (lookup now' pkg).isSome = true) ∧
        (news.map (tried w)).sum ≤ total l existKey ∧
        ((∀ t ∈ todo, lookup now t.package = none → pathForPackage w t.package ≠ none) →
          total l existKey = (news.map (tried w)).sum) := by
    intro files now g todo st l h hm
    unfold DepGraph.round at h
    have hmem : ∀ pkg, pkg ∈ todo.foldl (fun s t => add t.package s) [] ↔ ∃ t ∈ todo, t.package = pkg := by
      intro pkg
      rw [(foldl_add (fun t : BazelTarget => t.package) todo []).1]
      simp
    cases hp : parseMissing w files (todo.foldl (fun s t => add t.package s) []) with
    | none => simp only [hp] at h; cases h
    | some x =>
      simp only [hp] at h
      obtain ⟨_, _, h4⟩ := Option.map_eq_some_iff.1 h
      cases h4
      have h1 := missing_checked (Stderr.packages_nodup todo).1 hm
      have h6 := (Stderr.missing_spec (Stderr.packages_nodup todo).1 hp).2
      have hfresh : (∀ t ∈ todo, lookup files t.package = none → pathForPackage w t.package ≠ none) →
          (todo.foldl (fun s t => add t.package s) []).filter (fun q => (lookup files q).isNone) =
          (todo.foldl (fun s t => add t.package s) []).filter (Stderr.fresh w files) := by
        refine fun hpath => List.filter_congr fun q hq => ?_
        obtain ⟨t, ht, rfl⟩ := (hmem q).1 hq
        cases hl : lookup files t.package with
        | some a => simp [Stderr.fresh, hl]
        | none =>
          cases hpp : pathForPackage w t.package with
          | none => exact absurd hpp (hpath t ht hl)
          | some path => simp [Stderr.fresh, hl, hpp]
      have hsub : ((todo.foldl (fun s t => add t.package s) []).filter (Stderr.fresh w files)).Sublist
          ((todo.foldl (fun s t => add t.package s) []).filter fun q => (lookup files q).isNone) := by
        rw [show (todo.foldl (fun s t => add t.package s) []).filter (Stderr.fresh w files) =
            ((todo.foldl (fun s t => add t.package s) []).filter fun q => (lookup files q).isNone).filter
              (Stderr.fresh w files) by
          rw [List.filter_filter]
          refine List.filter_congr fun q _ => ?_
          unfold Stderr.fresh
          cases (lookup files q).isNone <;> simp]
        exact List.filter_sublist
      refine ⟨_, (Stderr.packages_nodup todo).1.sublist List.filter_sublist, ?_, ?_,
        h1 ▸ sublist_sum (hsub.map (tried w)), fun hpath => by rw [h1, hfresh hpath]⟩
      · intro pkg
        rw [h6]
        constructor
        · intro h
          refine ⟨?_, .inr h⟩
          have := (List.mem_filter.1 h).2
          simp only [Stderr.fresh, Bool.and_eq_true, Option.isNone_iff_eq_none] at this
          exact this.1
        · rintro ⟨h, h' | h'⟩
          · rw [h] at h'; cases h'
          · exact h'
      · exact fun pkg h => (h6 pkg).2 (.inl h)
  have hpath : ∀ {k n : Nat} {now : Files} {g : Graph} {todo : List BazelTarget}, Before w pattern files k now g todo →
      (∀ j t, j ≤ k + n → ReachIn w pattern files j t → lookup files t.package = none →
        pathForPackage w t.package ≠ none) →
      ∀ t ∈ todo, lookup now t.package = none → pathForPackage w t.package ≠ none :=
    fun hb hp t ht hn => hp _ t (by omega) (hb.todo_reach t ht) (hb.kept _ hn)
  induction n generalizing k now g todo l with
  | zero =>
    rw [DepGraph.rounds] at h'
    rw [Stats.rounds] at h
    obtain ⟨⟨f, st⟩, h1, h2⟩ := Option.map_eq_some_iff.1 h'
    cases h2
    obtain ⟨l', h3, rfl⟩ := Option.map_eq_some_iff.1 h
    obtain ⟨news, g1, g2, g3, g4⟩ := hround h1 h3
    have e : ∀ x : Event, x.key = roundKey → total (x :: l') existKey = total l' existKey := by
      intro x hx
      unfold total
      rw [ofKey_cons_ne (by rw [hx]; exact hne)]
    refine ⟨news, g1, g2, g3, ?_, fun hp => ?_⟩
    · rw [e _ rfl]; exact g4.1
    · rw [e _ rfl]; exact g4.2 (hpath hb hp)
  | succ n ih =>
    rw [DepGraph.rounds] at h'
    rw [Stats.rounds] at h
    obtain ⟨f, st, h1, h2, _⟩ := round_spec hb (fun t => hl k t (by omega))
    rw [h1] at h' h
    cases h3 : missing w globs now (todo.foldl (fun s t => add t.package s) []) with
    | none => rw [h3] at h; cases h
    | some l1 =>
      rw [h3] at h
      obtain ⟨news, g1, g2, g3, g4⟩ := hround h1 h3
      simp only at h h'
      by_cases hn : st.next = []
      · rw [if_pos hn] at h h'
        cases h'
        cases h
        have e : ∀ x : Event, x.key = roundKey → total (x :: (l1 ++ [])) existKey = total l1 existKey := by
          intro x hx
          unfold total
          rw [ofKey_cons_ne (by rw [hx]; exact hne), List.append_nil]
        refine ⟨news, g1, g2, g3, ?_, fun hp => ?_⟩
        · rw [e _ rfl]; exact g4.1
        · rw [e _ rfl]; exact g4.2 (hpath hb hp)
      · rw [if_neg hn] at h h'
        obtain ⟨l2, h5, rfl⟩ := Option.map_eq_some_iff.1 h
        obtain ⟨more, k1, k2, k3, k4⟩ := ih h2 (fun j t hj => hl j t (by omega)) h5 h'
        have e : ∀ x : Event, x.key = roundKey →
            total (x :: (l1 ++ l2)) existKey = total l1 existKey + total l2 existKey := by
          intro x hx
          unfold total
          rw [ofKey_cons_ne (by rw [hx]; exact hne), ofKey_append, List.map_append, List.sum_append]
        refine ⟨news ++ more, ?_, fun pkg => ?_, fun pkg hp => k3 pkg (g3 pkg hp), ?_, fun hp => ?_⟩
        · refine List.nodup_append.2 ⟨g1, k1, fun x hx y hy e => ?_⟩
          subst e
          have := (g2 x).1 hx
          rw [(k2 x).1 hy |>.1] at this
          exact absurd this.2 (by simp)
        · rw [List.mem_append, g2, k2]
          constructor
          · rintro (⟨h, h'⟩ | ⟨h, h'⟩)
            · exact ⟨h, k3 pkg h'⟩
            · refine ⟨?_, h'⟩
              cases hl : lookup now pkg with
              | none => rfl
              | some v =>
                have := g3 pkg (by rw [hl]; rfl)
                rw [h] at this; cases this
          · rintro ⟨h, h'⟩
            cases hl : lookup f pkg with
            | none => exact .inr ⟨rfl, h'⟩
            | some v => exact .inl ⟨h, rfl⟩
        · rw [List.map_append, List.sum_append, e _ rfl]
          exact Nat.add_le_add g4.1 k4.1
        · rw [List.map_append, List.sum_append, e _ rfl, g4.2 (hpath hb hp), k4.2 fun j t hj => hp j t (by omega)]

theorem prepare_workspace {m : Machine} {flags : Flags} {cmd : Command} {pattern : BazelPattern} {p : Prepared}
    (h : prepare m flags cmd pattern = some (some p)) : workspaceOf m = some p.workspace := by
  unfold prepare at h
  unfold workspaceOf
  split at h
  · cases h
  · cases h
  · next hl =>
    rw [hl]
    obtain ⟨p', h1, h2⟩ := Option.map_eq_some_iff.1 h
    cases h2
    unfold prepareIn at h1
    obtain ⟨⟨files, msg⟩, h3, h4⟩ := Option.bind_eq_some_iff.1 h1
    obtain ⟨⟨now, g⟩, h5, h6⟩ := Option.map_eq_some_iff.1 h4
    subst h6
    rfl

theorem runCommand_checked {m : Machine} {globs : BazelPackage → Option Nat} {flags : Flags} {cmd : Command}
    {pattern : BazelPattern} {p : Prepared} {l : List Event} (hneed : needsProject cmd pattern = true)
    (hp : prepare m flags cmd pattern = some (some p)) (h : runCommand m globs flags cmd pattern = some l) :
    ∃ files c g, opened m p.workspace flags cmd pattern = some (files, p.message) ∧
      follow m p.workspace flags cmd pattern files = some (p.files, g) ∧
      Stats.graph m globs p.workspace flags cmd pattern (trees files) = some c ∧ total l existKey = total c existKey ∧
      ∃ news, Counted m globs p.workspace files p.files c news := by
  obtain ⟨files, n, found, news, c, d, h1, h2, _, h4, h5, h6, h7, rfl⟩ := runCommand_counted hneed hp h
  obtain ⟨files', g, h8, h9⟩ := prepare_steps hp
  have he := h1.symm.trans h8
  cases he
  refine ⟨files, c, g, h1, h9, h5, ?_, news, h6⟩
  have hfile : ∀ S : List (Option Nat), ofKey (S.flatMap addFile) existKey = [] := by
    intro S
    refine ofKey_none fun e he => ?_
    obtain ⟨x, _, hx⟩ := List.mem_flatMap.1 he
    have k1 : readKey ≠ existKey := by decide
    have k2 : parseKey ≠ existKey := by decide
    cases x <;> simp [addFile] at hx <;> rcases hx with rfl | hx <;> simp_all
    all_goals (rcases hx with rfl | rfl | rfl <;> assumption)
  unfold total
  congr 2
  have hne : existKey ≠ walkKey := by decide
  rw [List.cons_append, List.cons_append, List.cons_append, ofKey_cons_ne hne, ofKey_append, ofKey_append,
    ofKey_append, hfile, ofKey_none (l := d),
    ofKey_none (l := if elaborates flags cmd = true then files.flatMap fun f => elaborate globs f.1 else [])]
  · simp
  · intro e he
    split at he
    · obtain ⟨f, _, hf⟩ := List.mem_flatMap.1 he
      rcases elaborate_keys e hf with h | h <;> rw [h] <;> decide
    · cases he
  · intro e he hk
    have := perform_keys h7 e he
    rw [hk] at this
    revert this
    decide

theorem graph_checked {m : Machine} (hh : Healthy m) {globs : BazelPackage → Option Nat} {ws : Workspace.Map}
    {flags : Flags} {cmd : Command} {pattern : BazelPattern} {files files' : Loaded} {g : Graph} {msg : Str} {c : List Event}
    {news : List BazelPackage} (ho : opened m ws flags cmd pattern = some (files, msg))
    (hf : follow m ws flags cmd pattern files = some (files', g))
    (hc : Stats.graph m globs ws flags cmd pattern (trees files) = some c) (hn : Counted m globs ws files files' c news) :
    (news.map (tried (world m ws))).sum ≤ total c existKey ∧
    ((∀ t, Reached m ws (searched cmd pattern) (depthOf flags cmd).toNat files t →
      treeOf (world m ws) (trees files) t.package ≠ none) →
    total c existKey = (news.map (tried (world m ws))).sum) := by
  unfold Stats.graph at hc
  unfold Commands.follow at hf
  cases hu : usesGraph cmd && decide (depthOf flags cmd ≥ 0) with
  | false =>
    rw [hu] at hc hf
    cases hc
    cases hf
    have : news = [] := List.eq_nil_iff_forall_not_mem.2 fun x hx => absurd ((hn.new x).1 hx).1 ((hn.new x).1 hx).2
    subst this
    exact ⟨Nat.le_refl _, fun _ => rfl⟩
  | true =>
    rw [hu] at hc hf
    simp only [if_true] at hc hf
    obtain ⟨⟨now, g'⟩, h1, h2⟩ := Option.map_eq_some_iff.1 hf
    cases h2
    have hs := healthy_sound hh ho (searched cmd pattern) (depthOf flags cmd).toNat
    obtain ⟨todo, i1, i2, i3⟩ := initial_spec (pattern := searched cmd pattern) hs.loaded
    have hb := initial_before (w := world m ws) hs.loaded i2 i3
    have hdp : depPattern cmd pattern = searched cmd pattern := rfl
    unfold DepGraph.build at h1
    rw [hdp, i1] at hc h1
    simp only [Option.bind_some] at hc h1
    obtain ⟨l, h3, rfl⟩ := Option.map_eq_some_iff.1 hc
    obtain ⟨news', g1, g2, g3, g4⟩ := rounds_checked _ hb (fun j t hj hr hn => hs.needed j t (by omega) hr hn) h3 h1
    have hne : existKey ≠ roundKey := by decide
    have : total (⟨roundKey, c!"rounds", 0, none⟩ :: l) existKey = total l existKey := by
      unfold total
      rw [ofKey_cons_ne hne]
    have hsum : (news'.map (tried (world m ws))).sum = (news.map (tried (world m ws))).sum := by
     refine perm_sum (List.Perm.map _ ((List.perm_ext_iff_of_nodup g1 hn.once).2 fun pkg => ?_))
     have hkeys : (expanded ⟨m.fs, ws, m.glob⟩ files now).map (·.1) = now.map (·.1) := by
       rw [expanded, List.map_map]; rfl
     rw [g2, hn.new, hkeys, lookup_none, trees_keys, and_comm]
     refine and_congr_left fun _ => ?_
     cases hl : lookup now pkg with
     | none => simpa using lookup_none.1 hl
     | some v =>
       refine ⟨fun _ => ?_, fun _ => rfl⟩
       exact Classical.byContradiction fun hn => by rw [lookup_none.2 hn] at hl; cases hl
    rw [this, ← hsum]
    refine ⟨g4.1, fun hall => g4.2 fun j t hj hr hn hp => ?_⟩
    refine hall t ⟨j, by omega, hr⟩ ?_
    unfold treeOf
    rw [hn]
    simp [DepGraph.load, hp]

end Stats
end Bant
