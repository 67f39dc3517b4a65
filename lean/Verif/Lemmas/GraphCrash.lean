import Verif.Lemmas.DepGraph

/-! When following dependencies crashes: C62. -/
namespace Bant
open Query Rules Headers DepGraph GraphSpec

theorem parseMissing_crash {w : World} {p : BazelPackage} (hp : load w p = none) (ps : List BazelPackage)
    (files : Files) (hm : p ∈ ps) (hn : lookup files p = none) : parseMissing w files ps = none := by
  induction ps generalizing files with
  | nil => cases hm
  | cons q ps ih =>
    rw [parseMissing]
    by_cases hq : q = p
    · subst hq
      rw [hn, hp]
    · have hm' : p ∈ ps := by
        rcases List.mem_cons.1 hm with h | h
        · exact absurd h.symm hq
        · exact h
      cases lookup files q with
      | some _ => exact ih files hm' hn
      | none =>
        cases load w q with
        | none => rfl
        | some tree =>
          cases tree with
          | none => exact ih files hm' hn
          | some ast =>
            refine ih _ hm' ?_
            rw [lookup_insertNew, hn]
            simp [Ne.symm hq]

theorem round_crash {w : World} {now : Files} {g : Graph} {todo : List BazelTarget} {t : BazelTarget}
    (ht : t ∈ todo) (hn : lookup now t.package = none) (hp : load w t.package = none) :
    round w now g todo = none := by
  unfold round
  have : t.package ∈ todo.foldl (fun s t => add t.package s) [] := by
    rw [(foldl_add (fun t : BazelTarget => t.package) todo []).1]
    exact .inr ⟨t, ht, rfl⟩
  simp only [parseMissing_crash hp _ now this hn]

theorem rounds_crash {w : World} {pattern : BazelPattern} {files : Files}
    (hw : ∀ pkg, lookup files pkg = none → load w pkg ≠ none → LoadsWell w pkg) (n : Nat) {k : Nat} {now : Files}
    {g : Graph} {todo : List BazelTarget} (hb : Before w pattern files k now g todo)
    (hgood : ∀ j t, j < k → ReachIn w pattern files j t → lookup files t.package = none → load w t.package ≠ none)
    (hnow : ∀ pkg, lookup files pkg = none → load w pkg = none → lookup now pkg = none)
    {m : Nat} {x : BazelTarget} (hm : m ≤ k + n) (hr : ReachIn w pattern files m x)
    (hx : lookup files x.package = none) (hbad : load w x.package = none) :
    rounds w now g todo n = none := by
  induction n generalizing k now g todo with
  | zero =>
    have hk : m = k := by
      by_cases h : m < k
      · exact absurd hbad (hgood m x h hr hx)
      · omega
    subst hk
    rcases hb.reach_old x hr with h | ⟨j, hj, hr'⟩
    · rw [rounds, round_crash h (hnow _ hx hbad) hbad]; rfl
    · exact absurd hbad (hgood j x hj hr' hx)
  | succ n ih =>
    by_cases hk : ∃ t, ReachIn w pattern files k t ∧ lookup files t.package = none ∧ load w t.package = none
    · obtain ⟨t, h1, h2, h3⟩ := hk
      rcases hb.reach_old t h1 with h | ⟨j, hj, hr'⟩
      · rw [rounds, round_crash h (hnow _ h2 h3) h3]
      · exact absurd h3 (hgood j t hj hr' h2)
    · have hk' : ∀ t, ReachIn w pattern files k t → lookup files t.package = none → load w t.package ≠ none :=
        fun t h1 h2 h3 => hk ⟨t, h1, h2, h3⟩
      obtain ⟨now', st, h1, h2, _⟩ := round_spec hb (fun t ht hn => hw _ hn (hk' t ht hn))
      have hgood' : ∀ j t, j < k + 1 → ReachIn w pattern files j t → lookup files t.package = none →
          load w t.package ≠ none := by
        intro j t hj
        by_cases h : j < k
        · exact hgood j t h
        · rw [show j = k by omega]; exact hk' t
      rw [rounds, h1]
      simp only []
      by_cases hnext : st.next = []
      · exfalso
        rw [hnext] at h2
        -- everything that can be reached can be reached in `k` steps
        have near : ∃ j, j < k + 1 ∧ ReachIn w pattern files j x := by
          cases hr with
          | root h => exact ⟨0, by omega, .root h⟩
          | step ht he =>
            rename_i t
            obtain ⟨ds, hd, _⟩ := edge_iff.1 he
            have := (h2.closed _ _ ht).2 (by simp [hd])
            cases hlk : lookup st.graph.dependsOn t with
            | none => exact absurd hlk this
            | some v =>
              obtain ⟨_, j, hj, hr'⟩ := h2.value _ v hlk
              by_cases h : j + 1 < k + 1
              · exact ⟨j + 1, h, .step hr' he⟩
              · have : j + 1 = k + 1 := by omega
                have hs := ReachIn.step hr' he
                rw [this] at hs
                exact (h2.reach_old x hs).resolve_left (by simp)
        obtain ⟨j, hj, hr'⟩ := near
        exact hgood' j x hj hr' hx hbad
      · rw [if_neg hnext]
        refine ih h2 hgood' ?_ (by omega)
        intro pkg hp hl
        cases hc : lookup now' pkg with
        | none => rfl
        | some ast =>
          have := ((h2.loaded pkg ast).1 hc).1
          simp [treeOf, hp, hl] at this

theorem build_crash {w : World} {pattern : BazelPattern} {files : Files} (depth : Int)
    (hs : ∀ f ∈ files, Searchable f.2)
    (hw : ∀ pkg, lookup files pkg = none → load w pkg ≠ none → LoadsWell w pkg) :
    build w pattern depth files = none ↔
      ∃ j t, j ≤ depth.toNat ∧ ReachIn w pattern files j t ∧ lookup files t.package = none ∧ load w t.package = none := by
  constructor
  · intro h
    apply Classical.byContradiction
    intro hno
    obtain ⟨now, g, h1, _⟩ := build_spec (w := w) (pattern := pattern) depth hs
      (fun j t hj hr hn => hw _ hn fun hl => hno ⟨j, t, hj, hr, hn, hl⟩)
    rw [h] at h1
    cases h1
  · rintro ⟨j, t, hj, hr, hn, hl⟩
    obtain ⟨todo, h1, h2, h3⟩ := initial_spec (pattern := pattern) hs
    unfold build
    rw [h1]
    exact rounds_crash hw depth.toNat (initial_before hs h2 h3) (by omega) (fun _ h _ => h) (by omega) hr hn hl

end Bant
