import Verif.Spec.Reordered
import Verif.Lemmas.Restyled

/-! Lemmas about files with rules that are next to each other in a different order (C125). -/
namespace Bant
namespace RulesSpec
open Query Rules Elab

/-! ### Names -/

theorem qualified_bare {pkg : BazelPackage} {name : Str} {t : BazelTarget} (h : pkg.qualifiedTarget name = some t) :
    t.name = if name.head? = some ':' then name.drop 1 else name := by
  unfold BazelPackage.qualifiedTarget at h
  cases name with
  | nil => cases h
  | cons c rest =>
    simp only at h
    by_cases hc : c = ':'
    · simp only [hc, if_true] at h
      split at h
      · cases h
      · cases h; simp [hc]
    · simp only [hc, if_false] at h
      split at h
      · cases h
      · cases h; simp [hc]

theorem filter_nodup {α β : Type} [DecidableEq β] {l : List α} (g : α → β) (hn : (l.map g).Nodup) {p : α → Bool} {b : β}
    (hp : ∀ x ∈ l, p x = true → g x = b) : (l.filter p).length ≤ 1 := by
  induction l with
  | nil => simp
  | cons x l ih =>
    rw [List.map_cons, List.nodup_cons] at hn
    have hl := ih hn.2 fun y hy => hp y (List.mem_cons_of_mem _ hy)
    by_cases hx : p x = true
    · rw [List.filter_cons_of_pos hx, List.filter_eq_nil_iff.2]
      · simp
      · intro y hy hc
        refine hn.1 (List.mem_map.2 ⟨y, hy, ?_⟩)
        rw [hp y (List.mem_cons_of_mem _ hy) hc, hp x List.mem_cons_self hx]
    · rw [List.filter_cons_of_neg hx]
      exact hl

theorem once_of_names {t : Node} (h : DistinctNames t) (pkg : BazelPackage) (target : BazelTarget) :
    ((rulesOf [] t).filter fun r => pkg.qualifiedTarget r.name = some target).length ≤ 1 := by
  refine filter_nodup _ h (b := target.name) ?_
  intro r _ hr
  exact (qualified_bare (of_decide_eq_true hr)).symm

/-! ### Evaluation -/

/-- The variables have no such name. -/
def Without (kinds : List Str) (vars : Vars) : Prop := ∀ v ∈ vars, v.1 ∉ kinds

theorem find_without {kinds : List Str} {vars : Vars} (h : Without kinds vars) {k : Str} (hk : k ∈ kinds) :
    vars.find k = none := by
  unfold Vars.find
  rw [Option.map_eq_none_iff, List.find?_eq_none]
  intro v hv hc
  simp only [decide_eq_true_eq] at hc
  exact h v hv (by rw [hc]; exact hk)

mutual
/-- Variables are what is assigned to. -/
theorem walk_assigned (glob : GlobFn) (kinds : List Str) : ∀ (x : Node) (n : Nat) (vars : Vars) (r : Node × Vars),
    (∀ k ∈ kinds, k ∉ assigned x) → Without kinds vars → walk glob n vars x = some r → Without kinds r.2
  | .null, n, vars, r, _, hv, h => by simp only [walk, Option.some.injEq] at h; rw [← h]; exact hv
  | .str _ _ _, n, vars, r, _, hv, h => by simp only [walk, Option.some.injEq] at h; rw [← h]; exact hv
  | .int _ _, n, vars, r, _, hv, h => by simp only [walk, Option.some.injEq] at h; rw [← h]; exact hv
  | .ident _, n, vars, r, _, hv, h => by simp only [walk, Option.some.injEq] at h; rw [← h]; exact hv
  | .unary op e, n, vars, r, ha, hv, h => by
    simp only [walk] at h
    split at h
    · cases h
    · next e' v he =>
      have := walk_assigned glob kinds e n vars _ ha hv he
      cases h; exact this
  | .binop op a b, n, vars, r, ha, hv, h => by
    simp only [assigned, List.mem_append, not_or] at ha
    simp only [walk] at h
    split at h
    · cases h
    · next a' v1 h1 =>
      have g1 := walk_assigned glob kinds a n vars _ (fun k hk => (ha k hk).1) hv h1
      split at h
      · cases h
      · next b' v2 h2 =>
        have g2 := walk_assigned glob kinds b n _ _ (fun k hk => (ha k hk).2) g1 h2
        split at h
        · split at h
          · cases h
          · cases h; exact g2
        · cases h; exact g2
  | .list ty xs, n, vars, r, ha, hv, h => by
    simp only [walk] at h
    split at h
    · cases h
    · next xs' v hx =>
      have := walks_assigned glob kinds xs n vars _ ha hv hx
      cases h; exact this
  | .compr ty e, n, vars, r, ha, hv, h => by
    simp only [walk] at h
    split at h
    · cases h
    · next e' v he =>
      have := walk_assigned glob kinds e n vars _ ha hv he
      split at h
      · cases h
      · cases h; exact this
  | .ternary a b c, n, vars, r, ha, hv, h => by
    simp only [assigned, List.mem_append, not_or] at ha
    simp only [walk] at h
    split at h
    · cases h
    · next a' v1 h1 =>
      have g1 := walk_assigned glob kinds a n vars _ (fun k hk => (ha k hk).1.1) hv h1
      split at h
      · cases h
      · next b' v2 h2 =>
        have g2 := walk_assigned glob kinds b n _ _ (fun k hk => (ha k hk).1.2) g1 h2
        split at h
        · cases h
        · next c' v3 h3 =>
          have g3 := walk_assigned glob kinds c n _ _ (fun k hk => (ha k hk).2) g2 h3
          cases h; exact g3
  | .assign l e, n, vars, r, ha, hv, h => by
    simp only [walk] at h
    split at h
    · cases h
    · next e' v he =>
      have hae : ∀ k ∈ kinds, k ∉ assigned e := by
        intro k hk hc
        refine ha k hk ?_
        cases l <;> simp only [assigned, List.mem_cons] <;> first | exact hc | exact .inr hc
      have g := walk_assigned glob kinds e n vars _ hae hv he
      cases l with
      | ident i =>
        simp only [Option.some.injEq] at h
        rw [← h]
        simp only
        split
        · intro x hx
          rcases List.mem_cons.1 hx with rfl | hx
          · intro hc
            exact ha i hc (by simp [assigned])
          · exact g x hx
        · exact g
      | _ => cases h; exact g
  | .call f a, n, vars, r, _, hv, h => by
    simp only [walk] at h
    split at h
    · cases h
    · next f' v1 h1 =>
      have g1 := walk_nested glob n f _ _ h1
      split at h
      · cases h
      · next a' v2 h2 =>
        have g2 := walk_nested glob n a _ _ h2
        split at h
        · cases h
        · cases h
          simp only at g1 g2
          rw [g2, g1]; exact hv
theorem walks_assigned (glob : GlobFn) (kinds : List Str) : ∀ (xs : List Node) (n : Nat) (vars : Vars)
    (r : List Node × Vars), (∀ k ∈ kinds, k ∉ assignedIn xs) → Without kinds vars → walks glob n vars xs = some r →
    Without kinds r.2
  | [], n, vars, r, _, hv, h => by simp only [walks, Option.some.injEq] at h; rw [← h]; exact hv
  | x :: xs, n, vars, r, ha, hv, h => by
    simp only [assignedIn, List.mem_append, not_or] at ha
    simp only [walks] at h
    split at h
    · cases h
    · next x' v1 h1 =>
      have g1 := walk_assigned glob kinds x n vars _ (fun k hk => (ha k hk).1) hv h1
      split at h
      · cases h
      · next xs' v2 h2 =>
        have g2 := walks_assigned glob kinds xs n _ _ (fun k hk => (ha k hk).2) g1 h2
        cases h; exact g2
end

/-- What a rule evaluates to. -/
theorem walk_rule (glob : GlobFn) {kinds : List Str} (hg : c!"glob" ∉ kinds) (hs : c!"select" ∉ kinds) {x : Node}
    (hx : RuleCall kinds x) {n : Nat} {vars : Vars} (hv : Without kinds vars) {r : Node × Vars}
    (h : walk glob n vars x = some r) : RuleCall kinds r.1 ∧ r.2 = vars := by
  obtain ⟨fn, hf, ty, args, rfl⟩ := hx
  simp only [walk, find_without hv hf, Option.getD_none] at h
  cases ha : walks glob (n + 1) vars args with
  | none => rw [ha] at h; cases h
  | some s =>
    obtain ⟨args', v⟩ := s
    have g := walks_nested glob n args _ _ ha
    rw [ha] at h
    simp only [finishCall, if_neg (show ¬ fn = c!"glob" from fun e => hg (e ▸ hf)),
      if_neg (show ¬ fn = c!"select" from fun e => hs (e ▸ hf)), Option.some.injEq] at h
    rw [← h]
    exact ⟨⟨fn, hf, ty, args', rfl⟩, g⟩

/-- Rules next to each other are in whatever order. -/
inductive Swaps (kinds : List Str) : List Node → List Node → Prop
  | nil : Swaps kinds [] []
  | cons {x xs ys} : Swaps kinds xs ys → Swaps kinds (x :: xs) (x :: ys)
  | swap {a b xs} : RuleCall kinds a → RuleCall kinds b → Swaps kinds (a :: b :: xs) (b :: a :: xs)
  | trans {xs ys zs} : Swaps kinds xs ys → Swaps kinds ys zs → Swaps kinds xs zs

theorem Swapped.swaps {kinds : List Str} {xs ys : List Node} (h : Swapped kinds xs ys) : Swaps kinds xs ys := by
  induction h with
  | nil => exact .nil
  | cons _ _ ih => exact .cons ih
  | swap h1 h2 => exact .swap h1 h2
  | trans _ _ ih1 ih2 => exact .trans ih1 ih2

/-- Evaluated, they are still in a different order. -/
theorem walks_swapped (glob : GlobFn) {kinds : List Str} (hg : c!"glob" ∉ kinds) (hs : c!"select" ∉ kinds)
    {xs ys : List Node} (h : Swapped kinds xs ys) : ∀ {vars : Vars}, Without kinds vars →
    Both (fun a b => Swaps kinds a.1 b.1 ∧ b.2 = a.2) (walks glob 0 vars xs) (walks glob 0 vars ys) := by
  have hrefl : ∀ xs, Swaps kinds xs xs := by
    intro xs
    induction xs with
    | nil => exact .nil
    | cons _ _ ih => exact .cons ih
  induction h with
  | nil => intro vars _; exact both_some ⟨.nil, rfl⟩
  | @cons x xs ys hx _ ih =>
    intro vars hv
    simp only [walks]
    cases h1 : walk glob 0 vars x with
    | none => exact both_none
    | some r =>
      obtain ⟨x', v⟩ := r
      simp only
      rcases ih (walk_assigned glob kinds x 0 vars _ hx hv h1) with ⟨e1, e2⟩ | ⟨a, b, e1, e2, e3, e4⟩
      · rw [e1, e2]; exact both_none
      · rw [e1, e2]; exact both_some ⟨.cons e3, e4⟩
  | @swap x y xs hx hy =>
    intro vars hv
    simp only [walks]
    cases h1 : walk glob 0 vars x with
    | none =>
      cases h2 : walk glob 0 vars y with
      | none => exact both_none
      | some r =>
        obtain ⟨y', v⟩ := r
        obtain ⟨_, g⟩ := walk_rule glob hg hs hy hv h2
        simp only at g
        subst g
        simp only [h1]
        exact both_none
    | some r =>
      obtain ⟨x', v⟩ := r
      obtain ⟨g1, g2⟩ := walk_rule glob hg hs hx hv h1
      simp only at g1 g2
      subst g2
      simp only
      cases h2 : walk glob 0 v y with
      | none => exact both_none
      | some r =>
        obtain ⟨y', v'⟩ := r
        obtain ⟨g3, g4⟩ := walk_rule glob hg hs hy hv h2
        simp only at g3 g4
        subst g4
        simp only [h1]
        cases walks glob 0 v' xs with
        | none => exact both_none
        | some r => exact both_some ⟨.swap g1 g3, rfl⟩
  | trans _ _ ih1 ih2 =>
    intro vars hv
    rcases ih1 hv with ⟨e1, e2⟩ | ⟨a, b, e1, e2, e3, e4⟩
    · rcases ih2 hv with ⟨a1, a2⟩ | ⟨c, d, a1, a2, a3, a4⟩
      · rw [e1, a2]; exact both_none
      · rw [e2] at a1; cases a1
    · rcases ih2 hv with ⟨a1, a2⟩ | ⟨c, d, a1, a2, a3, a4⟩
      · rw [e2] at a1; cases a1
      · rw [e2] at a1
        cases a1
        rw [e1, a2]
        exact both_some ⟨e3.trans a3, a4.trans e4⟩

/-! ### Rules -/

theorem report_before {A B : List (Node × Node)}
    (h : ∀ vis, (report kwArgsIn [] false vis B).Perm (report kwArgsIn [] false vis A)) :
    ∀ (S : List (Node × Node)) vis, (report kwArgsIn [] false vis (S ++ B)).Perm (report kwArgsIn [] false vis (S ++ A))
  | [], vis => h vis
  | (f, a) :: S, vis => by
    have ih := report_before h S
    rw [List.cons_append, List.cons_append]
    cases f with
    | ident fn =>
      cases a with
      | list ty args =>
        simp only [report]
        split
        · exact ih _
        · split
          · exact (ih _).cons _
          · exact ih _
      | _ => exact ih _
    | _ => exact ih _

theorem report_swaps {kinds : List Str} (hp : c!"package" ∉ kinds) {xs ys : List Node} (h : Swaps kinds xs ys) :
    ∀ vis, (report kwArgsIn [] false vis (sitesIn ys)).Perm (report kwArgsIn [] false vis (sitesIn xs)) := by
  induction h with
  | nil => intro vis; exact .refl _
  | cons _ ih => exact report_before ih _
  | @swap a b xs ha hb =>
    intro vis
    obtain ⟨f, hf, ty, args, rfl⟩ := ha
    obtain ⟨g, hg, ty', args', rfl⟩ := hb
    simp only [sitesIn, sites, List.singleton_append, report, if_neg (show ¬ f = c!"package" from fun e => hp (e ▸ hf)),
      if_neg (show ¬ g = c!"package" from fun e => hp (e ▸ hg))]
    split
    · split
      · exact .swap _ _ _
      · exact .refl _
    · exact .refl _
  | trans _ _ ih1 ih2 => exact fun vis => (ih2 vis).trans (ih1 vis)

theorem Swaps.shuffled {kinds : List Str} (hp : c!"package" ∉ kinds) {ty : ListType} {xs ys : List Node}
    (h : Swaps kinds xs ys) (hn : DistinctNames (.list ty xs)) : Shuffled (.list ty xs) (.list ty ys) :=
  ⟨(report_swaps hp h none).map _, once_of_names hn⟩

end RulesSpec
end Bant
