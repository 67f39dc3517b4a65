import Verif.Spec.Nameless
import Verif.Lemmas.Refactored

/-! Lemmas about calls without name (C145). -/
namespace Bant
namespace RulesSpec
open Query Rules Elab

/-! ### Evaluation -/

mutual
theorem walk_constant (glob : GlobFn) (n : Nat) (V : Vars) : ∀ {t : Node}, constant t = true → walk glob n V t = some (t, V)
  | .str _ _ _, _ => by rw [walk]
  | .int _ _, _ => by rw [walk]
  | .list ty xs, h => by
    rw [constant] at h
    rw [walk, walks_constants glob n V h]
  | .null, h | .ident _, h | .unary _ _, h | .binop _ _ _, h | .compr _ _, h | .ternary _ _ _, h | .assign _ _, h
  | .call _ _, h => by simp [constant] at h
theorem walks_constants (glob : GlobFn) (n : Nat) (V : Vars) : ∀ {xs : List Node}, constants xs = true →
    walks glob n V xs = some (xs, V)
  | [], _ => by rw [walks]
  | x :: xs, h => by
    rw [constants, Bool.and_eq_true] at h
    rw [walks, walk_constant glob n V h.1]
    simp only
    rw [walks_constants glob n V h.2]
end

theorem walk_otherArgument (glob : GlobFn) (n : Nat) (V : Vars) {a : Node} (h : otherArgument a = true) :
    walk glob (n + 1) V a = some (a, V) := by
  cases a with
  | assign l v =>
    cases l with
    | ident k =>
      simp only [otherArgument, Bool.and_eq_true] at h
      rw [walk, walk_constant glob _ V h.2]
      rfl
    | _ => simp [otherArgument, constant] at h
  | _ => exact walk_constant glob _ V (by simpa only [otherArgument] using h)

theorem walks_otherArguments (glob : GlobFn) (n : Nat) (V : Vars) : ∀ {args : List Node}, args.all otherArgument = true →
    walks glob (n + 1) V args = some (args, V)
  | [], _ => by rw [walks]
  | x :: xs, h => by
    rw [List.all_cons, Bool.and_eq_true] at h
    rw [walks, walk_otherArgument glob n V h.1]
    simp only
    rw [walks_otherArguments glob n V h.2]

theorem nameless_eq {vars : List Str} {e : Node} (h : nameless vars e = true) :
    ∃ f ty args, e = .call (.ident f) (.list ty args) ∧ f ∉ vars ∧ f ∉ [c!"package", c!"glob", c!"select"] ∧
      args.all otherArgument = true := by
  unfold nameless at h
  split at h
  · next f ty args =>
    simp only [Bool.and_eq_true, decide_eq_true_eq] at h
    exact ⟨f, ty, args, rfl, h.1.1, h.1.2, h.2⟩
  · cases h

theorem walk_nameless {glob : GlobFn} {V : Vars} {vars : List Str} (hV : ∀ i, i ∉ vars → V.find i = none) {e : Node}
    (h : nameless vars e = true) : walk glob 0 V e = some (e, V) := by
  obtain ⟨f, ty, args, rfl, h1, h2, h3⟩ := nameless_eq h
  rw [walk, walk, hV f h1, Option.getD_none]
  simp only
  rw [walk, walks_otherArguments glob 0 V h3]
  simp only [List.mem_cons, not_or] at h2
  simp only [finishCall, if_neg h2.2.1, if_neg h2.2.2.1]

/-! ### What is found -/

/-- Calls are left out that have no name. -/
inductive Dropped : List (Node × Node) → List (Node × Node) → Prop
  | nil : Dropped [] []
  | same (s : Node × Node) {ss ss' : List (Node × Node)} : Dropped ss ss' → Dropped (s :: ss) (s :: ss')
  | drop (f : Str) (ty : ListType) {args : List Node} {ss ss' : List (Node × Node)} : f ≠ c!"package" →
    args.all otherArgument = true → Dropped ss ss' → Dropped ((.ident f, .list ty args) :: ss) ss'

theorem dropped_append (l : List (Node × Node)) {ss ss' : List (Node × Node)} (h : Dropped ss ss') :
    Dropped (l ++ ss) (l ++ ss') := by
  induction l with
  | nil => exact h
  | cons s l ih => exact .same s ih

mutual
theorem kwArgs_constant : ∀ {t : Node}, constant t = true → kwArgs t = []
  | .str _ _ _, _ => by rw [kwArgs]
  | .int _ _, _ => by rw [kwArgs]
  | .list ty xs, h => by
    rw [constant] at h
    rw [kwArgs, kwArgsIn_constants h]
  | .null, h | .ident _, h | .unary _ _, h | .binop _ _ _, h | .compr _ _, h | .ternary _ _ _, h | .assign _ _, h
  | .call _ _, h => by simp [constant] at h
theorem kwArgsIn_constants : ∀ {xs : List Node}, constants xs = true → kwArgsIn xs = []
  | [], _ => by rw [kwArgsIn]
  | x :: xs, h => by
    rw [constants, Bool.and_eq_true] at h
    rw [kwArgsIn, kwArgs_constant h.1, kwArgsIn_constants h.2, List.nil_append]
end

theorem kwArgsIn_other : ∀ {args : List Node}, args.all otherArgument = true → ∀ kw ∈ kwArgsIn args, kw.1 ≠ .ident c!"name"
  | [], _, kw, hk => by rw [kwArgsIn] at hk; cases hk
  | x :: xs, h, kw, hk => by
    rw [List.all_cons, Bool.and_eq_true] at h
    rw [kwArgsIn, List.mem_append] at hk
    rcases hk with hk | hk
    · have h1 := h.1
      cases x with
      | assign l v =>
        rw [kwArgs, List.mem_singleton] at hk
        subst hk
        cases l with
        | ident k =>
          simp only [otherArgument, Bool.and_eq_true, decide_eq_true_eq] at h1
          intro e
          exact h1.1 (Node.ident.inj e)
        | _ => intro e; cases e
      | _ =>
        rw [kwArgs_constant (by simpa only [otherArgument] using h1)] at hk
        cases hk
    · exact kwArgsIn_other h.2 kw hk

theorem last_other {args : List Node} (h : args.all otherArgument = true) : last c!"name" text (kwArgsIn args) = none := by
  unfold last
  rw [List.findSome?_eq_none_iff]
  intro kw hk
  have := kwArgsIn_other h kw (List.mem_reverse.1 hk)
  split
  · next k e =>
    split
    · next e2 => rw [e, e2] at this; exact absurd rfl this
    · rfl
  · rfl

theorem report_dropped {ss ss' : List (Node × Node)} (h : Dropped ss ss') : ∀ (vis : Option ListRef),
    (report kwArgsIn [] true vis ss).filter (fun r => r.name ≠ []) =
      (report kwArgsIn [] true vis ss').filter (fun r => r.name ≠ []) := by
  induction h with
  | nil => intro vis; rfl
  | same s _ ih =>
    intro vis
    obtain ⟨f, a⟩ := s
    cases f <;> cases a <;> simp only [report, ih]
    split
    · exact ih _
    · simp only [true_or, and_self, if_true, List.filter_cons, ih]
  | drop f ty hf ha _ ih =>
    intro vis
    simp only [report, if_neg hf, true_or, and_self, if_true, List.filter_cons]
    rw [if_neg, ih]
    simp [attributes, last_other ha]

theorem sameRulesFor_dropped {t t' : Node} (h : Dropped (sites t) (sites t')) : SameRulesFor false plain plain t t' := by
  have := report_dropped h none
  unfold SameRulesFor rulesIn
  rw [List.filter_map, List.filter_map]
  have e : ((fun x : Query.Result × (BazelTarget → Nat → Bool) => false || decide (x.1.name ≠ [])) ∘
      fun r => (told r, plain r)) = fun r => decide (r.name ≠ []) := by
    funext r
    simp [told]
  rw [e, this]

/-! ### Files -/

theorem dropped_filter {vars : List Str} : ∀ (xs : List Node), Dropped (sitesIn xs) (sitesIn (xs.filter fun x => !nameless vars x))
  | [] => .nil
  | x :: xs => by
    have ih := dropped_filter (vars := vars) xs
    rw [List.filter_cons]
    cases h : nameless vars x with
    | true =>
      obtain ⟨f, ty, args, rfl, _, h2, h3⟩ := nameless_eq h
      simp only [Bool.not_true, Bool.false_eq_true, if_false, sitesIn, sites, List.cons_append, List.nil_append]
      simp only [List.mem_cons, not_or] at h2
      exact .drop f ty h2.1 h3 ih
    | false =>
      simp only [Bool.not_false, if_true, sitesIn]
      exact dropped_append _ ih

theorem walks_filter (glob : GlobFn) {vars : List Str} : ∀ (xs : List Node) (V : Vars), (∀ i, i ∉ vars → V.find i = none) →
    (∀ i ∈ boundIn xs, i ∈ vars) →
    (walks glob 0 V xs = none ∧ walks glob 0 V (xs.filter fun x => !nameless vars x) = none) ∨
      ∃ ys ys' V', walks glob 0 V xs = some (ys, V') ∧ walks glob 0 V (xs.filter fun x => !nameless vars x) = some (ys', V') ∧
        Dropped (sitesIn ys) (sitesIn ys')
  | [], V, _, _ => .inr ⟨[], [], V, by rw [walks], by rw [List.filter_nil, walks], .nil⟩
  | x :: xs, V, hV, hb => by
    rw [List.filter_cons]
    cases h : nameless vars x with
    | true =>
      simp only [Bool.not_true, Bool.false_eq_true, if_false]
      have hw := walk_nameless (glob := glob) hV h
      rw [walks, hw]
      simp only
      obtain ⟨f, ty, args, rfl, _, h2, h3⟩ := nameless_eq h
      rcases walks_filter glob xs V hV (fun i hi => hb i (by simp [boundIn, hi])) with ⟨e1, e2⟩ | ⟨ys, ys', V', e1, e2, e3⟩
      · rw [e1, e2]; exact .inl ⟨rfl, rfl⟩
      · rw [e1, e2]
        simp only [List.mem_cons, not_or] at h2
        refine .inr ⟨_, _, _, rfl, rfl, ?_⟩
        simp only [sitesIn, sites, List.cons_append, List.nil_append]
        exact .drop f ty h2.1 h3 e3
    | false =>
      simp only [Bool.not_false, if_true]
      rw [walks, walks]
      cases hw : walk glob 0 V x with
      | none => exact .inl ⟨rfl, rfl⟩
      | some p =>
        obtain ⟨x', V1⟩ := p
        simp only
        have hV1 : ∀ i, i ∉ vars → V1.find i = none := fun i hi =>
          walk_unbound glob i x 0 V x' V1 hw (fun _ hx => hi (hb i (by simp [boundIn, hx]))) (hV i hi)
        rcases walks_filter glob xs V1 hV1 (fun i hi => hb i (by simp [boundIn, hi])) with ⟨e1, e2⟩ | ⟨ys, ys', V', e1, e2, e3⟩
        · rw [e1, e2]; exact .inl ⟨rfl, rfl⟩
        · rw [e1, e2]
          refine .inr ⟨_, _, _, rfl, rfl, ?_⟩
          simp only [sitesIn]
          exact dropped_append _ e3

theorem sameRulesFor_essential (xs : List Node) :
    SameRulesFor false plain plain (.list .list xs) (.list .list (essential xs)) :=
  sameRulesFor_dropped (by simp only [sites]; exact dropped_filter xs)

theorem sameEvaluatedFor_essential (glob : GlobFn) (xs : List Node) :
    SameEvaluatedFor false plain plain glob (.list .list xs) (.list .list (essential xs)) := by
  unfold SameEvaluatedFor
  rw [elabFile, elabFile, walk, walk]
  unfold essential
  rcases walks_filter glob (vars := boundIn xs) xs [] (fun _ _ => rfl) (fun _ h => h) with
    ⟨e1, e2⟩ | ⟨ys, ys', V', e1, e2, e3⟩
  · rw [e1, e2]; exact .inl ⟨rfl, rfl⟩
  · rw [e1, e2]
    exact .inr ⟨_, _, rfl, rfl, sameRulesFor_dropped (by simp only [sites]; exact e3)⟩

theorem sameRulesFor_essentials {t t' : Node} (h : SameEssentials t t') : SameRulesFor false plain plain t t' := by
  rcases h with rfl | ⟨xs, xs', rfl, rfl, e⟩
  · rfl
  have h1 := sameRulesFor_essential xs
  have h2 := sameRulesFor_essential xs'
  rw [e] at h2
  exact h2.symm.trans h1

theorem sameEvaluatedFor_essentials {glob : GlobFn} {t t' : Node} (h : SameEssentials t t') :
    SameEvaluatedFor false plain plain glob t t' := by
  rcases h with rfl | ⟨xs, xs', rfl, rfl, e⟩
  · cases hu : elabFile glob t' with
    | none => exact .inl ⟨hu, hu⟩
    | some u => exact .inr ⟨u, u, hu, hu, rfl⟩
  have h1 := sameEvaluatedFor_essential glob xs
  have h2 := sameEvaluatedFor_essential glob xs'
  rw [e] at h2
  rcases h1 with ⟨a1, a2⟩ | ⟨u, u', a1, a2, a3⟩
  · rcases h2 with ⟨b1, b2⟩ | ⟨v, v', b1, b2, b3⟩
    · exact .inl ⟨a1, b1⟩
    · rw [a2] at b2; cases b2
  · rcases h2 with ⟨b1, b2⟩ | ⟨v, v', b1, b2, b3⟩
    · rw [a2] at b2; cases b2
    · rw [a2] at b2
      cases b2
      exact .inr ⟨u, v, a1, b1, b3.symm.trans a3⟩

theorem sameRulesFor_keep {u : Bool} {keep keep' : Query.Result → BazelTarget → Nat → Bool}
    (hkeep : ∀ r r', told r' = told r → keep' r' = keep r) {t t' : Node} (h : SameRulesFor u plain plain t t') :
    SameRulesFor u keep keep' t t' := by
  unfold SameRulesFor rulesIn at *
  rw [List.filter_map, List.filter_map] at *
  change (List.filter (fun r => u || decide ((told r).name ≠ [])) _).map _ =
    (List.filter (fun r => u || decide ((told r).name ≠ [])) _).map _ at h
  change (List.filter (fun r => u || decide ((told r).name ≠ [])) _).map _ =
    (List.filter (fun r => u || decide ((told r).name ≠ [])) _).map _
  generalize List.filter (fun r => u || decide ((told r).name ≠ [])) (report kwArgsIn [] true none (sites t)) = l at *
  generalize List.filter (fun r => u || decide ((told r).name ≠ [])) (report kwArgsIn [] true none (sites t')) = l' at *
  induction l generalizing l' with
  | nil =>
    cases l' with
    | nil => rfl
    | cons _ _ => simp at h
  | cons a l ih =>
    cases l' with
    | nil => simp at h
    | cons b l' =>
      simp only [List.map_cons, List.cons.injEq, Prod.mk.injEq, and_true] at h ⊢
      exact ⟨⟨h.1, hkeep _ _ h.1⟩, ih l' h.2⟩

theorem sameEvaluatedFor_keep {u : Bool} {keep keep' : Query.Result → BazelTarget → Nat → Bool}
    (hkeep : ∀ r r', told r' = told r → keep' r' = keep r) {glob : GlobFn} {t t' : Node}
    (h : SameEvaluatedFor u plain plain glob t t') : SameEvaluatedFor u keep keep' glob t t' := by
  rcases h with h | ⟨v, v', h1, h2, h3⟩
  · exact .inl h
  · exact .inr ⟨v, v', h1, h2, sameRulesFor_keep hkeep h3⟩

end RulesSpec
end Bant
