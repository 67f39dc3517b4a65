import Verif.Lemmas.Refactored
import Verif.Lemmas.Stable
import Verif.Spec.Evaluated

/-! Lemmas about rules before and after evaluation. -/
namespace Bant
namespace EvalSpec
open Query Rules RulesSpec StableSpec Elab

/-- Those of the first list with `P` have a counterpart in the second. -/
inductive Kept {α β : Type} (P : α → Prop) (R : α → β → Prop) : List α → List β → Prop
  | nil : Kept P R [] []
  | keep {a b as bs} : R a b → Kept P R as bs → Kept P R (a :: as) (b :: bs)
  | drop {a as bs} : ¬ P a → Kept P R as bs → Kept P R (a :: as) bs
  | add {b as bs} : Kept P R as bs → Kept P R as (b :: bs)

variable {α β : Type} {P : α → Prop} {R : α → β → Prop}

theorem Kept.append {as as' : List α} {bs bs' : List β} (h : Kept P R as bs) (h' : Kept P R as' bs') :
    Kept P R (as ++ as') (bs ++ bs') := by
  induction h with
  | nil => exact h'
  | keep h _ ih => exact .keep h ih
  | drop h _ ih => exact .drop h ih
  | add _ ih => exact .add ih

theorem Kept.none (bs : List β) : Kept P R [] bs := by
  induction bs with
  | nil => exact .nil
  | cons b bs ih => exact .add ih

theorem mem_boundIn {i : Str} {x : Node} {xs : List Node} : i ∈ boundIn (x :: xs) ↔ i ∈ bound x ∨ i ∈ boundIn xs := by
  simp [boundIn]

/-- A call that stays one. -/
def Stays (B : List Str) (s : Node × Node) : Prop :=
  ∃ fn, s.1 = .ident fn ∧ fn ∉ [c!"glob", c!"select"] ∧ fn ∉ B

/-- The same call, with arguments evaluated. -/
def Evaluated (glob : GlobFn) (s s' : Node × Node) : Prop :=
  s'.1 = s.1 ∧ ∃ W W', walk glob 1 W s.2 = some (s'.2, W')

/-- Nothing is known about names that are not in `B`. -/
def Unknown (B : List Str) (V : Vars) : Prop := ∀ i, i ∉ B → V.find i = Option.none

theorem unknown_walk {glob : GlobFn} {B : List Str} {t u : Node} {n : Nat} {V V' : Vars} (h : walk glob n V t = some (u, V'))
    (hb : ∀ i ∈ bound t, i ∈ B) (hv : Unknown B V) : Unknown B V' := fun i hi =>
  walk_unbound glob i t n V u V' h (fun _ hm => hi (hb i hm)) (hv i hi)

mutual
theorem walk_kept {glob : GlobFn} {B : List Str} : ∀ (t : Node) (V : Vars) (u : Node) (V' : Vars),
    walk glob 0 V t = some (u, V') → summed t = [] → (∀ i ∈ bound t, i ∈ B) → Unknown B V →
      Kept (Stays B) (Evaluated glob) (sites t) (sites u)
  | .null, V, _, _, h, _, _, _ => by simp only [walk] at h; cases h; exact .none _
  | .str _ _ _, V, _, _, h, _, _, _ => by simp only [sites]; exact .none _
  | .int _ _, V, _, _, h, _, _, _ => by simp only [sites]; exact .none _
  | .ident _, V, _, _, h, _, _, _ => by simp only [sites]; exact .none _
  | .unary op e, V, _, _, h, hs, hb, hv => by
    simp only [walk] at h
    split at h
    · cases h
    · next e' V' he =>
      cases h
      simp only [sites]
      exact walk_kept e V _ _ he hs hb hv
  | .binop op a b, V, _, _, h, hs, hb, hv => by
    simp only [walk] at h
    simp only [bound, List.mem_append] at hb
    simp only [summed] at hs
    split at h
    · cases h
    · next a' V' ha =>
      split at h
      · cases h
      · next b' V'' hb' =>
        by_cases ho : op = .op '+'
        · rw [if_pos ho] at hs
          have : sites (.binop op a b) = [] := hs
          rw [this]
          exact .none _
        · rw [if_neg ho, List.append_eq_nil_iff] at hs
          rw [if_neg ho] at h
          cases h
          exact (walk_kept a V _ _ ha hs.1 (fun i hi => hb i (.inl hi)) hv).append
            (walk_kept b V' _ _ hb' hs.2 (fun i hi => hb i (.inr hi))
              (unknown_walk ha (fun i hi => hb i (.inl hi)) hv))
  | .list ty xs, V, _, _, h, hs, hb, hv => by
    simp only [walk] at h
    split at h
    · cases h
    · next e' V' he => cases h; exact walks_kept xs V _ _ he hs hb hv
  | .compr ty e, V, _, _, h, hs, hb, hv => by
    simp only [walk] at h
    split at h
    · cases h
    · next e' V' he =>
      have h1 := walk_kept e V _ _ he hs hb hv
      cases hn : finishCompr ty e' with
      | none => rw [hn] at h; cases h
      | some n =>
        rw [hn] at h
        have : sites n = sites e' := by
          unfold finishCompr at hn
          split at hn <;> cases hn <;> rfl
        rw [← this] at h1
        cases h
        exact h1
  | .ternary a b c, V, _, _, h, hs, hb, hv => by
    simp only [walk] at h
    simp only [bound, List.mem_append] at hb
    simp only [summed, List.append_eq_nil_iff] at hs
    split at h
    · cases h
    · next a' V' ha =>
      split at h
      · cases h
      · next b' V'' hb' =>
        split at h
        · cases h
        · next c' V''' hc' =>
          cases h
          have h1 := unknown_walk ha (fun i hi => hb i (.inl (.inl hi))) hv
          have h2 := unknown_walk hb' (fun i hi => hb i (.inl (.inr hi))) h1
          exact ((walk_kept a V _ _ ha hs.1.1 (fun i hi => hb i (.inl (.inl hi))) hv).append
            (walk_kept b V' _ _ hb' hs.1.2 (fun i hi => hb i (.inl (.inr hi))) h1)).append
            (walk_kept c V'' _ _ hc' hs.2 (fun i hi => hb i (.inr hi)) h2)
  | .assign l e, V, _, _, h, _, _, _ => by simp only [sites]; exact .none _
  | .call f a, V, _, _, h, _, _, hv => by
    simp only [sites]
    by_cases hp : Stays B (f, a)
    · obtain ⟨fn, h1, h2, h3⟩ := hp
      simp only at h1
      subst h1
      simp only [walk, hv fn h3, Option.getD_none] at h
      split at h
      · cases h
      · next a' V' ha =>
        simp only [List.mem_cons, List.not_mem_nil, or_false, not_or] at h2
        simp only [finishCall, h2.1, h2.2, if_false] at h
        cases h
        exact .keep ⟨rfl, V, _, ha⟩ .nil
    · exact .drop hp (.none _)
theorem walks_kept {glob : GlobFn} {B : List Str} : ∀ (xs : List Node) (V : Vars) (us : List Node) (V' : Vars),
    walks glob 0 V xs = some (us, V') → summedIn xs = [] → (∀ i ∈ boundIn xs, i ∈ B) → Unknown B V →
      Kept (Stays B) (Evaluated glob) (sitesIn xs) (sitesIn us)
  | [], V, _, _, h, _, _, _ => by simp only [sitesIn]; exact .none _
  | x :: xs, V, _, _, h, hs, hb, hv => by
    simp only [walks] at h
    simp only [summedIn, List.append_eq_nil_iff] at hs
    simp only [mem_boundIn] at hb
    split at h
    · cases h
    · next x' V' hx =>
      split at h
      · cases h
      · next xs' V'' hxs =>
        cases h
        exact (walk_kept x V _ _ hx hs.1 (fun i hi => hb i (.inl hi)) hv).append
          (walks_kept xs V' _ _ hxs hs.2 (fun i hi => hb i (.inr hi))
            (unknown_walk hx (fun i hi => hb i (.inl hi)) hv))
end

/-! ### Attributes -/

/-- The arguments of a call, evaluated. -/
def Values (glob : GlobFn) (a b : Node × Node) : Prop := b.1 = a.1 ∧ ∃ W W', walk glob 1 W a.2 = some (b.2, W')

theorem kwArgsIn_values {glob : GlobFn} {args args' : List Node} {W W' : Vars}
    (hk : ∀ a ∈ args, ∃ k v, a = .assign (.ident k) v) (h : walks glob 1 W args = some (args', W')) :
    Pairs (Values glob) (kwArgsIn args) (kwArgsIn args') := by
  induction args generalizing args' W with
  | nil => simp only [walks] at h; cases h; exact .nil
  | cons x xs ih =>
    obtain ⟨k, v, rfl⟩ := hk x (by simp)
    simp only [walks, walk] at h
    cases hv : walk glob 1 W v with
    | none => rw [hv] at h; cases h
    | some r =>
      obtain ⟨v', V'⟩ := r
      rw [hv] at h
      simp only [Nat.succ_ne_self, if_false] at h
      split at h
      · cases h
      · next xs' V'' hxs =>
        cases h
        simp only [kwArgsIn, kwArgs, List.cons_append, List.nil_append]
        exact .cons ⟨rfl, W, V', hv⟩ (ih (fun a ha => hk a (by simp [ha])) hxs)

/-- No two names are the same. -/
def Unique (kws : List (Node × Node)) : Prop := kws.Pairwise fun a b => ∀ k, a.1 = .ident k → b.1 ≠ .ident k

theorem kwArgsIn_unique {args : List Node} (h : Keywords args) : Unique (kwArgsIn args) := by
  induction args with
  | nil => exact .nil
  | cons x xs ih =>
    obtain ⟨k, v, rfl⟩ := h.1 x (by simp)
    have ht := keywords_tail h
    simp only [kwArgsIn, kwArgs, List.cons_append, List.nil_append]
    refine List.pairwise_cons.2 ⟨fun b hb k' e e' => ?_, ih ht⟩
    cases e
    have : ∃ w, Node.assign (.ident k) w ∈ xs := by
      clear ih h
      induction xs with
      | nil => cases hb
      | cons y ys ih =>
        obtain ⟨k2, v2, rfl⟩ := ht.1 y (by simp)
        simp only [kwArgsIn, kwArgs, List.cons_append, List.nil_append, List.mem_cons] at hb
        rcases hb with rfl | hb
        · simp only [Node.ident.injEq] at e'
          subst e'
          exact ⟨v2, by simp⟩
        · obtain ⟨w, hw⟩ := ih (keywords_tail ht) hb
          exact ⟨w, by simp [hw]⟩
    obtain ⟨w, hw⟩ := this
    exact (List.pairwise_cons.1 h.2).1 _ hw k v w rfl rfl

theorem last_unique {γ : Type} {key : Str} {f : Node → Option γ} {kws : List (Node × Node)} (h : Unique kws) {x : γ} :
    last key f kws = some x ↔ ∃ v, (.ident key, v) ∈ kws ∧ f v = some x := by
  unfold last
  constructor
  · intro hl
    obtain ⟨kw, h1, h2⟩ := List.exists_of_findSome?_eq_some hl
    rw [List.mem_reverse] at h1
    obtain ⟨k, v⟩ := kw
    cases k <;> simp only [reduceCtorEq] at h2
    split at h2
    · next e => subst e; exact ⟨v, h1, h2⟩
    · cases h2
  · rintro ⟨v, h1, h2⟩
    induction kws with
    | nil => cases h1
    | cons a kws ih =>
      rw [List.reverse_cons, List.findSome?_append]
      have h' := List.pairwise_cons.1 h
      rcases List.mem_cons.1 h1 with rfl | h1
      · rw [Option.or_eq_some_iff]
        refine .inr ⟨?_, by simp [h2]⟩
        · rw [List.findSome?_eq_none_iff]
          intro b hb
          rw [List.mem_reverse] at hb
          have := h'.1 b hb key rfl
          cases hb1 : b.1 <;> try rfl
          simp only
          rw [if_neg]
          rintro rfl
          exact this hb1
      · rw [ih h'.2 h1]
        rfl

theorem unique_values {glob : GlobFn} {kws kws' : List (Node × Node)} (h : Pairs (Values glob) kws kws') (hu : Unique kws) :
    Unique kws' := by
  induction h with
  | nil => exact .nil
  | @cons a b as bs hab h ih =>
    have hu' := List.pairwise_cons.1 hu
    refine List.pairwise_cons.2 ⟨fun c hc k e e' => ?_, ih hu'.2⟩
    obtain ⟨d, hd, he⟩ := Stable.pairs_right h hc
    exact hu'.1 d hd k (hab.1 ▸ e) (he.1 ▸ e')

theorem last_text {glob : GlobFn} {kws kws' : List (Node × Node)} (h : Pairs (Values glob) kws kws') (hu : Unique kws)
    {key s : Str} (hl : last key text kws = some s) : last key text kws' = some s := by
  obtain ⟨v, h1, h2⟩ := (last_unique hu).1 hl
  obtain ⟨b, hb, e, W, W', h3⟩ := Stable.pairs_left h h1
  obtain ⟨k, v'⟩ := b
  simp only at e h3
  subst e
  refine (last_unique (unique_values h hu)).2 ⟨v', hb, ?_⟩
  cases v <;> simp only [text, reduceCtorEq] at h2 <;> simp only [walk] at h3 <;> cases h3 <;> exact h2

theorem walks_texts {glob : GlobFn} : ∀ (xs : List Node) (W : Vars) (xs' : List Node) (W' : Vars),
    walks glob 1 W xs = some (xs', W') → (xs.filterMap text).Sublist (xs'.filterMap text)
  | [], W, _, _, h => by simp
  | x :: xs, W, _, _, h => by
    simp only [walks] at h
    split at h
    · cases h
    · next x' V' hx =>
      split at h
      · cases h
      · next xs2 V'' hxs =>
        cases h
        have ih := walks_texts xs _ _ _ hxs
        cases ht : text x with
        | none =>
          rw [List.filterMap_cons_none ht]
          cases ht' : text x' with
          | none => rw [List.filterMap_cons_none ht']; exact ih
          | some s => rw [List.filterMap_cons_some ht']; exact ih.cons _
        | some s =>
          have : x' = x := by
            cases x <;> simp only [text, reduceCtorEq] at ht <;> simp only [walk] at hx <;> cases hx <;> rfl
          rw [this, List.filterMap_cons_some ht, List.filterMap_cons_some ht]
          exact ih.cons_cons _

theorem last_list {glob : GlobFn} {kws kws' : List (Node × Node)} (h : Pairs (Values glob) kws kws') (hu : Unique kws)
    (key : Str) : (stringsOf (last key listOf kws)).Sublist (stringsOf (last key listOf kws')) := by
  cases hl : last key listOf kws with
  | none => simp [stringsOf]
  | some l =>
    obtain ⟨v, h1, h2⟩ := (last_unique hu).1 hl
    obtain ⟨b, hb, e, W, W', h3⟩ := Stable.pairs_left h h1
    obtain ⟨k, v'⟩ := b
    simp only at e h3
    subst e
    cases v <;> simp only [listOf, reduceCtorEq] at h2
    next ty xs =>
    cases h2
    simp only [walk] at h3
    split at h3
    · cases h3
    · next xs' V hx =>
      cases h3
      rw [(last_unique (f := listOf) (x := (ty, xs')) (unique_values h hu)).2 ⟨_, hb, rfl⟩]
      exact (walks_texts _ _ _ _ hx).filter _

theorem last_literal {glob : GlobFn} {kws kws' : List (Node × Node)} (h : Pairs (Values glob) kws kws') (hu : Unique kws)
    {key : Str} (hl : ∀ v, (.ident key, v) ∈ kws → text v ≠ Option.none) : last key text kws' = last key text kws := by
  cases hk : last key text kws with
  | some s => exact last_text h hu hk
  | none =>
    cases hk' : last key text kws' with
    | none => rfl
    | some s =>
      obtain ⟨v', h1, _⟩ := (last_unique (unique_values h hu)).1 hk'
      obtain ⟨⟨k, v⟩, h2, e, _⟩ := Stable.pairs_right h h1
      simp only at e
      subst e
      cases ht : text v with
      | none => exact absurd ht (hl v h2)
      | some s' =>
        rw [(last_unique hu).2 ⟨v, h2, ht⟩] at hk
        cases hk

theorem attributes_adds {glob : GlobFn} {args args' : List Node} {W W' : Vars} (hk : Keywords args)
    (h : walks glob 1 W args = some (args', W')) (vis vis' : Option ListRef) (fn : Str) (ty : ListType) (a' : Node)
    (hn : (attributes vis fn (.list ty args) (kwArgsIn args)).name ≠ []) :
    Adds (attributes vis fn (.list ty args) (kwArgsIn args)) (attributes vis' fn a' (kwArgsIn args')) := by
  have hv := kwArgsIn_values hk.1 h
  have hu := kwArgsIn_unique hk
  have ht : ∀ key, (last key text (kwArgsIn args)).getD [] = [] ∨
      (last key text (kwArgsIn args')).getD [] = (last key text (kwArgsIn args)).getD [] := by
    intro key
    cases hl : last key text (kwArgsIn args) with
    | none => exact .inl rfl
    | some s => rw [last_text hv hu hl]; exact .inr rfl
  refine ⟨rfl, ?_, fun ha => ?_, ?_, ?_⟩
  · exact (ht c!"name").resolve_left hn
  · obtain ⟨s, hl⟩ := Option.isSome_iff_exists.1 (show (last c!"actual" text (kwArgsIn args)).isSome = true from ha)
    have hl' := last_text hv hu hl
    exact ⟨by show (last c!"actual" text (kwArgsIn args')).isSome = true; rw [hl']; rfl,
      by show (last c!"actual" text (kwArgsIn args')).getD [] = (last c!"actual" text (kwArgsIn args)).getD []; rw [hl, hl']⟩
  · intro f hf
    have hlit : ∀ key, Literal key (attributes vis fn (.list ty args) (kwArgsIn args)) →
        (last key text (kwArgsIn args')).getD [] = (last key text (kwArgsIn args)).getD [] := by
      intro key hl
      rw [last_literal hv hu fun v hm => hl _ _ _ v rfl hm]
    simp only [List.mem_cons, List.not_mem_nil, or_false] at hf
    rcases hf with rfl | rfl | rfl | rfl | rfl | rfl <;> exact ⟨ht _, hlit _⟩
  · intro f hf
    simp only [List.mem_cons, List.not_mem_nil, or_false] at hf
    rcases hf with rfl | rfl | rfl | rfl | rfl | rfl | rfl <;> exact last_list hv hu _

/-! ### Rules -/

theorem report_skip (vis : Option ListRef) (s : Node × Node) (ss : List (Node × Node)) :
    ∃ vis', (report kwArgsIn [] false vis' ss).Sublist (report kwArgsIn [] false vis (s :: ss)) := by
  obtain ⟨f, a⟩ := s
  cases f <;> cases a <;> simp only [report] <;> try exact ⟨vis, List.Sublist.refl _⟩
  split
  · exact ⟨_, List.Sublist.refl _⟩
  · split
    · exact ⟨vis, List.sublist_cons_self _ _⟩
    · exact ⟨vis, List.Sublist.refl _⟩

theorem within_sub {γ δ : Type} {S : γ → δ → Prop} {as : List γ} {bs bs' : List δ} (h : Within S as bs)
    (hs : bs.Sublist bs') : Within S as bs' :=
  let ⟨cs, h1, h2⟩ := h
  ⟨cs, h1.trans hs, h2⟩

theorem report_within {glob : GlobFn} {B : List Str} {ss ss' : List (Node × Node)}
    (h : Kept (Stays B) (Evaluated glob) ss ss') : ∀ vis vis' : Option ListRef,
    (∀ r ∈ report kwArgsIn [] false vis ss, r.rule ∉ [c!"glob", c!"select"] ∧ r.rule ∉ B ∧
      ∀ fn ty args, r.node = .call fn (.list ty args) → Keywords args) →
    Within Adds (report kwArgsIn [] false vis ss) (report kwArgsIn [] false vis' ss') := by
  induction h with
  | nil => intro _ _ _; exact ⟨[], .slnil, .nil⟩
  | @add b as bs _ ih =>
    intro vis vis' hr
    obtain ⟨v, hv⟩ := report_skip vis' b bs
    exact within_sub (ih vis v hr) hv
  | @drop a as bs ha _ ih =>
    intro vis vis' hr
    obtain ⟨f, a⟩ := a
    cases f <;> cases a <;> simp only [report] at hr ⊢ <;> try exact ih _ vis' hr
    next fn ty args =>
    by_cases hp : fn = c!"package"
    · rw [if_pos hp] at hr ⊢
      exact ih _ vis' hr
    · rw [if_neg hp] at hr ⊢
      split
      · next hc =>
        rw [if_pos hc] at hr
        have := hr _ (List.mem_cons_self)
        exact absurd ⟨fn, rfl, this.1, this.2.1⟩ ha
      · next hc =>
        rw [if_neg hc] at hr
        exact ih _ vis' hr
  | @keep a b as bs hab _ ih =>
    intro vis vis' hr
    obtain ⟨f, a⟩ := a
    obtain ⟨f', a'⟩ := b
    obtain ⟨e, W, W', h1⟩ := hab
    simp only at e h1
    subst e
    obtain ⟨v, hv⟩ := report_skip vis' (f', a') bs
    cases f' <;> cases a <;> (try (simp only [report] at hr ⊢; exact within_sub (ih _ v hr) hv))
    next fn ty args =>
    simp only [walk] at h1
    split at h1
    · cases h1
    · next args' V hargs =>
      cases h1
      simp only [report] at hr ⊢
      by_cases hp : fn = c!"package"
      · rw [if_pos hp] at hr ⊢
        rw [if_pos hp]
        exact ih _ _ hr
      · rw [if_neg hp] at hr ⊢
        rw [if_neg hp]
        split
        · next hc =>
          rw [if_pos hc] at hr
          have h2 := (hr _ (List.mem_cons_self)).2.2 (.ident fn) ty args rfl
          have hn := hc.2.resolve_left (by simp)
          have h3 := attributes_adds h2 hargs vis vis' fn ty (.list ty args') hn
          rw [if_pos ⟨by simp, .inr (h3.name ▸ hn)⟩]
          obtain ⟨cs, h4, h5⟩ := ih vis vis' fun r hm => hr r (.tail _ hm)
          exact ⟨_ :: cs, h4.cons_cons _, .cons h3 h5⟩
        · next hc =>
          rw [if_neg hc] at hr
          have := ih vis vis' hr
          split
          · exact within_sub this (List.sublist_cons_self _ _)
          · exact this

theorem rules_within {glob : GlobFn} {t u : Node} (h : elabFile glob t = some u) (hu : Usual t) :
    Within Adds (rulesOf [] t) (rulesOf [] u) := by
  unfold elabFile at h
  obtain ⟨r, h1, rfl⟩ := Option.map_eq_some_iff.1 h
  exact report_within (walk_kept t [] r.1 r.2 h1 hu.sums (fun _ h => h) (fun _ _ => rfl)) none none hu.rules

end EvalSpec
end Bant
