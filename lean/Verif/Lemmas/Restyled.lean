import Verif.Spec.Restyled
import Verif.Lemmas.SameRulesCommand

/-! Lemmas for the order of attributes and the quotes of strings (C102). -/
namespace Bant
namespace RulesSpec
open Query Rules Elab

/-! ### Evaluation -/

theorem restyledAll_length {xs xs' : List Node} (h : RestyledAll xs xs') : xs'.length = xs.length := by
  induction xs generalizing xs' with
  | nil => cases h; rfl
  | cons x xs ih => cases h with | cons _ h => simp [ih h]

theorem restyledAll_append : ∀ {xs xs' ys ys' : List Node}, RestyledAll xs xs' → RestyledAll ys ys' →
    RestyledAll (xs ++ ys) (xs' ++ ys')
  | [], _, _, _, h, h2 => by cases h; exact h2
  | _ :: _, _, _, _, h, h2 => by cases h with | cons h1 h => exact .cons h1 (restyledAll_append h h2)

mutual
theorem restyled_refl : ∀ t : Node, Restyled t t
  | .null => .null
  | .str t _ _ => .str t _ _ _ _
  | .int r v => .int r v
  | .ident i => .ident i
  | .unary op e => .unary op (restyled_refl e)
  | .binop op a b => .binop op (restyled_refl a) (restyled_refl b)
  | .list ty xs => .list ty (restyledAll_refl xs)
  | .compr ty e => .compr ty (restyled_refl e)
  | .ternary a b c => .ternary (restyled_refl a) (restyled_refl b) (restyled_refl c)
  | .assign l r => .assign (restyled_refl l) (restyled_refl r)
  | .call f a => .call (restyled_refl f) (restyled_refl a)
theorem restyledAll_refl : ∀ xs : List Node, RestyledAll xs xs
  | [] => .nil
  | x :: xs => .cons (restyled_refl x) (restyledAll_refl xs)
end

/-- The same variables. -/
inductive SameVars : Vars → Vars → Prop
  | nil : SameVars [] []
  | cons (i : Str) {v v' : Node} {vs vs' : Vars} : Restyled v v' → SameVars vs vs' →
    SameVars ((i, v) :: vs) ((i, v') :: vs')

theorem find_sameVars {vs vs' : Vars} (h : SameVars vs vs') (i : Str) :
    (vs.find i = none ∧ vs'.find i = none) ∨ ∃ v v', vs.find i = some v ∧ vs'.find i = some v' ∧ Restyled v v' := by
  induction h with
  | nil => exact .inl ⟨rfl, rfl⟩
  | @cons j v v' vs vs' hv _ ih =>
    unfold Vars.find at *
    simp only [List.find?_cons]
    by_cases hk : j = i
    · simp only [hk, decide_true, Option.map_some]; exact .inr ⟨v, v', rfl, rfl, hv⟩
    · simp only [hk, decide_false]; exact ih

/-- Undefined in both, or related. -/
def Both {α β : Type} (R : α → β → Prop) (o : Option α) (o' : Option β) : Prop :=
  (o = none ∧ o' = none) ∨ ∃ x x', o = some x ∧ o' = some x' ∧ R x x'

theorem both_none {α β : Type} {R : α → β → Prop} : Both R none none := .inl ⟨rfl, rfl⟩
theorem both_some {α β : Type} {R : α → β → Prop} {x : α} {y : β} (h : R x y) : Both R (some x) (some y) :=
  .inr ⟨x, y, rfl, rfl, h⟩

theorem stringList_restyled {xs xs' : List Node} (h : RestyledAll xs xs') : Elab.stringList xs' = Elab.stringList xs := by
  induction xs generalizing xs' with
  | nil => cases h; rfl
  | cons x xs ih =>
    cases h with
    | cons h1 h =>
      have ih := ih h
      cases h1 <;> simp only [Elab.stringList, ih]

theorem isNull_restyled {t t' : Node} (h : Restyled t t') : t'.isNull = t.isNull := by
  cases h <;> rfl

theorem castList_restyled {t t' : Node} (h : Restyled t t') :
    Both (fun o o' => Both (fun a b : ListType × List Node => RestyledAll a.2 b.2) o o') (castList t) (castList t') := by
  cases h with
  | null => exact both_none
  | list ty h => exact both_some (both_some h)
  | _ => exact both_some both_none

/-- The same arguments of `glob()`. -/
def SameGlob (g g' : GlobArgs) : Prop := Both RestyledAll g.1 g'.1 ∧ Both RestyledAll g.2 g'.2

theorem both_map {o o' : Option (ListType × List Node)}
    (h : Both (fun a b : ListType × List Node => RestyledAll a.2 b.2) o o') :
    Both RestyledAll (o.map (·.2)) (o'.map (·.2)) := by
  rcases h with ⟨rfl, rfl⟩ | ⟨x, x', rfl, rfl, h⟩
  · exact both_none
  · exact both_some h

theorem globArgs_restyled {xs xs' : List Node} (h : RestyledAll xs xs') {g g' : GlobArgs} (hg : SameGlob g g') :
    Both SameGlob (globArgs xs g) (globArgs xs' g') := by
  induction xs generalizing xs' g g' with
  | nil => cases h; exact both_some hg
  | cons x xs ih =>
    cases h with
    | cons h1 h =>
      cases h1 with
      | null => exact both_none
      | list ty hl => simp only [globArgs]; exact ih h ⟨both_some hl, hg.2⟩
      | assign hl hr =>
        cases hl with
        | ident i =>
          simp only [globArgs]
          split
          · rcases castList_restyled hr with ⟨e1, e2⟩ | ⟨o, o', e1, e2, e3⟩
            · rw [e1, e2]; exact both_none
            · rw [e1, e2]; exact ih h ⟨both_map e3, hg.2⟩
          · split
            · rcases castList_restyled hr with ⟨e1, e2⟩ | ⟨o, o', e1, e2, e3⟩
              · rw [e1, e2]; exact both_none
              · rw [e1, e2]; exact ih h ⟨hg.1, both_map e3⟩
            · exact ih h hg
        | _ => simp only [globArgs]; exact ih h hg
      | _ => simp only [globArgs]; exact ih h hg

/-- `k = v` among the arguments of `glob()`. -/
def globStep (k : Str) (v : Node) (g : GlobArgs) : Option GlobArgs :=
  if k = c!"include" then (castList v).map fun l => (l.map (·.2), g.2)
  else if k = c!"exclude" then (castList v).map fun l => (g.1, l.map (·.2))
  else some g

theorem globArgs_step (k : Str) (v : Node) (xs : List Node) (g : GlobArgs) :
    globArgs (.assign (.ident k) v :: xs) g = (globStep k v g).bind (globArgs xs) := by
  simp only [globArgs, globStep]
  split
  · cases castList v <;> rfl
  · split
    · cases castList v <;> rfl
    · rfl

theorem globStep_comm {k k' : Str} (h : k ≠ k') (v v' : Node) (g : GlobArgs) :
    (globStep k v g).bind (globStep k' v') = (globStep k' v' g).bind (globStep k v) := by
  unfold globStep
  by_cases h1 : k = c!"include" <;> by_cases h2 : k' = c!"include" <;> by_cases h3 : k = c!"exclude" <;>
    by_cases h4 : k' = c!"exclude" <;>
    first
    | exact absurd (h1.trans h2.symm) h
    | exact absurd (h3.trans h4.symm) h
    | exact absurd (h1.symm.trans h3) (by decide)
    | exact absurd (h2.symm.trans h4) (by decide)
    | (simp only [h1, h2, h3, h4, if_true, if_false]
       try (cases castList v <;> cases castList v' <;> rfl))

theorem keywords_perm {xs ys : List Node} (h : xs.Perm ys) (hk : Keywords xs) : Keywords ys := by
  refine ⟨fun a ha => hk.1 a (h.mem_iff.2 ha), (h.pairwise_iff ?_).1 hk.2⟩
  intro a b hab k v w hb ha
  exact hab k w v ha hb

theorem keywords_tail {x : Node} {xs : List Node} (h : Keywords (x :: xs)) : Keywords xs :=
  ⟨fun a ha => h.1 a (by simp [ha]), (List.pairwise_cons.1 h.2).2⟩

theorem globArgs_perm {xs ys : List Node} (h : xs.Perm ys) : Keywords xs → ∀ g, globArgs ys g = globArgs xs g := by
  induction h with
  | nil => intro _ g; rfl
  | @cons x xs ys _ ih =>
    intro hk g
    obtain ⟨k, v, rfl⟩ := hk.1 x (by simp)
    rw [globArgs_step, globArgs_step]
    cases globStep k v g with
    | none => rfl
    | some g' => exact ih (keywords_tail hk) g'
  | swap x y xs =>
    intro hk g
    obtain ⟨k, v, rfl⟩ := hk.1 x (by simp)
    obtain ⟨k', v', rfl⟩ := hk.1 y (by simp)
    have hne : k' ≠ k := by
      rintro rfl
      exact (List.pairwise_cons.1 hk.2).1 _ (by simp) k' v' v rfl rfl
    have step : ∀ (a b : Str) (u w : Node), globArgs (.assign (.ident a) u :: .assign (.ident b) w :: xs) g =
        ((globStep a u g).bind (globStep b w)).bind (globArgs xs) := by
      intro a b u w
      rw [globArgs_step, Option.bind_assoc]
      congr 1
      funext g'
      exact globArgs_step b w xs g'
    rw [step, step, globStep_comm hne]
  | trans h1 _ ih1 ih2 => intro hk g; rw [ih2 (keywords_perm h1 hk), ih1 hk]

theorem extract_restyled {o o' : Option (List Node)} (h : Both RestyledAll o o') :
    extractStringList o' = extractStringList o := by
  rcases h with ⟨rfl, rfl⟩ | ⟨x, x', rfl, rfl, h⟩
  · rfl
  · exact stringList_restyled h

theorem handleGlob_restyled (glob : GlobFn) {xs xs' : List Node}
    (h : Both SameGlob (globArgs xs (none, none)) (globArgs xs' (none, none))) :
    handleGlob glob xs' = handleGlob glob xs := by
  unfold handleGlob
  rcases h with ⟨e1, e2⟩ | ⟨g, g', e1, e2, e3⟩
  · rw [e1, e2]
  · rw [e1, e2]
    simp only [Option.bind_eq_bind, Option.bind_some, extract_restyled e3.1, extract_restyled e3.2]

theorem default_restyled {t t' : Node} (h : Restyled t t') : isDefaultCondition t' = isDefaultCondition t := by
  cases h <;> rfl

theorem selectEntry_restyled {xs xs' : List Node} (h : RestyledAll xs xs') :
    Both (Both Restyled) (selectEntry xs) (selectEntry xs') := by
  induction xs generalizing xs' with
  | nil => cases h; exact both_some both_none
  | cons x xs ih =>
    cases h with
    | cons h1 h =>
      cases h1 with
      | null => exact both_none
      | binop op ha hb =>
        simp only [selectEntry, isNull_restyled ha]
        split
        · split
          · exact both_none
          · rw [default_restyled ha]
            split
            · exact both_some (both_some hb)
            · exact ih h
        · exact ih h
      | _ => simp only [selectEntry]; exact ih h

theorem selectArgs_restyled {xs xs' : List Node} (h : RestyledAll xs xs') :
    Both (Both Restyled) (selectArgs xs) (selectArgs xs') := by
  induction xs generalizing xs' with
  | nil => cases h; exact both_some both_none
  | cons x xs ih =>
    cases h with
    | cons h1 h =>
      cases h1 with
      | null => exact both_none
      | list ty hl =>
        cases ty with
        | map =>
          simp only [selectArgs]
          rcases selectEntry_restyled hl with ⟨e1, e2⟩ | ⟨o, o', e1, e2, ⟨rfl, rfl⟩ | ⟨a, b, rfl, rfl, e3⟩⟩
          · rw [e1, e2]; exact both_none
          · rw [e1, e2]; exact ih h
          · rw [e1, e2]; exact both_some (both_some e3)
        | _ => simp only [selectArgs]; exact ih h
      | _ => simp only [selectArgs]; exact ih h

theorem selectArgs_keywords {xs : List Node} (h : Keywords xs) : selectArgs xs = some none := by
  induction xs with
  | nil => rfl
  | cons x xs ih =>
    obtain ⟨k, v, rfl⟩ := h.1 x (by simp)
    simp only [selectArgs]
    exact ih (keywords_tail h)

theorem plus_restyled {l l' r r' : Node} (hl : Restyled l l') (hr : Restyled r r') :
    Both Restyled (plus l r) (plus l' r') := by
  unfold plus
  rw [isNull_restyled hl, isNull_restyled hr]
  split
  · exact both_none
  · have hl' := hl
    have hr' := hr
    cases hl <;> cases hr <;>
    first
    | exact both_some (.binop _ hl' hr')
    | exact both_some (.str _ _ _ _ _)
    | exact both_some hl'
    | exact both_some hr'
    | (simp only
       split
       · exact both_some (.list _ (restyledAll_append (by assumption) (by assumption)))
       · exact both_some (.binop _ hl' hr'))

mutual
/-- Within a call, nothing is assigned. -/
theorem walk_nested (glob : GlobFn) (n : Nat) : ∀ (t : Node) (vars : Vars) (r : Node × Vars),
    walk glob (n + 1) vars t = some r → r.2 = vars
  | .null, vars, r, h => by simp only [walk, Option.some.injEq] at h; rw [← h]
  | .str _ _ _, vars, r, h => by simp only [walk, Option.some.injEq] at h; rw [← h]
  | .int _ _, vars, r, h => by simp only [walk, Option.some.injEq] at h; rw [← h]
  | .ident _, vars, r, h => by simp only [walk, Option.some.injEq] at h; rw [← h]
  | .unary op e, vars, r, h => by
    simp only [walk] at h
    split at h
    · cases h
    · next e' v he => have := walk_nested glob n e _ _ he; cases h; exact this
  | .binop op a b, vars, r, h => by
    simp only [walk] at h
    split at h
    · cases h
    · next a' v ha =>
      have h1 := walk_nested glob n a _ _ ha
      split at h
      · cases h
      · next b' v' hb =>
        have h2 := walk_nested glob n b _ _ hb
        simp only at h1 h2
        split at h
        · split at h
          · cases h
          · cases h; exact h2.trans h1
        · cases h; exact h2.trans h1
  | .list ty xs, vars, r, h => by
    simp only [walk] at h
    split at h
    · cases h
    · next e' v he => have := walks_nested glob n xs _ _ he; cases h; exact this
  | .compr ty e, vars, r, h => by
    simp only [walk] at h
    split at h
    · cases h
    · next e' v he =>
      have := walk_nested glob n e _ _ he
      split at h
      · cases h
      · cases h; exact this
  | .ternary a b c, vars, r, h => by
    simp only [walk] at h
    split at h
    · cases h
    · next a' v ha =>
      have h1 := walk_nested glob n a _ _ ha
      split at h
      · cases h
      · next b' v' hb =>
        have h2 := walk_nested glob n b _ _ hb
        split at h
        · cases h
        · next c' v'' hc =>
          have h3 := walk_nested glob n c _ _ hc
          cases h
          exact h3.trans (h2.trans h1)
  | .assign l e, vars, r, h => by
    simp only [walk] at h
    split at h
    · cases h
    · next e' v he =>
      have := walk_nested glob n e _ _ he
      split at h
      · cases h; simpa using this
      · cases h; exact this
  | .call f a, vars, r, h => by
    simp only [walk] at h
    split at h
    · cases h
    · next a' v ha =>
      have h1 := walk_nested glob (n + 1) f _ _ ha
      split at h
      · cases h
      · next b' v' hb =>
        have h2 := walk_nested glob (n + 1) a _ _ hb
        split at h
        · cases h
        · cases h; exact h2.trans h1
theorem walks_nested (glob : GlobFn) (n : Nat) : ∀ (xs : List Node) (vars : Vars) (r : List Node × Vars),
    walks glob (n + 1) vars xs = some r → r.2 = vars
  | [], vars, r, h => by simp only [walks, Option.some.injEq] at h; rw [← h]
  | x :: xs, vars, r, h => by
    simp only [walks] at h
    split at h
    · cases h
    · next x' v hx =>
      have h1 := walk_nested glob n x _ _ hx
      split at h
      · cases h
      · next xs' v' hxs =>
        have h2 := walks_nested glob n xs _ _ hxs
        cases h
        exact h2.trans h1
end

/-- Within a call, elements do not depend on each other. -/
theorem walks_perm (glob : GlobFn) (n : Nat) (vars : Vars) {xs ys : List Node} (h : xs.Perm ys) :
    Both (fun a b => a.1.Perm b.1 ∧ b.2 = a.2) (walks glob (n + 1) vars xs) (walks glob (n + 1) vars ys) := by
  induction h with
  | nil => exact both_some ⟨.nil, rfl⟩
  | @cons x xs ys _ ih =>
    simp only [walks]
    cases hx : walk glob (n + 1) vars x with
    | none => exact both_none
    | some r =>
      obtain ⟨x', v⟩ := r
      have := walk_nested glob n x _ _ hx
      simp only at this
      subst this
      simp only
      rcases ih with ⟨e1, e2⟩ | ⟨a, b, e1, e2, e3, e4⟩
      · rw [e1, e2]; exact both_none
      · rw [e1, e2]; exact both_some ⟨e3.cons _, e4⟩
  | swap x y xs =>
    simp only [walks]
    cases hx : walk glob (n + 1) vars x with
    | none =>
      cases hy : walk glob (n + 1) vars y with
      | none => exact both_none
      | some r =>
        obtain ⟨y', v⟩ := r
        have := walk_nested glob n y _ _ hy
        simp only at this
        subst this
        simp only [hx]
        exact both_none
    | some r =>
      obtain ⟨x', v⟩ := r
      have := walk_nested glob n x _ _ hx
      simp only at this
      subst this
      simp only
      cases hy : walk glob (n + 1) v y with
      | none => exact both_none
      | some r =>
        obtain ⟨y', v'⟩ := r
        have := walk_nested glob n y _ _ hy
        simp only at this
        subst this
        simp only [hx]
        cases hw : walks glob (n + 1) v' xs with
        | none => exact both_none
        | some r => exact both_some ⟨.swap _ _ _, rfl⟩
  | trans _ _ ih1 ih2 =>
    rcases ih1 with ⟨e1, e2⟩ | ⟨a, b, e1, e2, e3, e4⟩
    · rcases ih2 with ⟨a1, a2⟩ | ⟨c, d, a1, a2, a3, a4⟩
      · rw [e1, a2]; exact both_none
      · rw [e2] at a1; cases a1
    · rcases ih2 with ⟨a1, a2⟩ | ⟨c, d, a1, a2, a3, a4⟩
      · rw [e2] at a1; cases a1
      · rw [e2] at a1
        cases a1
        rw [e1, a2]; exact both_some ⟨e3.trans a3, a4.trans e4⟩

/-- Keyword arguments stay keyword arguments with the same names. -/
theorem walks_keywords (glob : GlobFn) (n : Nat) : ∀ (xs : List Node) (vars : Vars) (r : List Node × Vars),
    walks glob (n + 1) vars xs = some r →
      r.1.length = xs.length ∧ ∀ (i : Nat) (k : Str) (v : Node), xs[i]? = some (Node.assign (.ident k) v) →
        ∃ w, r.1[i]? = some (Node.assign (.ident k) w)
  | [], vars, r, h => by
    simp only [walks, Option.some.injEq] at h
    rw [← h]
    exact ⟨rfl, fun i k v h => by simp at h⟩
  | x :: xs, vars, r, h => by
    simp only [walks] at h
    split at h
    · cases h
    · next x' v' hx =>
      split at h
      · cases h
      · next xs' v'' hxs =>
        obtain ⟨h1, h2⟩ := walks_keywords glob n xs _ _ hxs
        cases h
        refine ⟨by simp [h1], fun i k v hi => ?_⟩
        cases i with
        | zero =>
          simp only [List.getElem?_cons_zero, Option.some.injEq] at hi ⊢
          subst hi
          simp only [walk] at hx
          split at hx
          · cases hx
          · next e' v'' he =>
            cases hx
            exact ⟨e', rfl⟩
        | succ i =>
          simp only [List.getElem?_cons_succ] at hi ⊢
          exact h2 i k v hi

theorem keywords_walks {glob : GlobFn} {n : Nat} {xs ys : List Node} {vars vars' : Vars} (hk : Keywords xs)
    (h : walks glob (n + 1) vars xs = some (ys, vars')) : Keywords ys := by
  obtain ⟨h1, h2⟩ := walks_keywords glob n xs _ _ h
  simp only at h1 h2
  have key : ∀ (i : Nat) (y : Node), ys[i]? = some y →
      ∃ k v w, xs[i]? = some (Node.assign (.ident k) v) ∧ y = .assign (.ident k) w := by
    intro i y hi
    have hlt : i < xs.length := by
      rw [← h1]
      exact (List.getElem?_eq_some_iff.1 hi).1
    obtain ⟨k, v, e⟩ := hk.1 xs[i] (List.getElem_mem hlt)
    have e' : xs[i]? = some (Node.assign (.ident k) v) := by rw [List.getElem?_eq_getElem hlt, e]
    obtain ⟨w, hw⟩ := h2 i k v e'
    rw [hi] at hw
    cases hw
    exact ⟨k, v, w, e', rfl⟩
  constructor
  · intro a ha
    obtain ⟨i, hi, rfl⟩ := List.mem_iff_getElem.1 ha
    obtain ⟨k, v, w, _, e⟩ := key i _ (List.getElem?_eq_getElem hi)
    exact ⟨k, w, e⟩
  · rw [List.pairwise_iff_getElem]
    intro i j hi hj hij k v w ha hb
    obtain ⟨k1, v1, w1, e1, e2⟩ := key i _ (List.getElem?_eq_getElem hi)
    obtain ⟨k2, v2, w2, e3, e4⟩ := key j _ (List.getElem?_eq_getElem hj)
    rw [ha] at e2
    rw [hb] at e4
    cases e2
    cases e4
    obtain ⟨p1, p2⟩ := List.getElem?_eq_some_iff.1 e1
    obtain ⟨p3, p4⟩ := List.getElem?_eq_some_iff.1 e3
    exact (List.pairwise_iff_getElem.1 hk.2) i j p1 p3 hij k v1 v2 p2 p4

theorem finishCall_restyled (glob : GlobFn) {f f' a a' : Node} (hf : Restyled f f') (ha : Restyled a a') :
    Both Restyled (finishCall glob f a) (finishCall glob f' a') := by
  cases hf with
  | ident name =>
    simp only [finishCall]
    split
    · cases ha with
      | list ty hl =>
        simp only
        rw [handleGlob_restyled glob (globArgs_restyled hl ⟨both_none, both_none⟩)]
        cases handleGlob glob _ with
        | none => exact both_none
        | some n => exact both_some (restyled_refl n)
      | _ => exact both_none
    · split
      · cases ha with
        | list ty hl =>
          simp only
          rcases selectArgs_restyled hl with ⟨e1, e2⟩ | ⟨o, o', e1, e2, ⟨rfl, rfl⟩ | ⟨x, y, rfl, rfl, e3⟩⟩
          · rw [e1, e2]; exact both_none
          · rw [e1, e2]; exact both_some (.call (.ident name) (.list ty hl))
          · rw [e1, e2]; exact both_some e3
        | _ => exact both_none
      · exact both_some (.call (.ident name) ha)
  | _ => exact both_none

theorem keywords_restyled {xs xs' : List Node} (h : RestyledAll xs xs') (hk : Keywords xs') : Keywords xs := by
  induction xs generalizing xs' with
  | nil => exact ⟨by simp, .nil⟩
  | cons x xs ih =>
    cases h with
    | @cons _ x' _ xs' h1 h =>
      have ih := ih h (keywords_tail hk)
      obtain ⟨k, v, rfl⟩ := hk.1 x' (by simp)
      cases h1 with
      | assign hl hr =>
        cases hl with
        | ident =>
          refine ⟨?_, List.pairwise_cons.2 ⟨?_, ih.2⟩⟩
          · intro a ha
            rcases List.mem_cons.1 ha with rfl | ha
            · exact ⟨_, _, rfl⟩
            · exact ih.1 a ha
          · intro b hb k' v' w e1 e2
            cases e1
            subst e2
            have : ∀ {ys ys' : List Node}, RestyledAll ys ys' → .assign (.ident k) w ∈ ys →
                ∃ w', .assign (.ident k) w' ∈ ys' := by
              intro ys
              induction ys with
              | nil => intro ys' _ hm; cases hm
              | cons y ys ih =>
                intro ys' hy hm
                cases hy with
                | cons hy1 hy2 =>
                  rcases List.mem_cons.1 hm with rfl | hm
                  · cases hy1 with
                    | assign hl hr => cases hl with | ident => exact ⟨_, List.mem_cons_self⟩
                  · obtain ⟨w', hw⟩ := ih hy2 hm
                    exact ⟨w', List.mem_cons_of_mem _ hw⟩
            obtain ⟨w', hw⟩ := this h hb
            exact (List.pairwise_cons.1 hk.2).1 _ hw k v w' rfl rfl

theorem finishCall_reorder (glob : GlobFn) {f f' : Node} (ty : ListType) {xs xs' xs'' : List Node}
    (hf : Restyled f f') (hx : RestyledAll xs xs') (hk : Keywords xs') (hp : xs'.Perm xs'') :
    Both Restyled (finishCall glob f (.list ty xs)) (finishCall glob f' (.list ty xs'')) := by
  cases hf with
  | ident name =>
    simp only [finishCall]
    split
    · rw [handleGlob_restyled glob (xs := xs) (xs' := xs'')]
      · cases handleGlob glob xs with
        | none => exact both_none
        | some n => exact both_some (restyled_refl n)
      · rw [globArgs_perm hp hk]
        exact globArgs_restyled hx ⟨both_none, both_none⟩
    · split
      · rw [selectArgs_keywords (keywords_restyled hx hk), selectArgs_keywords (keywords_perm hp hk)]
        exact both_some (.reorder ty (.ident name) hx hk hp)
      · exact both_some (.reorder ty (.ident name) hx hk hp)
  | _ => exact both_none

theorem finishCompr_restyled (ty : ListType) {t t' : Node} (h : Restyled t t') :
    Both Restyled (finishCompr ty t) (finishCompr ty t') := by
  have h' := h
  cases h with
  | null => exact both_some (.compr ty h')
  | binop op _ _ => exact both_some (.compr ty h')
  | assign _ _ => exact both_some (.compr ty h')
  | _ => exact both_none

/-- Evaluated alike. -/
def Walked (r r' : Node × Vars) : Prop := Restyled r.1 r'.1 ∧ SameVars r.2 r'.2

/-- The same for lists. -/
def WalkedAll (r r' : List Node × Vars) : Prop := RestyledAll r.1 r'.1 ∧ SameVars r.2 r'.2

mutual
theorem walk_restyled (glob : GlobFn) : ∀ {t t' : Node} (_ : Restyled t t') (n : Nat) {vars vars' : Vars}
    (_ : SameVars vars vars'), Both Walked (walk glob n vars t) (walk glob n vars' t')
  | _, _, .null, n, vars, vars', hv => by simp only [walk]; exact both_some ⟨.null, hv⟩
  | _, _, .str t _ _ _ _, n, vars, vars', hv => by simp only [walk]; exact both_some ⟨.str t _ _ _ _, hv⟩
  | _, _, .int r v, n, vars, vars', hv => by simp only [walk]; exact both_some ⟨.int r v, hv⟩
  | _, _, .ident i, n, vars, vars', hv => by
    simp only [walk]
    rcases find_sameVars hv i with ⟨e1, e2⟩ | ⟨x, y, e1, e2, e3⟩
    · rw [e1, e2]; exact both_some ⟨.ident i, hv⟩
    · rw [e1, e2]; exact both_some ⟨e3, hv⟩
  | _, _, .unary op h, n, vars, vars', hv => by
    simp only [walk]
    rcases walk_restyled glob h n hv with ⟨e1, e2⟩ | ⟨⟨x, v⟩, ⟨x', v'⟩, e1, e2, e3, e4⟩
    · rw [e1, e2]; exact both_none
    · rw [e1, e2]; exact both_some ⟨.unary op e3, e4⟩
  | _, _, .binop op h1 h2, n, vars, vars', hv => by
    simp only [walk]
    rcases walk_restyled glob h1 n hv with ⟨e1, e2⟩ | ⟨⟨x, v⟩, ⟨x', v'⟩, e1, e2, e3, e4⟩
    · rw [e1, e2]; exact both_none
    · rw [e1, e2]
      simp only
      rcases walk_restyled glob h2 n e4 with ⟨a1, a2⟩ | ⟨⟨y, w⟩, ⟨y', w'⟩, a1, a2, a3, a4⟩
      · rw [a1, a2]; exact both_none
      · rw [a1, a2]
        simp only
        split
        · rcases plus_restyled e3 a3 with ⟨b1, b2⟩ | ⟨z, z', b1, b2, b3⟩
          · rw [b1, b2]; exact both_none
          · rw [b1, b2]; exact both_some ⟨b3, a4⟩
        · exact both_some ⟨.binop op e3 a3, a4⟩
  | _, _, .list ty h, n, vars, vars', hv => by
    simp only [walk]
    rcases walks_restyled glob h n hv with ⟨e1, e2⟩ | ⟨⟨x, v⟩, ⟨x', v'⟩, e1, e2, e3, e4⟩
    · rw [e1, e2]; exact both_none
    · rw [e1, e2]; exact both_some ⟨.list ty e3, e4⟩
  | _, _, .compr ty h, n, vars, vars', hv => by
    simp only [walk]
    rcases walk_restyled glob h n hv with ⟨e1, e2⟩ | ⟨⟨x, v⟩, ⟨x', v'⟩, e1, e2, e3, e4⟩
    · rw [e1, e2]; exact both_none
    · rw [e1, e2]
      simp only
      rcases finishCompr_restyled ty e3 with ⟨b1, b2⟩ | ⟨z, z', b1, b2, b3⟩
      · rw [b1, b2]; exact both_none
      · rw [b1, b2]; exact both_some ⟨b3, e4⟩
  | _, _, .ternary h1 h2 h3, n, vars, vars', hv => by
    simp only [walk]
    rcases walk_restyled glob h1 n hv with ⟨e1, e2⟩ | ⟨⟨x, v⟩, ⟨x', v'⟩, e1, e2, e3, e4⟩
    · rw [e1, e2]; exact both_none
    · rw [e1, e2]
      simp only
      rcases walk_restyled glob h2 n e4 with ⟨a1, a2⟩ | ⟨⟨y, w⟩, ⟨y', w'⟩, a1, a2, a3, a4⟩
      · rw [a1, a2]; exact both_none
      · rw [a1, a2]
        simp only
        rcases walk_restyled glob h3 n a4 with ⟨b1, b2⟩ | ⟨⟨z, u⟩, ⟨z', u'⟩, b1, b2, b3, b4⟩
        · rw [b1, b2]; exact both_none
        · rw [b1, b2]; exact both_some ⟨.ternary e3 a3 b3, b4⟩
  | _, _, .assign hl hr, n, vars, vars', hv => by
    simp only [walk]
    rcases walk_restyled glob hr n hv with ⟨e1, e2⟩ | ⟨⟨x, v⟩, ⟨x', v'⟩, e1, e2, e3, e4⟩
    · rw [e1, e2]; exact both_none
    · rw [e1, e2]
      simp only
      have hl' := hl
      cases hl with
      | ident i =>
        simp only
        refine both_some ⟨.assign hl' e3, ?_⟩
        simp only
        split
        · exact .cons i e3 e4
        · exact e4
      | _ => exact both_some ⟨.assign hl' e3, e4⟩
  | _, _, .call h1 h2, n, vars, vars', hv => by
    simp only [walk]
    rcases walk_restyled glob h1 (n + 1) hv with ⟨e1, e2⟩ | ⟨⟨x, v⟩, ⟨x', v'⟩, e1, e2, e3, e4⟩
    · rw [e1, e2]; exact both_none
    · rw [e1, e2]
      simp only
      rcases walk_restyled glob h2 (n + 1) e4 with ⟨a1, a2⟩ | ⟨⟨y, w⟩, ⟨y', w'⟩, a1, a2, a3, a4⟩
      · rw [a1, a2]; exact both_none
      · rw [a1, a2]
        simp only
        rcases finishCall_restyled glob e3 a3 with ⟨b1, b2⟩ | ⟨z, z', b1, b2, b3⟩
        · rw [b1, b2]; exact both_none
        · rw [b1, b2]; exact both_some ⟨b3, a4⟩
  | _, _, .reorder ty h1 h2 hk hp, n, vars, vars', hv => by
    simp only [walk]
    rcases walk_restyled glob h1 (n + 1) hv with ⟨e1, e2⟩ | ⟨⟨x, v⟩, ⟨x', v'⟩, e1, e2, e3, e4⟩
    · rw [e1, e2]; exact both_none
    · rw [e1, e2]
      simp only
      rcases walks_restyled glob h2 (n + 1) e4 with ⟨a1, a2⟩ | ⟨⟨y, w⟩, ⟨y', w'⟩, a1, a2, a3, a4⟩
      · rcases walks_perm glob n v' hp with ⟨c1, c2⟩ | ⟨c, d, c1, c2, c3, c4⟩
        · rw [a1, c2]; exact both_none
        · rw [a2] at c1; cases c1
      · rcases walks_perm glob n v' hp with ⟨c1, c2⟩ | ⟨c, ⟨y'', w''⟩, c1, c2, c3, c4⟩
        · rw [a2] at c1; cases c1
        · rw [a2] at c1
          cases c1
          simp only at c3 c4
          subst c4
          rw [a1, c2]
          simp only
          rcases finishCall_reorder glob ty e3 a3 (keywords_walks hk a2) c3 with ⟨b1, b2⟩ | ⟨z, z', b1, b2, b3⟩
          · rw [b1, b2]; exact both_none
          · rw [b1, b2]; exact both_some ⟨b3, a4⟩
theorem walks_restyled (glob : GlobFn) : ∀ {xs xs' : List Node} (_ : RestyledAll xs xs') (n : Nat) {vars vars' : Vars}
    (_ : SameVars vars vars'), Both WalkedAll (walks glob n vars xs) (walks glob n vars' xs')
  | _, _, .nil, n, vars, vars', hv => by simp only [walks]; exact both_some ⟨.nil, hv⟩
  | _, _, .cons h1 h2, n, vars, vars', hv => by
    simp only [walks]
    rcases walk_restyled glob h1 n hv with ⟨e1, e2⟩ | ⟨⟨x, v⟩, ⟨x', v'⟩, e1, e2, e3, e4⟩
    · rw [e1, e2]; exact both_none
    · rw [e1, e2]
      simp only
      rcases walks_restyled glob h2 n e4 with ⟨a1, a2⟩ | ⟨⟨y, w⟩, ⟨y', w'⟩, a1, a2, a3, a4⟩
      · rw [a1, a2]; exact both_none
      · rw [a1, a2]; exact both_some ⟨.cons e3 a3, a4⟩
end

theorem elab_restyled (glob : GlobFn) {t t' : Node} (h : Restyled t t') :
    Both Restyled (elabFile glob t) (elabFile glob t') := by
  unfold elabFile
  rcases walk_restyled glob h 0 .nil with ⟨e1, e2⟩ | ⟨x, x', e1, e2, e3, _⟩
  · rw [e1, e2]; exact both_none
  · rw [e1, e2]; exact both_some e3

/-! ### Queries -/

/-- Sites of the same call. -/
inductive SameSites : List (Node × Node) → List (Node × Node) → Prop
  | nil : SameSites [] []
  | cons {f f' a a' : Node} {ss ss' : List (Node × Node)} : Restyled (.call f a) (.call f' a') → SameSites ss ss' →
    SameSites ((f, a) :: ss) ((f', a') :: ss')

theorem sameSites_append {a a' b b' : List (Node × Node)} (h : SameSites a a') (h2 : SameSites b b') :
    SameSites (a ++ b) (a' ++ b') := by
  induction h with
  | nil => exact h2
  | cons h _ ih => exact .cons h ih

mutual
theorem sites_restyled : ∀ {t t' : Node}, Restyled t t' → SameSites (sites t) (sites t')
  | _, _, .null => by simp only [sites]; exact .nil
  | _, _, .str _ _ _ _ _ => by simp only [sites]; exact .nil
  | _, _, .int _ _ => by simp only [sites]; exact .nil
  | _, _, .ident _ => by simp only [sites]; exact .nil
  | _, _, .unary _ h => by simp only [sites]; exact sites_restyled h
  | _, _, .binop _ h1 h2 => by simp only [sites]; exact sameSites_append (sites_restyled h1) (sites_restyled h2)
  | _, _, .list _ h => by simp only [sites]; exact sitesIn_restyled h
  | _, _, .compr _ h => by simp only [sites]; exact sites_restyled h
  | _, _, .ternary h1 h2 h3 => by
    simp only [sites]
    exact sameSites_append (sameSites_append (sites_restyled h1) (sites_restyled h2)) (sites_restyled h3)
  | _, _, .assign _ _ => by simp only [sites]; exact .nil
  | _, _, .call h1 h2 => by simp only [sites]; exact .cons (.call h1 h2) .nil
  | _, _, .reorder ty h1 h2 h3 h4 => by simp only [sites]; exact .cons (.reorder ty h1 h2 h3 h4) .nil
theorem sitesIn_restyled : ∀ {xs xs' : List Node}, RestyledAll xs xs' → SameSites (sitesIn xs) (sitesIn xs')
  | _, _, .nil => by simp only [sitesIn]; exact .nil
  | _, _, .cons h1 h2 => by simp only [sitesIn]; exact sameSites_append (sites_restyled h1) (sitesIn_restyled h2)
end

/-- The same is found for any attribute. -/
def SameKeys (kws kws' : List (Node × Node)) : Prop :=
  ∀ (α : Type) (key : Str) (f : Node → Option α), (∀ v v', Restyled v v' → f v' = f v) →
    last key f kws' = last key f kws

theorem last_append {α : Type} (key : Str) (f : Node → Option α) (a b : List (Node × Node)) :
    last key f (a ++ b) = (last key f b).or (last key f a) := by
  simp only [last, List.reverse_append, List.findSome?_append]

theorem sameKeys_append {a a' b b' : List (Node × Node)} (h : SameKeys a a') (h2 : SameKeys b b') :
    SameKeys (a ++ b) (a' ++ b') := by
  intro α key f hf
  rw [last_append, last_append, h α key f hf, h2 α key f hf]

theorem sameKeys_one {l l' v v' : Node} (hl : Restyled l l') (hv : Restyled v v') : SameKeys [(l, v)] [(l', v')] := by
  intro α key f hf
  simp only [last, List.reverse_cons, List.reverse_nil, List.nil_append, List.findSome?_cons, List.findSome?_nil]
  cases hl with
  | ident i => simp only [hf v v' hv]
  | _ => rfl

theorem kwArgs_perm {xs ys : List Node} (h : xs.Perm ys) : Keywords xs → SameKeys (kwArgsIn xs) (kwArgsIn ys) := by
  induction h with
  | nil => intro _ α key f _; rfl
  | cons x _ ih =>
    intro hk
    simp only [kwArgsIn]
    exact sameKeys_append (fun _ _ _ _ => rfl) (ih (keywords_tail hk))
  | swap x y xs =>
    intro hk α key f _
    obtain ⟨k, v, rfl⟩ := hk.1 x (by simp)
    obtain ⟨k', v', rfl⟩ := hk.1 y (by simp)
    have hne : k' ≠ k := by
      rintro rfl
      exact (List.pairwise_cons.1 hk.2).1 _ (by simp) k' v' v rfl rfl
    simp only [kwArgsIn, kwArgs]
    rw [← List.append_assoc, ← List.append_assoc, last_append, last_append key f _ (kwArgsIn xs)]
    congr 1
    simp only [last_append]
    simp only [last, List.reverse_cons, List.reverse_nil, List.nil_append, List.findSome?_cons, List.findSome?_nil]
    by_cases h1 : k = key
    · have h2 : k' ≠ key := fun e => hne (e.trans h1.symm)
      simp only [h1, h2, if_true, if_false]
      cases f v <;> rfl
    · simp only [h1, if_false]
      by_cases h2 : k' = key
      · simp only [h2, if_true]
        cases f v' <;> rfl
      · simp only [h2, if_false]
  | trans h1 _ ih1 ih2 =>
    intro hk α key f hf
    rw [ih2 (keywords_perm h1 hk) α key f hf, ih1 hk α key f hf]

mutual
theorem kwArgs_restyled : ∀ {t t' : Node}, Restyled t t' → SameKeys (kwArgs t) (kwArgs t')
  | _, _, .null => fun _ _ _ _ => by simp only [kwArgs]
  | _, _, .str _ _ _ _ _ => fun _ _ _ _ => by simp only [kwArgs]
  | _, _, .int _ _ => fun _ _ _ _ => by simp only [kwArgs]
  | _, _, .ident _ => fun _ _ _ _ => by simp only [kwArgs]
  | _, _, .unary _ h => by simp only [kwArgs]; exact kwArgs_restyled h
  | _, _, .binop _ h1 h2 => by simp only [kwArgs]; exact sameKeys_append (kwArgs_restyled h1) (kwArgs_restyled h2)
  | _, _, .list _ h => by simp only [kwArgs]; exact kwArgsIn_restyled h
  | _, _, .compr _ h => by simp only [kwArgs]; exact kwArgs_restyled h
  | _, _, .ternary h1 h2 h3 => by
    simp only [kwArgs]
    exact sameKeys_append (sameKeys_append (kwArgs_restyled h1) (kwArgs_restyled h2)) (kwArgs_restyled h3)
  | _, _, .assign h1 h2 => by simp only [kwArgs]; exact sameKeys_one h1 h2
  | _, _, .call _ h2 => by simp only [kwArgs]; exact kwArgs_restyled h2
  | _, _, .reorder _ _ h2 h3 h4 => by
    simp only [kwArgs]
    have h5 := kwArgsIn_restyled h2
    exact fun α key f hf => (kwArgs_perm h4 h3 α key f hf).trans (h5 α key f hf)
theorem kwArgsIn_restyled : ∀ {xs xs' : List Node}, RestyledAll xs xs' → SameKeys (kwArgsIn xs) (kwArgsIn xs')
  | _, _, .nil => fun _ _ _ _ => by simp only [kwArgsIn]
  | _, _, .cons h1 h2 => by
    simp only [kwArgsIn]
    exact sameKeys_append (kwArgs_restyled h1) (kwArgsIn_restyled h2)
end

theorem texts_restyled {xs xs' : List Node} (h : RestyledAll xs xs') : texts xs' = texts xs := by
  induction xs generalizing xs' with
  | nil => cases h; rfl
  | cons x xs ih =>
    cases h with
    | cons h1 h =>
      have ih := ih h
      simp only [texts] at ih
      cases h1 <;> simp only [texts, List.filterMap_cons, ih]

theorem texts_keywords {xs : List Node} (h : Keywords xs) : texts xs = [] := by
  simp only [texts, List.filterMap_eq_nil_iff]
  intro a ha
  obtain ⟨k, v, rfl⟩ := h.1 a ha
  rfl

theorem last_map {α β : Type} (key : Str) (f : Node → Option α) (g : α → β) (kws : List (Node × Node)) :
    last key (fun v => (f v).map g) kws = (last key f kws).map g := by
  unfold last
  induction kws.reverse with
  | nil => rfl
  | cons kw kws ih =>
    simp only [List.findSome?_cons]
    cases hk : kw.1 with
    | ident k =>
      simp only
      by_cases e : k = key
      · simp only [e, if_true]
        cases f kw.2 with
        | none => simpa using ih
        | some a => rfl
      · simp only [e, if_false]; exact ih
    | _ => exact ih

section
variable {kws kws' : List (Node × Node)} (h : SameKeys kws kws')
include h

theorem text_same (key : Str) : last key text kws' = last key text kws :=
  h Str key text fun v v' hv => by cases hv <;> rfl

theorem truth_same (key : Str) : last key truth kws' = last key truth kws :=
  h Bool key truth fun v v' hv => by cases hv <;> rfl

theorem list_same (key : Str) : textsOf (last key listOf kws') = textsOf (last key listOf kws) := by
  unfold textsOf
  rw [← last_map, ← last_map]
  refine h _ key _ fun v v' hv => ?_
  cases hv with
  | list ty hl => simp only [listOf, Option.map_some, texts_restyled hl]
  | _ => rfl

theorem empty_same (key : Str) :
    (last key listOf kws').map (fun l => l.2.isEmpty) = (last key listOf kws).map fun l => l.2.isEmpty := by
  rw [← last_map, ← last_map]
  refine h _ key _ fun v v' hv => ?_
  cases hv with
  | list ty hl => cases hl <;> rfl
  | _ => rfl
end

theorem or_same {l l' v v' : Option ListRef} (h : textsOf l' = textsOf l) (h2 : textsOf v' = textsOf v) :
    textsOf (l'.or v') = textsOf (l.or v) := by
  unfold textsOf at *
  cases l <;> cases l' <;> simp_all

theorem attributes_told {fn : Str} {a a' : Node} {kws kws' : List (Node × Node)} {vis vis' : Option ListRef}
    (h : SameKeys kws kws') (hv : textsOf vis' = textsOf vis)
    (hn : fn = c!"load" → (match Node.call (.ident fn) a' with
        | .call _ (.list _ args) => Node.call .null (.list .list (texts args))
        | _ => .null) = (match Node.call (.ident fn) a with
        | .call _ (.list _ args) => Node.call .null (.list .list (texts args))
        | _ => .null)) :
    told (attributes vis' fn a' kws') = told (attributes vis fn a kws) := by
  have he := empty_same h c!"hdrs"
  simp only [told, attributes, text_same h, truth_same h, list_same h, or_same (list_same h c!"visibility") hv]
  congr 1
  · by_cases hf : fn = c!"load"
    · exact (if_pos hf).trans ((hn hf).trans (if_pos hf).symm)
    · exact (if_neg hf).trans (if_neg hf).symm
  · congr 2
    cases h1 : last c!"hdrs" listOf kws <;> cases h2 : last c!"hdrs" listOf kws' <;> rw [h1, h2] at he
    · cases he
    · cases he
    · simp only [Option.map_some, Option.some.injEq] at he
      simp only [← List.isEmpty_iff, he]

theorem report_restyled {keep keep' : Query.Result → BazelTarget → Nat → Bool}
    (hkeep : ∀ r r', told r' = told r → keep' r' = keep r) {ss ss' : List (Node × Node)} (h : SameSites ss ss') :
    ∀ {vis vis' : Option ListRef}, textsOf vis' = textsOf vis →
      (report kwArgsIn [] true vis' ss').map (fun r => (told r, keep' r)) =
        (report kwArgsIn [] true vis ss).map fun r => (told r, keep r) := by
  induction h with
  | nil => intro vis vis' _; simp only [report, List.map_nil]
  | @cons f f' a a' ss ss' hc _ ih =>
    intro vis vis' hv
    have key : ∀ (fn : Str) (ty : ListType) (args args' : List Node), SameKeys (kwArgsIn args) (kwArgsIn args') →
        texts args' = texts args →
        (report kwArgsIn [] true vis' ((.ident fn, .list ty args') :: ss')).map (fun r => (told r, keep' r)) =
          (report kwArgsIn [] true vis ((.ident fn, .list ty args) :: ss)).map fun r => (told r, keep r) := by
      intro fn ty args args' hk ht
      simp only [report, true_or, and_self, if_true]
      split
      · exact ih (or_same (list_same hk _) hv)
      · have e : told (attributes vis' fn (.list ty args') (kwArgsIn args')) =
            told (attributes vis fn (.list ty args) (kwArgsIn args)) :=
          attributes_told hk hv fun _ => by simp only [ht]
        simp only [List.map_cons, ih hv, e, hkeep _ _ e]
    cases hc with
    | call hf ha =>
      cases hf with
      | ident fn =>
        cases ha with
        | list ty hl => exact key fn ty _ _ (kwArgsIn_restyled hl) (texts_restyled hl)
        | _ => simp only [report]; exact ih hv
      | _ => simp only [report]; exact ih hv
    | reorder ty hf hl hk hp =>
      cases hf with
      | ident fn =>
        refine key fn ty _ _ (fun α key f hf => (kwArgs_perm hp hk α key f hf).trans (kwArgsIn_restyled hl α key f hf)) ?_
        rw [texts_keywords (keywords_perm hp hk), texts_keywords (keywords_restyled hl hk)]
      | _ => simp only [report]; exact ih hv

theorem sameRules_restyled {keep keep' : Query.Result → BazelTarget → Nat → Bool}
    (hkeep : ∀ r r', told r' = told r → keep' r' = keep r) {t t' : Node} (h : Restyled t t') :
    SameRules keep keep' t t' :=
  report_restyled hkeep (sites_restyled h) rfl

end RulesSpec
end Bant
