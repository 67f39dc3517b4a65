import Verif.Spec.Extended
import Verif.Lemmas.Refactored

/-! Lemmas for attributes that bant does not know (C140). -/
namespace Bant
namespace RulesSpec
open Query Rules Elab

/-! ### Evaluation -/

theorem extended_append {b : Bool} : ∀ {xs xs' ys ys' : List Node}, ExtendedAll b xs xs' → ExtendedAll b ys ys' →
    ExtendedAll b (xs ++ ys) (xs' ++ ys')
  | _, _, _, _, .nil, h => h
  | _, _, _, _, .cons h1 h2, h => .cons h1 (extended_append h2 h)
  | _, _, _, _, .extra v hk h2, h => .extra v hk (extended_append h2 h)

mutual
theorem extended_refl : ∀ t : Node, Extended t t
  | .null => .null
  | .str t a b => .str t a b
  | .int r v => .int r v
  | .ident i => .ident i
  | .unary op e => .unary op (extended_refl e)
  | .binop op a b => .binop op (extended_refl a) (extended_refl b)
  | .list ty xs => .list ty (extendedAll_refl xs)
  | .compr ty e => .compr ty (extended_refl e)
  | .ternary a b c => .ternary (extended_refl a) (extended_refl b) (extended_refl c)
  | .assign l r => .assign (extended_refl l) (extended_refl r)
  | .call f a => .call (extended_refl f) (extended_refl a)
theorem extendedAll_refl {b : Bool} : ∀ xs : List Node, ExtendedAll b xs xs
  | [] => .nil
  | x :: xs => .cons (extended_refl x) (extendedAll_refl xs)
end

/-- Variables with such values. -/
inductive ExtVars : Vars → Vars → Prop
  | nil : ExtVars [] []
  | cons (i : Str) {v v' : Node} {vs vs' : Vars} : Extended v v' → ExtVars vs vs' → ExtVars ((i, v) :: vs) ((i, v') :: vs')

theorem find_extVars {vs vs' : Vars} (h : ExtVars vs vs') (i : Str) :
    (Vars.find vs i = none ∧ Vars.find vs' i = none) ∨
      ∃ v v', Vars.find vs i = some v ∧ Vars.find vs' i = some v' ∧ Extended v v' := by
  induction h with
  | nil => exact .inl ⟨rfl, rfl⟩
  | @cons j v v' vs vs' hv _ ih =>
    unfold Vars.find at *
    simp only [List.find?_cons]
    by_cases hk : j = i
    · simp only [hk, decide_true, Option.map_some]; exact .inr ⟨v, v', rfl, rfl, hv⟩
    · simp only [hk, decide_false]; exact ih

theorem isNull_extended {t t' : Node} (h : Extended t t') : t'.isNull = t.isNull := by
  cases h <;> rfl

theorem stringList_extended {xs xs' : List Node} (h : ExtendedAll false xs xs') :
    Elab.stringList xs' = Elab.stringList xs := by
  induction xs generalizing xs' with
  | nil => cases h; rfl
  | cons x xs ih =>
    cases h with
    | cons h1 h =>
      have ih := ih h
      cases h1 <;> simp only [Elab.stringList, ih]

theorem castList_extended {t t' : Node} (h : Extended t t') :
    Both (fun o o' => Both (fun a b : ListType × List Node => ExtendedAll false a.2 b.2) o o') (castList t) (castList t') := by
  cases h with
  | null => exact both_none
  | list ty h => exact both_some (both_some h)
  | _ => exact both_some both_none

/-- The same arguments of `glob()`. -/
def ExtGlob (g g' : GlobArgs) : Prop := Both (ExtendedAll false) g.1 g'.1 ∧ Both (ExtendedAll false) g.2 g'.2

theorem both_map_ext {o o' : Option (ListType × List Node)}
    (h : Both (fun a b : ListType × List Node => ExtendedAll false a.2 b.2) o o') :
    Both (ExtendedAll false) (o.map (·.2)) (o'.map (·.2)) := by
  rcases h with ⟨rfl, rfl⟩ | ⟨x, x', rfl, rfl, h⟩
  · exact both_none
  · exact both_some h

theorem globArgs_unknown {k : Str} (hk : k ∉ knownNames) (v : Node) (xs : List Node) (g : GlobArgs) :
    globArgs (.assign (.ident k) v :: xs) g = globArgs xs g := by
  have h1 : k ≠ c!"include" := fun e => hk (by rw [e]; decide)
  have h2 : k ≠ c!"exclude" := fun e => hk (by rw [e]; decide)
  rw [globArgs_step, globStep, if_neg h1, if_neg h2]
  rfl

theorem globArgs_extended {b : Bool} {xs xs' : List Node} (h : ExtendedAll b xs xs') :
    ∀ {g g' : GlobArgs}, ExtGlob g g' → Both ExtGlob (globArgs xs g) (globArgs xs' g') := by
  match h with
  | .nil => intro g g' hg; exact both_some hg
  | .extra v hk h => intro g g' hg; rw [globArgs_unknown hk]; exact globArgs_extended h hg
  | .cons h1 h =>
    intro g g' hg
    have ih : ∀ {g g' : GlobArgs}, ExtGlob g g' → Both ExtGlob (globArgs _ g) (globArgs _ g') := globArgs_extended h
    cases h1 with
    | null => exact both_none
    | list ty hl => simp only [globArgs]; exact ih ⟨both_some hl, hg.2⟩
    | assign hl hr =>
      cases hl with
      | ident i =>
        simp only [globArgs]
        split
        · rcases castList_extended hr with ⟨e1, e2⟩ | ⟨o, o', e1, e2, e3⟩
          · rw [e1, e2]; exact both_none
          · rw [e1, e2]; exact ih ⟨both_map_ext e3, hg.2⟩
        · split
          · rcases castList_extended hr with ⟨e1, e2⟩ | ⟨o, o', e1, e2, e3⟩
            · rw [e1, e2]; exact both_none
            · rw [e1, e2]; exact ih ⟨hg.1, both_map_ext e3⟩
          · exact ih hg
      | _ => simp only [globArgs]; exact ih hg
    | _ => simp only [globArgs]; exact ih hg

theorem extract_extended {o o' : Option (List Node)} (h : Both (ExtendedAll false) o o') :
    extractStringList o' = extractStringList o := by
  rcases h with ⟨rfl, rfl⟩ | ⟨x, x', rfl, rfl, h⟩
  · rfl
  · exact stringList_extended h

theorem handleGlob_extended (glob : GlobFn) {xs xs' : List Node}
    (h : Both ExtGlob (globArgs xs (none, none)) (globArgs xs' (none, none))) :
    handleGlob glob xs' = handleGlob glob xs := by
  unfold handleGlob
  rcases h with ⟨e1, e2⟩ | ⟨g, g', e1, e2, e3⟩
  · rw [e1, e2]
  · rw [e1, e2]
    simp only [Option.bind_eq_bind, Option.bind_some, extract_extended e3.1, extract_extended e3.2]

theorem default_extended {t t' : Node} (h : Extended t t') : isDefaultCondition t' = isDefaultCondition t := by
  cases h <;> rfl

theorem selectEntry_extended {xs xs' : List Node} (h : ExtendedAll false xs xs') :
    Both (Both Extended) (selectEntry xs) (selectEntry xs') := by
  induction xs generalizing xs' with
  | nil => cases h; exact both_some both_none
  | cons x xs ih =>
    cases h with
    | cons h1 h =>
      cases h1 with
      | null => exact both_none
      | binop op ha hb =>
        simp only [selectEntry, isNull_extended ha]
        split
        · split
          · exact both_none
          · rw [default_extended ha]
            split
            · exact both_some (both_some hb)
            · exact ih h
        · exact ih h
      | _ => simp only [selectEntry]; exact ih h

theorem selectArgs_extended {b : Bool} {xs xs' : List Node} (h : ExtendedAll b xs xs') :
    Both (Both Extended) (selectArgs xs) (selectArgs xs') := by
  match h with
  | .nil => exact both_some both_none
  | .extra v hk h => simp only [selectArgs]; exact selectArgs_extended h
  | .cons h1 h =>
    have ih := selectArgs_extended h
    cases h1 with
    | null => exact both_none
    | list ty hl =>
      cases ty with
      | map =>
        simp only [selectArgs]
        rcases selectEntry_extended hl with ⟨e1, e2⟩ | ⟨o, o', e1, e2, ⟨rfl, rfl⟩ | ⟨a, b, rfl, rfl, e3⟩⟩
        · rw [e1, e2]; exact both_none
        · rw [e1, e2]; exact ih
        · rw [e1, e2]; exact both_some (both_some e3)
      | _ => simp only [selectArgs]; exact ih
    | _ => simp only [selectArgs]; exact ih

theorem plus_extended {l l' r r' : Node} (hl : Extended l l') (hr : Extended r r') :
    Both Extended (plus l r) (plus l' r') := by
  unfold plus
  rw [isNull_extended hl, isNull_extended hr]
  split
  · exact both_none
  · have hl' := hl
    have hr' := hr
    cases hl <;> cases hr <;>
    first
    | exact both_some (.binop _ hl' hr')
    | exact both_some (.str _ _ _)
    | exact both_some hl'
    | exact both_some hr'
    | (simp only
       split
       · exact both_some (.list _ (extended_append (by assumption) (by assumption)))
       · exact both_some (.binop _ hl' hr'))

theorem finishCall_more (glob : GlobFn) {f f' : Node} {b : Bool} (ty : ListType) {xs xs' : List Node}
    (hf : Extended f f') (hx : ExtendedAll b xs xs')
    (hc : Extended (.call f (.list ty xs)) (.call f' (.list ty xs'))) :
    Both Extended (finishCall glob f (.list ty xs)) (finishCall glob f' (.list ty xs')) := by
  cases hf with
  | ident name =>
    simp only [finishCall]
    split
    · rw [handleGlob_extended glob (globArgs_extended hx ⟨both_none, both_none⟩)]
      cases handleGlob glob _ with
      | none => exact both_none
      | some n => exact both_some (extended_refl n)
    · split
      · rcases selectArgs_extended hx with ⟨e1, e2⟩ | ⟨o, o', e1, e2, ⟨rfl, rfl⟩ | ⟨x, y, rfl, rfl, e3⟩⟩
        · rw [e1, e2]; exact both_none
        · rw [e1, e2]; exact both_some hc
        · rw [e1, e2]; exact both_some e3
      · exact both_some hc
  | _ => exact both_none

theorem finishCall_extended (glob : GlobFn) {f f' a a' : Node} (hf : Extended f f') (ha : Extended a a') :
    Both Extended (finishCall glob f a) (finishCall glob f' a') := by
  have hc := Extended.call hf ha
  cases ha with
  | list ty hl => exact finishCall_more glob ty hf hl hc
  | _ =>
    cases hf with
    | ident name =>
      simp only [finishCall]
      split
      · exact both_none
      · split
        · exact both_none
        · exact both_some hc
    | _ => exact both_none

theorem finishCompr_extended (ty : ListType) {t t' : Node} (h : Extended t t') :
    Both Extended (finishCompr ty t) (finishCompr ty t') := by
  have h' := h
  cases h with
  | null => exact both_some (.compr ty h')
  | binop op _ _ => exact both_some (.compr ty h')
  | assign _ _ => exact both_some (.compr ty h')
  | _ => exact both_none

/-- If the second is defined, then the first is, too, and they are related. -/
def Back {α β : Type} (R : α → β → Prop) (o : Option α) (o' : Option β) : Prop :=
  o' = none ∨ ∃ x x', o = some x ∧ o' = some x' ∧ R x x'

theorem back_none {α β : Type} {R : α → β → Prop} {o : Option α} : Back R o none := .inl rfl
theorem back_some {α β : Type} {R : α → β → Prop} {x : α} {y : β} (h : R x y) : Back R (some x) (some y) :=
  .inr ⟨x, y, rfl, rfl, h⟩

/-- Evaluated alike. -/
def ExtWalked (r r' : Node × Vars) : Prop := Extended r.1 r'.1 ∧ ExtVars r.2 r'.2

/-- The same for lists. -/
def ExtWalkedAll (b : Bool) (r r' : List Node × Vars) : Prop := ExtendedAll b r.1 r'.1 ∧ ExtVars r.2 r'.2

mutual
theorem walk_extended (glob : GlobFn) : ∀ {t t' : Node} (_ : Extended t t') (n : Nat) {vars vars' : Vars}
    (_ : ExtVars vars vars'), Back ExtWalked (walk glob n vars t) (walk glob n vars' t')
  | _, _, .null, n, vars, vars', hv => by simp only [walk]; exact back_some ⟨.null, hv⟩
  | _, _, .str t _ _, n, vars, vars', hv => by simp only [walk]; exact back_some ⟨.str t _ _, hv⟩
  | _, _, .int r v, n, vars, vars', hv => by simp only [walk]; exact back_some ⟨.int r v, hv⟩
  | _, _, .ident i, n, vars, vars', hv => by
    simp only [walk]
    rcases find_extVars hv i with ⟨e1, e2⟩ | ⟨x, y, e1, e2, e3⟩
    · rw [e1, e2]; exact back_some ⟨.ident i, hv⟩
    · rw [e1, e2]; exact back_some ⟨e3, hv⟩
  | _, _, .unary op h, n, vars, vars', hv => by
    simp only [walk]
    rcases walk_extended glob h n hv with e2 | ⟨⟨x, v⟩, ⟨x', v'⟩, e1, e2, e3, e4⟩
    · rw [e2]; exact back_none
    · rw [e1, e2]; exact back_some ⟨.unary op e3, e4⟩
  | _, _, .binop op h1 h2, n, vars, vars', hv => by
    simp only [walk]
    rcases walk_extended glob h1 n hv with e2 | ⟨⟨x, v⟩, ⟨x', v'⟩, e1, e2, e3, e4⟩
    · rw [e2]; exact back_none
    · rw [e1, e2]
      simp only
      rcases walk_extended glob h2 n e4 with a2 | ⟨⟨y, w⟩, ⟨y', w'⟩, a1, a2, a3, a4⟩
      · rw [a2]; exact back_none
      · rw [a1, a2]
        simp only
        split
        · rcases plus_extended e3 a3 with ⟨b1, b2⟩ | ⟨z, z', b1, b2, b3⟩
          · rw [b1, b2]; exact back_none
          · rw [b1, b2]; exact back_some ⟨b3, a4⟩
        · exact back_some ⟨.binop op e3 a3, a4⟩
  | _, _, .list ty h, n, vars, vars', hv => by
    simp only [walk]
    rcases walks_extended glob h n (by simp) hv with e2 | ⟨⟨x, v⟩, ⟨x', v'⟩, e1, e2, e3, e4⟩
    · rw [e2]; exact back_none
    · rw [e1, e2]; exact back_some ⟨.list ty e3, e4⟩
  | _, _, .compr ty h, n, vars, vars', hv => by
    simp only [walk]
    rcases walk_extended glob h n hv with e2 | ⟨⟨x, v⟩, ⟨x', v'⟩, e1, e2, e3, e4⟩
    · rw [e2]; exact back_none
    · rw [e1, e2]
      simp only
      rcases finishCompr_extended ty e3 with ⟨b1, b2⟩ | ⟨z, z', b1, b2, b3⟩
      · rw [b1, b2]; exact back_none
      · rw [b1, b2]; exact back_some ⟨b3, e4⟩
  | _, _, .ternary h1 h2 h3, n, vars, vars', hv => by
    simp only [walk]
    rcases walk_extended glob h1 n hv with e2 | ⟨⟨x, v⟩, ⟨x', v'⟩, e1, e2, e3, e4⟩
    · rw [e2]; exact back_none
    · rw [e1, e2]
      simp only
      rcases walk_extended glob h2 n e4 with a2 | ⟨⟨y, w⟩, ⟨y', w'⟩, a1, a2, a3, a4⟩
      · rw [a2]; exact back_none
      · rw [a1, a2]
        simp only
        rcases walk_extended glob h3 n a4 with b2 | ⟨⟨z, u⟩, ⟨z', u'⟩, b1, b2, b3, b4⟩
        · rw [b2]; exact back_none
        · rw [b1, b2]; exact back_some ⟨.ternary e3 a3 b3, b4⟩
  | _, _, .assign hl hr, n, vars, vars', hv => by
    simp only [walk]
    rcases walk_extended glob hr n hv with e2 | ⟨⟨x, v⟩, ⟨x', v'⟩, e1, e2, e3, e4⟩
    · rw [e2]; exact back_none
    · rw [e1, e2]
      simp only
      have hl' := hl
      cases hl with
      | ident i =>
        simp only
        refine back_some ⟨.assign hl' e3, ?_⟩
        simp only
        split
        · exact .cons i e3 e4
        · exact e4
      | _ => exact back_some ⟨.assign hl' e3, e4⟩
  | _, _, .call h1 h2, n, vars, vars', hv => by
    simp only [walk]
    rcases walk_extended glob h1 (n + 1) hv with e2 | ⟨⟨x, v⟩, ⟨x', v'⟩, e1, e2, e3, e4⟩
    · rw [e2]; exact back_none
    · rw [e1, e2]
      simp only
      rcases walk_extended glob h2 (n + 1) e4 with a2 | ⟨⟨y, w⟩, ⟨y', w'⟩, a1, a2, a3, a4⟩
      · rw [a2]; exact back_none
      · rw [a1, a2]
        simp only
        rcases finishCall_extended glob e3 a3 with ⟨b1, b2⟩ | ⟨z, z', b1, b2, b3⟩
        · rw [b1, b2]; exact back_none
        · rw [b1, b2]; exact back_some ⟨b3, a4⟩
  | _, _, .more ty h1 h2, n, vars, vars', hv => by
    simp only [walk]
    rcases walk_extended glob h1 (n + 1) hv with e2 | ⟨⟨x, v⟩, ⟨x', v'⟩, e1, e2, e3, e4⟩
    · rw [e2]; exact back_none
    · rw [e1, e2]
      simp only
      rcases walks_extended glob h2 (n + 1) (by simp) e4 with a2 | ⟨⟨y, w⟩, ⟨y', w'⟩, a1, a2, a3, a4⟩
      · rw [a2]; exact back_none
      · rw [a1, a2]
        simp only
        rcases finishCall_more glob ty e3 a3 (.more ty e3 a3) with ⟨b1, b2⟩ | ⟨z, z', b1, b2, b3⟩
        · rw [b1, b2]; exact back_none
        · rw [b1, b2]; exact back_some ⟨b3, a4⟩
theorem walks_extended (glob : GlobFn) : ∀ {b : Bool} {xs xs' : List Node} (_ : ExtendedAll b xs xs') (n : Nat)
    {vars vars' : Vars} (_ : b = true → 0 < n) (_ : ExtVars vars vars'),
    Back (ExtWalkedAll b) (walks glob n vars xs) (walks glob n vars' xs')
  | _, _, _, .nil, n, vars, vars', _, hv => by simp only [walks]; exact back_some ⟨.nil, hv⟩
  | _, _, _, .cons h1 h2, n, vars, vars', hn, hv => by
    simp only [walks]
    rcases walk_extended glob h1 n hv with e2 | ⟨⟨x, v⟩, ⟨x', v'⟩, e1, e2, e3, e4⟩
    · rw [e2]; exact back_none
    · rw [e1, e2]
      simp only
      rcases walks_extended glob h2 n hn e4 with a2 | ⟨⟨y, w⟩, ⟨y', w'⟩, a1, a2, a3, a4⟩
      · rw [a2]; exact back_none
      · rw [a1, a2]; exact back_some ⟨.cons e3 a3, a4⟩
  | _, _, _, .extra (k := k) v hk h2, n, vars, vars', hn, hv => by
    obtain ⟨n, rfl⟩ : ∃ m, n = m + 1 := ⟨n - 1, by have := hn rfl; omega⟩
    simp only [walks]
    cases hx : walk glob (n + 1) vars' (.assign (.ident k) v) with
    | none => exact back_none
    | some r =>
      obtain ⟨x', v'⟩ := r
      have e := walk_nested glob n _ _ _ hx
      simp only at e
      subst e
      simp only
      have hw : ∃ w, x' = .assign (.ident k) w := by
        simp only [walk] at hx
        split at hx
        · cases hx
        · next e' v'' he => cases hx; exact ⟨e', rfl⟩
      obtain ⟨w, rfl⟩ := hw
      rcases walks_extended glob h2 (n + 1) hn hv with a2 | ⟨⟨y, w⟩, ⟨y', w'⟩, a1, a2, a3, a4⟩
      · rw [a2]; exact back_none
      · rw [a1, a2]; exact back_some ⟨.extra _ hk a3, a4⟩
end

theorem elab_extended (glob : GlobFn) {t t' : Node} (h : Extended t t') :
    Back Extended (elabFile glob t) (elabFile glob t') := by
  unfold elabFile
  rcases walk_extended glob h 0 .nil with e2 | ⟨x, x', e1, e2, e3, _⟩
  · rw [e2]; exact back_none
  · rw [e1, e2]; exact back_some e3

/-! ### Queries -/

/-- Sites of the same call. -/
inductive ExtSites : List (Node × Node) → List (Node × Node) → Prop
  | nil : ExtSites [] []
  | cons {f f' a a' : Node} {ss ss' : List (Node × Node)} : Extended (.call f a) (.call f' a') → ExtSites ss ss' →
    ExtSites ((f, a) :: ss) ((f', a') :: ss')

theorem extSites_append {a a' b b' : List (Node × Node)} (h : ExtSites a a') (h2 : ExtSites b b') :
    ExtSites (a ++ b) (a' ++ b') := by
  induction h with
  | nil => exact h2
  | cons h _ ih => exact .cons h ih

mutual
theorem sites_extended : ∀ {t t' : Node}, Extended t t' → ExtSites (sites t) (sites t')
  | _, _, .null => by simp only [sites]; exact .nil
  | _, _, .str _ _ _ => by simp only [sites]; exact .nil
  | _, _, .int _ _ => by simp only [sites]; exact .nil
  | _, _, .ident _ => by simp only [sites]; exact .nil
  | _, _, .unary _ h => by simp only [sites]; exact sites_extended h
  | _, _, .binop _ h1 h2 => by simp only [sites]; exact extSites_append (sites_extended h1) (sites_extended h2)
  | _, _, .list _ h => by simp only [sites]; exact sitesIn_extended h
  | _, _, .compr _ h => by simp only [sites]; exact sites_extended h
  | _, _, .ternary h1 h2 h3 => by
    simp only [sites]
    exact extSites_append (extSites_append (sites_extended h1) (sites_extended h2)) (sites_extended h3)
  | _, _, .assign _ _ => by simp only [sites]; exact .nil
  | _, _, .call h1 h2 => by simp only [sites]; exact .cons (.call h1 h2) .nil
  | _, _, .more ty h1 h2 => by simp only [sites]; exact .cons (.more ty h1 h2) .nil
theorem sitesIn_extended : ∀ {b : Bool} {xs xs' : List Node}, ExtendedAll b xs xs' → ExtSites (sitesIn xs) (sitesIn xs')
  | _, _, _, .nil => by simp only [sitesIn]; exact .nil
  | _, _, _, .cons h1 h2 => by simp only [sitesIn]; exact extSites_append (sites_extended h1) (sitesIn_extended h2)
  | _, _, _, .extra _ _ h2 => by simp only [sitesIn, sites, List.nil_append]; exact sitesIn_extended h2
end

/-- The same is found for any known attribute. -/
def ExtKeys (kws kws' : List (Node × Node)) : Prop :=
  ∀ (α : Type) (key : Str) (f : Node → Option α), key ∈ knownNames → (∀ v v', Extended v v' → f v' = f v) →
    last key f kws' = last key f kws

theorem extKeys_append {a a' b b' : List (Node × Node)} (h : ExtKeys a a') (h2 : ExtKeys b b') :
    ExtKeys (a ++ b) (a' ++ b') := by
  intro α key f hk hf
  rw [last_append, last_append, h α key f hk hf, h2 α key f hk hf]

theorem extKeys_one {l l' v v' : Node} (hl : Extended l l') (hv : Extended v v') : ExtKeys [(l, v)] [(l', v')] := by
  intro α key f _ hf
  simp only [last, List.reverse_cons, List.reverse_nil, List.nil_append, List.findSome?_cons, List.findSome?_nil]
  cases hl with
  | ident i => simp only [hf v v' hv]
  | _ => rfl

theorem extKeys_unknown {k : Str} (v : Node) (hk : k ∉ knownNames) : ExtKeys [] [(.ident k, v)] := by
  intro α key f hkey _
  have : k ≠ key := fun e => hk (e ▸ hkey)
  simp only [last, List.reverse_cons, List.reverse_nil, List.nil_append, List.findSome?_cons, List.findSome?_nil, this,
    if_false]

mutual
theorem kwArgs_extended : ∀ {t t' : Node}, Extended t t' → ExtKeys (kwArgs t) (kwArgs t')
  | _, _, .null => fun _ _ _ _ _ => by simp only [kwArgs]
  | _, _, .str _ _ _ => fun _ _ _ _ _ => by simp only [kwArgs]
  | _, _, .int _ _ => fun _ _ _ _ _ => by simp only [kwArgs]
  | _, _, .ident _ => fun _ _ _ _ _ => by simp only [kwArgs]
  | _, _, .unary _ h => by simp only [kwArgs]; exact kwArgs_extended h
  | _, _, .binop _ h1 h2 => by simp only [kwArgs]; exact extKeys_append (kwArgs_extended h1) (kwArgs_extended h2)
  | _, _, .list _ h => by simp only [kwArgs]; exact kwArgsIn_extended h
  | _, _, .compr _ h => by simp only [kwArgs]; exact kwArgs_extended h
  | _, _, .ternary h1 h2 h3 => by
    simp only [kwArgs]
    exact extKeys_append (extKeys_append (kwArgs_extended h1) (kwArgs_extended h2)) (kwArgs_extended h3)
  | _, _, .assign h1 h2 => by simp only [kwArgs]; exact extKeys_one h1 h2
  | _, _, .call _ h2 => by simp only [kwArgs]; exact kwArgs_extended h2
  | _, _, .more _ _ h2 => by simp only [kwArgs]; exact kwArgsIn_extended h2
theorem kwArgsIn_extended : ∀ {b : Bool} {xs xs' : List Node}, ExtendedAll b xs xs' → ExtKeys (kwArgsIn xs) (kwArgsIn xs')
  | _, _, _, .nil => fun _ _ _ _ _ => by simp only [kwArgsIn]
  | _, _, _, .cons h1 h2 => by
    simp only [kwArgsIn]
    exact extKeys_append (kwArgs_extended h1) (kwArgsIn_extended h2)
  | _, _, _, .extra v hk h2 => by
    simp only [kwArgsIn, kwArgs]
    exact extKeys_append (a := []) (extKeys_unknown v hk) (kwArgsIn_extended h2)
end

theorem texts_extended {b : Bool} {xs xs' : List Node} (h : ExtendedAll b xs xs') : texts xs' = texts xs := by
  match h with
  | .nil => rfl
  | .extra v hk h =>
    have ih := texts_extended h
    simp only [texts] at ih
    simp only [texts, List.filterMap_cons, ih]
  | .cons h1 h =>
    have ih := texts_extended h
    simp only [texts] at ih
    cases h1 <;> simp only [texts, List.filterMap_cons, ih]

section
variable {kws kws' : List (Node × Node)} (h : ExtKeys kws kws')
include h

theorem text_ext (key : Str) (hk : key ∈ knownNames) : last key text kws' = last key text kws :=
  h Str key text hk fun v v' hv => by cases hv <;> rfl

theorem truth_ext (key : Str) (hk : key ∈ knownNames) : last key truth kws' = last key truth kws :=
  h Bool key truth hk fun v v' hv => by cases hv <;> rfl

theorem list_ext (key : Str) (hk : key ∈ knownNames) :
    textsOf (last key listOf kws') = textsOf (last key listOf kws) := by
  unfold textsOf
  rw [← last_map, ← last_map]
  refine h _ key _ hk fun v v' hv => ?_
  cases hv with
  | list ty hl => simp only [listOf, Option.map_some, texts_extended hl]
  | _ => rfl

theorem empty_ext (key : Str) (hk : key ∈ knownNames) :
    (last key listOf kws').map (fun l => l.2.isEmpty) = (last key listOf kws).map fun l => l.2.isEmpty := by
  rw [← last_map, ← last_map]
  refine h _ key _ hk fun v v' hv => ?_
  cases hv with
  | list ty hl => cases hl <;> rfl
  | _ => rfl
end

theorem attributes_ext {fn : Str} {ty : ListType} {args args' : List Node} {kws kws' : List (Node × Node)}
    {vis vis' : Option ListRef} (h : ExtKeys kws kws') (hv : textsOf vis' = textsOf vis)
    (ht : texts args' = texts args) :
    told (attributes vis' fn (.list ty args') kws') = told (attributes vis fn (.list ty args) kws) := by
  have he := empty_ext h c!"hdrs" (by decide)
  have hvis := or_same (list_ext h c!"visibility" (by decide)) hv
  have key : (last c!"hdrs" listOf kws' = none ↔ last c!"hdrs" listOf kws = none) ∧
      (match last c!"hdrs" listOf kws' with | none => true | some l => decide (l.2 = [])) =
        (match last c!"hdrs" listOf kws with | none => true | some l => decide (l.2 = [])) := by
    cases h1 : last c!"hdrs" listOf kws <;> cases h2 : last c!"hdrs" listOf kws' <;> rw [h1, h2] at he
    · exact ⟨Iff.rfl, rfl⟩
    · cases he
    · cases he
    · simp only [Option.map_some, Option.some.injEq] at he
      refine ⟨by simp, ?_⟩
      simp only [← List.isEmpty_iff, he]
  simp only [told, attributes, text_ext h c!"name" (by decide), text_ext h c!"actual" (by decide),
    text_ext h c!"version" (by decide), text_ext h c!"repo_name" (by decide), text_ext h c!"deprecation" (by decide),
    text_ext h c!"include_prefix" (by decide), text_ext h c!"strip_include_prefix" (by decide),
    truth_ext h c!"alwayslink" (by decide), truth_ext h c!"testonly" (by decide), list_ext h c!"srcs" (by decide),
    list_ext h c!"hdrs" (by decide), list_ext h c!"textual_hdrs" (by decide), list_ext h c!"public_hdrs" (by decide),
    list_ext h c!"deps" (by decide), list_ext h c!"outs" (by decide), list_ext h c!"includes" (by decide), hvis, ht]
  congr 3
  exact key.2

theorem report_extended {keep keep' : Query.Result → BazelTarget → Nat → Bool}
    (hkeep : ∀ r r', told r' = told r → keep' r' = keep r) {ss ss' : List (Node × Node)} (h : ExtSites ss ss') :
    ∀ {vis vis' : Option ListRef}, textsOf vis' = textsOf vis →
      (report kwArgsIn [] true vis' ss').map (fun r => (told r, keep' r)) =
        (report kwArgsIn [] true vis ss).map fun r => (told r, keep r) := by
  induction h with
  | nil => intro vis vis' _; simp only [report, List.map_nil]
  | @cons f f' a a' ss ss' hc _ ih =>
    intro vis vis' hv
    have key : ∀ (fn : Str) (ty : ListType) (args args' : List Node), ExtKeys (kwArgsIn args) (kwArgsIn args') →
        texts args' = texts args →
        (report kwArgsIn [] true vis' ((.ident fn, .list ty args') :: ss')).map (fun r => (told r, keep' r)) =
          (report kwArgsIn [] true vis ((.ident fn, .list ty args) :: ss)).map fun r => (told r, keep r) := by
      intro fn ty args args' hk ht
      simp only [report, true_or, and_self, if_true]
      split
      · exact ih (or_same (list_ext hk _ (by decide)) hv)
      · have e : told (attributes vis' fn (.list ty args') (kwArgsIn args')) =
            told (attributes vis fn (.list ty args) (kwArgsIn args)) :=
          attributes_ext hk hv ht
        simp only [List.map_cons, ih hv, e, hkeep _ _ e]
    cases hc with
    | call hf ha =>
      cases hf with
      | ident fn =>
        cases ha with
        | list ty hl => exact key fn ty _ _ (kwArgsIn_extended hl) (texts_extended hl)
        | _ => simp only [report]; exact ih hv
      | _ => simp only [report]; exact ih hv
    | more ty hf hl =>
      cases hf with
      | ident fn => exact key fn ty _ _ (kwArgsIn_extended hl) (texts_extended hl)
      | _ => simp only [report]; exact ih hv

theorem sameRules_extended {keep keep' : Query.Result → BazelTarget → Nat → Bool}
    (hkeep : ∀ r r', told r' = told r → keep' r' = keep r) {t t' : Node} (h : Extended t t') :
    SameRules keep keep' t t' :=
  report_extended hkeep (sites_extended h) rfl

theorem sameEvaluated_extended {glob : GlobFn} {t t' : Node} (h : Extended t t')
    (hne : t' = t ∨ elabFile glob t' ≠ none) :
    SameEvaluated (fun _ _ _ => false) (fun _ _ _ => false) glob t t' := by
  rcases hne with rfl | hne
  · cases hu : elabFile glob t' with
    | none => exact .inl ⟨hu, hu⟩
    | some u => exact .inr ⟨u, u, hu, hu, rfl⟩
  · rcases elab_extended glob h with h | ⟨u, u', h1, h2, h3⟩
    · exact absurd h hne
    · exact .inr ⟨u, u', h1, h2, sameRules_extended (fun _ _ _ => rfl) h3⟩

end RulesSpec
end Bant
