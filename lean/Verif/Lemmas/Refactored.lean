import Verif.Spec.Refactored
import Verif.Lemmas.Restyled

/-! Lemmas for values that are named or written out (C103). -/
namespace Bant
namespace RulesSpec
open Query Rules Elab

/-! ### Lists and strings in pieces -/

theorem walks_append (glob : GlobFn) (n : Nat) : ∀ (xs ys : List Node) (vars : Vars),
    walks glob n vars (xs ++ ys) =
      match walks glob n vars xs with
      | none => none
      | some (xs', vars') =>
        match walks glob n vars' ys with
        | none => none
        | some (ys', vars'') => some (xs' ++ ys', vars'')
  | [], ys, vars => by
    simp only [List.nil_append, walks]
    cases walks glob n vars ys <;> rfl
  | x :: xs, ys, vars => by
    simp only [List.cons_append, walks]
    cases hx : walk glob n vars x with
    | none => rfl
    | some r =>
      simp only [walks_append glob n xs ys]
      cases walks glob n r.2 xs with
      | none => rfl
      | some r' =>
        simp only
        cases walks glob n r'.2 ys <;> rfl

mutual
theorem walk_joined (glob : GlobFn) : ∀ {t t' : Node} (_ : Joined t t') (n : Nat) (vars : Vars),
    walk glob n vars t' = walk glob n vars t
  | _, _, .lists ty xs ys, n, vars => by
    simp only [walk, walks_append, if_true]
    cases walks glob n vars xs with
    | none => rfl
    | some r =>
      simp only
      cases walks glob n r.2 ys with
      | none => rfl
      | some r' => simp [plus, Node.isNull]
  | _, _, .strings a b _ _ _ _, n, vars => by simp [walk, plus, Node.isNull]
  | _, _, .refl t, n, vars => rfl
  | _, _, .unary op h, n, vars => by simp only [walk, walk_joined glob h]
  | _, _, .binop op h1 h2, n, vars => by simp only [walk, walk_joined glob h1, walk_joined glob h2]
  | _, _, .list ty h, n, vars => by simp only [walk, walks_joined glob h]
  | _, _, .compr ty h, n, vars => by simp only [walk, walk_joined glob h]
  | _, _, .ternary h1 h2 h3, n, vars => by
    simp only [walk, walk_joined glob h1, walk_joined glob h2, walk_joined glob h3]
  | _, _, .assign l h, n, vars => by simp only [walk, walk_joined glob h]
  | _, _, .call h1 h2, n, vars => by simp only [walk, walk_joined glob h1, walk_joined glob h2]
theorem walks_joined (glob : GlobFn) : ∀ {xs xs' : List Node} (_ : JoinedAll xs xs') (n : Nat) (vars : Vars),
    walks glob n vars xs' = walks glob n vars xs
  | _, _, .nil, n, vars => rfl
  | _, _, .cons h1 h2, n, vars => by simp only [walks, walk_joined glob h1, walks_joined glob h2]
end

/-! ### Names -/

theorem find_cons (i : Str) (v : Node) (vars : Vars) (y : Str) :
    Vars.find ((i, v) :: vars) y = if i = y then some v else vars.find y := by
  unfold Vars.find
  simp only [List.find?_cons]
  by_cases h : i = y <;> simp [h]

mutual
/-- The result depends on the values of what is read only; nothing is assigned. -/
theorem walk_agree (glob : GlobFn) : ∀ (t : Node) (n m : Nat) (V W : Vars), (n = 0 → bound t = []) →
    (m = 0 → bound t = []) → (∀ y ∈ used t, W.find y = V.find y) →
    Both (fun a b => b.1 = a.1 ∧ a.2 = V ∧ b.2 = W) (walk glob n V t) (walk glob m W t)
  | .null, n, m, V, W, _, _, _ => by simp only [walk]; exact both_some ⟨rfl, rfl, rfl⟩
  | .str _ _ _, n, m, V, W, _, _, _ => by simp only [walk]; exact both_some ⟨rfl, rfl, rfl⟩
  | .int _ _, n, m, V, W, _, _, _ => by simp only [walk]; exact both_some ⟨rfl, rfl, rfl⟩
  | .ident i, n, m, V, W, _, _, h => by
    simp only [walk]
    rw [h i (by simp [used])]
    exact both_some ⟨rfl, rfl, rfl⟩
  | .unary op e, n, m, V, W, hn, hm, h => by
    simp only [walk]
    simp only [bound] at hn hm
    simp only [used] at h
    rcases walk_agree glob e n m V W hn hm h with ⟨e1, e2⟩ | ⟨⟨x, v⟩, ⟨x', v'⟩, e1, e2, rfl, rfl, rfl⟩
    · rw [e1, e2]; exact both_none
    · rw [e1, e2]; exact both_some ⟨rfl, rfl, rfl⟩
  | .binop op a b, n, m, V, W, hn, hm, h => by
    simp only [walk]
    simp only [bound, List.append_eq_nil_iff] at hn hm
    simp only [used, List.mem_append] at h
    rcases walk_agree glob a n m V W (fun e => (hn e).1) (fun e => (hm e).1) (fun y hy => h y (.inl hy)) with
      ⟨e1, e2⟩ | ⟨⟨x, v⟩, ⟨x', v'⟩, e1, e2, rfl, rfl, rfl⟩
    · rw [e1, e2]; exact both_none
    · rw [e1, e2]
      simp only
      rcases walk_agree glob b n m v v' (fun e => (hn e).2) (fun e => (hm e).2) (fun y hy => h y (.inr hy)) with
        ⟨a1, a2⟩ | ⟨⟨y, w⟩, ⟨y', w'⟩, a1, a2, rfl, rfl, rfl⟩
      · rw [a1, a2]; exact both_none
      · rw [a1, a2]
        simp only
        split
        · cases plus x' y' with
          | none => exact both_none
          | some z => exact both_some ⟨rfl, rfl, rfl⟩
        · exact both_some ⟨rfl, rfl, rfl⟩
  | .list ty xs, n, m, V, W, hn, hm, h => by
    simp only [walk]
    simp only [bound] at hn hm
    simp only [used] at h
    rcases walks_agree glob xs n m V W hn hm h with ⟨e1, e2⟩ | ⟨⟨x, v⟩, ⟨x', v'⟩, e1, e2, rfl, rfl, rfl⟩
    · rw [e1, e2]; exact both_none
    · rw [e1, e2]; exact both_some ⟨rfl, rfl, rfl⟩
  | .compr ty e, n, m, V, W, hn, hm, h => by
    simp only [walk]
    simp only [bound] at hn hm
    simp only [used] at h
    rcases walk_agree glob e n m V W hn hm h with ⟨e1, e2⟩ | ⟨⟨x, v⟩, ⟨x', v'⟩, e1, e2, rfl, rfl, rfl⟩
    · rw [e1, e2]; exact both_none
    · rw [e1, e2]
      simp only
      cases finishCompr ty x' with
      | none => exact both_none
      | some z => exact both_some ⟨rfl, rfl, rfl⟩
  | .ternary a b c, n, m, V, W, hn, hm, h => by
    simp only [walk]
    simp only [bound, List.append_eq_nil_iff] at hn hm
    simp only [used, List.mem_append] at h
    rcases walk_agree glob a n m V W (fun e => (hn e).1.1) (fun e => (hm e).1.1) (fun y hy => h y (.inl (.inl hy))) with
      ⟨e1, e2⟩ | ⟨⟨x, v⟩, ⟨x', v'⟩, e1, e2, rfl, rfl, rfl⟩
    · rw [e1, e2]; exact both_none
    · rw [e1, e2]
      simp only
      rcases walk_agree glob b n m v v' (fun e => (hn e).1.2) (fun e => (hm e).1.2)
        (fun y hy => h y (.inl (.inr hy))) with ⟨a1, a2⟩ | ⟨⟨y, w⟩, ⟨y', w'⟩, a1, a2, rfl, rfl, rfl⟩
      · rw [a1, a2]; exact both_none
      · rw [a1, a2]
        simp only
        rcases walk_agree glob c n m w w' (fun e => (hn e).2) (fun e => (hm e).2) (fun y hy => h y (.inr hy)) with
          ⟨b1, b2⟩ | ⟨⟨z, u⟩, ⟨z', u'⟩, b1, b2, rfl, rfl, rfl⟩
        · rw [b1, b2]; exact both_none
        · rw [b1, b2]; exact both_some ⟨rfl, rfl, rfl⟩
  | .assign l e, n, m, V, W, hn, hm, h => by
    simp only [walk]
    simp only [used] at h
    have hb : ∀ k : Nat, (k = 0 → bound (.assign l e) = []) → k = 0 → bound e = [] := by
      intro k hk e0
      have := hk e0
      cases l <;> simp only [bound] at this <;> first | exact this | exact nomatch this
    rcases walk_agree glob e n m V W (hb n hn) (hb m hm) h with ⟨e1, e2⟩ | ⟨⟨x, v⟩, ⟨x', v'⟩, e1, e2, rfl, rfl, rfl⟩
    · rw [e1, e2]; exact both_none
    · rw [e1, e2]
      simp only
      cases l with
      | ident i =>
        have h1 : n ≠ 0 := fun e0 => by have := hn e0; simp [bound] at this
        have h2 : m ≠ 0 := fun e0 => by have := hm e0; simp [bound] at this
        simp only [h1, h2, if_false]
        exact both_some ⟨rfl, rfl, rfl⟩
      | _ => exact both_some ⟨rfl, rfl, rfl⟩
  | .call f a, n, m, V, W, hn, hm, h => by
    simp only [walk]
    simp only [used, List.mem_append] at h
    rcases walk_agree glob f (n + 1) (m + 1) V W (by simp) (by simp) (fun y hy => h y (.inl hy)) with
      ⟨e1, e2⟩ | ⟨⟨x, v⟩, ⟨x', v'⟩, e1, e2, rfl, rfl, rfl⟩
    · rw [e1, e2]; exact both_none
    · rw [e1, e2]
      simp only
      rcases walk_agree glob a (n + 1) (m + 1) v v' (by simp) (by simp) (fun y hy => h y (.inr hy)) with
        ⟨a1, a2⟩ | ⟨⟨y, w⟩, ⟨y', w'⟩, a1, a2, rfl, rfl, rfl⟩
      · rw [a1, a2]; exact both_none
      · rw [a1, a2]
        simp only
        cases finishCall glob x' y' with
        | none => exact both_none
        | some z => exact both_some ⟨rfl, rfl, rfl⟩
theorem walks_agree (glob : GlobFn) : ∀ (xs : List Node) (n m : Nat) (V W : Vars), (n = 0 → boundIn xs = []) →
    (m = 0 → boundIn xs = []) → (∀ y ∈ usedIn xs, W.find y = V.find y) →
    Both (fun a b => b.1 = a.1 ∧ a.2 = V ∧ b.2 = W) (walks glob n V xs) (walks glob m W xs)
  | [], n, m, V, W, _, _, _ => by simp only [walks]; exact both_some ⟨rfl, rfl, rfl⟩
  | a :: as, n, m, V, W, hn, hm, h => by
    simp only [walks]
    simp only [boundIn, List.append_eq_nil_iff] at hn hm
    simp only [usedIn, List.mem_append] at h
    rcases walk_agree glob a n m V W (fun e => (hn e).1) (fun e => (hm e).1) (fun y hy => h y (.inl hy)) with
      ⟨e1, e2⟩ | ⟨⟨x, v⟩, ⟨x', v'⟩, e1, e2, rfl, rfl, rfl⟩
    · rw [e1, e2]; exact both_none
    · rw [e1, e2]
      simp only
      rcases walks_agree glob as n m v v' (fun e => (hn e).2) (fun e => (hm e).2) (fun y hy => h y (.inr hy)) with
        ⟨a1, a2⟩ | ⟨⟨y, w⟩, ⟨y', w'⟩, a1, a2, rfl, rfl, rfl⟩
      · rw [a1, a2]; exact both_none
      · rw [a1, a2]; exact both_some ⟨rfl, rfl, rfl⟩
end

section
variable (glob : GlobFn) (x : Str) (e value : Node) (E : Vars)

/-- With `x` and without; what is read in `e` is as it was. -/
structure Named (V W : Vars) : Prop where
  value : V.find x = some value
  others : ∀ y, y ≠ x → W.find y = V.find y
  kept : ∀ y ∈ used e, W.find y = E.find y

variable {glob x e value E}

theorem named_walk (hb : bound e = []) (hv : walk glob 0 E e = some (value, E)) {V W : Vars}
    (h : Named x e value E V W) (n : Nat) : walk glob n W e = some (value, W) := by
  rcases walk_agree glob e 0 n E W (fun _ => hb) (fun _ => hb) h.kept with ⟨e1, e2⟩ | ⟨⟨a, v⟩, ⟨b, w⟩, e1, e2, e3, _, e5⟩
  · rw [hv] at e1; cases e1
  · rw [hv] at e1
    cases e1
    simp only at e3 e5
    rw [e2, e3, e5]

theorem named_cons {V W : Vars} (h : Named x e value E V W) (i : Str) (v : Node) (hi : i ≠ x) (hu : i ∉ used e) :
    Named x e value E ((i, v) :: V) ((i, v) :: W) := by
  refine ⟨?_, ?_, ?_⟩
  · rw [find_cons, if_neg hi, h.value]
  · intro y hy
    rw [find_cons, find_cons, h.others y hy]
  · intro y hy
    rw [find_cons, if_neg (fun e0 : i = y => hu (e0 ▸ hy)), h.kept y hy]

variable (hb : bound e = []) (hv : walk glob 0 E e = some (value, E))
include hb hv

set_option linter.unusedSectionVars false

mutual
theorem walk_named : ∀ (t : Node) (n : Nat) (V W : Vars), Named x e value E V W → x ∉ invoked t →
    (n = 0 → ∀ y ∈ bound t, y ≠ x ∧ y ∉ used e) →
    Both (fun a b => b.1 = a.1 ∧ Named x e value E a.2 b.2) (walk glob n V t) (walk glob n W (writeOut x e t))
  | .null, n, V, W, h, _, _ => by simp only [walk, writeOut]; exact both_some ⟨rfl, h⟩
  | .str _ _ _, n, V, W, h, _, _ => by simp only [walk, writeOut]; exact both_some ⟨rfl, h⟩
  | .int _ _, n, V, W, h, _, _ => by simp only [walk, writeOut]; exact both_some ⟨rfl, h⟩
  | .ident i, n, V, W, h, _, _ => by
    simp only [writeOut]
    by_cases hi : i = x
    · rw [if_pos hi, named_walk hb hv h n, hi]
      simp only [walk, h.value, Option.getD_some]
      exact both_some ⟨rfl, h⟩
    · rw [if_neg hi]
      simp only [walk, h.others i hi]
      exact both_some ⟨rfl, h⟩
  | .unary op a, n, V, W, h, hc, hd => by
    simp only [walk, writeOut]
    simp only [invoked] at hc
    simp only [bound] at hd
    rcases walk_named a n V W h hc hd with ⟨e1, e2⟩ | ⟨⟨u, v⟩, ⟨u', v'⟩, e1, e2, rfl, e4⟩
    · rw [e1, e2]; exact both_none
    · rw [e1, e2]; exact both_some ⟨rfl, e4⟩
  | .binop op a b, n, V, W, h, hc, hd => by
    simp only [walk, writeOut]
    simp only [invoked, List.mem_append, not_or] at hc
    simp only [bound, List.mem_append] at hd
    rcases walk_named a n V W h hc.1 (fun e0 y hy => hd e0 y (.inl hy)) with
      ⟨e1, e2⟩ | ⟨⟨u, v⟩, ⟨u', v'⟩, e1, e2, rfl, e4⟩
    · rw [e1, e2]; exact both_none
    · rw [e1, e2]
      simp only
      rcases walk_named b n v v' e4 hc.2 (fun e0 y hy => hd e0 y (.inr hy)) with
        ⟨a1, a2⟩ | ⟨⟨w, p⟩, ⟨w', p'⟩, a1, a2, rfl, a4⟩
      · rw [a1, a2]; exact both_none
      · rw [a1, a2]
        simp only
        split
        · cases plus u' w' with
          | none => exact both_none
          | some z => exact both_some ⟨rfl, a4⟩
        · exact both_some ⟨rfl, a4⟩
  | .list ty xs, n, V, W, h, hc, hd => by
    simp only [walk, writeOut]
    simp only [invoked] at hc
    simp only [bound] at hd
    rcases walks_named xs n V W h hc hd with ⟨e1, e2⟩ | ⟨⟨u, v⟩, ⟨u', v'⟩, e1, e2, rfl, e4⟩
    · rw [e1, e2]; exact both_none
    · rw [e1, e2]; exact both_some ⟨rfl, e4⟩
  | .compr ty a, n, V, W, h, hc, hd => by
    simp only [walk, writeOut]
    simp only [invoked] at hc
    simp only [bound] at hd
    rcases walk_named a n V W h hc hd with ⟨e1, e2⟩ | ⟨⟨u, v⟩, ⟨u', v'⟩, e1, e2, rfl, e4⟩
    · rw [e1, e2]; exact both_none
    · rw [e1, e2]
      simp only
      cases finishCompr ty u' with
      | none => exact both_none
      | some z => exact both_some ⟨rfl, e4⟩
  | .ternary a b c, n, V, W, h, hc, hd => by
    simp only [walk, writeOut]
    simp only [invoked, List.mem_append, not_or] at hc
    simp only [bound, List.mem_append] at hd
    rcases walk_named a n V W h hc.1.1 (fun e0 y hy => hd e0 y (.inl (.inl hy))) with
      ⟨e1, e2⟩ | ⟨⟨u, v⟩, ⟨u', v'⟩, e1, e2, rfl, e4⟩
    · rw [e1, e2]; exact both_none
    · rw [e1, e2]
      simp only
      rcases walk_named b n v v' e4 hc.1.2 (fun e0 y hy => hd e0 y (.inl (.inr hy))) with
        ⟨a1, a2⟩ | ⟨⟨w, p⟩, ⟨w', p'⟩, a1, a2, rfl, a4⟩
      · rw [a1, a2]; exact both_none
      · rw [a1, a2]
        simp only
        rcases walk_named c n p p' a4 hc.2 (fun e0 y hy => hd e0 y (.inr hy)) with
          ⟨b1, b2⟩ | ⟨⟨z, q⟩, ⟨z', q'⟩, b1, b2, rfl, b4⟩
        · rw [b1, b2]; exact both_none
        · rw [b1, b2]; exact both_some ⟨rfl, b4⟩
  | .assign l a, n, V, W, h, hc, hd => by
    simp only [walk, writeOut]
    simp only [invoked] at hc
    have hd' : n = 0 → ∀ y ∈ bound a, y ≠ x ∧ y ∉ used e := by
      intro e0 y hy
      refine hd e0 y ?_
      cases l <;> simp only [bound] <;> first | exact hy | exact List.mem_cons_of_mem _ hy
    rcases walk_named a n V W h hc hd' with ⟨e1, e2⟩ | ⟨⟨u, v⟩, ⟨u', v'⟩, e1, e2, rfl, e4⟩
    · rw [e1, e2]; exact both_none
    · rw [e1, e2]
      simp only
      cases l with
      | ident i =>
        simp only
        refine both_some ⟨rfl, ?_⟩
        simp only
        by_cases hn : n = 0
        · rw [if_pos hn, if_pos hn]
          obtain ⟨h1, h2⟩ := hd hn i (by simp [bound])
          exact named_cons e4 i u' h1 h2
        · rw [if_neg hn, if_neg hn]; exact e4
      | _ => exact both_some ⟨rfl, e4⟩
  | .call f a, n, V, W, h, hc, hd => by
    simp only [walk, writeOut]
    simp only [invoked, List.mem_append, not_or] at hc
    rcases walk_agree glob f (n + 1) (n + 1) V W (by simp) (by simp)
      (fun y hy => h.others y (fun e0 => hc.1 (e0 ▸ hy))) with ⟨e1, e2⟩ | ⟨⟨u, v⟩, ⟨u', v'⟩, e1, e2, rfl, rfl, rfl⟩
    · rw [e1, e2]; exact both_none
    · rw [e1, e2]
      simp only
      rcases walk_named a (n + 1) v v' h hc.2 (by simp) with ⟨a1, a2⟩ | ⟨⟨w, p⟩, ⟨w', p'⟩, a1, a2, rfl, a4⟩
      · rw [a1, a2]; exact both_none
      · rw [a1, a2]
        simp only
        cases finishCall glob u' w' with
        | none => exact both_none
        | some z => exact both_some ⟨rfl, a4⟩
theorem walks_named : ∀ (xs : List Node) (n : Nat) (V W : Vars), Named x e value E V W → x ∉ invokedIn xs →
    (n = 0 → ∀ y ∈ boundIn xs, y ≠ x ∧ y ∉ used e) →
    Both (fun a b => b.1 = a.1 ∧ Named x e value E a.2 b.2) (walks glob n V xs) (walks glob n W (writeOutIn x e xs))
  | [], n, V, W, h, _, _ => by simp only [walks, writeOutIn]; exact both_some ⟨rfl, h⟩
  | a :: as, n, V, W, h, hc, hd => by
    simp only [walks, writeOutIn]
    simp only [invokedIn, List.mem_append, not_or] at hc
    simp only [boundIn, List.mem_append] at hd
    rcases walk_named a n V W h hc.1 (fun e0 y hy => hd e0 y (.inl hy)) with
      ⟨e1, e2⟩ | ⟨⟨u, v⟩, ⟨u', v'⟩, e1, e2, rfl, e4⟩
    · rw [e1, e2]; exact both_none
    · rw [e1, e2]
      simp only
      rcases walks_named as n v v' e4 hc.2 (fun e0 y hy => hd e0 y (.inr hy)) with
        ⟨a1, a2⟩ | ⟨⟨w, p⟩, ⟨w', p'⟩, a1, a2, rfl, a4⟩
      · rw [a1, a2]; exact both_none
      · rw [a1, a2]; exact both_some ⟨rfl, a4⟩
end
end

/-- A name for a value: the same but for the assignment. -/
theorem elab_named {glob : GlobFn} {pre post : List Node} {x : Str} {e : Node} (hb : bound e = [])
    (hx : x ∉ boundIn post) (hu : ∀ y ∈ used e, y ∉ boundIn post) (hc : x ∉ invokedIn post)
    (h : elabFile glob (.list .list (pre ++ .assign (.ident x) e :: post)) ≠ none) :
    ∃ pre' value post', elabFile glob (.list .list (pre ++ .assign (.ident x) e :: post)) =
        some (.list .list (pre' ++ .assign (.ident x) value :: post')) ∧
      elabFile glob (.list .list (pre ++ writeOutIn x e post)) = some (.list .list (pre' ++ post')) := by
  simp only [elabFile, walk, walks_append] at h ⊢
  cases hp : walks glob 0 [] pre with
  | none => rw [hp] at h; exact absurd rfl h
  | some r =>
    obtain ⟨pre', E⟩ := r
    rw [hp] at h
    simp only [walks, walk] at h ⊢
    rcases walk_agree glob e 0 0 E E (fun _ => hb) (fun _ => hb) (fun _ _ => rfl) with
      ⟨e1, _⟩ | ⟨⟨value, v⟩, _, e1, _, _, e4, _⟩
    · rw [e1] at h; exact absurd rfl h
    · simp only at e4
      subst e4
      rw [e1] at h ⊢
      simp only [if_true] at h ⊢
      have hn : Named x e value v ((x, value) :: v) v := by
        refine ⟨by rw [find_cons, if_pos rfl], fun y hy => ?_, fun _ _ => rfl⟩
        rw [find_cons, if_neg (Ne.symm hy)]
      rcases walks_named hb e1 post 0 _ _ hn hc (fun _ y hy => ⟨fun e0 => hx (e0 ▸ hy), fun h2 => hu y h2 hy⟩) with
        ⟨a1, a2⟩ | ⟨⟨w, p⟩, ⟨w', p'⟩, a1, a2, rfl, a4⟩
      · rw [a1] at h; exact absurd rfl h
      · rw [a1, a2]
        exact ⟨pre', value, w', rfl, rfl⟩

/-! ### Files that are found or listed -/

theorem bound_assign {i : Str} {l r : Node} (h : i ∈ bound r) : i ∈ bound (.assign l r) := by
  unfold bound
  split <;> simp_all

mutual
/-- A name that is not assigned has no value afterwards. -/
theorem walk_unbound (glob : GlobFn) (i : Str) : ∀ (t : Node) (n : Nat) (V : Vars) (t' : Node) (V' : Vars),
    walk glob n V t = some (t', V') → (n = 0 → i ∉ bound t) → V.find i = none → V'.find i = none
  | .null, n, V, _, _, h, _, hv => by simp only [walk] at h; cases h; exact hv
  | .str _ _ _, n, V, _, _, h, _, hv => by simp only [walk] at h; cases h; exact hv
  | .int _ _, n, V, _, _, h, _, hv => by simp only [walk] at h; cases h; exact hv
  | .ident _, n, V, _, _, h, _, hv => by simp only [walk] at h; cases h; exact hv
  | .unary op e, n, V, _, _, h, hb, hv => by
    simp only [walk] at h
    split at h
    · cases h
    · next e' V' he => cases h; exact walk_unbound glob i e n V _ _ he hb hv
  | .binop op a b, n, V, _, _, h, hb, hv => by
    simp only [walk] at h
    simp only [bound, List.mem_append, not_or] at hb
    split at h
    · cases h
    · next a' V' ha =>
      have h1 := walk_unbound glob i a n V _ _ ha (fun h0 => (hb h0).1) hv
      split at h
      · cases h
      · next b' V'' hb' =>
        have h2 := walk_unbound glob i b n V' _ _ hb' (fun h0 => (hb h0).2) h1
        split at h
        · split at h
          · cases h
          · cases h; exact h2
        · cases h; exact h2
  | .list ty xs, n, V, _, _, h, hb, hv => by
    simp only [walk] at h
    split at h
    · cases h
    · next e' V' he => cases h; exact walks_unbound glob i xs n V _ _ he hb hv
  | .compr ty e, n, V, _, _, h, hb, hv => by
    simp only [walk] at h
    split at h
    · cases h
    · next e' V' he =>
      have h1 := walk_unbound glob i e n V _ _ he hb hv
      split at h
      · cases h
      · cases h; exact h1
  | .ternary a b c, n, V, _, _, h, hb, hv => by
    simp only [walk] at h
    simp only [bound, List.mem_append, not_or] at hb
    split at h
    · cases h
    · next a' V' ha =>
      have h1 := walk_unbound glob i a n V _ _ ha (fun h0 => (hb h0).1.1) hv
      split at h
      · cases h
      · next b' V'' hb' =>
        have h2 := walk_unbound glob i b n V' _ _ hb' (fun h0 => (hb h0).1.2) h1
        split at h
        · cases h
        · next c' V''' hc' => cases h; exact walk_unbound glob i c n V'' _ _ hc' (fun h0 => (hb h0).2) h2
  | .assign l e, n, V, _, _, h, hb, hv => by
    simp only [walk] at h
    split at h
    · cases h
    · next e' V' he =>
      have h1 := walk_unbound glob i e n V _ _ he (fun h0 hi => hb h0 (bound_assign hi)) hv
      split at h
      · next j =>
        cases h
        split
        · next h0 =>
          rw [find_cons, if_neg]
          · exact h1
          · intro e0
            subst e0
            exact hb h0 (by simp [bound])
        · exact h1
      · cases h; exact h1
  | .call f a, n, V, _, _, h, _, hv => by
    simp only [walk] at h
    split at h
    · cases h
    · next f' V' hf =>
      have h1 := walk_unbound glob i f (n + 1) V _ _ hf (by simp) hv
      split at h
      · cases h
      · next a' V'' ha =>
        have h2 := walk_unbound glob i a (n + 1) V' _ _ ha (by simp) h1
        split at h
        · cases h
        · cases h; exact h2
theorem walks_unbound (glob : GlobFn) (i : Str) : ∀ (xs : List Node) (n : Nat) (V : Vars) (xs' : List Node) (V' : Vars),
    walks glob n V xs = some (xs', V') → (n = 0 → i ∉ boundIn xs) → V.find i = none → V'.find i = none
  | [], n, V, _, _, h, _, hv => by simp only [walks] at h; cases h; exact hv
  | x :: xs, n, V, _, _, h, hb, hv => by
    simp only [walks] at h
    simp only [boundIn, List.mem_append, not_or] at hb
    split at h
    · cases h
    · next x' V' hx =>
      have h1 := walk_unbound glob i x n V _ _ hx (fun h0 => (hb h0).1) hv
      split at h
      · cases h
      · next xs' V'' hxs => cases h; exact walks_unbound glob i xs n V' _ _ hxs (fun h0 => (hb h0).2) h1
end

theorem walks_quoted (glob : GlobFn) (n : Nat) (V : Vars) (l : List (Str × Bool × Bool)) :
    walks glob n V (l.map fun x => .str x.1 x.2.1 x.2.2) = some (l.map fun x => .str x.1 x.2.1 x.2.2, V) := by
  induction l with
  | nil => rfl
  | cons x l ih => simp only [List.map_cons, walks, walk, ih]

theorem walk_strings {glob : GlobFn} {texts : List Str} {t : Node} (h : Strings texts t) (n : Nat) (V : Vars) :
    walk glob n V t = some (t, V) := by
  obtain ⟨l, _, rfl⟩ := h
  simp only [walk, walks_quoted]

theorem stringList_quoted (l : List (Str × Bool × Bool)) (h : [] ∉ l.map (·.1)) :
    Elab.stringList (l.map fun x => .str x.1 x.2.1 x.2.2) = some (l.map (·.1)) := by
  induction l with
  | nil => rfl
  | cons x l ih =>
    simp only [List.map_cons, List.mem_cons, not_or] at h
    have : x.1 ≠ [] := fun e => h.1 e.symm
    simp [Elab.stringList, ih h.2, this]

/-- What `glob()` is replaced by. -/
theorem walk_globCall {glob : GlobFn} {incl excl : List Str} {args : List Node} (h : GlobArguments incl excl args)
    (hi : [] ∉ incl) (he : [] ∉ excl) (n : Nat) {V : Vars} (hv : V.find c!"glob" = none) :
    walk glob n V (.call (.ident c!"glob") (.list .tuple args)) =
      some (.list .list ((glob incl excl).map fun s => .str s false false), V) := by
  obtain ⟨first, second, others, rfl, h1, h2, h3⟩ := h
  -- the others
  have ho : ∃ others', walks glob (n + 1) V others = some (others', V) ∧
      ∀ g, Elab.globArgs others' g = some g := by
    clear h1 h2
    induction others with
    | nil => exact ⟨[], rfl, fun g => rfl⟩
    | cons o others ih =>
      obtain ⟨k, v, rfl, k1, k2, k3⟩ := h3 o (by simp)
      obtain ⟨os, e1, e2⟩ := ih fun o ho => h3 o (by simp [ho])
      have hw : ∃ v', walk glob (n + 1) V v = some (v', V) := by
        rcases k3 with ⟨i, rfl⟩ | ⟨s, a, b, rfl⟩ | ⟨r, v, rfl⟩
        · exact ⟨_, rfl⟩
        · exact ⟨_, rfl⟩
        · exact ⟨_, rfl⟩
      obtain ⟨v', hv'⟩ := hw
      refine ⟨.assign (.ident k) v' :: os, ?_, ?_⟩
      · simp only [walks, walk, hv', e1, Nat.succ_ne_zero, if_false]
      · intro g
        simp only [Elab.globArgs, if_neg k1, if_neg k2, e2]
  obtain ⟨others', o1, o2⟩ := ho
  have hsecond : ∃ x, walks glob (n + 1) V (second ++ others) = some (second ++ others', V) ∧
      (∀ g, Elab.globArgs (second ++ others') (g, none) = some (g, x)) ∧ extractStringList x = some excl := by
    rcases h2 with ⟨rfl, rfl⟩ | ⟨l, ⟨q, rfl, rfl⟩, rfl⟩
    · exact ⟨none, o1, fun g => o2 _, rfl⟩
    · refine ⟨some (q.map fun x : Str × Bool × Bool => Node.str x.1 x.2.1 x.2.2), ?_, ?_, stringList_quoted q he⟩
      · simp only [List.cons_append, List.nil_append, walks, walk, walks_quoted, o1, Nat.add_one_ne_zero, if_false]
      · intro g
        simp only [List.cons_append, List.nil_append, Elab.globArgs, Elab.castList, Option.map_some, o2]
        rfl
  obtain ⟨x, s1, s2, s3⟩ := hsecond
  have hfirst : ∃ q : List (Str × Bool × Bool), q.map (·.1) = incl ∧ walk glob (n + 1) V first = some (first, V) ∧
      Elab.globArgs (first :: (second ++ others')) (none, none) =
        some (some (q.map fun x => .str x.1 x.2.1 x.2.2), x) := by
    rcases h1 with ⟨q, rfl, rfl⟩ | ⟨l, ⟨q, rfl, rfl⟩, rfl⟩
    · exact ⟨q, rfl, by simp only [walk, walks_quoted], by simp only [Elab.globArgs, s2]⟩
    · refine ⟨q, rfl, by simp only [walk, walks_quoted, Nat.add_one_ne_zero, if_false], ?_⟩
      simp only [Elab.globArgs, Elab.castList, Option.map_some, s2, if_true]
  obtain ⟨q, rfl, f1, f2⟩ := hfirst
  have hg : handleGlob glob (first :: (second ++ others')) =
      some (.list .list ((glob (q.map (·.1)) excl).map fun s => .str s false false)) := by
    unfold handleGlob
    rw [f2]
    simp only [Option.bind_eq_bind, Option.bind_some, s3]
    rw [show extractStringList (some (q.map fun x => Node.str x.1 x.2.1 x.2.2)) = some (q.map (·.1)) from
      stringList_quoted q hi]
    rfl
  simp only [walk, hv, Option.getD_none, walks, f1, s1, finishCall, if_true, hg]

mutual
theorem walk_globbed {glob : GlobFn} : ∀ {t t' : Node} (_ : Globbed glob t t') (n : Nat) (V : Vars),
    (n = 0 → c!"glob" ∉ bound t) → V.find c!"glob" = none → walk glob n V t' = walk glob n V t
  | _, _, .files incl excl args ha hi he, n, V, _, hv => by
    rw [walk_globCall ha hi he n hv]
    have h : Strings (glob incl excl) (.list .list ((glob incl excl).map fun s => .str s false false)) :=
      ⟨(glob incl excl).map fun s => (s, false, false), by simp [Function.comp_def], by simp [Function.comp_def]⟩
    exact walk_strings h n V
  | _, _, .refl t, n, V, _, _ => rfl
  | _, _, .unary op h, n, V, hb, hv => by simp only [walk, walk_globbed h n V hb hv]
  | _, _, .binop (a := a) op h1 h2, n, V, hb, hv => by
    simp only [bound, List.mem_append, not_or] at hb
    simp only [walk, walk_globbed h1 n V (fun h0 => (hb h0).1) hv]
    cases ha : walk glob n V a with
    | none => rfl
    | some r =>
      simp only [walk_globbed h2 n r.2 (fun h0 => (hb h0).2)
        (walk_unbound glob _ a n V _ _ ha (fun h0 => (hb h0).1) hv)]
  | _, _, .list ty h, n, V, hb, hv => by simp only [walk, walks_globbed h n V hb hv]
  | _, _, .compr ty h, n, V, hb, hv => by simp only [walk, walk_globbed h n V hb hv]
  | _, _, .ternary (a := a) (b := b) h1 h2 h3, n, V, hb, hv => by
    simp only [bound, List.mem_append, not_or] at hb
    simp only [walk, walk_globbed h1 n V (fun h0 => (hb h0).1.1) hv]
    cases ha : walk glob n V a with
    | none => rfl
    | some r =>
      have hr := walk_unbound glob _ a n V _ _ ha (fun h0 => (hb h0).1.1) hv
      simp only [walk_globbed h2 n r.2 (fun h0 => (hb h0).1.2) hr]
      cases hb' : walk glob n r.2 b with
      | none => rfl
      | some r' =>
        simp only [walk_globbed h3 n r'.2 (fun h0 => (hb h0).2)
          (walk_unbound glob _ b n r.2 _ _ hb' (fun h0 => (hb h0).1.2) hr)]
  | _, _, .assign l h, n, V, hb, hv => by
    simp only [walk, walk_globbed h n V (fun h0 hi => hb h0 (bound_assign hi)) hv]
  | _, _, .call (f := f) h1 h2, n, V, _, hv => by
    simp only [walk, walk_globbed h1 (n + 1) V (by simp) hv]
    cases hf : walk glob (n + 1) V f with
    | none => rfl
    | some r => simp only [walk_globbed h2 (n + 1) r.2 (by simp) (walk_unbound glob _ f (n + 1) V _ _ hf (by simp) hv)]
theorem walks_globbed {glob : GlobFn} : ∀ {xs xs' : List Node} (_ : GlobbedAll glob xs xs') (n : Nat) (V : Vars),
    (n = 0 → c!"glob" ∉ boundIn xs) → V.find c!"glob" = none → walks glob n V xs' = walks glob n V xs
  | _, _, .nil, n, V, _, _ => rfl
  | _, _, .cons (x := x) h1 h2, n, V, hb, hv => by
    simp only [boundIn, List.mem_append, not_or] at hb
    simp only [walks, walk_globbed h1 n V (fun h0 => (hb h0).1) hv]
    cases ha : walk glob n V x with
    | none => rfl
    | some r =>
      simp only [walks_globbed h2 n r.2 (fun h0 => (hb h0).2)
        (walk_unbound glob _ x n V _ _ ha (fun h0 => (hb h0).1) hv)]
end

/-! ### The default condition -/

theorem walks_others {glob : GlobFn} {n : Nat} {V : Vars} : ∀ {pre pre' : List Node} {V' : Vars},
    (∀ e ∈ pre, OtherCondition e) → walks glob (n + 1) V pre = some (pre', V') →
    V' = V ∧ ∀ e ∈ pre', OtherCondition e
  | [], pre', V', _, h => by simp only [walks] at h; cases h; exact ⟨rfl, by simp⟩
  | e :: pre, pre', V', hp, h => by
    obtain ⟨s, t, r, v, rfl, hs⟩ := hp e (by simp)
    simp only [walks, walk] at h
    cases hv : walk glob (n + 1) V v with
    | none => rw [hv] at h; cases h
    | some x =>
      obtain ⟨v', V1⟩ := x
      have : V1 = V := walk_nested glob n v _ _ hv
      subst this
      rw [hv] at h
      simp only [show (TokenType.op ':' = TokenType.op '+') = False by simp, if_false] at h
      cases hr : walks glob (n + 1) V1 pre with
      | none => rw [hr] at h; cases h
      | some y =>
        obtain ⟨pre1, V2⟩ := y
        obtain ⟨h1, h2⟩ := walks_others (fun e he => hp e (by simp [he])) hr
        subst h1
        rw [hr] at h
        cases h
        refine ⟨rfl, fun e he => ?_⟩
        rcases List.mem_cons.1 he with rfl | he
        · exact ⟨s, t, r, v', rfl, hs⟩
        · exact h2 e he

theorem selectEntry_default {pre post : List Node} {t r : Bool} {value : Node} (h : ∀ e ∈ pre, OtherCondition e) :
    selectEntry (pre ++ .binop (.op ':') (.str defaultCondition t r) value :: post) = some (some value) := by
  induction pre with
  | nil => simp [selectEntry, Node.isNull, isDefaultCondition, defaultCondition]
  | cons e pre ih =>
    obtain ⟨s, t, r, v, rfl, hs⟩ := h e (by simp)
    simp only [defaultCondition] at hs
    simp only [List.cons_append, selectEntry, Node.isNull, isDefaultCondition, hs]
    simpa using ih (fun e he => h e (by simp [he]))

theorem walk_selectCall {glob : GlobFn} {pre post rest : List Node} {t r : Bool} {value u : Node} {n : Nat} {V V' : Vars}
    (hp : ∀ e ∈ pre, OtherCondition e) (hv : V.find c!"select" = none)
    (h : walk glob n V (.call (.ident c!"select") (.list .tuple
      (.list .map (pre ++ .binop (.op ':') (.str defaultCondition t r) value :: post) :: rest))) = some (u, V')) :
    walk glob (n + 1) V value = some (u, V') := by
  simp only [walk, hv, Option.getD_none, walks] at h
  rw [walks_append] at h
  cases h1 : walks glob (n + 1) V pre with
  | none => rw [h1] at h; cases h
  | some x =>
    obtain ⟨pre', V1⟩ := x
    obtain ⟨e1, hp'⟩ := walks_others hp h1
    subst e1
    rw [h1] at h
    simp only [walks, walk] at h
    cases h2 : walk glob (n + 1) V1 value with
    | none => rw [h2] at h; cases h
    | some y =>
      obtain ⟨value', V2⟩ := y
      have : V2 = V1 := walk_nested glob n value _ _ h2
      subst this
      rw [h2] at h
      simp only [show (TokenType.op ':' = TokenType.op '+') = False by simp, if_false] at h
      cases h3 : walks glob (n + 1) V2 post with
      | none => rw [h3] at h; cases h
      | some z =>
        obtain ⟨post', V3⟩ := z
        rw [h3] at h
        simp only at h
        have : V3 = V2 := walks_nested glob n post _ _ h3
        subst this
        cases h4 : walks glob (n + 1) V3 rest with
        | none => rw [h4] at h; cases h
        | some w =>
          obtain ⟨rest', V4⟩ := w
          rw [h4] at h
          have : V4 = V3 := walks_nested glob n rest _ _ h4
          subst this
          simp only [finishCall] at h
          rw [if_neg (by decide)] at h
          simp only [if_true, selectArgs, selectEntry_default hp'] at h
          exact h

mutual
theorem walk_selected {glob : GlobFn} : ∀ {t t' : Node} (_ : Selected t t') (n : Nat) (V : Vars),
    (n = 0 → c!"select" ∉ bound t) → V.find c!"select" = none → ∀ {u : Node} {V' : Vars},
    walk glob n V t = some (u, V') → walk glob n V t' = some (u, V')
  | _, _, .default pre post rest t r hp hb hs, n, V, _, hv, u, V', h => by
    have h1 := walk_selected hs (n + 1) V (by simp) hv (walk_selectCall hp hv h)
    rcases walk_agree glob _ (n + 1) n V V (fun _ => hb) (fun _ => hb) (fun _ _ => rfl) with
      ⟨e1, e2⟩ | ⟨⟨a, v⟩, ⟨b, w⟩, e1, e2, e3, e4, e5⟩
    · rw [h1] at e1; cases e1
    · rw [h1] at e1
      cases e1
      simp only at e3 e4 e5
      rw [e2, e3, e4, e5]
  | _, _, .refl t, n, V, _, _, _, _, h => h
  | _, _, .unary (e := e) op h1, n, V, hb, hv, u, V', h => by
    simp only [walk] at h ⊢
    cases ha : walk glob n V e with
    | none => rw [ha] at h; cases h
    | some r => rw [ha] at h; rw [walk_selected h1 n V hb hv ha]; exact h
  | _, _, .binop (a := a) (b := b) op h1 h2, n, V, hb, hv, u, V', h => by
    simp only [bound, List.mem_append, not_or] at hb
    simp only [walk] at h ⊢
    cases ha : walk glob n V a with
    | none => rw [ha] at h; cases h
    | some r =>
      rw [ha] at h
      rw [walk_selected h1 n V (fun h0 => (hb h0).1) hv ha]
      simp only at h ⊢
      cases hb' : walk glob n r.2 b with
      | none => rw [hb'] at h; cases h
      | some r' =>
        rw [hb'] at h
        rw [walk_selected h2 n r.2 (fun h0 => (hb h0).2) (walk_unbound glob _ a n V _ _ ha (fun h0 => (hb h0).1) hv) hb']
        exact h
  | _, _, .list (xs := xs) ty h1, n, V, hb, hv, u, V', h => by
    simp only [walk] at h ⊢
    cases ha : walks glob n V xs with
    | none => rw [ha] at h; cases h
    | some r => rw [ha] at h; rw [walks_selected h1 n V hb hv ha]; exact h
  | _, _, .compr (e := e) ty h1, n, V, hb, hv, u, V', h => by
    simp only [walk] at h ⊢
    cases ha : walk glob n V e with
    | none => rw [ha] at h; cases h
    | some r => rw [ha] at h; rw [walk_selected h1 n V hb hv ha]; exact h
  | _, _, .ternary (a := a) (b := b) (c := c) h1 h2 h3, n, V, hb, hv, u, V', h => by
    simp only [bound, List.mem_append, not_or] at hb
    simp only [walk] at h ⊢
    cases ha : walk glob n V a with
    | none => rw [ha] at h; cases h
    | some r =>
      rw [ha] at h
      rw [walk_selected h1 n V (fun h0 => (hb h0).1.1) hv ha]
      have hr := walk_unbound glob _ a n V _ _ ha (fun h0 => (hb h0).1.1) hv
      simp only at h ⊢
      cases hb' : walk glob n r.2 b with
      | none => rw [hb'] at h; cases h
      | some r' =>
        rw [hb'] at h
        rw [walk_selected h2 n r.2 (fun h0 => (hb h0).1.2) hr hb']
        have hr' := walk_unbound glob _ b n r.2 _ _ hb' (fun h0 => (hb h0).1.2) hr
        simp only at h ⊢
        cases hc : walk glob n r'.2 c with
        | none => rw [hc] at h; cases h
        | some r'' =>
          rw [hc] at h
          rw [walk_selected h3 n r'.2 (fun h0 => (hb h0).2) hr' hc]
          exact h
  | _, _, .assign (r := r) l h1, n, V, hb, hv, u, V', h => by
    simp only [walk] at h ⊢
    cases ha : walk glob n V r with
    | none => rw [ha] at h; cases h
    | some x => rw [ha] at h; rw [walk_selected h1 n V (fun h0 hi => hb h0 (bound_assign hi)) hv ha]; exact h
  | _, _, .call (f := f) (a := a) h1 h2, n, V, _, hv, u, V', h => by
    simp only [walk] at h ⊢
    cases hf : walk glob (n + 1) V f with
    | none => rw [hf] at h; cases h
    | some r =>
      rw [hf] at h
      rw [walk_selected h1 (n + 1) V (by simp) hv hf]
      simp only at h ⊢
      cases ha : walk glob (n + 1) r.2 a with
      | none => rw [ha] at h; cases h
      | some r' =>
        rw [ha] at h
        rw [walk_selected h2 (n + 1) r.2 (by simp) (walk_unbound glob _ f (n + 1) V _ _ hf (by simp) hv) ha]
        exact h
theorem walks_selected {glob : GlobFn} : ∀ {xs xs' : List Node} (_ : SelectedAll xs xs') (n : Nat) (V : Vars),
    (n = 0 → c!"select" ∉ boundIn xs) → V.find c!"select" = none → ∀ {us : List Node} {V' : Vars},
    walks glob n V xs = some (us, V') → walks glob n V xs' = some (us, V')
  | _, _, .nil, n, V, _, _, _, _, h => h
  | _, _, .cons (x := x) (xs := xs) h1 h2, n, V, hb, hv, us, V', h => by
    simp only [boundIn, List.mem_append, not_or] at hb
    simp only [walks] at h ⊢
    cases ha : walk glob n V x with
    | none => rw [ha] at h; cases h
    | some r =>
      rw [ha] at h
      rw [walk_selected h1 n V (fun h0 => (hb h0).1) hv ha]
      simp only at h ⊢
      cases hx : walks glob n r.2 xs with
      | none => rw [hx] at h; cases h
      | some r' =>
        rw [hx] at h
        rw [walks_selected h2 n r.2 (fun h0 => (hb h0).2)
          (walk_unbound glob _ x n V _ _ ha (fun h0 => (hb h0).1) hv) hx]
        exact h
end

theorem elab_selected {glob : GlobFn} {t t' : Node} (h : Selected t t') (hb : c!"select" ∉ bound t)
    (hne : elabFile glob t ≠ none) : elabFile glob t' = elabFile glob t := by
  unfold elabFile at hne ⊢
  cases hw : walk glob 0 [] t with
  | none => rw [hw] at hne; exact absurd rfl hne
  | some r => rw [walk_selected h 0 [] (fun _ => hb) rfl hw]

/-! ### The same rules -/

theorem sitesIn_append (xs ys : List Node) : sitesIn (xs ++ ys) = sitesIn xs ++ sitesIn ys := by
  induction xs with
  | nil => simp only [List.nil_append, sitesIn]
  | cons x xs ih => simp only [List.cons_append, sitesIn, ih, List.append_assoc]

/-- Which rules there are, without `keep` comments. -/
abbrev plain : Query.Result → BazelTarget → Nat → Bool := fun _ _ _ => false

theorem sameRules_keep {keep keep' : Query.Result → BazelTarget → Nat → Bool}
    (hkeep : ∀ r r', told r' = told r → keep' r' = keep r) {t t' : Node} (h : SameRules plain plain t t') :
    SameRules keep keep' t t' := by
  unfold SameRules rulesIn at *
  generalize report kwArgsIn [] true none (sites t) = l at *
  generalize report kwArgsIn [] true none (sites t') = l' at *
  induction l generalizing l' with
  | nil =>
    cases l' with
    | nil => rfl
    | cons _ _ => simp at h
  | cons a l ih =>
    cases l' with
    | nil => simp at h
    | cons b l' =>
      simp only [List.map_cons, List.cons.injEq, Prod.mk.injEq, and_true] at h ⊢
      exact ⟨⟨h.1, hkeep _ _ h.1⟩, ih l' h.2⟩

theorem sameEvaluated_keep {keep keep' : Query.Result → BazelTarget → Nat → Bool}
    (hkeep : ∀ r r', told r' = told r → keep' r' = keep r) {glob : GlobFn} {t t' : Node}
    (h : SameEvaluated plain plain glob t t') : SameEvaluated keep keep' glob t t' := by
  rcases h with h | ⟨u, u', h1, h2, h3⟩
  · exact .inl h
  · exact .inr ⟨u, u', h1, h2, sameRules_keep hkeep h3⟩

theorem sameEvaluated_restyled {glob : GlobFn} {t t' : Node} (h : Restyled t t') :
    SameEvaluated plain plain glob t t' := by
  rcases elab_restyled glob h with h | ⟨u, u', h1, h2, h3⟩
  · exact .inl h
  · exact .inr ⟨u, u', h1, h2, sameRules_restyled (fun _ _ _ => rfl) h3⟩

theorem sameEvaluated_refactored {glob : GlobFn} {t t' : Node} (h : Refactored glob t t') :
    SameEvaluated plain plain glob t t' := by
  induction h with
  | named pre post x e hb hx hu hc hne =>
    obtain ⟨pre', value, post', h1, h2⟩ := elab_named hb hx hu hc hne
    refine .inr ⟨_, _, h1, h2, ?_⟩
    unfold SameRules rulesIn
    simp only [sites, sitesIn_append, sitesIn, List.nil_append]
  | @joined t t' h =>
    have e : elabFile glob t' = elabFile glob t := by rw [elabFile, elabFile, walk_joined glob h 0 []]
    cases hu : elabFile glob t with
    | none => exact .inl ⟨hu, e.trans hu⟩
    | some u => exact .inr ⟨u, u, hu, e.trans hu, rfl⟩
  | @globbed t t' h hb =>
    have e : elabFile glob t' = elabFile glob t := by rw [elabFile, elabFile, walk_globbed h 0 [] (fun _ => hb) rfl]
    cases hu : elabFile glob t with
    | none => exact .inl ⟨hu, e.trans hu⟩
    | some u => exact .inr ⟨u, u, hu, e.trans hu, rfl⟩
  | @selected t t' h hb hne =>
    have e := elab_selected h hb hne
    cases hu : elabFile glob t with
    | none => exact absurd hu hne
    | some u => exact .inr ⟨u, u, hu, e.trans hu, rfl⟩
  | restyled h => exact sameEvaluated_restyled h
  | symm _ ih =>
    rcases ih with ⟨h1, h2⟩ | ⟨u, u', h1, h2, h3⟩
    · exact .inl ⟨h2, h1⟩
    · exact .inr ⟨u', u, h2, h1, h3.symm⟩
  | trans _ _ ih1 ih2 =>
    rcases ih1 with ⟨h1, h2⟩ | ⟨u, u', h1, h2, h3⟩
    · rcases ih2 with ⟨a1, a2⟩ | ⟨v, v', a1, a2, a3⟩
      · exact .inl ⟨h1, a2⟩
      · rw [h2] at a1; cases a1
    · rcases ih2 with ⟨a1, a2⟩ | ⟨v, v', a1, a2, a3⟩
      · rw [h2] at a1; cases a1
      · rw [h2] at a1
        cases a1
        exact .inr ⟨u, v', h1, a2, a3.trans h3⟩

end RulesSpec
end Bant
