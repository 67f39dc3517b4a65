import Verif.Lemmas.Lookup
import Verif.Lemmas.StrMap
import Verif.Model.Ordered

/-! Helper lemmas: sorted sets and maps. -/
namespace Bant
open Headers

/-! ### The order -/

/-- A strict total order. -/
class LawfulOrdered (α : Type) [Ordered α] : Prop where
  irrefl : ∀ a : α, Ordered.lt a a = false
  trans : ∀ {a b c : α}, Ordered.lt a b = true → Ordered.lt b c = true → Ordered.lt a c = true
  total : ∀ a b : α, Ordered.lt a b = true ∨ a = b ∨ Ordered.lt b a = true

instance : LawfulOrdered BazelPackage where
  irrefl a := by simp [Ordered.lt, strLt_irrefl]
  trans := by
    intro a b c h1 h2
    simp only [Ordered.lt, Bool.or_eq_true, Bool.and_eq_true, decide_eq_true_eq] at *
    rcases h1 with h1 | ⟨h1, h1'⟩ <;> rcases h2 with h2 | ⟨h2, h2'⟩
    · exact .inl (strLt_trans h1 h2)
    · exact .inl (h2 ▸ h1)
    · exact .inl (h1 ▸ h2)
    · exact .inr ⟨h1.trans h2, strLt_trans h1' h2'⟩
  total := by
    rintro ⟨a1, a2⟩ ⟨b1, b2⟩
    simp only [Ordered.lt, Bool.or_eq_true, Bool.and_eq_true, decide_eq_true_eq, BazelPackage.mk.injEq]
    rcases strLt_total a1 b1 with h | h | h
    · exact .inl (.inl h)
    · subst h
      rcases strLt_total a2 b2 with h | h | h <;> simp [h]
    · exact .inr (.inr (.inl h))

instance : LawfulOrdered BazelTarget where
  irrefl a := by
    show (Ordered.lt a.package a.package || _) = false
    simp [LawfulOrdered.irrefl, strLt_irrefl]
  trans := by
    intro a b c h1 h2
    have key : ∀ x y : BazelTarget, Ordered.lt x y = true ↔ Ordered.lt x.package y.package = true ∨
        (x.package = y.package ∧ strLt x.name y.name = true) := by
      intro x y
      show (Ordered.lt x.package y.package || _) = true ↔ _
      simp
    rw [key] at *
    rcases h1 with h1 | ⟨h1, h1'⟩ <;> rcases h2 with h2 | ⟨h2, h2'⟩
    · exact .inl (LawfulOrdered.trans h1 h2)
    · exact .inl (h2 ▸ h1)
    · exact .inl (h1 ▸ h2)
    · exact .inr ⟨h1.trans h2, strLt_trans h1' h2'⟩
  total := by
    rintro ⟨a1, a2⟩ ⟨b1, b2⟩
    have key : ∀ x y : BazelTarget, Ordered.lt x y = true ↔ Ordered.lt x.package y.package = true ∨
        (x.package = y.package ∧ strLt x.name y.name = true) := by
      intro x y
      show (Ordered.lt x.package y.package || _) = true ↔ _
      simp
    rw [key, key, BazelTarget.mk.injEq]
    rcases LawfulOrdered.total a1 b1 with h | h | h
    · exact .inl (.inl h)
    · subst h
      rcases strLt_total a2 b2 with h | h | h <;> simp [h]
    · exact .inr (.inr (.inl h))

/-! ### Placing -/

variable {α β : Type} [Ordered α]

theorem place_perm (key : β → α) (x : β) (l : List β) : (place key x l).Perm (x :: l) := by
  induction l with
  | nil => exact .refl _
  | cons y ys ih =>
    rw [place]
    split
    · exact .refl _
    · exact (List.Perm.cons y ih).trans (.swap x y ys)

theorem mem_place {key : β → α} {x y : β} {l : List β} : y ∈ place key x l ↔ y = x ∨ y ∈ l := by
  rw [(place_perm key x l).mem_iff, List.mem_cons]

theorem map_place (key : β → α) (x : β) (l : List β) :
    (place key x l).map key = place id (key x) (l.map key) := by
  induction l with
  | nil => rfl
  | cons y ys ih =>
    rw [place, List.map_cons, place]
    simp only [id]
    split
    · rfl
    · rw [List.map_cons, ih]

/-- In ascending order. -/
def Ascending (l : List α) : Prop := l.Pairwise fun a b => Ordered.lt a b = true

theorem place_ascending [LawfulOrdered α] {x : α} {l : List α} (h : Ascending l) (hx : x ∉ l) :
    Ascending (place id x l) := by
  induction l with
  | nil => exact List.pairwise_singleton _ _
  | cons y ys ih =>
    rw [place]
    obtain ⟨h1, h2⟩ := List.pairwise_cons.1 h
    simp only [List.mem_cons, not_or] at hx
    split
    · next hlt =>
      simp only [id] at hlt
      refine List.pairwise_cons.2 ⟨?_, h⟩
      intro z hz
      rcases List.mem_cons.1 hz with rfl | hz
      · exact hlt
      · exact LawfulOrdered.trans hlt (h1 z hz)
    · next hlt =>
      simp only [id] at hlt
      refine List.pairwise_cons.2 ⟨?_, ih h2 hx.2⟩
      intro z hz
      rcases mem_place.1 hz with rfl | hz
      · rcases LawfulOrdered.total z y with h | h | h
        · exact absurd h hlt
        · exact absurd h hx.1
        · exact h
      · exact h1 z hz

theorem Ascending.nodup [LawfulOrdered α] {l : List α} (h : Ascending l) : l.Nodup := by
  unfold Ascending at h
  unfold List.Nodup
  refine h.imp ?_
  rintro a b h rfl
  rw [LawfulOrdered.irrefl] at h
  cases h

/-- There is only one list in order with given elements. -/
theorem Ascending.unique [LawfulOrdered α] {l m : List α} (hl : Ascending l) (hm : Ascending m)
    (h : ∀ x, x ∈ l ↔ x ∈ m) : l = m := by
  induction l generalizing m with
  | nil =>
    cases m with
    | nil => rfl
    | cons y ys => exact absurd ((h y).2 (by simp)) (by simp)
  | cons x xs ih =>
    cases m with
    | nil => exact absurd ((h x).1 (by simp)) (by simp)
    | cons y ys =>
      obtain ⟨hx, hxs⟩ := List.pairwise_cons.1 hl
      obtain ⟨hy, hys⟩ := List.pairwise_cons.1 hm
      have asymm : ∀ {a b : α}, Ordered.lt a b = true → Ordered.lt b a = true → False := by
        intro a b h1 h2
        have := LawfulOrdered.trans h1 h2
        rw [LawfulOrdered.irrefl] at this
        cases this
      have hxy : x = y := by
        rcases List.mem_cons.1 ((h x).1 (by simp)) with h1 | h1
        · exact h1
        · rcases List.mem_cons.1 ((h y).2 (by simp)) with h2 | h2
          · exact h2.symm
          · exact (asymm (hy x h1) (hx y h2)).elim
      subst hxy
      rw [ih hxs hys]
      intro z
      have hirr : ∀ {l : List α}, (∀ a ∈ l, Ordered.lt x a = true) → x ∉ l := by
        intro l h1 h2
        have := h1 x h2
        rw [LawfulOrdered.irrefl] at this
        cases this
      have := h z
      simp only [List.mem_cons] at this
      by_cases hz : z = x
      · subst hz
        exact ⟨fun h' => absurd h' (hirr hx), fun h' => absurd h' (hirr hy)⟩
      · simpa [hz] using this

/-! ### Sets -/

variable [DecidableEq α]

theorem mem_add {x y : α} {s : List α} : y ∈ add x s ↔ y = x ∨ y ∈ s := by
  unfold add
  split
  · next h => exact ⟨Or.inr, fun h' => h'.elim (· ▸ h) id⟩
  · exact mem_place

theorem nodup_add {x : α} {s : List α} (h : s.Nodup) : (add x s).Nodup := by
  unfold add
  split
  · exact h
  · next hx => exact (place_perm id x s).nodup_iff.2 (List.nodup_cons.2 ⟨hx, h⟩)

theorem add_ascending [LawfulOrdered α] {x : α} {s : List α} (h : Ascending s) : Ascending (add x s) := by
  unfold add
  split
  · exact h
  · next hx => exact place_ascending h hx

theorem foldl_add (f : β → α) (l : List β) (s : List α) :
    (∀ x, x ∈ l.foldl (fun s t => add (f t) s) s ↔ x ∈ s ∨ ∃ t ∈ l, f t = x) ∧
    (s.Nodup → (l.foldl (fun s t => add (f t) s) s).Nodup) := by
  induction l generalizing s with
  | nil => simp
  | cons t l ih =>
    obtain ⟨h1, h2⟩ := ih (add (f t) s)
    refine ⟨fun x => ?_, fun h => h2 (nodup_add h)⟩
    rw [List.foldl_cons, h1, mem_add]
    simp only [List.mem_cons, exists_eq_or_imp]
    rw [or_comm (a := x = f t), or_assoc, eq_comm (a := x)]

theorem foldl_add_ascending [LawfulOrdered α] (f : β → α) (l : List β) (s : List α) (h : Ascending s) :
    Ascending (l.foldl (fun s t => add (f t) s) s) := by
  induction l generalizing s with
  | nil => exact h
  | cons t l ih => exact ih _ (add_ascending h)

/-! ### Maps -/

theorem insertNew_keys (k : α) (v : β) (m : List (α × β)) :
    (insertNew k v m).map (·.1) = add k (m.map (·.1)) := by
  unfold insertNew add
  have : (m.any fun e => e.1 = k) = decide (k ∈ m.map (·.1)) := by
    rw [Bool.eq_iff_iff]
    simp
  rw [this]
  by_cases h : k ∈ m.map (·.1)
  · rw [if_pos h, if_pos (by simpa using h)]
  · rw [if_neg h, if_neg (by simpa using h), map_place]

omit [Ordered α] in
theorem appendAt_keys (k : α) (v : β) (m : List (α × List β)) :
    (appendAt k v m).map (·.1) = m.map (·.1) := by
  induction m with
  | nil => rfl
  | cons e m ih =>
    rw [appendAt]
    split
    · rfl
    · rw [List.map_cons, ih, List.map_cons]

omit [Ordered α] in
theorem any_key (k : α) (m : List (α × β)) : (m.any fun e => e.1 = k) = decide (k ∈ m.map (·.1)) := by
  rw [Bool.eq_iff_iff]
  simp

theorem push_keys_eq (k : α) (v : β) (m : List (α × List β)) :
    (push k v m).map (·.1) = add k (m.map (·.1)) := by
  unfold push add
  rw [any_key]
  by_cases h : k ∈ m.map (·.1)
  · rw [if_pos h, if_pos (by simpa using h), appendAt_keys]
  · rw [if_neg h, if_neg (by simpa using h), map_place]

theorem lookup_place {k : α} {v : β} {m : List (α × β)} (h : lookup m k = none) (k' : α) :
    lookup (place (·.1) (k, v) m) k' = if k' = k then some v else lookup m k' := by
  induction m with
  | nil =>
    rw [place, lookup_cons]
    by_cases h : k' = k
    · simp [h]
    · simp [h, Ne.symm h]
  | cons e m ih =>
    rw [lookup_cons] at h
    split at h
    · cases h
    · next he =>
      rw [place]
      split
      · rw [lookup_cons, lookup_cons]
        by_cases h : k' = k
        · simp [h]
        · simp [h, Ne.symm h]
      · rw [lookup_cons, ih h, lookup_cons]
        by_cases h : k' = k
        · subst h; simp [he]
        · simp [h]

theorem lookup_insertNew (k : α) (v : β) (m : List (α × β)) (k' : α) :
    lookup (insertNew k v m) k' = if k' = k then some ((lookup m k).getD v) else lookup m k' := by
  unfold insertNew
  by_cases h : lookup m k = none
  · have : (m.any fun e => e.1 = k) = false := by
      simp only [List.any_eq_false, decide_eq_true_eq]
      intro x hx h'
      exact lookup_none.1 h (List.mem_map.2 ⟨x, hx, h'⟩)
    rw [this, if_neg (by simp), lookup_place h, h]
    rfl
  · have hm : (m.any fun e => e.1 = k) = true := by
      rw [lookup_none] at h
      simp only [Decidable.not_not, List.mem_map] at h
      simpa using h
    rw [hm, if_pos rfl]
    split
    · next he =>
      subst he
      cases h' : lookup m k' with
      | none => exact absurd h' h
      | some x => rfl
    · rfl

omit [Ordered α] in
theorem lookup_appendAt (key : α) (value : β) (k : α) (m : List (α × List β)) :
    lookup (appendAt key value m) k =
      if k = key then (lookup m key).map (· ++ [value]) else lookup m k := by
  induction m with
  | nil => simp [appendAt, lookup]
  | cons e m ih =>
    rw [appendAt]
    by_cases he : e.1 = key
    · rw [if_pos he, lookup_cons, lookup_cons, lookup_cons, if_pos he]
      by_cases h : k = key
      · simp [h, he]
      · rw [if_neg h]
        have : e.1 ≠ k := fun h' => h (h'.symm.trans he)
        simp [this]
    · rw [if_neg he, lookup_cons, ih, lookup_cons, lookup_cons, if_neg he]
      by_cases h : k = key
      · subst h; simp [he]
      · simp [h]

theorem lookup_push (key : α) (value : β) (k : α) (m : List (α × List β)) :
    lookup (push key value m) k =
      if k = key then some ((lookup m key).getD [] ++ [value]) else lookup m k := by
  unfold push
  rw [any_key]
  by_cases h : key ∈ m.map (·.1)
  · rw [if_pos (by simpa using h), lookup_appendAt]
    cases hl : lookup m key with
    | none => exact absurd h (lookup_none.1 hl)
    | some v => rfl
  · have hl := lookup_none.2 h
    rw [if_neg (by simpa using h), lookup_place hl, hl]
    rfl

theorem push_keys (key : α) (value : β) (m : List (α × List β))
    (h : (m.map (·.1)).Nodup) : ((push key value m).map (·.1)).Nodup := by
  rw [push_keys_eq]
  exact nodup_add h

end Bant
