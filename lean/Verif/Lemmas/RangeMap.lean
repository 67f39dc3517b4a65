import Verif.Model.RangeMap

/-! Helper lemmas: map from ranges. -/
namespace Bant
namespace RangeMap

variable {α : Type}

/-- Keys in ascending order. -/
def Sorted (m : Container α) : Prop := m.Pairwise fun a b => a.1 < b.1

theorem insert_new {k : Nat} {v : Nat × α} : ∀ {m : Container α}, Sorted m → (∀ e ∈ m, e.1 ≠ k) →
    Sorted (insertSorted k v m).1 ∧ (insertSorted k v m).2 = true ∧
    ∀ x, x ∈ (insertSorted k v m).1 ↔ x = (k, v) ∨ x ∈ m
  | [], _, _ => ⟨by simp [insertSorted, Sorted], rfl, by simp [insertSorted]⟩
  | e :: m, hs, hk => by
    have hs' := List.pairwise_cons.1 hs
    have hne := hk e (by simp)
    unfold insertSorted
    split
    · rename_i hlt
      refine ⟨List.pairwise_cons.2 ⟨?_, hs⟩, rfl, by simp⟩
      intro y hy
      rcases List.mem_cons.1 hy with rfl | hy
      · exact hlt
      · exact Nat.lt_trans hlt (hs'.1 y hy)
    · split
      · omega
      · obtain ⟨h1, h2, h3⟩ := insert_new (k := k) (v := v) (m := m) hs'.2 (fun x hx => hk x (by simp [hx]))
        refine ⟨List.pairwise_cons.2 ⟨?_, h1⟩, h2, ?_⟩
        · intro y hy
          rcases (h3 y).1 hy with rfl | hy
          · simp only; omega
          · exact hs'.1 y hy
        · intro x
          simp only [List.mem_cons, h3 x]
          constructor
          · rintro (h | h | h) <;> simp [h]
          · rintro (h | h | h) <;> simp [h]

theorem lowerBound_some {m : Container α} (hs : Sorted m) {k : Nat} {x : Nat × (Nat × α)}
    (hx : x ∈ m) (hk : k ≤ x.1) (hmin : ∀ y ∈ m, k ≤ y.1 → x.1 ≤ y.1) : lowerBound m k = some x := by
  induction m with
  | nil => cases hx
  | cons e m ih =>
    have hs' := List.pairwise_cons.1 hs
    unfold lowerBound
    rw [List.find?_cons]
    by_cases he : e.1 < k
    · simp only [he, not_true_eq_false, decide_false]
      rcases List.mem_cons.1 hx with rfl | hx
      · omega
      · exact ih hs'.2 hx (fun y hy => hmin y (by simp [hy]))
    · simp only [he, not_false_eq_true, decide_true, Option.some.injEq]
      rcases List.mem_cons.1 hx with rfl | hx
      · rfl
      · have h1 := hs'.1 x hx
        have h2 := hmin e (by simp) (by omega)
        omega

theorem lowerBound_none {m : Container α} {k : Nat} (h : ∀ y ∈ m, y.1 < k) : lowerBound m k = none := by
  unfold lowerBound
  rw [List.find?_eq_none]
  intro y hy
  simp [h y hy]

theorem lowerBound_spec {m : Container α} (hs : Sorted m) (k : Nat) :
    lowerBound m k = none ∧ (∀ y ∈ m, y.1 < k) ∨
    ∃ x, lowerBound m k = some x ∧ x ∈ m ∧ k ≤ x.1 ∧ ∀ y ∈ m, k ≤ y.1 → x.1 ≤ y.1 := by
  cases h : lowerBound m k with
  | none =>
    left
    refine ⟨rfl, fun y hy => ?_⟩
    unfold lowerBound at h
    have := List.find?_eq_none.1 h y hy
    simp only [Nat.not_lt, decide_eq_true_eq, Nat.not_le] at this
    exact this
  | some x =>
    right
    unfold lowerBound at h
    obtain ⟨hp, as, bs, hm, has⟩ := List.find?_eq_some_iff_append.1 h
    refine ⟨x, rfl, by simp [hm], by simpa using hp, ?_⟩
    intro y hy hky
    rw [hm] at hy hs
    rcases List.mem_append.1 hy with hy | hy
    · have := has y hy
      simp only [Nat.not_lt, Bool.not_eq_eq_eq_not, Bool.not_true, decide_eq_false_iff_not, Nat.not_le] at this
      omega
    · rcases List.mem_cons.1 hy with rfl | hy
      · exact Nat.le_refl _
      · have h1 := (List.pairwise_append.1 hs).2.1
        exact Nat.le_of_lt ((List.pairwise_cons.1 h1).1 y hy)

end RangeMap
end Bant
