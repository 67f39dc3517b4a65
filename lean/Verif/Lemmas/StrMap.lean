import Verif.Model.StrMap

/-! Lexicographic order and sorted maps. -/
namespace Bant

theorem strLt_irrefl (a : Str) : strLt a a = false := by
  induction a with
  | nil => rfl
  | cons x xs ih => simp [strLt, ih]

theorem strLt_trans {a b c : Str} (h1 : strLt a b = true) (h2 : strLt b c = true) :
    strLt a c = true := by
  induction a generalizing b c with
  | nil =>
    cases b with
    | nil => simp [strLt] at h1
    | cons y ys => cases c <;> simp_all [strLt]
  | cons x xs ih =>
    cases b with
    | nil => simp [strLt] at h1
    | cons y ys =>
      cases c with
      | nil => simp [strLt] at h2
      | cons z zs =>
        simp only [strLt, Bool.or_eq_true, Bool.and_eq_true, decide_eq_true_eq] at h1 h2 ⊢
        rcases h1 with h1 | ⟨rfl, h1⟩ <;> rcases h2 with h2 | ⟨rfl, h2⟩
        · exact .inl (Char.lt_trans h1 h2)
        · exact .inl h1
        · exact .inl h2
        · exact .inr ⟨rfl, ih h1 h2⟩

theorem strLt_asymm {a b : Str} (h1 : strLt a b = true) : strLt b a = false := by
  cases h : strLt b a with
  | false => rfl
  | true => have := strLt_trans h1 h; rw [strLt_irrefl] at this; cases this

theorem char_trichotomy (a b : Char) : a < b ∨ a = b ∨ b < a := by
  rcases Nat.lt_trichotomy a.toNat b.toNat with h | h | h
  · exact .inl h
  · exact .inr (.inl (Char.toNat_inj.1 h))
  · exact .inr (.inr h)

theorem strLt_total (a b : Str) : strLt a b = true ∨ a = b ∨ strLt b a = true := by
  induction a generalizing b with
  | nil => cases b <;> simp [strLt]
  | cons x xs ih =>
    cases b with
    | nil => simp [strLt]
    | cons y ys =>
      rcases char_trichotomy x y with h | h | h
      · simp [strLt, h]
      · subst h
        rcases ih ys with h | h | h <;> simp [strLt, h]
      · simp [strLt, h]

theorem strLt_ne {a b : Str} (h : strLt a b = true) : a ≠ b := by
  rintro rfl; rw [strLt_irrefl] at h; cases h

/-- `a ≤ b < c` -/
theorem strLt_of_le_lt {a b c : Str} (h1 : strLt b a = false) (h2 : strLt b c = true) :
    strLt a c = true := by
  rcases strLt_total a b with h | h | h
  · exact strLt_trans h h2
  · exact h ▸ h2
  · rw [h] at h1; cases h1

namespace StrMap
variable {α : Type}

/-- Invariant of the map. -/
def Sorted (m : StrMap α) : Prop := m.Pairwise fun a b => strLt a.1 b.1 = true

theorem Sorted.unique {m : StrMap α} (h : Sorted m) {k : Str} {v w : α} (h1 : (k, v) ∈ m)
    (h2 : (k, w) ∈ m) : v = w := by
  induction m with
  | nil => cases h1
  | cons e m ih =>
    obtain ⟨h3, h4⟩ := List.pairwise_cons.1 h
    rcases List.mem_cons.1 h1 with h1 | h1 <;> rcases List.mem_cons.1 h2 with h2 | h2
    · rw [← h1] at h2; cases h2; rfl
    · have := h3 _ h2; rw [← h1] at this; exact absurd rfl (strLt_ne this)
    · have := h3 _ h1; rw [← h2] at this; exact absurd rfl (strLt_ne this)
    · exact ih h4 h1 h2

/-- What `update` does to a sorted map. -/
theorem update_spec {m : StrMap α} (h : Sorted m) (key : Str) (init : α) (f : α → α) :
    Sorted (m.update key init f) ∧
    (∀ k v, k ≠ key → ((k, v) ∈ m.update key init f ↔ (k, v) ∈ m)) ∧
    ((∃ v, (key, v) ∈ m ∧ ∀ w, (key, w) ∈ m.update key init f ↔ w = f v) ∨
     ((∀ v, (key, v) ∉ m) ∧ ∀ w, (key, w) ∈ m.update key init f ↔ w = f init)) := by
  induction m with
  | nil =>
    refine ⟨by simp [update, Sorted], ?_, .inr ⟨by simp, by simp [update]⟩⟩
    intro k v hk
    simp [update, hk]
  | cons e m ih =>
    obtain ⟨h3, h4⟩ := List.pairwise_cons.1 h
    obtain ⟨i1, i2, i3⟩ := ih h4
    simp only [update]
    split
    · rename_i hlt
      have hno : ∀ v, (key, v) ∉ e :: m := by
        intro v hm
        rcases List.mem_cons.1 hm with hm | hm
        · rw [← hm] at hlt; exact absurd rfl (strLt_ne hlt)
        · exact absurd rfl (strLt_ne (strLt_trans hlt (h3 _ hm)))
      refine ⟨?_, ?_, .inr ⟨hno, ?_⟩⟩
      · refine List.pairwise_cons.2 ⟨?_, h⟩
        intro x hx
        rcases List.mem_cons.1 hx with hx | hx
        · rw [hx]; exact hlt
        · exact strLt_trans hlt (h3 x hx)
      · intro k v hk; simp [hk]
      · intro w
        constructor
        · intro hw
          rcases List.mem_cons.1 hw with hw | hw
          · exact (Prod.mk.inj hw).2
          · exact absurd hw (hno w)
        · rintro rfl; simp
    · rename_i hlt
      split
      · rename_i hk
        refine ⟨?_, ?_, .inl ⟨e.2, by simp [hk], ?_⟩⟩
        · exact List.pairwise_cons.2 ⟨h3, h4⟩
        · intro k v hne
          rw [hk] at hne
          have : ∀ a b : α, (k, a) ≠ (e.1, b) := fun a b he => hne (Prod.mk.inj he).1
          simp only [List.mem_cons, this, false_or]
        · intro w
          constructor
          · intro hw
            rcases List.mem_cons.1 hw with hw | hw
            · exact (Prod.mk.inj hw).2
            · have := h3 _ hw; rw [hk] at this; exact absurd rfl (strLt_ne this)
          · rintro rfl; rw [hk]; simp
      · rename_i hk
        have hlt' : strLt e.1 key = true := by
          rcases strLt_total e.1 key with h | h | h
          · exact h
          · exact absurd h.symm hk
          · exact absurd h hlt
        have hke : ∀ v, (key, v) ≠ e := by
          rintro v rfl; exact hk rfl
        refine ⟨?_, ?_, ?_⟩
        · refine List.pairwise_cons.2 ⟨?_, i1⟩
          intro x hx
          obtain ⟨k, v⟩ := x
          by_cases hx' : k = key
          · rw [hx']; exact hlt'
          · exact h3 _ ((i2 k v hx').1 hx)
        · intro k v hne
          simp only [List.mem_cons, i2 k v hne]
        · rcases i3 with ⟨v, hv, hw⟩ | ⟨hv, hw⟩
          · exact .inl ⟨v, by simp [hv], fun w => by simp [hke, hw]⟩
          · exact .inr ⟨fun v => by simp [hke, hv], fun w => by simp [hke, hw]⟩

theorem before_lt {m : StrMap α} {key : Str} {e : Str × α} (h : e ∈ m.before key) :
    strLt e.1 key = true := by
  unfold before at h
  induction m with
  | nil => cases h
  | cons x m ih =>
    rw [List.takeWhile_cons] at h
    split at h
    · rename_i hx
      rcases List.mem_cons.1 h with rfl | h
      · exact hx
      · exact ih h
    · cases h

theorem before_lower (m : StrMap α) (key : Str) : m.before key ++ m.lower key = m :=
  List.takeWhile_append_dropWhile

theorem lower_ge {m : StrMap α} (hs : Sorted m) {key : Str} {e : Str × α} (h : e ∈ m.lower key) :
    strLt e.1 key = false := by
  unfold lower at h
  induction m with
  | nil => cases h
  | cons x m ih =>
    obtain ⟨h3, h4⟩ := List.pairwise_cons.1 hs
    rw [List.dropWhile_cons] at h
    split at h
    · exact ih h4 h
    · rename_i hx
      rcases List.mem_cons.1 h with rfl | h
      · simpa using hx
      · have := h3 _ h
        cases hc : strLt e.1 key with
        | false => rfl
        | true => exact absurd (strLt_trans this hc) hx

end StrMap
end Bant
