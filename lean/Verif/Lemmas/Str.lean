import Verif.Spec.Targets

/-! Helper lemmas about the string functions of `Verif.Base.Str`. -/
namespace Bant

theorem splitAll_of_not_mem {c : Char} {s : Str} (h : c ∉ s) : splitAll c s = [s] := by
  induction s with
  | nil => rfl
  | cons x xs ih =>
    simp only [List.mem_cons, not_or] at h
    simp [splitAll, ih h.2, Ne.symm h.1]

theorem splitAll_append {c : Char} {a b : Str} (h : c ∉ a) :
    splitAll c (a ++ c :: b) = a :: splitAll c b := by
  induction a with
  | nil => simp [splitAll]
  | cons x xs ih =>
    simp only [List.mem_cons, not_or] at h
    simp [splitAll, ih h.2, Ne.symm h.1]

theorem splitAll_ne_nil (c : Char) (s : Str) : splitAll c s ≠ [] := by
  cases s with
  | nil => simp [splitAll]
  | cons x xs =>
    simp only [splitAll]
    split
    · simp
    · split <;> simp

theorem splitAll_pieces {c : Char} {s p : Str} (h : p ∈ splitAll c s) : c ∉ p := by
  induction s generalizing p with
  | nil => simp [splitAll] at h; simp [h]
  | cons x xs ih =>
    simp only [splitAll] at h
    split at h
    · rcases List.mem_cons.1 h with h | h
      · simp [h]
      · exact ih h
    · rename_i hx
      split at h
      · simp at h; simp [h, Ne.symm hx]
      · rename_i q qs heq
        rcases List.mem_cons.1 h with h | h
        · subst h
          have := ih (p := q) (by simp [heq])
          simp [this, Ne.symm hx]
        · exact ih (by simp [heq, h])

theorem splitAll_mem {c d : Char} {s p : Str} (h : p ∈ splitAll c s) (hd : d ∈ p) : d ∈ s := by
  induction s generalizing p with
  | nil => simp [splitAll] at h; simp [h] at hd
  | cons x xs ih =>
    simp only [splitAll] at h
    split at h
    · rcases List.mem_cons.1 h with h | h
      · simp [h] at hd
      · exact List.mem_cons_of_mem _ (ih h hd)
    · split at h
      · simp at h; simp [h] at hd; simp [hd]
      · rename_i q qs heq
        rcases List.mem_cons.1 h with h | h
        · subst h
          rcases List.mem_cons.1 hd with hd | hd
          · simp [hd]
          · exact List.mem_cons_of_mem _ (ih (p := q) (by simp [heq]) hd)
        · exact List.mem_cons_of_mem _ (ih (by simp [heq, h]) hd)

theorem splitLast_eq_none {c : Char} {s : Str} : splitLast c s = none ↔ c ∉ s := by
  induction s with
  | nil => simp [splitLast]
  | cons x xs ih =>
    simp only [splitLast]
    cases h : splitLast c xs with
    | some ab => 
      have : c ∈ xs := by
        false_or_by_contra
        rename_i hc
        rw [ih.2 hc] at h; cases h
      simp [this]
    | none =>
      have := ih.1 h
      by_cases hx : x = c <;> simp [hx, this]
      exact Ne.symm hx

theorem splitLast_append {c : Char} {a b : Str} (h : c ∉ b) :
    splitLast c (a ++ c :: b) = some (a, b) := by
  induction a with
  | nil => simp [splitLast, splitLast_eq_none.2 h]
  | cons x xs ih => simp [splitLast, ih]

theorem splitLast_eq_some {c : Char} {s a b : Str} (h : splitLast c s = some (a, b)) :
    s = a ++ c :: b ∧ c ∉ b := by
  induction s generalizing a b with
  | nil => simp [splitLast] at h
  | cons x xs ih =>
    simp only [splitLast] at h
    split at h
    · rename_i a' b' heq
      simp only [Option.some.injEq, Prod.mk.injEq] at h
      obtain ⟨rfl, rfl⟩ := h
      have := ih heq
      simp [this.2, ← this.1]
    · rename_i heq
      split at h
      · rename_i hx
        simp only [Option.some.injEq, Prod.mk.injEq] at h
        obtain ⟨rfl, rfl⟩ := h
        simp [hx, splitLast_eq_none.1 heq]
      · cases h

theorem beforeLast_of_not_mem {c : Char} {s : Str} (h : c ∉ s) : beforeLast c s = s := by
  simp [beforeLast, splitLast_eq_none.2 h]

theorem beforeFirst_append {c : Char} {a b : Str} (h : c ∉ a) :
    beforeFirst c (a ++ c :: b) = a := by
  induction a with
  | nil => simp [beforeFirst]
  | cons x xs ih =>
    simp only [List.mem_cons, not_or] at h
    simp only [beforeFirst] at ih
    simp [beforeFirst, Ne.symm h.1, ih h.2]

theorem beforeFirst_of_not_mem {c : Char} {a : Str} (h : c ∉ a) : beforeFirst c a = a := by
  induction a with
  | nil => simp [beforeFirst]
  | cons x xs ih =>
    simp only [List.mem_cons, not_or] at h
    simp only [beforeFirst] at ih
    simp [beforeFirst, Ne.symm h.1, ih h.2]

theorem fromFirst_append {c : Char} {a b : Str} (h : c ∉ a) :
    fromFirst c (a ++ c :: b) = c :: b := by
  induction a with
  | nil => simp [fromFirst]
  | cons x xs ih =>
    simp only [List.mem_cons, not_or] at h
    simp only [fromFirst] at ih
    simp [fromFirst, Ne.symm h.1, ih h.2]

theorem fromFirst_of_not_mem {c : Char} {a : Str} (h : c ∉ a) : fromFirst c a = [] := by
  induction a with
  | nil => simp [fromFirst]
  | cons x xs ih =>
    simp only [List.mem_cons, not_or] at h
    simp only [fromFirst] at ih
    simp [fromFirst, Ne.symm h.1, ih h.2]

theorem beforeFirst_fromFirst (c : Char) (s : Str) : beforeFirst c s ++ fromFirst c s = s := by
  simp [beforeFirst, fromFirst]

theorem not_mem_beforeFirst (c : Char) (s : Str) : c ∉ beforeFirst c s := by
  induction s with
  | nil => simp [beforeFirst]
  | cons x xs ih =>
    simp only [beforeFirst] at ih ⊢
    by_cases h : x = c
    · simp [h]
    · have : ((x != c) = true) := by simpa using h
      simp only [List.takeWhile, this, List.mem_cons, not_or]
      exact ⟨Ne.symm h, ih⟩

theorem beforeFirst_subset {c d : Char} {s : Str} (h : d ∈ beforeFirst c s) : d ∈ s :=
  (List.takeWhile_prefix _).subset h

theorem fromFirst_subset {c d : Char} {s : Str} (h : d ∈ fromFirst c s) : d ∈ s :=
  List.dropWhile_subset _ h

theorem stripFront_subset {c d : Char} {s : Str} (h : d ∈ stripFront c s) : d ∈ s :=
  List.dropWhile_subset _ h

theorem stripFront_head (c : Char) (s : Str) : (stripFront c s).head? ≠ some c := by
  induction s with
  | nil => simp [stripFront]
  | cons x xs ih =>
    simp only [stripFront] at ih ⊢
    by_cases h : x = c
    · simp [h, ih]
    · simp [h]

theorem stripFront_of_head {c : Char} {s : Str} (h : s.head? ≠ some c) : stripFront c s = s := by
  cases s with
  | nil => rfl
  | cons x xs => simp at h; simp [stripFront, h]

theorem stripFront_cons (c : Char) (s : Str) : stripFront c (c :: s) = stripFront c s := by
  simp [stripFront]

theorem stripBack_of_last {c : Char} {s : Str} (h : s.getLast? ≠ some c) : stripBack c s = s := by
  induction s with
  | nil => rfl
  | cons x xs ih =>
    cases xs with
    | nil => simp at h; simp [stripBack, h]
    | cons y ys =>
      simp only [List.getLast?_cons_cons] at h
      have := ih h
      rw [stripBack, this]

theorem stripBack_last (c : Char) (s : Str) : (stripBack c s).getLast? ≠ some c := by
  induction s with
  | nil => simp [stripBack]
  | cons x xs ih =>
    simp only [stripBack]
    split
    · split <;> simp_all
    · rename_i ys hne
      cases hys : stripBack c xs with
      | nil => exact absurd hys hne
      | cons z zs => rw [hys] at ih; simpa [List.getLast?_cons_cons] using ih

theorem stripBack_prefix (c : Char) (s : Str) : stripBack c s <+: s := by
  induction s with
  | nil => simp [stripBack]
  | cons x xs ih =>
    simp only [stripBack]
    split
    · split <;> simp
    · exact (List.cons_prefix_cons).2 ⟨rfl, ih⟩

theorem stripBack_subset {c d : Char} {s : Str} (h : d ∈ stripBack c s) : d ∈ s :=
  (stripBack_prefix c s).subset h

theorem stripBack_head {c d : Char} {s : Str} (h : s.head? ≠ some d) :
    (stripBack c s).head? ≠ some d := by
  have := stripBack_prefix c s
  obtain ⟨t, ht⟩ := this
  cases hs : stripBack c s with
  | nil => simp
  | cons x xs => rw [hs] at ht; subst ht; simpa using h

/-! ### Components of a path -/

open Spec (joinPath)

theorem joinPath_splitAll (s : Str) : joinPath (splitAll '/' s) = s := by
  induction s with
  | nil => simp [splitAll, joinPath]
  | cons x xs ih =>
    simp only [splitAll]
    split
    · rename_i h
      cases hs : splitAll '/' xs with
      | nil => exact absurd hs (splitAll_ne_nil _ _)
      | cons p ps => rw [hs] at ih; simp [joinPath, ih, h]
    · cases hs : splitAll '/' xs with
      | nil => exact absurd hs (splitAll_ne_nil _ _)
      | cons p ps =>
        rw [hs] at ih
        cases ps with
        | nil => simp [joinPath] at ih ⊢; exact ih
        | cons q qs => simp [joinPath] at ih ⊢; exact ih

end Bant
