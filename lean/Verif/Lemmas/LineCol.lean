import Verif.Model.LineCol

/-! Helper lemmas about line tables. -/
namespace Bant

/-- Line begin offsets of a text that starts at offset `p`, without the first line. -/
def nlPositions : Str → Nat → List Nat
  | [], _ => []
  | c :: cs, p => if c = '\n' then (p + 1) :: nlPositions cs (p + 1) else nlPositions cs (p + 1)

theorem nlPositions_append (a b : Str) (p : Nat) :
    nlPositions (a ++ b) p = nlPositions a p ++ nlPositions b (p + a.length) := by
  induction a generalizing p with
  | nil => simp [nlPositions]
  | cons c cs ih =>
    have : p + 1 + cs.length = p + (cs.length + 1) := by omega
    simp only [List.cons_append, nlPositions, ih, List.length_cons, this]
    split <;> simp

theorem nlPositions_bounds {s : Str} {p x : Nat} (h : x ∈ nlPositions s p) :
    p < x ∧ x ≤ p + s.length := by
  induction s generalizing p with
  | nil => simp [nlPositions] at h
  | cons c cs ih =>
    simp only [nlPositions] at h
    split at h
    · rcases List.mem_cons.1 h with h | h
      · simp; omega
      · have := ih h; simp; omega
    · have := ih h; simp; omega

theorem nlPositions_sorted (s : Str) (p : Nat) : (nlPositions s p).Pairwise (· < ·) := by
  induction s generalizing p with
  | nil => simp [nlPositions]
  | cons c cs ih =>
    simp only [nlPositions]
    split
    · exact List.pairwise_cons.2 ⟨fun x hx => (nlPositions_bounds hx).1, ih _⟩
    · exact ih _

theorem nlPositions_length (s : Str) (p : Nat) : (nlPositions s p).length = s.count '\n' := by
  induction s generalizing p with
  | nil => rfl
  | cons c cs ih =>
    simp only [nlPositions]
    by_cases h : c = '\n' <;> simp [h, ih]

theorem pushNewline_ok {m : LineMap} {p : Nat} (h : ∀ b ∈ m, b ≤ p) :
    m.pushNewline p = some (m ++ [p]) := by
  unfold LineMap.pushNewline
  split
  · rfl
  · rename_i b hb
    simp [h b (List.mem_of_getLast? hb)]

theorem initLoop_ok (s : Str) (p : Nat) (m : LineMap) (h : ∀ b ∈ m, b ≤ p) :
    LineMap.initLoop s p m = some (m ++ nlPositions s p) := by
  induction s generalizing p m with
  | nil => simp [LineMap.initLoop, nlPositions]
  | cons c cs ih =>
    simp only [LineMap.initLoop, nlPositions]
    split
    · rw [pushNewline_ok (fun b hb => Nat.le_succ_of_le (h b hb))]
      simp only
      rw [ih]
      · simp
      · intro b hb
        simp at hb
        rcases hb with hb | hb
        · exact Nat.le_succ_of_le (h b hb)
        · omega
    · exact ih _ _ (fun b hb => Nat.le_succ_of_le (h b hb))

theorem initialize_eq (s : Str) : LineMap.initFromView s = some (0 :: nlPositions s 0) := by
  simp [LineMap.initFromView, LineMap.pushNewline, initLoop_ok]

theorem takeWhile_all {p : α → Bool} {l : List α} : l.takeWhile p = l ↔ ∀ x ∈ l, p x = true := by
  induction l with
  | nil => simp
  | cons a l ih =>
    rw [List.takeWhile_cons]
    split <;> simp_all

/-- Splitting the table at a position. -/
theorem takeWhile_table (a b : Str) :
    (0 :: nlPositions (a ++ b) 0).takeWhile (fun x => x ≤ a.length) = 0 :: nlPositions a 0 := by
  rw [nlPositions_append]
  have h1 : ∀ x ∈ (0 :: nlPositions a 0), x ≤ a.length := by
    intro x hx
    rcases List.mem_cons.1 hx with hx | hx
    · omega
    · have := nlPositions_bounds hx; omega
  have h2 : ∀ x ∈ nlPositions b (0 + a.length), ¬ x ≤ a.length := by
    intro x hx
    have := nlPositions_bounds hx; omega
  rw [← List.cons_append]
  rw [List.takeWhile_append_of_pos (by intro x hx; simpa using h1 x hx)]
  have : List.takeWhile (fun x => decide (x ≤ a.length)) (nlPositions b (0 + a.length)) = [] := by
    cases hb : nlPositions b (0 + a.length) with
    | nil => rfl
    | cons x xs =>
      have := h2 x (by rw [hb]; exact List.mem_cons_self)
      simp [this]
  rw [this]; simp

theorem getLast_table (a : Str) (p : Nat) :
    (nlPositions a p).getLastD p + (a.reverse.takeWhile (· != '\n')).length
      = p + a.length := by
  induction a generalizing p with
  | nil => simp [nlPositions]
  | cons c cs ih =>
    simp only [nlPositions]
    have ih := ih (p + 1)
    by_cases hc : c = '\n'
    · subst hc
      have e : ('\n' :: cs).reverse.takeWhile (· != '\n') = cs.reverse.takeWhile (· != '\n') := by
        rw [List.reverse_cons]
        by_cases h : cs.reverse.all (· != '\n') = true
        · rw [List.takeWhile_append_of_pos (by simpa using h)]
          have : cs.reverse.takeWhile (· != '\n') = cs.reverse := by
            rw [takeWhile_all]; simpa using h
          rw [this]; simp
        · rw [List.takeWhile_append]
          split
          · rename_i hl
            have : cs.reverse.takeWhile (· != '\n') = cs.reverse :=
              (List.takeWhile_prefix _).eq_of_length hl
            rw [takeWhile_all] at this
            exact absurd (by simpa using this) h
          · rfl
      rw [e]
      simp only [if_true, List.getLastD_cons]
      simp only [List.length_cons]
      omega
    · simp only [hc, if_false]
      generalize hn : nlPositions cs (p + 1) = ns at ih ⊢
      cases ns with
      | nil =>
        have hall : ∀ x ∈ cs, x ≠ '\n' := by
          intro x hx e
          have := nlPositions_length cs (p + 1)
          rw [hn] at this
          simp at this
          subst e
          exact absurd hx (List.count_eq_zero.1 this.symm)
        have : (c :: cs).reverse.takeWhile (· != '\n') = (c :: cs).reverse := by
          rw [takeWhile_all]
          intro x hx
          simp at hx
          rcases hx with hx | hx
          · simpa using hall x hx
          · simpa [hx] using hc
        rw [this]; simp
      | cons y ys =>
        have hm : '\n' ∈ cs := by
          have := nlPositions_length cs (p + 1)
          rw [hn] at this
          have : 0 < cs.count '\n' := by rw [← this]; simp
          exact List.count_pos_iff.1 this
        have e : (c :: cs).reverse.takeWhile (· != '\n') = cs.reverse.takeWhile (· != '\n') := by
          rw [List.reverse_cons, List.takeWhile_append]
          split
          · rename_i hl
            have : cs.reverse.takeWhile (· != '\n') = cs.reverse :=
              (List.takeWhile_prefix _).eq_of_length hl
            rw [takeWhile_all] at this
            have := this '\n' (by simpa using hm)
            simp at this
          · rfl
        rw [e]
        simp only [List.getLastD_cons] at ih ⊢
        simp only [List.length_cons]
        omega

/-- `GetPos` on a complete table, in terms of the text before the position. -/
theorem getPos_table (a b : Str) :
    LineMap.getPos (0 :: nlPositions (a ++ b) 0) a.length
      = some ⟨a.count '\n', (a.reverse.takeWhile (· != '\n')).length⟩ := by
  unfold LineMap.getPos
  rw [takeWhile_table]
  have hl : (0 :: nlPositions a 0).length - 1 = a.count '\n' := by
    simp [nlPositions_length]
  have hne : (0 :: nlPositions a 0).length ≠ 0 := by simp
  simp only [hne, if_false, hl]
  have hget : (0 :: nlPositions (a ++ b) 0)[a.count '\n']?
      = some ((nlPositions a 0).getLastD 0) := by
    rw [nlPositions_append, ← List.cons_append]
    rw [List.getElem?_append_left (by simp [nlPositions_length])]
    rw [← hl, ← List.getLast?_eq_getElem?]
    simp [List.getLast?_cons, List.getLastD_eq_getLast?]
  rw [hget]
  have := getLast_table a 0
  simp only [Nat.zero_add] at this
  simp only [Option.some.injEq, LineColumn.mk.injEq, true_and]
  omega

theorem lineStart_le (content : Str) (b : Nat) : lineStart content b ≤ b := by
  induction b with
  | zero => simp [lineStart]
  | succ b ih => simp only [lineStart]; split <;> omega

theorem lineStart_inside (content : Str) (b i : Nat) (h1 : lineStart content b ≤ i) (h2 : i < b) :
    content[i]? ≠ some '\n' := by
  induction b with
  | zero => omega
  | succ b ih =>
    simp only [lineStart] at h1
    split at h1
    · omega
    · by_cases h : i = b
      · subst h; assumption
      · exact ih h1 (by omega)

theorem lineStart_edge (content : Str) (b : Nat) :
    lineStart content b = 0 ∨ content[lineStart content b - 1]? = some '\n' := by
  induction b with
  | zero => simp [lineStart]
  | succ b ih =>
    simp only [lineStart]
    split
    · right; simpa
    · exact ih

theorem lineRest_le (s : Str) : lineRest s ≤ s.length := by
  induction s with
  | nil => simp [lineRest]
  | cons c s ih => simp only [lineRest]; split <;> simp <;> omega

theorem lineRest_inside (s : Str) (i : Nat) (h : i < lineRest s) : s[i]? ≠ some '\n' := by
  induction s generalizing i with
  | nil => simp
  | cons c s ih =>
    simp only [lineRest] at h
    split at h
    · omega
    · cases i with
      | zero => simpa using ‹_›
      | succ i => simpa using ih i (by omega)

theorem lineRest_edge (s : Str) : lineRest s = s.length ∨ s[lineRest s]? = some '\n' := by
  induction s with
  | nil => simp [lineRest]
  | cons c s ih =>
    simp only [lineRest]
    split
    · right; simp_all
    · simpa using ih

/-- Length of the last line is bounded; used for monotonicity. -/
theorem takeWhile_reverse_append (a d : Str) (h : '\n' ∉ d) :
    ((a ++ d).reverse.takeWhile (· != '\n')).length
      = d.length + (a.reverse.takeWhile (· != '\n')).length := by
  rw [List.reverse_append, List.takeWhile_append_of_pos]
  · simp
  · intro x hx
    simp at hx ⊢
    intro e; subst e; exact h hx

end Bant
