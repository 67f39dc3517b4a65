import Verif.Lemmas.Scanner
import Verif.Lemmas.LineCol
import Verif.Spec.NotIn

/-! Helper lemmas for `Props/NotIn.lean`: the line table in terms of the text in which the
newlines within the operator `not in` are blanks. -/

namespace Bant
namespace Scanner

theorem stringTail_notIn (rest : Str) (pos : Nat) (lines : LineMap) (nl : Nat) :
    (handleString rest pos lines nl).type ≠ .kNotIn := by
  unfold handleString
  simp only
  split
  · simp
  · split <;> split <;> simp

theorem wordType_notIn (w : Str) : wordType w ≠ .kNotIn := by
  unfold wordType
  repeat' split
  all_goals simp

/-- Nothing is recorded for the operator `not in`. -/
theorem dispatch_notIn (c : Char) (cs : Str) (pos : Nat) (lines : LineMap) (nl : Nat)
    (h : (dispatch c cs pos lines nl).type = .kNotIn) :
    (dispatch c cs pos lines nl).lines = lines := by
  have hr : ∀ a b, (handleRelational a b).1 ≠ .kNotIn := by
    intro a b; unfold handleRelational; split <;> simp
  have hn : ∀ a b, (handleNumber a b).1 ≠ .kNotIn := by
    intro a b; unfold handleNumber; simp only; split <;> simp
  revert h
  unfold dispatch
  split
  · simp
  split
  · simp
  split
  · simp
  split
  · simp
  split
  · intro h; exact absurd h (stringTail_notIn _ _ _ _)
  unfold handleWord
  split
  · intro h; exact absurd h (stringTail_notIn _ _ _ _)
  simp only
  split
  · simp
  split
  · split <;> simp
  · simp

theorem next_notIn {s : Scanner} (hu : s.upcoming = none) (g : Str)
    (hg : StepOk s (next s).1 (next s).2 g) (h : (next s).1.type = .kNotIn) :
    (next s).2.lines = s.lines ++ nlPositions g s.pos := by
  obtain ⟨g', hg'⟩ := skipSpace_ok false s.rest s.pos s.lines s.newlineCount
  rw [next_eq hu] at hg h ⊢
  have htext := hg.text
  have hst := hg.start
  revert h htext hst
  clear hg
  unfold nextRaw
  simp only
  generalize skipSpace false s.rest s.pos s.lines s.newlineCount = k at hg'
  obtain ⟨krest, kpos, klines, knl⟩ := k
  obtain ⟨ht, hpos, hlines, -, -, -⟩ := hg'
  simp only at ht hpos hlines
  cases krest with
  | nil => simp
  | cons c cs =>
    intro h htext hst
    simp only at h htext hst
    simp only
    rw [dispatch_notIn _ _ _ _ _ h, hlines]
    have hlen : g'.length = g.length := by omega
    have : g' = g := by
      have h2 : s.rest.take g'.length = g' := by rw [ht, List.take_left]
      have h3 : s.rest.take g.length = g := by rw [htext, List.take_left]
      rw [← h2, hlen, h3]
    rw [this]

end Scanner

theorem unbroken_length (ts : List Token) (p : Nat) (s : Str) : (unbroken ts p s).length = s.length := by
  induction s generalizing p with
  | nil => rfl
  | cons c cs ih => simp [unbroken, ih]

theorem unbroken_append (ts : List Token) (p : Nat) (a b : Str) :
    unbroken ts p (a ++ b) = unbroken ts p a ++ unbroken ts (p + a.length) b := by
  induction a generalizing p with
  | nil => simp [unbroken]
  | cons c cs ih => simp only [List.cons_append, unbroken, ih, List.length_cons]; rw [show p + 1 + cs.length = p + (cs.length + 1) by omega]

/-- Nothing changes where there is no `not in`. -/
theorem unbroken_clear {ts : List Token} {p : Nat} {s : Str}
    (h : ∀ q, p ≤ q → q < p + s.length → inNotIn ts q = false) : unbroken ts p s = s := by
  induction s generalizing p with
  | nil => rfl
  | cons c cs ih =>
    simp only [unbroken]
    rw [ih (fun q h1 h2 => h q (by omega) (by simp; omega)), h p (Nat.le_refl _) (by simp)]
    simp

/-- No newline is left in a `not in`. -/
theorem unbroken_within {ts : List Token} {p : Nat} {s : Str}
    (h : ∀ q, p ≤ q → q < p + s.length → inNotIn ts q = true) : '\n' ∉ unbroken ts p s := by
  induction s generalizing p with
  | nil => simp [unbroken]
  | cons c cs ih =>
    simp only [unbroken, List.mem_cons, not_or]
    refine ⟨?_, ih (fun q h1 h2 => h q (by omega) (by simp; omega))⟩
    rw [h p (Nat.le_refl _) (by simp)]
    by_cases hc : c = '\n'
    · simp [hc]
    · simp [hc, Ne.symm hc]

theorem inNotIn_false {ts : List Token} {q : Nat}
    (h : ∀ t ∈ ts, t.type = .kNotIn → q < t.start ∨ t.start + t.text.length ≤ q) :
    inNotIn ts q = false := by
  unfold inNotIn
  rw [List.any_eq_false]
  intro t ht
  by_cases hk : t.type = .kNotIn
  · have := h t ht hk
    simp [hk]; omega
  · simp [hk]

theorem inNotIn_true {ts : List Token} {q : Nat} {t : Token} (ht : t ∈ ts) (hk : t.type = .kNotIn)
    (h1 : t.start ≤ q) (h2 : q < t.start + t.text.length) : inNotIn ts q = true := by
  unfold inNotIn
  rw [List.any_eq_true]
  exact ⟨t, ht, by simp [hk, h1, h2]⟩

namespace Scanner

theorem deliver_starts {s : Scanner} (hu : s.upcoming = none) (n : Nat) :
    ∀ t ∈ (deliver n s).1, s.pos ≤ t.start := by
  induction n generalizing s with
  | zero => simp [deliver]
  | succ n ih =>
    intro t ht
    simp only [deliver, List.mem_cons] at ht
    have hb := next_bounds hu
    rcases ht with rfl | ht
    · exact hb.1
    · have := ih (next_ok hu).2 t ht
      omega

/-- The line table in the middle of the delivery. -/
theorem deliver_unbroken (content : Str) (n : Nat) : ∀ (s : Scanner) (done : List Token) (c : Str),
    s.upcoming = none → content = c ++ s.rest → s.pos = c.length →
    (∀ t ∈ done, t.start + t.text.length ≤ s.pos) →
    s.lines = 0 :: nlPositions (unbroken (done ++ (deliver n s).1) 0 c) 0 →
    LinesInv (unbroken (done ++ (deliver n s).1) 0 content) (deliver n s).2 (deliver n s).2.pos := by
  induction n with
  | zero =>
    intro s done c hu hc hp hd hl
    simp only [deliver, List.append_nil] at hl ⊢
    have hrest : unbroken done s.pos s.rest = s.rest := by
      refine unbroken_clear fun q h1 _ => inNotIn_false fun t ht _ => Or.inr ?_
      have := hd t ht
      omega
    have hsplit : unbroken done 0 content = unbroken done 0 c ++ s.rest := by
      rw [hc, unbroken_append, Nat.zero_add, ← hp, hrest]
    refine ⟨⟨_, hsplit, by rw [unbroken_length, hp]⟩, Nat.le_refl _, hu, [], ?_, by simp, by simp⟩
    rw [hsplit, hp, ← unbroken_length done 0 c, List.take_left, hl]
    simp
  | succ n ih =>
    intro s done c hu hc hp hd hl
    obtain ⟨⟨g, hg⟩, hup⟩ := next_ok hu
    have hb := next_bounds hu
    have hafter := deliver_starts hup n
    have hlist : done ++ (deliver (n + 1) s).1 = (done ++ [(next s).1]) ++ (deliver n (next s).2).1 := by
      simp [deliver]
    have hfin : (deliver (n + 1) s).2 = (deliver n (next s).2).2 := rfl
    rw [hlist] at hl ⊢
    rw [hfin]
    have hst := hg.start
    refine ih _ _ (c ++ (g ++ (next s).1.text)) hup ?_ ?_ ?_ ?_
    · rw [hc, hg.text]; simp
    · rw [hg.hpos, hg.start, hp]; simp; omega
    · intro t ht
      rcases List.mem_append.1 ht with ht | ht
      · have := hd t ht; omega
      · simp at ht; subst ht; omega
    · generalize hts : (done ++ [(next s).1]) ++ (deliver n (next s).2).1 = ts at hl ⊢
      have hmem : ∀ t ∈ ts, t.start + t.text.length ≤ s.pos ∨ t = (next s).1 ∨ (next s).2.pos ≤ t.start := by
        intro t ht
        rw [← hts] at ht
        rcases List.mem_append.1 ht with ht | ht
        · rcases List.mem_append.1 ht with ht | ht
          · exact Or.inl (hd t ht)
          · exact Or.inr (Or.inl (by simpa using ht))
        · exact Or.inr (Or.inr (hafter t ht))
      have hin : (next s).1 ∈ ts := by rw [← hts]; simp
      have hgap : unbroken ts s.pos g = g := by
        refine unbroken_clear fun q h1 h2 => inNotIn_false fun t ht _ => ?_
        rcases hmem t ht with h | rfl | h <;> omega
      rw [unbroken_append, Nat.zero_add, ← hp, unbroken_append, hgap, ← hst, nlPositions_append,
        unbroken_length, nlPositions_append, Nat.zero_add, ← hp, ← hst]
      by_cases hk : (next s).1.type = .kNotIn
      · rw [next_notIn hu g hg hk, hl,
          nlPositions_of_not_mem (s := unbroken ts (next s).1.start (next s).1.text)]
        · simp
        · exact unbroken_within fun q h1 h2 => inNotIn_true hin hk h1 h2
      · obtain ⟨l', hl1, -, -, hl4⟩ := hg.hlines
        rw [hl1, hl4 (fun hb => hk hb.1), hl, unbroken_clear (s := (next s).1.text)]
        · simp
        · refine fun q h1 h2 => inNotIn_false fun t ht hkt => ?_
          rcases hmem t ht with h | rfl | h
          · omega
          · exact absurd hkt hk
          · omega

/-- The line table after `n` requests is that of the text with blanks in `not in`. -/
theorem linesInv_unbroken (content : Str) (n : Nat) :
    LinesInv (unbroken (deliver n (Scanner.init content)).1 0 content) (deliver n (Scanner.init content)).2
      (deliver n (Scanner.init content)).2.pos := by
  have := deliver_unbroken content n (Scanner.init content) [] [] rfl (by simp [Scanner.init])
    (by simp [Scanner.init]) (by simp) (by simp [Scanner.init, unbroken, nlPositions])
  simpa using this

theorem flat_length (s : Str) : (flat s).length = s.length := by simp [flat]

theorem flat_clear (s : Str) : '\n' ∉ flat s := by
  simp only [flat, List.mem_map, not_exists, not_and]
  intro c _
  split
  · decide
  · assumption

theorem counted_length (ts : List Token) (q : Nat) (content : Str) :
    (counted ts q content).length = content.length := by
  simp [counted, unbroken_length, flat_length]; omega

/-- The line table after `n` requests. -/
theorem lines_counted (content : Str) (n : Nat) :
    (deliver n (Scanner.init content)).2.lines =
      0 :: nlPositions (counted (deliver n (Scanner.init content)).1 (deliver n (Scanner.init content)).2.pos content) 0 := by
  have h := linesInv_unbroken content n
  generalize (deliver n (Scanner.init content)).1 = ts at h
  generalize (deliver n (Scanner.init content)).2 = s at h
  obtain ⟨l, h1, h2, -⟩ := h.table
  have hl : l = [] := by
    cases l with
    | nil => rfl
    | cons x xs => have := h2 x (by simp); omega
  have hle : s.pos ≤ content.length := by
    obtain ⟨c, hc, hp⟩ := h.consumed
    have := congrArg List.length hc
    rw [unbroken_length] at this
    simp at this; omega
  have he : (unbroken ts 0 content).take s.pos = unbroken ts 0 (content.take s.pos) := by
    have : content = content.take s.pos ++ content.drop s.pos := (List.take_append_drop _ _).symm
    rw [this, unbroken_append, List.take_append_of_le_length (by rw [unbroken_length]; simp; omega),
      List.take_of_length_le (by rw [unbroken_length]; simp; omega), ← this]
  rw [h1, hl, List.append_nil, he, counted, nlPositions_append,
    nlPositions_of_not_mem (flat_clear _), List.append_nil]

/-- Lookup, at any place of the file. -/
theorem getPos_counted (content : Str) (n q : Nat) (hq : q ≤ content.length) :
    (deliver n (Scanner.init content)).2.lines.getPos q =
      some ⟨((counted (deliver n (Scanner.init content)).1 (deliver n (Scanner.init content)).2.pos content).take q).count '\n',
        (((counted (deliver n (Scanner.init content)).1 (deliver n (Scanner.init content)).2.pos content).take q).reverse.takeWhile
          (· != '\n')).length⟩ := by
  rw [lines_counted]
  have hlen := counted_length (deliver n (Scanner.init content)).1 (deliver n (Scanner.init content)).2.pos content
  generalize counted (deliver n (Scanner.init content)).1 (deliver n (Scanner.init content)).2.pos content = x at hlen
  have := getPos_table (x.take q) (x.drop q)
  rwa [List.take_append_drop, List.length_take, Nat.min_eq_left (by omega)] at this

end Scanner
end Bant
