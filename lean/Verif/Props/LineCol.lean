import Verif.Lemmas.LineCol

/-!
C09 (line and column of byte offsets) and C51 (printed locations).
-/
namespace Bant.Props

/-! ## Specification -/

/-- Number of newlines before the offset. -/
def lineOf (content : Str) (pos : Nat) : Nat := (content.take pos).count '\n'

/-- Distance to the character after the closest newline before the offset (or to the
begin of the content). -/
def colOf (content : Str) (pos : Nat) : Nat :=
  ((content.take pos).reverse.takeWhile (· != '\n')).length

/-- `[s, e)` is a complete line that contains offsets `b` and `e'`: no newline between
`s` and `b` nor between `e'` and `e`, a newline or the end of the content on both sides. -/
structure IsLineAround (content : Str) (b e' s e : Nat) : Prop where
  start_le : s ≤ b
  le_end : e' ≤ e
  in_content : e ≤ content.length
  no_nl_left : ∀ i, s ≤ i → i < b → content[i]? ≠ some '\n'
  no_nl_right : ∀ i, e' ≤ i → i < e → content[i]? ≠ some '\n'
  left_edge : s = 0 ∨ content[s - 1]? = some '\n'
  right_edge : e = content.length ∨ content[e]? = some '\n'

/-! ## C09 -/

/-- C09: building the line table succeeds for every content (no `CHECK` fails) and every
lookup of an offset in the content or its end yields the true line and column. -/
theorem C09_position (content : Str) :
    ∃ m, LineMap.initFromView content = some m ∧
      ∀ pos, pos ≤ content.length →
        m.getPos pos = some ⟨lineOf content pos, colOf content pos⟩ := by
  refine ⟨_, initialize_eq content, ?_⟩
  intro pos hpos
  have h := getPos_table (content.take pos) (content.drop pos)
  rw [List.take_append_drop, List.length_take, Nat.min_eq_left hpos] at h
  exact h

/-- C09: the location of a piece `[b, e)` of the content is the true one on both ends. -/
theorem C09_location (content : Str) (b e : Nat) (hbe : b ≤ e) (he : e ≤ content.length) :
    ∃ m, LineMap.initFromView content = some m ∧
      getLocation content m b e
        = some ⟨⟨lineOf content b, colOf content b⟩, ⟨lineOf content e, colOf content e⟩⟩ := by
  obtain ⟨m, hm, h⟩ := C09_position content
  refine ⟨m, hm, ?_⟩
  simp [getLocation, he, LineMap.getRange, h b (by omega), h e he]

example : ∃ m, LineMap.initFromView c!"ab\ncd\n\nx" = some m ∧
    getLocation c!"ab\ncd\n\nx" m 4 7 = some ⟨⟨1, 1⟩, ⟨3, 0⟩⟩ := ⟨_, by rfl, by decide⟩

/-- C09: the column is the distance to a line start: the character before it is a newline
(or the content starts there) and there is no newline in between. -/
theorem C09_column_is_distance (content : Str) (pos : Nat) (h : pos ≤ content.length) :
    colOf content pos ≤ pos ∧
    (pos - colOf content pos = 0 ∨ content[pos - colOf content pos - 1]? = some '\n') ∧
    ∀ i, pos - colOf content pos ≤ i → i < pos → content[i]? ≠ some '\n' := by
  induction pos with
  | zero => simp [colOf]
  | succ p ih =>
    obtain ⟨h1, h2, h3⟩ := ih (by omega)
    have hlt : p < content.length := by omega
    have hget : content[p]? = some content[p] := List.getElem?_eq_getElem hlt
    have htake : content.take (p + 1) = content.take p ++ [content[p]] := by
      rw [List.take_add_one, hget]; rfl
    by_cases hc : content[p] = '\n'
    · have : colOf content (p + 1) = 0 := by
        unfold colOf; rw [htake]; simp [-List.take_append_getElem, hc]
      rw [this]
      refine ⟨by omega, Or.inr (by simp [hget, hc]), fun i h1 h2 => by omega⟩
    · have : colOf content (p + 1) = colOf content p + 1 := by
        unfold colOf; rw [htake]; simp [-List.take_append_getElem, hc]
      rw [this]
      refine ⟨by omega, ?_, ?_⟩
      · have e : p + 1 - (colOf content p + 1) = p - colOf content p := by omega
        rw [e]; exact h2
      · intro i hi1 hi2
        by_cases hip : i = p
        · subst hip; rw [hget]; simpa using hc
        · exact h3 i (by omega) (by omega)

/-- C09: the translation is strictly monotone (lexicographic order). -/
theorem C09_monotone (content : Str) (p q : Nat) (h : p < q) (hq : q ≤ content.length) :
    lineOf content p < lineOf content q ∨
      (lineOf content p = lineOf content q ∧ colOf content p < colOf content q) := by
  have e : content.take q = content.take p ++ (content.drop p).take (q - p) := by
    have := List.take_add (l := content) (i := p) (j := q - p)
    rwa [show p + (q - p) = q by omega] at this
  by_cases hn : '\n' ∈ (content.drop p).take (q - p)
  · left
    unfold lineOf
    rw [e, List.count_append]
    have := List.count_pos_iff.2 hn
    omega
  · right
    constructor
    · unfold lineOf
      rw [e, List.count_append, List.count_eq_zero.2 hn]; rfl
    · unfold colOf
      rw [e, takeWhile_reverse_append _ _ hn]
      simp only [List.length_take, List.length_drop]
      omega

/-- C09: hence different offsets have different positions. -/
theorem C09_injective (content : Str) (p q : Nat) (hp : p ≤ content.length)
    (hq : q ≤ content.length) (hl : lineOf content p = lineOf content q)
    (hc : colOf content p = colOf content q) : p = q := by
  rcases Nat.lt_trichotomy p q with h | h | h
  · have := C09_monotone content p q h hq; omega
  · exact h
  · have := C09_monotone content q p h hp; omega

/-- C09: the surrounding line of a piece of the content. -/
theorem C09_surrounding_line (content : Str) (b e : Nat)
    (he : e ≤ content.length) :
    ∃ s t, getSurroundingLine content b e = some (s, t) ∧ IsLineAround content b e s t := by
  refine ⟨lineStart content b, e + lineRest (content.drop e),
    by simp only [getSurroundingLine, he, if_true], ?_⟩
  have hle := lineRest_le (content.drop e)
  rw [List.length_drop] at hle
  refine ⟨lineStart_le _ _, by omega, by omega, ?_, ?_, lineStart_edge _ _, ?_⟩
  · exact fun i h1 h2 => lineStart_inside content b i h1 h2
  · intro i h1 h2
    have := lineRest_inside (content.drop e) (i - e) (by omega)
    rwa [List.getElem?_drop, show e + (i - e) = i by omega] at this
  · rcases lineRest_edge (content.drop e) with h | h
    · left; rw [h, List.length_drop]; omega
    · right; rwa [List.getElem?_drop] at h

/-- C09: there is only one such line. -/
theorem C09_line_unique (content : Str) (b e s t s' t' : Nat)
    (h : IsLineAround content b e s t) (h' : IsLineAround content b e s' t') :
    s = s' ∧ t = t' := by
  have key1 : ∀ {s t s' t'}, IsLineAround content b e s t → IsLineAround content b e s' t' →
      ¬ s < s' := by
    intro s t s' t' h h' hlt
    rcases h'.left_edge with h0 | h0
    · omega
    · exact h.no_nl_left (s' - 1) (by omega) (by have := h'.start_le; omega) h0
  have key2 : ∀ {s t s' t'}, IsLineAround content b e s t → IsLineAround content b e s' t' →
      ¬ t < t' := by
    intro s t s' t' h h' hlt
    rcases h.right_edge with h0 | h0
    · have := h'.in_content; omega
    · exact h'.no_nl_right t h.le_end hlt h0
  have a1 := key1 h h'
  have a2 := key1 h' h
  have a3 := key2 h h'
  have a4 := key2 h' h
  omega

example : getSurroundingLine c!"ab\ncd\nx" 4 4 = some (3, 5) := by decide

/-! ## C51: printed locations -/

/-- What a reader expects to see for the piece `[b, e)`: one-based line and column of its
first character; then, if there is more than one character, its last character: only the
column if it is on the same line, otherwise line and column. -/
def expectedLocation (content : Str) (b e : Nat) : Str :=
  let pos (p : Nat) := showInt (lineOf content p + 1) ++ [':'] ++ showInt (colOf content p + 1)
  if e ≤ b + 1 then pos b ++ [':']
  else if lineOf content b = lineOf content (e - 1) then
    pos b ++ ['-'] ++ showInt (colOf content (e - 1) + 1) ++ [':']
  else pos b ++ [':'] ++ pos (e - 1) ++ [':']

/-- C51, full statement: every piece of a file is reported at first and last character. -/
def C51_statement : Prop :=
  ∀ (content : Str) (b e : Nat) (m : LineMap) (r : LineColumnRange), b ≤ e →
    LineMap.initFromView content = some m → getLocation content m b e = some r →
    showRange r = expectedLocation content b e

/-- C51 is false as stated: for a piece that ends in a newline (such as the text of an
unterminated string), the column 0 of the following line is printed. -/
theorem C51_counterexample : ¬ C51_statement := by
  intro h
  have := h c!"a\n" 0 2 [0, 2] ⟨⟨0, 0⟩, ⟨1, 0⟩⟩ (by decide) (by decide) (by decide)
  revert this
  decide +kernel

/-- C51 (partial: pieces whose last character is not a newline). -/
theorem C51_printed_location_partial (content : Str) (b e : Nat) (m : LineMap)
    (r : LineColumnRange) (hbe : b ≤ e) (hm : LineMap.initFromView content = some m)
    (hr : getLocation content m b e = some r) (hnl : b < e → content[e - 1]? ≠ some '\n') :
    showRange r = expectedLocation content b e := by
  have he : e ≤ content.length := by
    unfold getLocation at hr
    split at hr
    · assumption
    · simp at hr
  obtain ⟨m', hm', hr'⟩ := C09_location content b e hbe he
  rw [hm] at hm'
  cases hm'
  rw [hr] at hr'
  cases hr'
  by_cases hlt : b < e
  · have hne := hnl hlt
    obtain ⟨p, rfl⟩ : ∃ p, e = p + 1 := ⟨e - 1, by omega⟩
    have hlt' : p < content.length := by omega
    have hget : content[p]? = some content[p] := List.getElem?_eq_getElem hlt'
    simp only [Nat.add_sub_cancel] at hne
    have htake : content.take (p + 1) = content.take p ++ [content[p]] := by
      rw [List.take_add_one, hget]; rfl
    have hc : content[p] ≠ '\n' := by
      intro h; rw [hget, h] at hne; exact hne rfl
    have e1 : lineOf content (p + 1) = lineOf content p := by
      unfold lineOf; rw [htake]; simp [-List.take_append_getElem, List.count_append, List.count_eq_zero, Ne.symm hc]
    have e2 : colOf content (p + 1) = colOf content p + 1 := by
      unfold colOf; rw [htake]; simp [-List.take_append_getElem, hc]
    simp only [showRange, showLineColumn, expectedLocation, e1, e2, Nat.add_sub_cancel]
    have hmono := fun h => C09_monotone content b p h (by omega)
    by_cases hb : p + 1 ≤ b + 1
    · have : b = p := by omega
      subst this
      simp
    · have := hmono (by omega)
      simp only [hb, if_false]
      have h3 : ((colOf content p + 1 : Nat) : Int) - 1 = (colOf content p : Int) := by omega
      rw [h3]
      split
      · have h2 : (colOf content b : Int) < (colOf content p : Int) := by omega
        simp [h2]
      · simp
  · have : b = e := by omega
    subst this
    simp [showRange, showLineColumn, expectedLocation]
    omega

/-- C51 (partial; the other pieces): for a piece that ends in a newline, the first character is right, and then follows
column 0 of the line behind the newline. -/
theorem C51_newline_partial (content : Str) (b e : Nat) (m : LineMap)
    (r : LineColumnRange) (hbe : b < e) (hm : LineMap.initFromView content = some m)
    (hr : getLocation content m b e = some r) (hnl : content[e - 1]? = some '\n') :
    showRange r = showInt (lineOf content b + 1) ++ [':'] ++ showInt (colOf content b + 1) ++ [':'] ++
      showInt (lineOf content (e - 1) + 2) ++ c!":0:" := by
  have he : e ≤ content.length := by
    unfold getLocation at hr
    split at hr
    · assumption
    · simp at hr
  obtain ⟨m', hm', hr'⟩ := C09_location content b e (by omega) he
  rw [hm] at hm'
  cases hm'
  rw [hr] at hr'
  cases hr'
  obtain ⟨p, rfl⟩ : ∃ p, e = p + 1 := ⟨e - 1, by omega⟩
  have hlt' : p < content.length := by omega
  have hget : content[p]? = some content[p] := List.getElem?_eq_getElem hlt'
  simp only [Nat.add_sub_cancel] at hnl ⊢
  have htake : content.take (p + 1) = content.take p ++ [content[p]] := by
    rw [List.take_add_one, hget]; rfl
  have hc : content[p] = '\n' := by rw [hget] at hnl; exact Option.some.inj hnl
  have e1 : lineOf content (p + 1) = lineOf content p + 1 := by
    unfold lineOf; rw [htake, hc]; simp [List.count_append]
  have e2 : colOf content (p + 1) = 0 := by
    unfold colOf; rw [htake, hc]; simp
  have e3 : lineOf content b ≤ lineOf content p := by
    unfold lineOf
    have : content.take b = (content.take p).take b := by rw [List.take_take, Nat.min_eq_left (by omega)]
    rw [this]
    exact (List.take_sublist _ _).count_le _
  simp only [showRange, showLineColumn, e1, e2]
  rw [if_neg (by omega)]
  have e4 : showInt 0 = c!"0" := by decide +kernel
  have e5 : (lineOf content p : Int) + 1 + 1 = (lineOf content p : Int) + 2 := by omega
  simp [e4, e5]

/-- An unterminated string: the last character is in line 2, but line 3 is printed. -/
example : (LineMap.initFromView c!"x\n\"a\n" >>= fun m => getLocation c!"x\n\"a\n" m 2 5).map showRange = some c!"2:1:3:0:" := by
  decide +kernel

/-- What is printed for a piece: first and last character, but column 0 of the line behind if the last one is a
newline. -/
def shownLocation (content : Str) (b e : Nat) : Str :=
  if b < e ∧ content[e - 1]? = some '\n' then
    showInt (lineOf content b + 1) ++ [':'] ++ showInt (colOf content b + 1) ++ [':'] ++
      showInt (lineOf content (e - 1) + 2) ++ c!":0:"
  else expectedLocation content b e

/-- C51 (partial; exact): what is printed for any piece. -/
theorem C51_exact_partial (content : Str) (b e : Nat) (m : LineMap)
    (r : LineColumnRange) (hbe : b ≤ e) (hm : LineMap.initFromView content = some m)
    (hr : getLocation content m b e = some r) : showRange r = shownLocation content b e := by
  unfold shownLocation
  split
  · rename_i h
    exact C51_newline_partial content b e m r h.1 hm hr h.2
  · rename_i h
    exact C51_printed_location_partial content b e m r hbe hm hr fun hlt hc => h ⟨hlt, hc⟩

end Bant.Props
