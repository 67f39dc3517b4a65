import Verif.Lemmas.Relex
import Verif.Model.Print

/-! The printed form as a sequence of gaps and tokens. -/
namespace Bant
namespace Print
open Scanner Relex

/-- Piece of the printed form. -/
inductive Part where
  | gap (text : Str)
  | tok (type : TokenType) (text : Str)

def Part.text : Part → Str
  | .gap t => t
  | .tok _ t => t

/-- The text. -/
def render : List Part → Str
  | [] => []
  | p :: ps => p.text ++ render ps

/-- The tokens, if the text starts at this offset; `nl`: is there a newline before ? -/
def tokensAt : Nat → Bool → List Part → List Token
  | _, _, [] => []
  | p, nl, .gap g :: ps => tokensAt (p + g.length) (nl || decide ('\n' ∈ g)) ps
  | p, nl, .tok ty w :: ps =>
    ⟨ty, p, w, nl || decide ('\n' ∈ w)⟩ :: tokensAt (p + w.length) false ps

/-- Is there a newline since the last token ? -/
def nlAfter : Bool → List Part → Bool
  | nl, [] => nl
  | nl, .gap g :: ps => nlAfter (nl || decide ('\n' ∈ g)) ps
  | _, .tok _ _ :: ps => nlAfter false ps

/-- Scanning the text gives these parts. -/
def Fits : List Part → Prop
  | [] => True
  | .gap g :: ps => Gap False g ∧ Fits ps
  | .tok ty w :: ps => Lexes ty w (render ps) ∧ ty ≠ .eof ∧ Fits ps

@[simp] theorem render_append (a b : List Part) : render (a ++ b) = render a ++ render b := by
  induction a with
  | nil => rfl
  | cons p ps ih => simp [render, ih]

@[simp] theorem tokensAt_append (p : Nat) (nl : Bool) (a b : List Part) :
    tokensAt p nl (a ++ b)
      = tokensAt p nl a ++ tokensAt (p + (render a).length) (nlAfter nl a) b := by
  induction a generalizing p nl with
  | nil => simp [tokensAt, nlAfter, render]
  | cons q ps ih =>
    cases q <;> simp [tokensAt, nlAfter, render, ih, Part.text, Nat.add_assoc]

@[simp] theorem nlAfter_append (nl : Bool) (a b : List Part) :
    nlAfter nl (a ++ b) = nlAfter (nlAfter nl a) b := by
  induction a generalizing nl with
  | nil => rfl
  | cons q ps ih => cases q <;> simp [nlAfter, ih]

/-! ### Skipping gaps -/

theorem skipSpace_comment (body : Str) (h : '\n' ∉ body) (rest : Str) (pos : Nat) (lines : LineMap)
    (nl : Nat) :
    skipSpace true (body ++ '\n' :: rest) pos lines nl =
      skipSpace false rest (pos + body.length + 1) (lines ++ [pos + body.length + 1]) (nl + 1) := by
  induction body generalizing pos with
  | nil => simp [skipSpace]
  | cons c cs ih =>
    simp only [List.mem_cons, not_or] at h
    rw [List.cons_append, skipSpace, if_pos (by simp)]
    by_cases hc : c = '#'
    · rw [if_pos hc, ih h.2]; simp [Nat.add_assoc, Nat.add_comm 1]
    · rw [if_neg hc, if_neg (Ne.symm h.1), ih h.2]; simp [Nat.add_assoc, Nat.add_comm 1]

theorem skipSpace_gap {g : Str} (h : Gap False g) (rest : Str) (pos : Nat) (lines : LineMap)
    (nl : Nat) : ∃ lines', skipSpace false (g ++ rest) pos lines nl =
      skipSpace false rest (pos + g.length) lines' (nl + g.count '\n') := by
  induction h generalizing pos lines nl with
  | nil => exact ⟨lines, rfl⟩
  | @blank c s hc _ ih =>
    have h1 : (isSpace c || c == '\\' || c == '#' || false) = true := by
      simp only [List.mem_cons, List.not_mem_nil, or_false] at hc
      rcases hc with rfl | rfl | rfl | rfl | rfl | rfl | rfl <;> decide
    have h2 : c ≠ '#' := by
      simp only [List.mem_cons, List.not_mem_nil, or_false] at hc
      rcases hc with rfl | rfl | rfl | rfl | rfl | rfl | rfl <;> decide
    by_cases hn : c = '\n'
    · obtain ⟨l, hl⟩ := ih (pos + 1) (lines ++ [pos + 1]) (nl + 1)
      refine ⟨l, ?_⟩
      rw [List.cons_append, skipSpace, if_pos h1, if_neg h2, if_pos hn, hl]
      simp [hn, Nat.add_assoc, Nat.add_comm 1]
    · obtain ⟨l, hl⟩ := ih (pos + 1) lines nl
      refine ⟨l, ?_⟩
      rw [List.cons_append, skipSpace, if_pos h1, if_neg h2, if_neg hn, hl]
      simp [hn, Nat.add_assoc, Nat.add_comm 1]
  | @comment body s hb _ ih =>
    obtain ⟨l, hl⟩ := ih (pos + 1 + body.length + 1) (lines ++ [pos + 1 + body.length + 1]) (nl + 1)
    refine ⟨l, ?_⟩
    have : '#' :: (body ++ '\n' :: s) ++ rest = '#' :: (body ++ '\n' :: (s ++ rest)) := by simp
    rw [this, skipSpace, if_pos (by decide), if_pos rfl, skipSpace_comment body hb, hl]
    have e1 : pos + 1 + body.length + 1 + s.length
        = pos + ('#' :: (body ++ '\n' :: s)).length := by simp; omega
    have e2 : nl + 1 + s.count '\n' = nl + ('#' :: (body ++ '\n' :: s)).count '\n' := by
      simp [List.count_eq_zero.2 hb]; omega
    rw [e1, e2]
  | lastComment h => exact h.elim

theorem nextRaw_gap {g : Str} (h : Gap False g) (s : Scanner) {rest : Str} (hr : s.rest = g ++ rest) :
    ∃ lines', nextRaw s = nextRaw { s with
      rest := rest, pos := s.pos + g.length, lines := lines'
      newlineCount := s.newlineCount + g.count '\n' } := by
  obtain ⟨l, hl⟩ := skipSpace_gap h rest s.pos s.lines s.newlineCount
  refine ⟨l, ?_⟩
  simp only [nextRaw, hr, hl]

theorem nextRaw_tok {ty : TokenType} {w rest : Str} (h : Lexes ty w rest) (s : Scanner)
    (hr : s.rest = w ++ rest) (hl : s.lastTokenNewlineCount ≤ s.newlineCount) :
    ∃ lines', nextRaw s =
      (⟨ty, s.pos, w, decide (s.lastTokenNewlineCount ≠ s.newlineCount) || decide ('\n' ∈ w)⟩,
        { s with
          rest := rest, pos := s.pos + w.length, lines := lines'
          newlineCount := s.newlineCount + w.count '\n'
          lastTokenNewlineCount := s.newlineCount + w.count '\n' }) := by
  obtain ⟨c, cs, rfl, hsk, hni, hd⟩ := h
  obtain ⟨h1, h2⟩ := hd s.pos s.lines s.newlineCount
  have hcn : c ≠ '\n' := by rintro rfl; revert hsk; decide
  have hok := dispatch_ok c (cs ++ rest) s.pos s.lines s.newlineCount hcn
  have hnl : (dispatch c (cs ++ rest) s.pos s.lines s.newlineCount).nl
      = s.newlineCount + (c :: cs).count '\n' := by
    rcases hok.hlines with ⟨a, _, b⟩ | ⟨_, b⟩
    · rcases hni with hni | hni
      · exact absurd (h1 ▸ a) hni
      · rw [b, List.count_eq_zero.2 hni]; rfl
    · rw [b, h2]
  have hskip : skipSpace false (c :: (cs ++ rest)) s.pos s.lines s.newlineCount
      = ⟨c :: (cs ++ rest), s.pos, s.lines, s.newlineCount⟩ := by
    rw [skipSpace, if_neg]
    simp only [skipped] at hsk
    simp [hsk]
  refine ⟨(dispatch c (cs ++ rest) s.pos s.lines s.newlineCount).lines, ?_⟩
  rw [List.cons_append] at hr
  simp only [nextRaw, hr, hskip, h1, h2, hnl]
  congr 1
  · congr 1
    by_cases hm : '\n' ∈ c :: cs
    · have : 0 < (c :: cs).count '\n' := List.count_pos_iff.2 hm
      simp [hm]
      omega
    · simp [hm, List.count_eq_zero.2 hm]
      rfl
  · congr 1
    rw [← List.cons_append, List.drop_left]

theorem deliver_fits (ps : List Part) (h : Fits ps) (s : Scanner) (hu : s.upcoming = none)
    (hr : s.rest = render ps) (hl : s.lastTokenNewlineCount ≤ s.newlineCount) :
    ∃ e, (deliver ((tokensAt s.pos (decide (s.lastTokenNewlineCount ≠ s.newlineCount)) ps).length + 1)
        s).1 = tokensAt s.pos (decide (s.lastTokenNewlineCount ≠ s.newlineCount)) ps ++ [e] ∧
      e.type = .eof := by
  induction ps generalizing s with
  | nil =>
    refine ⟨(next s).1, by simp [tokensAt, deliver], ?_⟩
    simp [next, hu, nextRaw, hr, render, skipSpace]
  | cons p ps ih =>
    cases p with
    | gap g =>
      obtain ⟨hg, hf⟩ := h
      obtain ⟨l, hn⟩ := nextRaw_gap hg s (by rw [hr, render]; rfl)
      obtain ⟨e, he, ht⟩ := ih hf { s with
        rest := render ps, pos := s.pos + g.length, lines := l
        newlineCount := s.newlineCount + g.count '\n' } hu rfl (by simp; omega)
      refine ⟨e, ?_, ht⟩
      have hnl : (decide (s.lastTokenNewlineCount ≠ s.newlineCount) || decide ('\n' ∈ g))
          = decide (s.lastTokenNewlineCount ≠ s.newlineCount + g.count '\n') := by
        by_cases hm : '\n' ∈ g
        · have : 0 < g.count '\n' := List.count_pos_iff.2 hm
          simp [hm]; omega
        · simp [hm, List.count_eq_zero.2 hm]
      rw [tokensAt, hnl]
      simp only at he
      rw [← he]
      have hnext : next s = next { s with
        rest := render ps, pos := s.pos + g.length, lines := l
        newlineCount := s.newlineCount + g.count '\n' } := by
        simp only [next, hu, hn]
      simp only [deliver, hnext]
    | tok ty w =>
      obtain ⟨hw, _, hf⟩ := h
      obtain ⟨l, hn⟩ := nextRaw_tok hw s (by rw [hr, render]; rfl) hl
      have hn' : next s = nextRaw s := by simp only [next, hu]
      obtain ⟨e, he, ht⟩ := ih hf { s with
        rest := render ps, pos := s.pos + w.length, lines := l
        newlineCount := s.newlineCount + w.count '\n'
        lastTokenNewlineCount := s.newlineCount + w.count '\n' } hu rfl (by simp)
      refine ⟨e, ?_, ht⟩
      simp only [ne_eq, not_true, decide_false] at he
      simp only [tokensAt, List.length_cons]
      rw [deliver, hn', hn]
      simp only [he, List.cons_append]

theorem tokensAt_type {ps : List Part} (h : Fits ps) (p : Nat) (nl : Bool) :
    ∀ t ∈ tokensAt p nl ps, t.type ≠ .eof := by
  induction ps generalizing p nl with
  | nil => simp [tokensAt]
  | cons q ps ih =>
    cases q with
    | gap g => exact ih h.2 _ _
    | tok ty w =>
      intro t ht
      simp only [tokensAt, List.mem_cons] at ht
      rcases ht with rfl | ht
      · exact h.2.1
      · exact ih h.2.2 _ _ t ht

theorem tokensOf_fits {ps : List Part} (h : Fits ps) :
    Parser.TokensOf (render ps) (tokensAt 0 false ps) := by
  obtain ⟨e, he, ht⟩ := deliver_fits ps h (Scanner.init (render ps)) rfl rfl (by simp [Scanner.init])
  exact ⟨e, by simpa [Scanner.init] using he, ht, tokensAt_type h _ _⟩

end Print
end Bant
