import Verif.Spec.Scanner
import Verif.Lemmas.LineCol

namespace Bant
namespace Scanner

theorem mem_takeWhile_imp {p : α → Bool} {l : List α} {x : α} (h : x ∈ l.takeWhile p) :
    p x = true := by
  induction l with
  | nil => simp at h
  | cons a l ih =>
    rw [List.takeWhile_cons] at h
    split at h
    · rcases List.mem_cons.1 h with rfl | h
      · assumption
      · exact ih h
    · simp at h

/-! ### Skipping -/

/-- What the loop in `SkipSpace` does. -/
structure SkipOk (inComment : Bool) (rest : Str) (pos : Nat) (lines : LineMap) (nl : Nat)
    (k : Cursor) (g : Str) : Prop where
  text : rest = g ++ k.rest
  hpos : k.pos = pos + g.length
  hlines : k.lines = lines ++ nlPositions g pos
  hnl : k.nl = nl + g.count '\n'
  gap : if inComment then Gap (k.rest = []) ('#' :: g) else Gap (k.rest = []) g
  stop : ∀ c cs, k.rest = c :: cs → isSpace c = false ∧ c ≠ '\\' ∧ c ≠ '#'

theorem isSpace_mem {c : Char} (h : isSpace c = true ∨ c = '\\') :
    c ∈ [' ', '\t', '\n', '\x0b', '\x0c', '\r', '\\'] := by
  simp [isSpace] at h ⊢
  grind

theorem gap_comment_extend {p : Prop} {c : Char} {g : Str} (hc : c ≠ '\n')
    (h : Gap p ('#' :: g)) : Gap p ('#' :: c :: g) := by
  cases h with
  | blank h _ => simp at h
  | comment hb hs =>
    rename_i body s
    exact Gap.comment (body := c :: body) (by simp [hb, Ne.symm hc]) hs
  | lastComment he hb => exact Gap.lastComment he (by simp [hb, Ne.symm hc])

theorem skipSpace_ok (inComment : Bool) (rest : Str) (pos : Nat) (lines : LineMap) (nl : Nat) :
    ∃ g, SkipOk inComment rest pos lines nl (skipSpace inComment rest pos lines nl) g := by
  induction rest generalizing inComment pos lines nl with
  | nil =>
    refine ⟨[], by simp [skipSpace], by simp [skipSpace], by simp [skipSpace, nlPositions],
      by simp [skipSpace], ?_, by simp [skipSpace]⟩
    cases inComment
    · exact Gap.nil
    · exact Gap.lastComment (by simp [skipSpace]) (by simp)
  | cons c cs ih =>
    simp only [skipSpace]
    split
    · rename_i hcond
      split
      · rename_i hc
        subst hc
        obtain ⟨g, hg⟩ := ih true (pos + 1) lines nl
        refine ⟨'#' :: g, ?_, ?_, ?_, ?_, ?_, hg.stop⟩
        · exact congrArg ('#' :: ·) hg.text
        · rw [hg.hpos]; simp; omega
        · rw [hg.hlines]; simp [nlPositions]
        · rw [hg.hnl]; simp
        · have := hg.gap
          simp only [if_true] at this
          cases inComment
          · exact this
          · exact gap_comment_extend (by decide) this
      · split
        · rename_i hc
          subst hc
          obtain ⟨g, hg⟩ := ih false (pos + 1) (lines ++ [pos + 1]) (nl + 1)
          refine ⟨'\n' :: g, ?_, ?_, ?_, ?_, ?_, hg.stop⟩
          · exact congrArg ('\n' :: ·) hg.text
          · rw [hg.hpos]; simp; omega
          · rw [hg.hlines]; simp [nlPositions]
          · rw [hg.hnl]; simp; omega
          · have := hg.gap
            simp only [Bool.false_eq_true, if_false] at this
            cases inComment
            · exact Gap.blank (by simp) this
            · exact Gap.comment (body := []) (by simp) this
        · rename_i h1 h2
          obtain ⟨g, hg⟩ := ih inComment (pos + 1) lines nl
          refine ⟨c :: g, ?_, ?_, ?_, ?_, ?_, hg.stop⟩
          · exact congrArg (c :: ·) hg.text
          · rw [hg.hpos]; simp; omega
          · rw [hg.hlines]; simp [nlPositions, h2]
          · rw [hg.hnl]; simp [h2]
          · have := hg.gap
            cases inComment
            · simp only [Bool.false_eq_true, if_false] at this ⊢
              refine Gap.blank (isSpace_mem ?_) this
              simp at hcond
              grind
            · exact gap_comment_extend h2 this
    · rename_i hcond
      simp only [Bool.or_eq_true, not_or, Bool.not_eq_true, beq_eq_false_iff_ne] at hcond
      refine ⟨[], by simp, by simp, by simp [nlPositions], by simp, ?_, ?_⟩
      · cases inComment
        · exact Gap.nil
        · simp at hcond
      · intro d ds h
        simp at h
        obtain ⟨rfl, rfl⟩ := h
        exact ⟨hcond.1.1.1, hcond.1.1.2, hcond.1.2⟩

/-! ### Strings -/

theorem stringLoop_ok (q : Char) (tr : Bool) (s : Str) (pos : Nat) (lines : LineMap)
    (nl cc : Nat) (esc : Bool) :
    let r := stringLoop q tr s pos lines nl cc esc
    r.1 <+: s ∧ r.2.1 = lines ++ nlPositions r.1 pos ∧ r.2.2.1 = nl + r.1.count '\n' ∧
    (r.2.2.2 = true → (r.1 ++ [q]) <+: s) ∧ (r.2.2.2 = false → r.1 = s) := by
  induction s generalizing pos lines nl cc esc with
  | nil => simp [stringLoop, nlPositions]
  | cons c cs ih =>
    simp only [stringLoop]
    split
    · rename_i h
      simp at h
      simp [nlPositions, h.1.1]
    · obtain ⟨h1, h2, h3, h4, h5⟩ := ih (pos + 1)
        (if c = '\n' then lines ++ [pos + 1] else lines) (if c = '\n' then nl + 1 else nl)
        (if c == q && !esc then cc - 1 else if tr then 3 else 1) (c == '\\' && !esc)
      refine ⟨?_, ?_, ?_, ?_, ?_⟩
      · simpa using h1
      · simp only
        rw [h2]
        by_cases hc : c = '\n' <;> simp [hc, nlPositions]
      · simp only
        rw [h3]
        by_cases hc : c = '\n' <;> simp [hc]; omega
      · intro h
        simpa using h4 h
      · intro h
        simpa using h5 h

/-- What the `Handle..` functions guarantee. -/
structure HandledOk (rest : Str) (pos : Nat) (lines : LineMap) (nl : Nat) (h : Handled) :
    Prop where
  isPrefix : h.text <+: rest
  nonempty : h.text ≠ []
  htype : h.type ≠ .eof
  hlines : (h.type = .kNotIn ∧ h.lines = lines ∧ h.nl = nl) ∨
    (h.lines = lines ++ nlPositions h.text pos ∧ h.nl = nl + h.text.count '\n')

theorem nlPositions_of_not_mem {s : Str} {p : Nat} (h : '\n' ∉ s) : nlPositions s p = [] := by
  have := nlPositions_length s p
  rw [List.count_eq_zero.2 h] at this
  exact List.eq_nil_of_length_eq_zero this

theorem handledOk_noNl {rest : Str} {pos : Nat} {lines : LineMap} {nl : Nat} {t : TokenType}
    {text : Str} (h1 : text <+: rest) (h2 : text ≠ []) (h3 : t ≠ .eof) (h4 : '\n' ∉ text) :
    HandledOk rest pos lines nl ⟨t, text, lines, nl⟩ :=
  ⟨h1, h2, h3, Or.inr ⟨by simp [nlPositions_of_not_mem h4], by simp [List.count_eq_zero.2 h4]⟩⟩

theorem prefix_drop_append {a b s : Str} (ha : a <+: s) (hb : b <+: s.drop a.length) :
    a ++ b <+: s := by
  obtain ⟨t, rfl⟩ := ha
  rw [List.drop_left] at hb
  obtain ⟨u, rfl⟩ := hb
  exact ⟨u, by simp⟩

theorem handleString_ok (rest : Str) (pos : Nat) (lines : LineMap) (nl : Nat)
    (h : (∃ q cs, rest = q :: cs ∧ (q = '"' ∨ q = '\'')) ∨
      (∃ r q cs, rest = r :: q :: cs ∧ (r = 'r' ∨ r = 'R') ∧ (q = '"' ∨ q = '\''))) :
    HandledOk rest pos lines nl (handleString rest pos lines nl) := by
  obtain ⟨pre, q, body, hrest, hpre, hq, hnl⟩ : ∃ pre q body, rest = pre ++ q :: body ∧
      rawPrefix rest = pre ∧ (q = '"' ∨ q = '\'') ∧ '\n' ∉ pre := by
    rcases h with ⟨q, cs, rfl, hq⟩ | ⟨r, q, cs, rfl, hr, hq⟩
    · refine ⟨[], q, cs, rfl, ?_, hq, by simp⟩
      rcases hq with rfl | rfl <;> rfl
    · refine ⟨[r], q, cs, rfl, ?_, hq, ?_⟩
      · rcases hr with rfl | rfl <;> rfl
      · rcases hr with rfl | rfl <;> simp
  have hqn : q ≠ '\n' := by rcases hq with rfl | rfl <;> decide
  unfold handleString
  simp only
  rw [hpre]
  subst hrest
  rw [List.drop_left]
  simp only
  generalize htr : isTriple q body = triple
  have hopen : (if triple = true then pre ++ [q, q, q] else pre ++ [q]) <+: pre ++ q :: body := by
    cases triple
    · simp
    · match body, htr with
      | a :: b :: t, htr =>
        simp [isTriple] at htr
        obtain ⟨rfl, rfl⟩ := htr
        simp
  have hopenNl : '\n' ∉ (if triple = true then pre ++ [q, q, q] else pre ++ [q]) := by
    cases triple <;> simp [hnl, Ne.symm hqn]
  generalize hoe : (if triple = true then pre ++ [q, q, q] else pre ++ [q]) = op at *
  have hopne : op ≠ [] := by
    subst hoe; cases triple <;> simp
  obtain ⟨h1, h2, h3, h4, h5⟩ := stringLoop_ok q triple ((pre ++ q :: body).drop op.length)
    (pos + op.length) lines nl (if triple = true then 3 else 1) false
  generalize stringLoop q triple ((pre ++ q :: body).drop op.length)
    (pos + op.length) lines nl (if triple = true then 3 else 1) false = r at h1 h2 h3 h4 h5 ⊢
  by_cases hclosed : r.2.2.2 = true
  · rw [if_pos hclosed]
    refine ⟨?_, by simp, by simp, Or.inr ⟨?_, ?_⟩⟩
    · have := prefix_drop_append hopen (h4 hclosed)
      simpa using this
    · simp only [h2, nlPositions_append, nlPositions_of_not_mem hopenNl]
      have : nlPositions [q] (pos + (op ++ r.1).length) = [] :=
        nlPositions_of_not_mem (by simpa using Ne.symm hqn)
      rw [this]; simp
    · simp only [h3, List.count_append, List.count_eq_zero.2 hopenNl]
      have : [q].count '\n' = 0 := List.count_eq_zero.2 (by simpa using Ne.symm hqn)
      omega
  · rw [if_neg hclosed]
    refine ⟨prefix_drop_append hopen h1, by simp [hopne], by simp, Or.inr ⟨?_, ?_⟩⟩
    · simp only [h2, nlPositions_append, nlPositions_of_not_mem hopenNl]
      simp
    · simp only [h3, List.count_append, List.count_eq_zero.2 hopenNl]
      omega

theorem numberLoop_ok (d : Char → Bool) (dot : Bool) (s : Str) :
    (numberLoop d dot s).1 <+: s ∧ ∀ c ∈ (numberLoop d dot s).1, d c = true ∨ c = '.' := by
  induction s generalizing dot with
  | nil => simp [numberLoop]
  | cons c cs ih =>
    simp only [numberLoop]
    split
    · rename_i h
      split
      · simp
      · refine ⟨by simpa using (ih _).1, ?_⟩
        intro x hx
        rcases List.mem_cons.1 hx with rfl | hx
        · simpa using h
        · exact (ih _).2 x hx
    · simp

theorem handleNumber_ok (c : Char) (cs : Str) (hc : c ≠ '\n') :
    (handleNumber c cs).2 <+: c :: cs ∧ (handleNumber c cs).2 ≠ [] ∧
    '\n' ∉ (handleNumber c cs).2 ∧
    ((handleNumber c cs).1 = .error ∨ (handleNumber c cs).1 = .numberLiteral) := by
  unfold handleNumber
  simp only
  generalize hx : numberBase c cs = x
  have hx' : x.1 <+: cs ∧ '\n' ∉ x.1 ∧ x.2 '\n' = false := by
    subst hx
    unfold numberBase
    split <;> simp <;> decide
  obtain ⟨h1, h2⟩ := numberLoop_ok x.2 false (cs.drop x.1.length)
  refine ⟨?_, by simp, ?_, ?_⟩
  · simpa using prefix_drop_append hx'.1 h1
  · simp only [List.mem_cons, List.mem_append, not_or]
    refine ⟨Ne.symm hc, hx'.2.1, ?_⟩
    intro h
    have := h2 _ h
    simp [hx'.2.2] at this
  · split <;> simp

theorem handleRelational_ok (c : Char) (cs : Str) (hc : c ≠ '\n') :
    (handleRelational c cs).2 <+: c :: cs ∧ (handleRelational c cs).2 ≠ [] ∧
    '\n' ∉ (handleRelational c cs).2 ∧ (handleRelational c cs).1 ≠ .eof := by
  unfold handleRelational
  split <;> simp [Ne.symm hc]

theorem consumeOptionalIn_ok {s t : Str} (h : consumeOptionalIn s = some t) :
    t <+: s ∧ ∃ ws, t = ws ++ c!"in" ∧ ∀ c ∈ ws, isSpace c = true := by
  unfold consumeOptionalIn at h
  simp only at h
  split at h
  · rename_i rest heq
    cases h
    refine ⟨?_, _, rfl, ?_⟩
    · refine prefix_drop_append (List.takeWhile_prefix _) ?_
      rw [heq]
      exact ⟨rest, rfl⟩
    · intro c hc
      exact (mem_takeWhile_imp hc)
  · cases h

theorem isIdentifierChar_nl : isIdentifierChar '\n' = false := by decide

theorem handleWord_ok (c : Char) (cs : Str) (pos : Nat) (lines : LineMap) (nl : Nat)
    (hc : c ≠ '\n') :
    HandledOk (c :: cs) pos lines nl (handleWord (c :: cs) pos lines nl) := by
  unfold handleWord
  simp only
  split
  · rename_i hraw
    apply handleString_ok
    right
    match cs, hraw with
    | b :: d :: t, hraw =>
      simp [isRawString] at hraw
      exact ⟨c, b, d :: t, rfl, by grind, by grind⟩
  · split
    · refine handledOk_noNl (by simp) (by simp) (by simp) (by simpa using Ne.symm hc)
    · rename_i hid
      have hne : (c :: cs).takeWhile isIdentifierChar ≠ [] := by
        simp at hid
        simp [hid]
      have hnl : '\n' ∉ (c :: cs).takeWhile isIdentifierChar := by
        intro h
        have := mem_takeWhile_imp h
        simp [isIdentifierChar_nl] at this
      split
      · rename_i hnot
        split
        · rename_i t ht
          refine ⟨?_, by simp [hne], by simp, Or.inl ⟨rfl, rfl, rfl⟩⟩
          exact prefix_drop_append (List.takeWhile_prefix _) (consumeOptionalIn_ok ht).1
        · exact handledOk_noNl (List.takeWhile_prefix _) hne (by simp) hnl
      · refine handledOk_noNl (List.takeWhile_prefix _) hne ?_ hnl
        unfold wordType
        repeat' split
        all_goals simp

theorem dispatch_ok (c : Char) (cs : Str) (pos : Nat) (lines : LineMap) (nl : Nat)
    (hc : c ≠ '\n') :
    HandledOk (c :: cs) pos lines nl (dispatch c cs pos lines nl) := by
  unfold dispatch
  split
  · exact handledOk_noNl (by simp) (by simp) (by simp) (by simpa using Ne.symm hc)
  split
  · obtain ⟨h1, h2, h3, h4⟩ := handleRelational_ok c cs hc
    exact handledOk_noNl h1 h2 h4 h3
  split
  · obtain ⟨h1, h2, h3, h4⟩ := handleRelational_ok c cs hc
    exact handledOk_noNl h1 h2 h4 h3
  split
  · obtain ⟨h1, h2, h3, h4⟩ := handleNumber_ok c cs hc
    exact handledOk_noNl h1 h2 (by rcases h4 with h | h <;> rw [h] <;> simp) h3
  split
  · rename_i h
    exact handleString_ok _ _ _ _ (Or.inl ⟨c, cs, rfl, h⟩)
  · exact handleWord_ok c cs pos lines nl hc

theorem Gap.imp {p q : Prop} {g : Str} (h : Gap p g) (hpq : p → q) : Gap q g := by
  induction h with
  | nil => exact Gap.nil
  | blank h _ ih => exact Gap.blank h ih
  | comment h _ ih => exact Gap.comment h ih
  | lastComment h hb => exact Gap.lastComment (hpq h) hb

/-- A `not in` that spans lines. -/
def BadNotIn (t : Token) : Prop := t.type = .kNotIn ∧ '\n' ∈ t.text

/-- What one `nextRaw` does. -/
structure StepOk (s : Scanner) (t : Token) (s' : Scanner) (gap : Str) : Prop where
  text : s.rest = gap ++ (t.text ++ s'.rest)
  hgap : Gap (t.type = .eof) gap
  start : t.start = s.pos + gap.length
  hpos : s'.pos = t.start + t.text.length
  eofIff : t.type = .eof ↔ t.text = []
  eofRest : t.type = .eof → s'.rest = []
  up : s'.upcoming = s.upcoming
  hlines : ∃ l, s'.lines = s.lines ++ (nlPositions gap s.pos ++ l) ∧
    (∀ x ∈ l, t.start < x ∧ x ≤ s'.pos) ∧
    l.Pairwise (· < ·) ∧ (¬ BadNotIn t → l = nlPositions t.text t.start)

theorem nextRaw_ok (s : Scanner) : ∃ gap, StepOk s (nextRaw s).1 (nextRaw s).2 gap := by
  obtain ⟨g, hg⟩ := skipSpace_ok false s.rest s.pos s.lines s.newlineCount
  refine ⟨g, ?_⟩
  unfold nextRaw
  simp only
  generalize skipSpace false s.rest s.pos s.lines s.newlineCount = k at hg ⊢
  obtain ⟨krest, kpos, klines, knl⟩ := k
  obtain ⟨htext, hpos, hlines, hnl, hgap, hstop⟩ := hg
  simp only at htext hpos hlines hnl hgap hstop
  simp only [Bool.false_eq_true, if_false] at hgap
  cases krest with
  | nil =>
    refine ⟨by simpa using htext, Gap.imp hgap (by simp), by simpa using hpos, by simp,
      by simp, by simp, rfl, ?_⟩
    exact ⟨[], by simpa using hlines, by simp, by simp, by simp [nlPositions]⟩
  | cons c cs =>
    have hc : c ≠ '\n' := by
      intro h
      have := (hstop c cs rfl).1
      rw [h] at this
      revert this; decide
    have hd := dispatch_ok c cs kpos klines knl hc
    simp only
    generalize dispatch c cs kpos klines knl = h at hd ⊢
    obtain ⟨hp, hne, hty, hl⟩ := hd
    obtain ⟨rest', hrest'⟩ := hp
    have hdrop : (c :: cs).drop h.text.length = rest' := by
      rw [← hrest', List.drop_left]
    refine ⟨?_, Gap.imp hgap (by simp), by simpa using hpos, rfl, ?_, ?_, rfl, ?_⟩
    · simp only [hdrop]
      rw [htext, hrest']
    · simp [hty, hne]
    · intro h; exact absurd h hty
    · rcases hl with ⟨h1, h2, h3⟩ | ⟨h2, h3⟩
      · refine ⟨[], by simp [h2, hlines], by simp, by simp, ?_⟩
        intro hbad
        have : '\n' ∉ h.text := fun hm => hbad ⟨h1, hm⟩
        rw [nlPositions_of_not_mem this]
      · refine ⟨nlPositions h.text kpos, by simp [h2, hlines], ?_, nlPositions_sorted _ _, by simp⟩
        intro x hx
        have := nlPositions_bounds hx
        simp only
        omega

theorem next_eq {s : Scanner} (h : s.upcoming = none) : next s = nextRaw s := by
  simp [next, h]

theorem next_ok {s : Scanner} (h : s.upcoming = none) :
    (∃ gap, StepOk s (next s).1 (next s).2 gap) ∧ (next s).2.upcoming = none := by
  rw [next_eq h]
  obtain ⟨g, hg⟩ := nextRaw_ok s
  exact ⟨⟨g, hg⟩, by rw [hg.up, h]⟩

theorem nextRaw_eof {s : Scanner} (h : s.rest = []) :
    (nextRaw s).1 = ⟨.eof, s.pos, [], false⟩ ∧ (nextRaw s).2 = s := by
  unfold nextRaw
  simp only [h, skipSpace, true_and]
  cases s
  simp_all

/-- Tiling by the delivered tokens. -/
theorem deliver_tiled (n : Nat) (s : Scanner) (h : s.upcoming = none) (hn : s.rest.length < n) :
    ∃ m ts, m ≤ s.rest.length + 1 ∧ (deliver m s).1 = ts ∧ Tiled s.pos s.rest ts := by
  induction n generalizing s with
  | zero => omega
  | succ n ih =>
    obtain ⟨⟨g, hg⟩, hup⟩ := next_ok h
    generalize hr : next s = r at hg hup
    obtain ⟨t, s'⟩ := r
    simp only at hg hup
    by_cases he : t.type = .eof
    · refine ⟨1, [t], by omega, by simp [deliver, hr], ?_⟩
      have h1 := hg.text
      rw [hg.eofIff.1 he, hg.eofRest he] at h1
      simp at h1
      rw [h1]
      exact Tiled.eof (Gap.imp hg.hgap (by simp)) he (hg.eofIff.1 he) hg.start
    · have hne : t.text ≠ [] := fun h => he (hg.eofIff.2 h)
      have hlen : s'.rest.length < s.rest.length := by
        rw [hg.text]
        have := List.length_pos_iff.2 hne
        simp
        omega
      obtain ⟨m, ts, hm, hd, htl⟩ := ih s' hup (by omega)
      refine ⟨m + 1, t :: ts, by omega, by simp [deliver, hr, hd], ?_⟩
      rw [hg.text]
      rw [hg.hpos] at htl
      exact Tiled.token (Gap.imp hg.hgap (fun e => he e)) hne he hg.start htl

/-! ### The line table while scanning -/

/-- Scanner invariant; `ok` is the offset up to which the table is complete. -/
structure LinesInv (content : Str) (s : Scanner) (ok : Nat) : Prop where
  consumed : ∃ c, content = c ++ s.rest ∧ s.pos = c.length
  okLe : ok ≤ s.pos
  up : s.upcoming = none
  table : ∃ l, s.lines = (0 :: nlPositions (content.take ok) 0) ++ l ∧ (∀ x ∈ l, ok < x ∧ x ≤ s.pos)
    ∧ l.Pairwise (· < ·)

theorem linesInv_init (content : Str) : LinesInv content (Scanner.init content) 0 :=
  ⟨⟨[], by simp [Scanner.init], by simp [Scanner.init]⟩, by simp [Scanner.init], rfl,
    ⟨[], by simp [Scanner.init, nlPositions], by simp, by simp⟩⟩

/-- A step never spoils the complete part of the table. -/
theorem linesInv_next {content : Str} {s : Scanner} {ok : Nat} (h : LinesInv content s ok) :
    LinesInv content (next s).2 ok := by
  obtain ⟨⟨g, hg⟩, hup⟩ := next_ok h.up
  obtain ⟨c, hc, hp⟩ := h.consumed
  obtain ⟨l, hl1, hl2, hl3⟩ := h.table
  obtain ⟨l', hl1', hl2', hl3', -⟩ := hg.hlines
  have hst := hg.start
  have hpos' := hg.hpos
  have hok := h.okLe
  refine ⟨⟨c ++ (g ++ (next s).1.text), ?_, ?_⟩, by omega, hup,
    l ++ (nlPositions g s.pos ++ l'), ?_, ?_, ?_⟩
  · rw [hc, hg.text]; simp
  · rw [hg.hpos, hg.start, hp]; simp; omega
  · rw [hl1', hl1]; simp
  · intro x hx
    rcases List.mem_append.1 hx with hx | hx
    · have := hl2 x hx; omega
    · rcases List.mem_append.1 hx with hx | hx
      · have := nlPositions_bounds hx; omega
      · have := hl2' x hx; omega
  · rw [List.pairwise_append, List.pairwise_append]
    refine ⟨hl3, ⟨nlPositions_sorted _ _, hl3', ?_⟩, ?_⟩
    · intro a ha b hb
      have := nlPositions_bounds ha
      have := hl2' b hb
      omega
    · intro a ha b hb
      have := hl2 a ha
      rcases List.mem_append.1 hb with hb | hb
      · have := nlPositions_bounds hb; omega
      · have := hl2' b hb; omega

/-- The gap before a token is complete even if the token itself is a bad one. -/
theorem linesInv_next_start {content : Str} {s : Scanner} (h : LinesInv content s s.pos) :
    LinesInv content (next s).2 (next s).1.start := by
  have hn := linesInv_next h
  obtain ⟨⟨g, hg⟩, hup⟩ := next_ok h.up
  obtain ⟨c, hc, hp⟩ := h.consumed
  obtain ⟨l, hl1, hl2, hl3⟩ := h.table
  obtain ⟨l', hl1', hl2', hl3', hl4'⟩ := hg.hlines
  refine ⟨hn.consumed, by rw [hg.hpos]; omega, hup, l', ?_, hl2', hl3'⟩
  have hl0 : l = [] := by
    cases l with
    | nil => rfl
    | cons x xs => have := hl2 x (by simp); omega
  rw [hl1', hl1, hl0]
  have e1 : content.take s.pos = c := by rw [hc, hp, List.take_left]
  have e2 : content.take (next s).1.start = c ++ g := by
    rw [hg.start, hp, hc, hg.text, ← List.append_assoc, ← List.length_append, List.take_left]
  rw [e1, e2, nlPositions_append c, hp]
  simp

/-- A complete table stays complete over a token that is not a multi-line `not in`. -/
theorem linesInv_next_complete {content : Str} {s : Scanner} (h : LinesInv content s s.pos)
    (hb : ¬ BadNotIn (next s).1) : LinesInv content (next s).2 (next s).2.pos := by
  have hn := linesInv_next_start h
  obtain ⟨⟨g, hg⟩, hup⟩ := next_ok h.up
  obtain ⟨c, hc, hp⟩ := h.consumed
  obtain ⟨l, hl1, hl2, hl3⟩ := h.table
  obtain ⟨l', hl1', hl2', hl3', hl4'⟩ := hg.hlines
  refine ⟨hn.consumed, Nat.le_refl _, hup, [], ?_, by simp, by simp⟩
  have hl0 : l = [] := by
    cases l with
    | nil => rfl
    | cons x xs => have := hl2 x (by simp); omega
  rw [hl1', hl1, hl0, hl4' hb]
  have e1 : content.take s.pos = c := by rw [hc, hp, List.take_left]
  have e2 : content.take (next s).2.pos = c ++ (g ++ (next s).1.text) := by
    rw [hg.hpos, hg.start, hp, hc, hg.text]
    rw [show c ++ (g ++ ((next s).1.text ++ (next s).2.rest))
      = (c ++ (g ++ (next s).1.text)) ++ (next s).2.rest by simp]
    rw [show c.length + g.length + (next s).1.text.length
      = (c ++ (g ++ (next s).1.text)).length by simp; omega]
    rw [List.take_left]
  rw [e1, e2, nlPositions_append c, nlPositions_append g, hg.start, hp]
  simp

/-- Start and end of a token are in the consumed part. -/
theorem next_bounds {s : Scanner} (h : s.upcoming = none) :
    s.pos ≤ (next s).1.start ∧ (next s).1.start + (next s).1.text.length = (next s).2.pos := by
  obtain ⟨⟨g, hg⟩, -⟩ := next_ok h
  exact ⟨by rw [hg.start]; omega, hg.hpos.symm⟩

theorem linesInv_deliver {content : Str} {s : Scanner} {ok : Nat} (n : Nat)
    (h : LinesInv content s ok) : LinesInv content (deliver n s).2 ok := by
  induction n generalizing s with
  | zero => exact h
  | succ n ih => exact ih (linesInv_next h)

/-- Lookup in the complete part. -/
theorem linesInv_getPos {content : Str} {s : Scanner} {ok p : Nat} (h : LinesInv content s ok)
    (hp : p ≤ ok) :
    s.lines.getPos p = some ⟨(content.take p).count '\n',
      ((content.take p).reverse.takeWhile (· != '\n')).length⟩ := by
  obtain ⟨c, hc, hpos⟩ := h.consumed
  obtain ⟨l, hl1, hl2, -⟩ := h.table
  have hok := h.okLe
  have hlen : ok ≤ content.length := by rw [hc]; simp; omega
  have hplen : (content.take p).length = p := by simp; omega
  have key := getPos_table (content.take p) ((content.take ok).drop p)
  have e : content.take p ++ (content.take ok).drop p = content.take ok := by
    have := List.take_append_drop p (content.take ok)
    rwa [List.take_take, Nat.min_eq_left hp] at this
  rw [e, hplen] at key
  rw [← key, hl1]
  unfold LineMap.getPos
  have htw : ((0 :: nlPositions (content.take ok) 0) ++ l).takeWhile (fun b => decide (b ≤ p))
      = (0 :: nlPositions (content.take ok) 0).takeWhile (fun b => decide (b ≤ p)) := by
    have hl : l.takeWhile (fun b => decide (b ≤ p)) = [] := by
      cases l with
      | nil => rfl
      | cons x xs =>
        have := hl2 x (by simp)
        have : ¬ x ≤ p := by omega
        simp [this]
    rw [List.takeWhile_append]
    split
    · rename_i hlen
      rw [hl, (List.takeWhile_prefix _).eq_of_length hlen]; simp
    · rfl
  rw [htw]
  simp only
  have hle : ((0 :: nlPositions (content.take ok) 0).takeWhile (fun b => decide (b ≤ p))).length
      ≤ (0 :: nlPositions (content.take ok) 0).length := (List.takeWhile_prefix _).length_le
  split
  · rfl
  · rw [List.getElem?_append_left (by omega)]

end Scanner
end Bant
