import Verif.Lemmas.ParserFile

/-! Which text the scanner turns into which token: the direction from text to token. -/
namespace Bant
namespace Relex
open Scanner

/-- Characters that are skipped between tokens. -/
def skipped (c : Char) : Bool := isSpace c || c == '\\' || c == '#'

/-- `w` in front of `rest` is scanned as a token of that type. -/
def Lexes (ty : TokenType) (w rest : Str) : Prop :=
  ∃ c cs, w = c :: cs ∧ skipped c = false ∧ (ty ≠ .kNotIn ∨ '\n' ∉ w) ∧
    ∀ pos lines nl, (dispatch c (cs ++ rest) pos lines nl).type = ty ∧
      (dispatch c (cs ++ rest) pos lines nl).text = w

theorem lexes_punct {c : Char} {rest : Str} (h : c ∈ c!"(){}[],:+-*/.%|") :
    Lexes (.op c) [c] rest := by
  refine ⟨c, [], rfl, ?_, Or.inl (by simp), ?_⟩
  · simp only [List.mem_cons, List.not_mem_nil, or_false] at h
    rcases h with rfl | rfl | rfl | rfl | rfl | rfl | rfl | rfl | rfl | rfl | rfl | rfl | rfl | rfl | rfl <;> rfl
  · intro pos lines nl
    have : singleChars.contains c = true := by simpa [singleChars] using h
    simp only [dispatch, this, if_true, and_self]

theorem lexes_rel {c : Char} {rest : Str} (h : c ∈ c!"!<>=") (hr : rest.head? ≠ some '=') :
    Lexes (.op c) [c] rest := by
  refine ⟨c, [], rfl, ?_, Or.inl (by simp), ?_⟩
  · simp only [List.mem_cons, List.not_mem_nil, or_false] at h
    rcases h with rfl | rfl | rfl | rfl <;> rfl
  · intro pos lines nl
    have e : handleRelational c rest = (.op c, [c]) := by
      unfold handleRelational
      split
      · simp at hr
      · rfl
    simp only [List.mem_cons, List.not_mem_nil, or_false] at h
    rcases h with rfl | rfl | rfl | rfl <;> simp [dispatch, singleChars, e]

theorem lexes_relEq {c : Char} {rest : Str} (h : c ∈ c!"!<>=") :
    Lexes (.opEq c) [c, '='] rest := by
  refine ⟨c, ['='], rfl, ?_, Or.inl (by simp), ?_⟩
  · simp only [List.mem_cons, List.not_mem_nil, or_false] at h
    rcases h with rfl | rfl | rfl | rfl <;> rfl
  · intro pos lines nl
    simp only [List.mem_cons, List.not_mem_nil, or_false] at h
    rcases h with rfl | rfl | rfl | rfl <;> simp [dispatch, singleChars, handleRelational]

/-! ### Words -/

theorem takeWhile_word {w rest : Str} (h : ∀ d ∈ w, isIdentifierChar d = true)
    (hr : ¬ startsWithWordChar rest) : (w ++ rest).takeWhile isIdentifierChar = w := by
  induction w with
  | nil =>
    cases rest with
    | nil => rfl
    | cons c cs =>
      have : isIdentifierChar c = false := by
        cases e : isIdentifierChar c
        · rfl
        · exact absurd ⟨c, cs, rfl, e⟩ hr
      simp [this]
  | cons d w ih =>
    simp only [List.mem_cons, forall_eq_or_imp] at h
    rw [List.cons_append, List.takeWhile_cons, if_pos h.1, ih h.2]

theorem word_start {c : Char} (h1 : isIdentifierChar c = true) (h2 : isDigit c = false)
    (cs : Str) (pos : Nat) (lines : LineMap) (nl : Nat) :
    dispatch c cs pos lines nl = handleWord (c :: cs) pos lines nl ∧ skipped c = false := by
  have key : ∀ d : Char, isIdentifierChar d = false → c ≠ d := by
    intro d hd e; subst e; rw [h1] at hd; cases hd
  have k := fun d => key d
  have h3 : singleChars.contains c = false := by
    simp only [singleChars, List.contains_eq_mem, List.mem_cons, List.not_mem_nil, or_false]
    simp [key '(' rfl, key ')' rfl, key '{' rfl, key '}' rfl, key '[' rfl, key ']' rfl,
      key ',' rfl, key ':' rfl, key '+' rfl, key '-' rfl, key '*' rfl, key '/' rfl, key '.' rfl,
      key '%' rfl, key '|' rfl]
  constructor
  · unfold dispatch
    rw [if_neg (by rw [h3]; simp), if_neg (key '!' rfl),
      if_neg (by simp [key '<' rfl, key '>' rfl, key '=' rfl]), if_neg (by simp [h2]),
      if_neg (by simp [key '"' rfl, key '\'' rfl])]
  · simp [skipped, isSpace, key ' ' rfl, key '\t' rfl, key '\n' rfl, key '\x0b' rfl,
      key '\x0c' rfl, key '\r' rfl, key '\\' rfl, key '#' rfl]

/-- A word that is not followed by a quote or a word character. -/
theorem handleWord_word {c : Char} {w rest : Str} (hw : ∀ d ∈ c :: w, isIdentifierChar d = true)
    (hr : ¬ startsWithWordChar rest) (hq : ∀ q, rest.head? = some q → q ≠ '"' ∧ q ≠ '\'')
    (hn : c :: w ≠ c!"not") (pos : Nat) (lines : LineMap) (nl : Nat) :
    handleWord (c :: (w ++ rest)) pos lines nl = ⟨wordType (c :: w), c :: w, lines, nl⟩ := by
  have hraw : isRawString (c :: (w ++ rest)) = false := by
    cases w with
    | cons d w =>
      have : isIdentifierChar d = true := hw d (by simp)
      have h1 : d ≠ '"' := by rintro rfl; revert this; decide
      have h2 : d ≠ '\'' := by rintro rfl; revert this; decide
      cases hx : w ++ rest <;> simp [isRawString, hx, h1, h2]
    | nil =>
      cases rest with
      | nil => rfl
      | cons d ds =>
        have := hq d rfl
        cases ds <;> simp [isRawString, this]
  have htw := takeWhile_word hw hr
  rw [List.cons_append] at htw
  unfold handleWord
  rw [if_neg (by simp [hraw])]
  simp only [htw]
  rw [if_neg (by simp [hw c (by simp)]), if_neg hn]

theorem lexes_word {c : Char} {w rest : Str} (hd : isDigit c = false)
    (hw : ∀ d ∈ c :: w, isIdentifierChar d = true)
    (hr : ¬ startsWithWordChar rest) (hq : ∀ q, rest.head? = some q → q ≠ '"' ∧ q ≠ '\'')
    (hn : c :: w ≠ c!"not") : Lexes (wordType (c :: w)) (c :: w) rest := by
  refine ⟨c, w, rfl, (word_start (hw c (by simp)) hd [] 0 [] 0).2, ?_, ?_⟩
  · left; unfold wordType; repeat' split
    all_goals simp
  · intro pos lines nl
    rw [(word_start (hw c (by simp)) hd _ pos lines nl).1, handleWord_word hw hr hq hn]
    exact ⟨rfl, rfl⟩

theorem lexes_identifier {c : Char} {w rest : Str} (hd : isDigit c = false)
    (hw : ∀ d ∈ c :: w, isIdentifierChar d = true) (hk : ∀ ty, (c :: w, ty) ∉ keywords)
    (hr : ¬ startsWithWordChar rest) (hq : ∀ q, rest.head? = some q → q ≠ '"' ∧ q ≠ '\'')
    (hn : c :: w ≠ c!"not") : Lexes .identifier (c :: w) rest := by
  have := lexes_word hd hw hr hq hn
  have e : wordType (c :: w) = .identifier := by
    unfold wordType
    have k : ∀ v ty, (v, ty) ∈ keywords → c :: w ≠ v := by
      intro v ty hm he; exact hk ty (he ▸ hm)
    rw [if_neg (k _ .kIn (by simp [keywords])), if_neg (k _ .kFor (by simp [keywords])),
      if_neg (k _ .kAnd (by simp [keywords])), if_neg (k _ .kOr (by simp [keywords])),
      if_neg (k _ .kIf (by simp [keywords])), if_neg (k _ .kElse (by simp [keywords]))]
  rwa [e] at this

/-- A keyword followed by a blank. -/
theorem lexes_keyword {w : Str} {ty : TokenType} {rest : Str} (h : (w, ty) ∈ keywords) :
    Lexes ty w (' ' :: rest) := by
  have hr : ¬ startsWithWordChar (' ' :: rest) := by
    rintro ⟨c, cs, h1, h2⟩; cases h1; revert h2; decide
  have hq : ∀ q, (' ' :: rest).head? = some q → q ≠ '"' ∧ q ≠ '\'' := by
    intro q h; cases h; decide
  simp only [keywords, List.mem_cons, Prod.mk.injEq, List.not_mem_nil, or_false] at h
  rcases h with ⟨rfl, rfl⟩ | ⟨rfl, rfl⟩ | ⟨rfl, rfl⟩ | ⟨rfl, rfl⟩ | ⟨rfl, rfl⟩ | ⟨rfl, rfl⟩ <;>
    exact lexes_word (by decide) (by decide) hr hq (by decide)

theorem lexes_notIn {rest : Str} : Lexes .kNotIn c!"not in" rest := by
  refine ⟨'n', _, rfl, rfl, Or.inr (by decide), ?_⟩
  intro pos lines nl
  rw [(word_start (by decide) (by decide) _ pos lines nl).1]
  have htw : (c!"not" ++ (' ' :: 'i' :: 'n' :: rest)).takeWhile isIdentifierChar = c!"not" :=
    takeWhile_word (by decide) (by rintro ⟨c, cs, h1, h2⟩; cases h1; revert h2; decide)
  simp only [List.cons_append, List.nil_append] at htw ⊢
  unfold handleWord
  rw [if_neg (by simp [isRawString])]
  simp only [htw]
  rw [if_neg (by decide), if_pos trivial]
  have : consumeOptionalIn (' ' :: 'i' :: 'n' :: rest) = some c!" in" := by
    have h1 : (' ' :: 'i' :: 'n' :: rest).takeWhile isSpace = [' '] := by
      rw [List.takeWhile_cons, if_pos (by decide), List.takeWhile_cons, if_neg (by decide)]
    simp [consumeOptionalIn, h1]
  simp [this]

theorem lexes_not {rest : Str} (h1 : ∀ c, rest.head? = some c → isSpace c = false)
    (h2 : ¬ c!"in" <+: rest) : Lexes (.op '!') c!"not" (' ' :: rest) := by
  refine ⟨'n', _, rfl, rfl, Or.inr (by decide), ?_⟩
  intro pos lines nl
  rw [(word_start (by decide) (by decide) _ pos lines nl).1]
  have htw : (c!"not" ++ (' ' :: rest)).takeWhile isIdentifierChar = c!"not" :=
    takeWhile_word (by decide) (by rintro ⟨c, cs, h1, h2⟩; cases h1; revert h2; decide)
  simp only [List.cons_append, List.nil_append] at htw ⊢
  unfold handleWord
  rw [if_neg (by simp [isRawString])]
  simp only [htw]
  rw [if_neg (by decide), if_pos trivial]
  have : consumeOptionalIn (' ' :: rest) = none := by
    have h3 : (' ' :: rest).takeWhile isSpace = [' '] := by
      rw [List.takeWhile_cons, if_pos (by decide)]
      cases rest with
      | nil => rfl
      | cons d ds => rw [List.takeWhile_cons, if_neg (by simp [h1 d rfl])]
    simp only [consumeOptionalIn, h3, List.length_singleton, List.drop_succ_cons, List.drop_zero]
    split
    · exact absurd ⟨_, rfl⟩ h2
    · rfl
  simp [this]

/-! ### Numbers -/

theorem numberLoop_all (d : Char → Bool) (dot : Bool) (s rest : Str)
    (h : ∀ c ∈ s, d c = true ∨ c = '.') (hc : s.count '.' ≤ (if dot then 0 else 1))
    (hr : ∀ c cs, rest = c :: cs → d c = false ∧ c ≠ '.') :
    numberLoop d dot (s ++ rest) = (s, false) := by
  induction s generalizing dot with
  | nil =>
    cases rest with
    | nil => rfl
    | cons c cs => simp [numberLoop, (hr c cs rfl).1, (hr c cs rfl).2]
  | cons c s ih =>
    simp only [List.mem_cons, forall_eq_or_imp] at h
    rw [List.cons_append, numberLoop, if_pos (by simpa using h.1)]
    by_cases e : c = '.'
    · subst e
      cases dot with
      | true => simp at hc
      | false =>
        simp only [List.count_cons_self, Bool.false_eq_true, if_false] at hc
        rw [if_neg (by simp), ih _ h.2 (by simp; omega)]
    · have : (c == '.') = false := by simpa using e
      rw [if_neg (by simp [e]), ih _ h.2 (by simpa [this, e] using hc)]

theorem digit_start {c : Char} (h : isDigit c = true) (cs : Str) (pos : Nat) (lines : LineMap)
    (nl : Nat) : dispatch c cs pos lines nl =
      ⟨(handleNumber c cs).1, (handleNumber c cs).2, lines, nl⟩ ∧ skipped c = false := by
  have key : ∀ d : Char, isDigit d = false → c ≠ d := by
    intro d hd e; subst e; rw [h] at hd; cases hd
  have h3 : singleChars.contains c = false := by
    simp only [singleChars, List.contains_eq_mem, List.mem_cons, List.not_mem_nil, or_false]
    simp [key '(' rfl, key ')' rfl, key '{' rfl, key '}' rfl, key '[' rfl, key ']' rfl,
      key ',' rfl, key ':' rfl, key '+' rfl, key '-' rfl, key '*' rfl, key '/' rfl, key '.' rfl,
      key '%' rfl, key '|' rfl]
  constructor
  · unfold dispatch
    rw [if_neg (by rw [h3]; simp), if_neg (key '!' rfl),
      if_neg (by simp [key '<' rfl, key '>' rfl, key '=' rfl]), if_pos h]
  · simp [skipped, isSpace, key ' ' rfl, key '\t' rfl, key '\n' rfl, key '\x0b' rfl,
      key '\x0c' rfl, key '\r' rfl, key '\\' rfl, key '#' rfl]

theorem lexes_number {d : Char → Bool} {s rest : Str} (h : NumberText d s)
    (hr : ∀ c cs, rest = c :: cs → isXDigit c = false ∧ c ≠ '.' ∧ c ≠ 'x' ∧ c ≠ 'o') :
    Lexes .numberLiteral s rest := by
  have hdec : ∀ c, isXDigit c = false → isDigit c = false := by
    intro c hc
    simp only [isXDigit, isDigit, Bool.or_eq_false_iff] at hc ⊢
    exact hc.1.1
  cases h with
  | @hex s hs =>
    refine ⟨'0', _, rfl, rfl, Or.inl (by simp), ?_⟩
    intro pos lines nl
    rw [(digit_start (by decide) _ pos lines nl).1]
    have := numberLoop_all isXDigit false s rest hs.1 (by simpa using hs.2)
      (fun c cs e => ⟨(hr c cs e).1, (hr c cs e).2.1⟩)
    simp [handleNumber, numberBase, this]
  | @oct s hs =>
    refine ⟨'0', _, rfl, rfl, Or.inl (by simp), ?_⟩
    intro pos lines nl
    rw [(digit_start (by decide) _ pos lines nl).1]
    have := numberLoop_all isDigit false s rest hs.1 (by simpa using hs.2)
      (fun c cs e => ⟨hdec _ (hr c cs e).1, (hr c cs e).2.1⟩)
    simp [handleNumber, numberBase, this]
  | @dec c s hc hs =>
    refine ⟨c, s, rfl, (digit_start hc [] 0 [] 0).2, Or.inl (by simp), ?_⟩
    intro pos lines nl
    rw [(digit_start hc _ pos lines nl).1]
    have hb : numberBase c (s ++ rest) = ([], isDigit) := by
      have hx : ∀ e, (s ++ rest).head? = some e → e ≠ 'x' ∧ e ≠ 'o' := by
        intro e he
        cases s with
        | nil =>
          cases rest with
          | nil => cases he
          | cons r rs => cases he; exact (hr _ rs rfl).2.2
        | cons a s =>
          obtain rfl : a = e := by simpa using he
          rcases hs.1 a (by simp) with h | h
          · constructor <;> rintro rfl <;> revert h <;> decide
          · subst h; decide
      unfold numberBase
      split
      · exact absurd rfl (hx 'x' (by simp_all)).1
      · exact absurd rfl (hx 'o' (by simp_all)).2
      · rfl
    have := numberLoop_all isDigit false s rest hs.1 (by simpa using hs.2)
      (fun c cs e => ⟨hdec _ (hr c cs e).1, (hr c cs e).2.1⟩)
    simp [handleNumber, hb, this]

/-! ### Strings -/

/-- The loop passes over the pieces of the string and stops at the closing quote. -/
theorem stringLoop_units (q : Char) (hq : q ≠ '\\') (units : List Str)
    (hu : ∀ u ∈ units, StringUnit u) (hn : [q] ∉ units) (rest : Str) (pos : Nat)
    (lines : LineMap) (nl : Nat) :
    (stringLoop q false (units.flatten ++ q :: rest) pos lines nl 1 false).1 = units.flatten ∧
    (stringLoop q false (units.flatten ++ q :: rest) pos lines nl 1 false).2.2.2 = true := by
  induction units generalizing pos lines nl with
  | nil => simp [stringLoop]
  | cons u us ih =>
    have hu1 := hu u (by simp)
    have ih := fun p l n => ih (fun v hv => hu v (by simp [hv])) (fun h => hn (by simp [h])) p l n
    rcases hu1 with ⟨c, rfl, hc⟩ | ⟨c, rfl⟩
    · have hcq : (c == q) = false := by
        simp only [beq_eq_false_iff_ne]; rintro rfl; exact hn (by simp)
      have hcb : (c == '\\') = false := by simpa using hc
      simp [stringLoop, hcq, hcb]
      exact ih _ _ _
    · have hbq : ('\\' == q) = false := by simpa using Ne.symm hq
      simp [stringLoop, hbq]
      exact ih _ _ _

/-- The loop of a triple quoted string passes over text without quotes. -/
theorem stringLoop_plain (q : Char) (hq : q ≠ '\\') (units : List Str)
    (hu : ∀ u ∈ units, StringUnit u) (hn : q ∉ units.flatten) (rest : Str) (pos : Nat)
    (lines : LineMap) (nl : Nat) :
    (stringLoop q true (units.flatten ++ q :: q :: q :: rest) pos lines nl 3 false).1
      = units.flatten ++ [q, q] ∧
    (stringLoop q true (units.flatten ++ q :: q :: q :: rest) pos lines nl 3 false).2.2.2 = true := by
  induction units generalizing pos lines nl with
  | nil =>
    have : (q == '\\') = false := by simpa using hq
    simp [stringLoop, this]
  | cons u us ih =>
    have hu1 := hu u (by simp)
    have ih := fun p l n => ih (fun v hv => hu v (by simp [hv]))
      (fun h => hn (by rw [List.flatten_cons]; exact List.mem_append_right _ h)) p l n
    rcases hu1 with ⟨c, rfl, hc⟩ | ⟨c, rfl⟩
    · have hcq : (c == q) = false := by
        simp only [beq_eq_false_iff_ne]; rintro rfl; exact hn (by simp)
      have hcb : (c == '\\') = false := by simpa using hc
      simp [stringLoop, hcq, hcb]
      simpa using ih _ _ _
    · have hbq : ('\\' == q) = false := by simpa using Ne.symm hq
      simp [stringLoop, hbq]
      simpa using ih _ _ _

theorem handleString_single {pre : Str} {q : Char} {units : List Str} {rest : Str}
    (hp : pre ∈ [[], ['r']]) (hq : q ∈ ['"', '\'']) (hu : ∀ u ∈ units, StringUnit u)
    (hn : [q] ∉ units) (hr : units = [] → rest.head? ≠ some q) (pos : Nat) (lines : LineMap)
    (nl : Nat) :
    (handleString (pre ++ [q] ++ units.flatten ++ [q] ++ rest) pos lines nl).type = .stringLiteral ∧
    (handleString (pre ++ [q] ++ units.flatten ++ [q] ++ rest) pos lines nl).text
      = pre ++ [q] ++ units.flatten ++ [q] := by
  have hqb : q ≠ '\\' := by
    simp only [List.mem_cons, List.not_mem_nil, or_false] at hq
    rcases hq with rfl | rfl <;> decide
  have hqr : ¬ (q = 'r' ∨ q = 'R') := by
    simp only [List.mem_cons, List.not_mem_nil, or_false] at hq
    rcases hq with rfl | rfl <;> decide
  have htr : isTriple q (units.flatten ++ q :: rest) = false := by
    cases units with
    | nil =>
      have := hr rfl
      cases rest with
      | nil => simp [isTriple]
      | cons c cs =>
        have : (c == q) = false := by simpa using this
        simp [isTriple, this]
    | cons u us =>
      rcases hu u (by simp) with ⟨c, rfl, hc⟩ | ⟨c, rfl⟩
      · have hcq : (c == q) = false := by
          simp only [beq_eq_false_iff_ne]; rintro rfl; exact hn (by simp)
        cases hx : us.flatten ++ q :: rest <;> simp [isTriple, hx, hcq]
      · have hbq : ('\\' == q) = false := by simpa using Ne.symm hqb
        simp [isTriple, hbq]
  have hl := fun p => stringLoop_units q hqb units hu hn rest p lines nl
  simp only [List.mem_cons, List.not_mem_nil, or_false] at hp
  rcases hp with rfl | rfl
  · simp [handleString, rawPrefix, hqr, htr, hl]
  · simp [handleString, rawPrefix, htr, hl]

theorem handleString_triple {pre : Str} {q : Char} {units : List Str} {rest : Str}
    (hp : pre ∈ [[], ['r']]) (hq : q ∈ ['"', '\'']) (hu : ∀ u ∈ units, StringUnit u)
    (hn : q ∉ units.flatten) (pos : Nat) (lines : LineMap) (nl : Nat) :
    (handleString (pre ++ [q, q, q] ++ units.flatten ++ [q, q, q] ++ rest) pos lines nl).type
      = .stringLiteral ∧
    (handleString (pre ++ [q, q, q] ++ units.flatten ++ [q, q, q] ++ rest) pos lines nl).text
      = pre ++ [q, q, q] ++ units.flatten ++ [q, q, q] := by
  have hqb : q ≠ '\\' := by
    simp only [List.mem_cons, List.not_mem_nil, or_false] at hq
    rcases hq with rfl | rfl <;> decide
  have hqr : ¬ (q = 'r' ∨ q = 'R') := by
    simp only [List.mem_cons, List.not_mem_nil, or_false] at hq
    rcases hq with rfl | rfl <;> decide
  have hl := fun p => stringLoop_plain q hqb units hu hn rest p lines nl
  simp only [List.mem_cons, List.not_mem_nil, or_false] at hp
  rcases hp with rfl | rfl
  · simp [handleString, rawPrefix, hqr, isTriple, hl]
  · simp [handleString, rawPrefix, isTriple, hl]

theorem quote_start {q : Char} (hq : q ∈ ['"', '\'']) (cs : Str) (pos : Nat) (lines : LineMap)
    (nl : Nat) : dispatch q cs pos lines nl = handleString (q :: cs) pos lines nl ∧
      skipped q = false := by
  simp only [List.mem_cons, List.not_mem_nil, or_false] at hq
  rcases hq with rfl | rfl
  · exact ⟨by simp [dispatch, singleChars, isDigit], by decide⟩
  · exact ⟨by simp [dispatch, singleChars, isDigit], by decide⟩

theorem raw_start {q : Char} (hq : q ∈ ['"', '\'']) (d : Char) (cs : Str) (pos : Nat)
    (lines : LineMap) (nl : Nat) :
    dispatch 'r' (q :: d :: cs) pos lines nl = handleString ('r' :: q :: d :: cs) pos lines nl := by
  rw [(word_start (by decide) (by decide) _ pos lines nl).1]
  unfold handleWord
  rw [if_pos]
  simp only [List.mem_cons, List.not_mem_nil, or_false] at hq
  rcases hq with rfl | rfl <;> simp [isRawString]

theorem lexes_string {pre : Str} {q : Char} {body tail rest : Str} (hp : pre ∈ [[], ['r']])
    (hq : q ∈ ['"', '\'']) (ht : tail ≠ [])
    (h : ∀ pos lines nl,
      (handleString (pre ++ [q] ++ body ++ tail ++ rest) pos lines nl).type = .stringLiteral ∧
      (handleString (pre ++ [q] ++ body ++ tail ++ rest) pos lines nl).text
        = pre ++ [q] ++ body ++ tail) :
    Lexes .stringLiteral (pre ++ [q] ++ body ++ tail) rest := by
  simp only [List.mem_cons, List.not_mem_nil, or_false] at hp
  rcases hp with rfl | rfl
  · refine ⟨q, body ++ tail, by simp, (quote_start hq [] 0 [] 0).2, Or.inl (by simp), ?_⟩
    intro pos lines nl
    rw [(quote_start hq _ pos lines nl).1]
    simpa using h pos lines nl
  · refine ⟨'r', q :: (body ++ tail), by simp, rfl, Or.inl (by simp), ?_⟩
    intro pos lines nl
    obtain ⟨d, cs, hd⟩ : ∃ d cs, body ++ tail ++ rest = d :: cs := by
      cases body with
      | cons d b => exact ⟨d, _, rfl⟩
      | nil => cases tail with
        | nil => exact absurd rfl ht
        | cons d t => exact ⟨d, _, rfl⟩
    have h := h pos lines nl
    simp only [List.cons_append, List.nil_append, List.append_assoc] at h hd ⊢
    rw [hd] at h ⊢
    rw [raw_start hq]
    simpa using h

theorem lexes_single {pre : Str} {q : Char} {units : List Str} {rest : Str}
    (hp : pre ∈ [[], ['r']]) (hq : q ∈ ['"', '\'']) (hu : ∀ u ∈ units, StringUnit u)
    (hn : [q] ∉ units) (hr : units = [] → rest.head? ≠ some q) :
    Lexes .stringLiteral (pre ++ [q] ++ units.flatten ++ [q]) rest :=
  lexes_string hp hq (by simp) (handleString_single hp hq hu hn hr)

theorem lexes_triple {pre : Str} {q : Char} {units : List Str} {rest : Str}
    (hp : pre ∈ [[], ['r']]) (hq : q ∈ ['"', '\'']) (hu : ∀ u ∈ units, StringUnit u)
    (hn : q ∉ units.flatten) :
    Lexes .stringLiteral (pre ++ [q, q, q] ++ units.flatten ++ [q, q, q]) rest := by
  have := lexes_string (pre := pre) (q := q) (body := [q, q] ++ units.flatten)
    (tail := [q, q, q]) (rest := rest) hp hq (by simp) (by
      intro pos lines nl
      simpa using handleString_triple hp hq hu hn (rest := rest) pos lines nl)
  simpa using this

end Relex
end Bant
