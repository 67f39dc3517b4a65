import Verif.Lemmas.ParserFile
import Verif.Lemmas.NodeEq

/-! C17 (string literals), C18 (decimal literals), C54 (number literals). -/
namespace Bant.Props
open Parser Scanner

/-! ## C17 -/

/-- C17, full statement: the value of every string token is the text between its quotes. -/
def C17_statement : Prop :=
  ∀ (content : Str) (n : Nat), ∀ t ∈ (deliver n (Scanner.init content)).1, t.type = .stringLiteral →
    ∀ raw v, Denotes t.text raw v → ∃ triple, strFromLiteral t.text = some (.str v triple raw)

theorem denotes_body {lit v : Str} {raw : Bool} (h : Denotes lit raw v) :
    (stripRaw lit).1 = raw ∧
    ∃ q, q ∈ ['"', '\''] ∧
      (((stripRaw lit).2 = [q] ++ v ++ [q] ∧ (∀ w, v ≠ q :: w)) ∨
        (stripRaw lit).2 = [q, q, q] ++ v ++ [q, q, q]) := by
  cases h with
  | @single pre q units hs hu hq =>
    have h1 : stripRaw (pre ++ [q] ++ units.flatten ++ [q]) = (decide (pre ≠ []), [q] ++ units.flatten ++ [q]) := by
      obtain ⟨h1, h2⟩ := hs
      simp only [List.mem_cons, List.not_mem_nil, or_false] at h1 h2
      rcases h1 with rfl | rfl | rfl <;> rcases h2 with rfl | rfl <;> simp [stripRaw]
    refine ⟨by rw [h1], q, hs.2, Or.inl ⟨by rw [h1], ?_⟩⟩
    intro w hw
    cases units with
    | nil => simp at hw
    | cons u us =>
      rcases hu u (by simp) with ⟨c, rfl, hc⟩ | ⟨c, rfl⟩
      · simp at hw
        exact hq (by simp [hw.1])
      · simp at hw
        have := hs.2
        rw [← hw.1] at this
        simp at this
  | @triple pre q units hs hu hq hl =>
    have h1 : stripRaw (pre ++ [q, q, q] ++ units.flatten ++ [q, q, q]) =
        (decide (pre ≠ []), [q, q, q] ++ units.flatten ++ [q, q, q]) := by
      obtain ⟨h1, h2⟩ := hs
      simp only [List.mem_cons, List.not_mem_nil, or_false] at h1 h2
      rcases h1 with rfl | rfl | rfl <;> rcases h2 with rfl | rfl <;> simp [stripRaw]
    exact ⟨by rw [h1], q, hs.2, Or.inr (by rw [h1])⟩

/-- C17: every string token denotes something, so that the following theorems are about
all of them. -/
theorem C17_every_token_denotes (content : Str) (n : Nat) :
    ∀ t ∈ (deliver n (Scanner.init content)).1, t.type = .stringLiteral →
      ∃ raw v, Denotes t.text raw v := by
  intro t ht hty
  have hc := C52_token_class content n t ht
  rw [hty] at hc
  generalize content.drop (t.start + t.text.length) = r at hc
  generalize t.text = w at hc
  cases hc with
  | string h =>
    cases h with
    | single h1 h2 h3 h4 => exact ⟨_, _, .single h1 h2 h3⟩
    | triple h1 h2 h3 h4 => exact ⟨_, _, .triple h1 h2 h3 h4⟩
  | keyword h _ => simp [keywords] at h

/-- C17 is false: the quotes of a literal in three single quotes become part of the value. -/
theorem C17_counterexample : ¬ C17_statement := by
  intro h
  have hd : Denotes c!"'''a'''" (([] : Str) ≠ []) ([['a']] : List Str).flatten := by
    have := @Denotes.triple [] '\'' [['a']] (by simp [StringStart])
      (by simp [StringUnit]) (by
        intro a b hab
        have := congrArg List.length hab
        simp at this
        omega) (by
        intro a hab
        have := congrArg List.getLast? hab
        simp at this)
    simpa using this
  obtain ⟨tr, h1⟩ := h c!"'''a'''" 1 ⟨.stringLiteral, 0, c!"'''a'''", false⟩ (by decide +kernel) rfl _ _ hd
  have h2 : strFromLiteral c!"'''a'''" = some (.str c!"''a''" false false) := by decide +kernel
  rw [h2] at h1
  simp at h1

/-- C17 (partial: all literals but the ones in three single quotes). -/
theorem C17_string_value_partial (lit v : Str) (raw : Bool) (h : Denotes lit raw v)
    (hq : ¬ ∃ pre body, lit = pre ++ c!"'''" ++ body ∧ pre ∈ [[], ['r'], ['R']]) :
    ∃ triple, strFromLiteral lit = some (.str v triple raw) ∧
      (triple = true ↔ ∃ pre body, lit = pre ++ c!"\"\"\"" ++ body ∧ pre ∈ [[], ['r'], ['R']] ∧
        2 < body.length) := by
  obtain ⟨h1, q, hq2, h3⟩ := denotes_body h
  have hlit : ∃ pre, pre ∈ [[], ['r'], ['R']] ∧ lit = pre ++ (stripRaw lit).2 := by
    cases lit with
    | nil => exact ⟨[], by simp, by simp [stripRaw]⟩
    | cons c cs =>
      by_cases hc : c = 'r' ∨ c = 'R'
      · refine ⟨[c], ?_, by simp [stripRaw, hc]⟩
        rcases hc with rfl | rfl <;> simp
      · exact ⟨[], by simp, by simp [stripRaw, hc]⟩
  obtain ⟨pre, hpre, hlit⟩ := hlit
  simp only [strFromLiteral, h1]
  have nostrip : ∀ p b : Str, p ∈ ([[], ['r'], ['R']] : List Str) → lit = p ++ c!"\"\"\"" ++ b →
      (stripRaw lit).2 = c!"\"\"\"" ++ b := by
    intro p b hp hl
    simp only [List.mem_cons, List.not_mem_nil, or_false] at hp
    rcases hp with rfl | rfl | rfl <;> simp [hl, stripRaw]
  rcases h3 with ⟨hb, hv⟩ | hb
  · have hnot : ¬ (6 ≤ (stripRaw lit).2.length ∧ List.take 3 (stripRaw lit).2 = c!"\"\"\"") := by
      rw [hb]
      rintro ⟨hlen, htake⟩
      cases v with
      | nil => simp at hlen
      | cons c w =>
        simp at htake
        obtain ⟨rfl, rfl, _⟩ := htake
        exact hv w rfl
    refine ⟨false, ?_, ?_⟩
    · rw [if_neg hnot, hb]
      simp
    · simp only [Bool.false_eq_true, false_iff]
      rintro ⟨p, b, hl, hp, hlen⟩
      have := nostrip p b hp hl
      exact hnot ⟨by rw [this]; simp; omega, by rw [this]; simp⟩
  · have hqq : q = '"' := by
      simp only [List.mem_cons, List.not_mem_nil, or_false] at hq2
      rcases hq2 with h | rfl
      · exact h
      · exact absurd ⟨pre, v ++ c!"'''", by rw [hlit, hb]; simp, hpre⟩ hq
    subst hqq
    refine ⟨true, ?_, ?_⟩
    · rw [if_pos (by rw [hb]; simp), hb]
      simp
    · simp only [true_iff]
      exact ⟨pre, v ++ c!"\"\"\"", by rw [hlit, hb]; simp, hpre, by simp⟩

/-- C17: also a literal in three single quotes never leads to an invalid access, and its value
is only wrong by the additional quotes. -/
theorem C17_triple_single_quotes (v : Str) (raw : Bool) (lit : Str) (h : Denotes lit raw v)
    (pre : Str) (hpre : pre ∈ [[], ['r'], ['R']]) (hl : lit = pre ++ c!"'''" ++ v ++ c!"'''") :
    strFromLiteral lit = some (.str (c!"''" ++ v ++ c!"''") false raw) := by
  obtain ⟨h1, _⟩ := denotes_body h
  have hb : (stripRaw lit).2 = c!"'''" ++ v ++ c!"'''" := by
    simp only [List.mem_cons, List.not_mem_nil, or_false] at hpre
    rcases hpre with rfl | rfl | rfl <;> simp [hl, stripRaw]
  simp only [strFromLiteral, h1, hb]
  rw [if_neg (by simp), if_pos (by simp)]
  simp [List.take_append, List.take_of_length_le]

example : strFromLiteral c!"r\"a\\\"b\"" = some (.str c!"a\\\"b" false true) := by decide +kernel
example : strFromLiteral c!"\"\"\"a\"b\"\"\"" = some (.str c!"a\"b" true false) := by decide +kernel
example : strFromLiteral c!"''" = some (.str [] false false) := by decide +kernel

/-! ## C18 and C54 -/

theorem digitsPrefix_eq {base : Nat} (acc : Nat) (s : Str)
    (h : ∀ c ∈ s, digitValue base c = some (digitNumber c)) :
    digitsPrefix base acc s = acc * base ^ s.length + positional base s := by
  induction s generalizing acc with
  | nil => simp [digitsPrefix, positional]
  | cons c cs ih =>
    simp only [digitsPrefix, h c (by simp), positional, List.length_cons]
    rw [ih _ (fun d hd => h d (by simp [hd])), Nat.pow_succ, Nat.add_mul, Nat.mul_assoc,
      Nat.mul_comm base, Nat.add_assoc]

theorem fromChars_eq {base : Nat} {s : Str} (hs : s ≠ [])
    (h : ∀ c ∈ s, digitValue base c = some (digitNumber c)) :
    fromChars base s = if positional base s < 2 ^ 63 then some (Int.ofNat (positional base s)) else none := by
  cases s with
  | nil => exact absurd rfl hs
  | cons c cs =>
    simp only [fromChars, h c (by simp)]
    rw [digitsPrefix_eq 0 _ h]
    simp

theorem intFromLiteral_eq {s : Str} {v : Nat} (h : Reads s v) :
    intFromLiteral s = if v < 2 ^ 63 then some (.int s (Int.ofNat v)) else none := by
  have h10 : ∀ c ∈ c!"0123456789", digitValue 10 c = some (digitNumber c) := by decide +kernel
  have h16 : ∀ c ∈ c!"0123456789abcdefABCDEF", digitValue 16 c = some (digitNumber c) := by
    decide +kernel
  have h8 : ∀ c ∈ c!"01234567", digitValue 8 c = some (digitNumber c) := by decide +kernel
  cases h with
  | dec hne hd =>
    have hb : literalBase s = (10, s) := by
      match s, hne, hd with
      | [a], _, _ => rfl
      | a :: b :: rest, _, hd =>
        have hbm := hd b (by simp)
        simp only [literalBase]
        split
        · rename_i heq; simp at heq; rw [heq.2.1] at hbm; simp at hbm
        · rename_i heq; simp at heq; rw [heq.2.1] at hbm; simp at hbm
        · rfl
    simp only [intFromLiteral, hb]
    rw [fromChars_eq hne (fun c hc => h10 c (hd c hc))]
    by_cases hv : positional 10 s < 2 ^ 63 <;> simp only [hv, if_true, if_false]
  | @hex s hne hd =>
    have hb : literalBase ('0' :: 'x' :: s) = (16, s) := rfl
    simp only [intFromLiteral, hb]
    rw [fromChars_eq hne (fun c hc => h16 c (hd c hc))]
    by_cases hv : positional 16 s < 2 ^ 63 <;> simp only [hv, if_true, if_false]
  | @oct s hne hd =>
    have hb : literalBase ('0' :: 'o' :: s) = (8, s) := rfl
    simp only [intFromLiteral, hb]
    rw [fromChars_eq hne (fun c hc => h8 c (hd c hc))]
    by_cases hv : positional 8 s < 2 ^ 63 <;> simp only [hv, if_true, if_false]

/-- C18: a decimal literal gets the denoted value if it fits into 64 bit signed, otherwise it
is refused. -/
theorem C18_decimal_value (s : Str) (hne : s ≠ []) (hd : ∀ c ∈ s, c ∈ c!"0123456789") :
    intFromLiteral s =
      if positional 10 s ≤ 9223372036854775807 then some (.int s (Int.ofNat (positional 10 s)))
      else none := by
  rw [intFromLiteral_eq (.dec hne hd)]
  by_cases h : positional 10 s < 2 ^ 63
  · rw [if_pos h, if_pos (by omega)]
  · rw [if_neg h, if_neg (by omega)]

/-- C18: a decimal literal that is too large is reported as error wherever it is in a file. -/
theorem C18_overflow_reported (content : Str) (ts : List Token) (hts : TokensOf content ts)
    (t : Token) (ht : t ∈ ts) (hty : t.type = .numberLiteral) (hd : ∀ c ∈ t.text, c ∈ c!"0123456789")
    (hbig : 9223372036854775807 < positional 10 t.text) :
    ∃ tree st, parseFile content = some (tree, st) ∧ st.errs ≠ [] := by
  have hne : t.text ≠ [] := by intro h; rw [h] at hbig; simp [positional] at hbig
  obtain ⟨tree, st, h1, _⟩ := parseFile_total content
  refine ⟨tree, st, h1, ?_⟩
  intro he
  have hp := (parseFile_iff hts tree).1 ⟨st, h1, he⟩
  obtain ⟨pre, h2, h3⟩ : Eaten ts [] := eaten_ok hp
  simp only [List.append_nil] at h2
  subst h2
  refine (h3 t ht).2 hty ?_
  rw [C18_decimal_value _ hne hd, if_neg (by omega)]

/-- The boundary. -/
example : intFromLiteral c!"9223372036854775807" =
    some (.int c!"9223372036854775807" 9223372036854775807) := by decide +kernel
example : intFromLiteral c!"9223372036854775808" = none := by decide +kernel
example : positional 10 c!"1234" = 1234 := by decide +kernel

/-- C54, full statement: every number token has the value it denotes, or is refused. -/
def C54_statement : Prop :=
  ∀ (content : Str) (n : Nat), ∀ t ∈ (deliver n (Scanner.init content)).1, t.type = .numberLiteral →
    ∀ rep v, intFromLiteral t.text = some (.int rep v) → Reads t.text v.toNat

/-- C54 is false: digits that are not octal, and fractions, are cut off without error. -/
theorem C54_counterexample : ¬ C54_statement := by
  intro h
  have h1 := h c!"0o19" 1 ⟨.numberLiteral, 0, c!"0o19", false⟩ (by decide +kernel) rfl c!"0o19" 1
    (by decide +kernel)
  have key : ∀ l v, Reads l v → l = c!"0o19" → False := by
    intro l v hr hl
    cases hr with
    | dec h1 h2 =>
      subst hl
      exact absurd (h2 'o' (by simp)) (by simp)
    | hex h1 h2 => simp at hl
    | oct h1 h2 =>
      simp at hl
      subst hl
      exact absurd (h2 '9' (by simp)) (by simp)
  exact key _ _ h1 rfl

theorem C54_fraction_counterexample :
    (deliver 1 (Scanner.init c!"1.9")).1 = [⟨.numberLiteral, 0, c!"1.9", false⟩] ∧
      intFromLiteral c!"1.9" = some (.int c!"1.9" 1) := by decide +kernel

/-- C54 (partial: for tokens that are an integer literal in the sense of `Reads`): decimal,
hexadecimal and octal literals have their value or are refused if it does not fit; the text
is kept. -/
theorem C54_number_value_partial (s : Str) (v : Nat) (h : Reads s v) :
    intFromLiteral s = if v ≤ 9223372036854775807 then some (.int s (Int.ofNat v)) else none := by
  rw [intFromLiteral_eq h]
  by_cases h : v < 2 ^ 63
  · rw [if_pos h, if_pos (by omega)]
  · rw [if_neg h, if_neg (by omega)]

/-- C54: a prefix without digits is refused. -/
theorem C54_no_digits : intFromLiteral c!"0x" = none ∧ intFromLiteral c!"0o" = none := by
  decide +kernel

example : intFromLiteral c!"0xfF" = some (.int c!"0xfF" 255) := by decide +kernel
example : Reads c!"0xfF" 255 := by
  have := @Reads.hex c!"fF" (by simp) (by simp)
  have h : positional 16 c!"fF" = 255 := by decide +kernel
  rwa [h] at this

theorem digitValue_none {base : Nat} {digits : Str} {c : Char}
    (h : (base = 10 ∧ digits = c!"0123456789") ∨ (base = 8 ∧ digits = c!"01234567") ∨
      (base = 16 ∧ digits = c!"0123456789abcdefABCDEF")) (hc : c ∉ digits) : digitValue base c = none := by
  by_cases hs : c.toNat < 123
  · have key : ∀ n < 123, ((Char.ofNat n ∉ c!"0123456789" → digitValue 10 (Char.ofNat n) = none) ∧
        (Char.ofNat n ∉ c!"01234567" → digitValue 8 (Char.ofNat n) = none)) ∧
        (Char.ofNat n ∉ c!"0123456789abcdefABCDEF" → digitValue 16 (Char.ofNat n) = none) := by decide +kernel
    have := key c.toNat hs
    rw [Char.ofNat_toNat] at this
    rcases h with ⟨rfl, rfl⟩ | ⟨rfl, rfl⟩ | ⟨rfl, rfl⟩
    · exact this.1.1 hc
    · exact this.1.2 hc
    · exact this.2 hc
  · have hge : ∀ d : Char, d.toNat < 123 → ¬ c ≤ d := by
      intro d hd hle
      have : c.toNat ≤ d.toNat := hle
      omega
    have h1 := hge '9' (by decide)
    have h2 := hge 'z' (by decide)
    have h3 := hge 'Z' (by decide)
    simp [digitValue, h1, h2, h3]

theorem digitsPrefix_append {base acc : Nat} (p rest : Str)
    (h : ∀ c ∈ p, digitValue base c = some (digitNumber c))
    (hr : ∀ c, rest.head? = some c → digitValue base c = none) :
    digitsPrefix base acc (p ++ rest) = digitsPrefix base acc p := by
  induction p generalizing acc with
  | nil =>
    cases rest with
    | nil => rfl
    | cons c cs => simp [digitsPrefix, hr c rfl]
  | cons c cs ih =>
    simp only [List.cons_append, digitsPrefix, h c (by simp)]
    exact ih fun d hd => h d (by simp [hd])

theorem fromChars_append {base : Nat} (p rest : Str)
    (h : ∀ c ∈ p, digitValue base c = some (digitNumber c))
    (hr : ∀ c, rest.head? = some c → digitValue base c = none) :
    fromChars base (p ++ rest) =
      if p ≠ [] ∧ positional base p < 2 ^ 63 then some (Int.ofNat (positional base p)) else none := by
  cases p with
  | nil =>
    cases rest with
    | nil => rfl
    | cons c cs => simp [fromChars, hr c rfl]
  | cons c cs =>
    have := digitsPrefix_append (acc := 0) (c :: cs) rest h hr
    rw [List.cons_append] at this
    simp only [List.cons_append, fromChars, h c (by simp), this]
    rw [digitsPrefix_eq 0 _ h]
    simp

/-- C54, an exact account for every text without sign (number tokens have none): the second character tells the base; the value is that of the digits
up to the first character that is none, which is cut off with all that follows. Without digits, or
if the value does not fit, the text is refused. -/
theorem C54_account (s p rest : Str) (base : Nat) (digits : Str)
    (h : (base = 10 ∧ digits = c!"0123456789" ∧ s = p ++ rest ∧ ∀ c, s[1]? = some c → c ∉ ['o', 'x']) ∨
      (base = 8 ∧ digits = c!"01234567" ∧ ∃ c, s = c :: 'o' :: p ++ rest) ∨
      (base = 16 ∧ digits = c!"0123456789abcdefABCDEF" ∧ ∃ c, s = c :: 'x' :: p ++ rest))
    (hp : ∀ c ∈ p, c ∈ digits) (hr : ∀ c, rest.head? = some c → c ∉ digits) :
    intFromLiteral s =
      if p ≠ [] ∧ positional base p ≤ 9223372036854775807 then some (.int s (Int.ofNat (positional base p))) else none := by
  have hcase : (base = 10 ∧ digits = c!"0123456789") ∨ (base = 8 ∧ digits = c!"01234567") ∨
      (base = 16 ∧ digits = c!"0123456789abcdefABCDEF") := by
    rcases h with ⟨h1, h2, _⟩ | ⟨h1, h2, _⟩ | ⟨h1, h2, _⟩
    · exact .inl ⟨h1, h2⟩
    · exact .inr (.inl ⟨h1, h2⟩)
    · exact .inr (.inr ⟨h1, h2⟩)
  have hb : literalBase s = (base, p ++ rest) := by
    rcases h with ⟨rfl, _, rfl, h4⟩ | ⟨rfl, _, c, rfl⟩ | ⟨rfl, _, c, rfl⟩
    · unfold literalBase
      split
      · next e => exact absurd (h4 'o' (by rw [e]; rfl)) (by simp)
      · next e => exact absurd (h4 'x' (by rw [e]; rfl)) (by simp)
      · rfl
    · rfl
    · rfl
  have h10 : ∀ c ∈ c!"0123456789", digitValue 10 c = some (digitNumber c) := by decide +kernel
  have h16 : ∀ c ∈ c!"0123456789abcdefABCDEF", digitValue 16 c = some (digitNumber c) := by decide +kernel
  have h8 : ∀ c ∈ c!"01234567", digitValue 8 c = some (digitNumber c) := by decide +kernel
  have hd : ∀ c ∈ p, digitValue base c = some (digitNumber c) := by
    intro c hc
    rcases hcase with ⟨rfl, rfl⟩ | ⟨rfl, rfl⟩ | ⟨rfl, rfl⟩
    · exact h10 c (hp c hc)
    · exact h8 c (hp c hc)
    · exact h16 c (hp c hc)
  unfold intFromLiteral
  rw [hb]
  simp only []
  rw [fromChars_append p rest hd fun c hc => digitValue_none hcase (hr c hc)]
  have : positional base p ≤ 9223372036854775807 ↔ positional base p < 2 ^ 63 := by omega
  simp only [this]
  by_cases hc : p ≠ [] ∧ positional base p < 2 ^ 63
  · simp only [if_pos hc]
  · simp only [if_neg hc]

/-- Of `0o19` only the `1` counts; `1.9` is 1; `0xg` is refused. -/
example : intFromLiteral c!"0o19" = some (.int c!"0o19" 1) ∧ intFromLiteral c!"0xg" = none :=
  ⟨C54_account c!"0o19" c!"1" c!"9" 8 c!"01234567" (.inr (.inl ⟨rfl, rfl, '0', rfl⟩)) (by decide) (by decide),
   C54_account c!"0xg" [] c!"g" 16 c!"0123456789abcdefABCDEF" (.inr (.inr ⟨rfl, rfl, '0', rfl⟩)) (by decide) (by decide)⟩

end Bant.Props
