import Verif.Spec.Layout
import Verif.Lemmas.Relex

/-! Lemmas about texts with other layout: the scanner. -/
namespace Bant
namespace Layout
open Scanner Relex Parser LayoutSpec

/-! ### What a token depends on -/

/-- What can follow a token instead of `rest`. -/
def Compat (rest rest' : Str) : Prop :=
  (∀ c, rest'.head? = some c → skipped c = true) ∨
    ∃ c w a b, rest = c :: (w ++ a) ∧ rest' = c :: (w ++ b) ∧ (c = '"' ∨ c = '\'' → w ≠ [])

theorem Compat.head {rest rest' : Str} (h : Compat rest rest') {p : Char → Prop}
    (hp : ∀ c, skipped c = true → p c) (hr : ∀ c, rest.head? = some c → p c) :
    ∀ c, rest'.head? = some c → p c := by
  rcases h with h | ⟨c, w, a, b, rfl, rfl, _⟩
  · exact fun c hc => hp c (h c hc)
  · exact hr

theorem skipped_iff {c : Char} : skipped c = true ↔ c ∈ [' ', '\t', '\n', '\x0b', '\x0c', '\r', '\\', '#'] := by
  simp [skipped, isSpace, or_assoc]

theorem skipped_all {p : Char → Prop}
    (h : p ' ' ∧ p '\t' ∧ p '\n' ∧ p '\x0b' ∧ p '\x0c' ∧ p '\r' ∧ p '\\' ∧ p '#') :
    ∀ c, skipped c = true → p c := by
  intro c hc
  rw [skipped_iff] at hc
  simp only [List.mem_cons, List.not_mem_nil, or_false] at hc
  obtain ⟨h1, h2, h3, h4, h5, h6, h7, h8⟩ := h
  rcases hc with rfl | rfl | rfl | rfl | rfl | rfl | rfl | rfl <;> assumption

theorem stringLoop_local (q : Char) (tr : Bool) (x : Str) (pos : Nat) (lines : LineMap) (nl cc : Nat) (esc : Bool)
    (h : (stringLoop q tr x pos lines nl cc esc).2.2.2 = true) :
    ∃ rest, x = (stringLoop q tr x pos lines nl cc esc).1 ++ q :: rest ∧ ∀ rest' pos' lines' nl',
      (stringLoop q tr ((stringLoop q tr x pos lines nl cc esc).1 ++ q :: rest') pos' lines' nl' cc esc).1 =
        (stringLoop q tr x pos lines nl cc esc).1 ∧
      (stringLoop q tr ((stringLoop q tr x pos lines nl cc esc).1 ++ q :: rest') pos' lines' nl' cc esc).2.2.2 =
        true := by
  induction x generalizing pos lines nl cc esc with
  | nil => simp [stringLoop] at h
  | cons c cs ih =>
    rw [stringLoop] at h ⊢
    by_cases hq : ((c == q && !esc) && cc == 1) = true
    · simp only [hq, if_true, List.nil_append]
      simp only [Bool.and_eq_true, beq_iff_eq] at hq
      obtain ⟨⟨rfl, he⟩, rfl⟩ := hq
      refine ⟨cs, rfl, fun rest' pos' lines' nl' => ?_⟩
      rw [stringLoop]
      simp [he]
    · simp only [hq, if_false, Bool.false_eq_true] at h ⊢
      obtain ⟨rest, h1, h2⟩ := ih _ _ _ _ _ h
      refine ⟨rest, congrArg (c :: ·) h1, fun rest' pos' lines' nl' => ?_⟩
      rw [List.cons_append, stringLoop]
      simp only [hq, if_false, Bool.false_eq_true]
      obtain ⟨h3, h4⟩ := h2 rest' (pos' + 1) (if c = '\n' then lines' ++ [pos' + 1] else lines')
        (if c = '\n' then nl' + 1 else nl')
      rw [h3]
      exact ⟨rfl, h4⟩

theorem isTriple_local {q : Char} {txt rest rest' : Str} (h : txt = [] → rest'.head? = some q → rest.head? = some q)
    (hr : isTriple q (txt ++ q :: rest) = false) : isTriple q (txt ++ q :: rest') = false := by
  match txt with
  | [] =>
    cases rest' with
    | nil => rfl
    | cons c cs =>
      cases rest with
      | nil =>
        simp only [List.nil_append, isTriple, BEq.rfl, Bool.true_and, beq_eq_false_iff_ne]
        intro e
        subst e
        simpa using h rfl rfl
      | cons d ds =>
        simp only [List.nil_append, isTriple, BEq.rfl, Bool.true_and, beq_eq_false_iff_ne] at hr ⊢
        intro e
        subst e
        exact hr (by simpa using h rfl rfl)
  | [a] => simpa [isTriple] using hr
  | a :: b :: t => simpa [isTriple] using hr

/-- A string that is closed does not depend on what follows, but for a third quote. -/
theorem handleString_local {pre : Str} {q : Char} (hpre : pre = [] ∨ pre = ['r'] ∨ pre = ['R'])
    (hq : q ∈ ['"', '\'']) {body rest rest' : Str} {pos : Nat} {lines : LineMap} {nl : Nat}
    (hty : (handleString (pre ++ q :: (body ++ rest)) pos lines nl).type ≠ .error)
    (htx : (handleString (pre ++ q :: (body ++ rest)) pos lines nl).text = pre ++ q :: body)
    (hr : rest'.head? = some q → rest.head? = some q) (pos' : Nat) (lines' : LineMap) (nl' : Nat) :
    (handleString (pre ++ q :: (body ++ rest')) pos' lines' nl').type = .stringLiteral ∧
    (handleString (pre ++ q :: (body ++ rest)) pos lines nl).type = .stringLiteral ∧
    (handleString (pre ++ q :: (body ++ rest')) pos' lines' nl').text = pre ++ q :: body ∧ body ≠ [] := by
  have hqr : ¬ (q = 'r' ∨ q = 'R') := by
    simp only [List.mem_cons, List.not_mem_nil, or_false] at hq
    rcases hq with rfl | rfl <;> decide
  have hraw : ∀ x : Str, rawPrefix (pre ++ q :: x) = pre := by
    intro x
    rcases hpre with rfl | rfl | rfl
    · simp [rawPrefix, hqr]
    · rfl
    · rfl
  have key : ∀ (x : Str) p l n, handleString (pre ++ q :: x) p l n =
      (let triple := isTriple q x
       let o : Str := if triple then pre ++ [q, q, q] else pre ++ [q]
       let r := stringLoop q triple (if triple then x.drop 2 else x) (p + o.length) l n (if triple then 3 else 1) false
       if r.2.2.2 then ⟨.stringLiteral, o ++ r.1 ++ [q], r.2.1, r.2.2.1⟩
       else ⟨.error, o ++ r.1, r.2.1, r.2.2.1⟩) := by
    intro x p l n
    unfold handleString
    simp only [hraw, List.drop_left]
    cases isTriple q x
    · simp only [Bool.false_eq_true, if_false]
      rw [show pre ++ q :: x = pre ++ [q] ++ x by simp, List.drop_left]
    · simp only [if_true]
      rw [show pre ++ q :: x = pre ++ [q] ++ x by simp,
        show (pre ++ [q, q, q]).length = (pre ++ [q]).length + 2 by simp, ← List.drop_drop, List.drop_left]
  rw [key] at hty htx ⊢
  rw [key]
  cases ht : isTriple q (body ++ rest) with
  | false =>
    simp only [ht, Bool.false_eq_true, if_false] at hty htx ⊢
    by_cases hf : (stringLoop q false (body ++ rest) (pos + (pre ++ [q]).length) lines nl 1 false).2.2.2 = true
    · simp only [hf, if_true, List.append_assoc, List.append_cancel_left_eq, List.cons_append, List.nil_append,
        List.cons.injEq, true_and] at htx ⊢
      obtain ⟨r0, h1, h2⟩ := stringLoop_local _ _ _ _ _ _ _ _ hf
      generalize (stringLoop q false (body ++ rest) (pos + (pre ++ [q]).length) lines nl 1 false).1 = txt at htx h1 h2
      subst htx
      have e0 : r0 = rest := by
        have : txt ++ (q :: r0) = txt ++ (q :: rest) := by rw [← h1]; simp
        simpa using this
      subst e0
      have ht' : isTriple q (txt ++ [q] ++ rest') = false := by
        have := isTriple_local (q := q) (txt := txt) (rest := r0) (rest' := rest') (fun _ => hr) (by simpa using ht)
        simpa using this
      obtain ⟨h3, h4⟩ := h2 rest' (pos' + (pre ++ [q]).length) lines' nl'
      simp only [List.append_assoc, List.cons_append, List.nil_append] at ht' ⊢
      simp only [ht', Bool.false_eq_true, if_false, h3, h4, if_true]
      simp
    · simp only [hf, if_false, Bool.false_eq_true] at hty
      exact absurd rfl hty
  | true =>
    simp only [ht, if_true] at hty htx ⊢
    by_cases hf : (stringLoop q true ((body ++ rest).drop 2) (pos + (pre ++ [q, q, q]).length) lines nl 3 false).2.2.2 = true
    · simp only [hf, if_true] at htx ⊢
      obtain ⟨r0, h1, h2⟩ := stringLoop_local _ _ _ _ _ _ _ _ hf
      generalize (stringLoop q true ((body ++ rest).drop 2) (pos + (pre ++ [q, q, q]).length) lines nl 3 false).1 = txt
        at htx h1 h2
      have htx : [q, q] ++ txt ++ [q] = body := by simpa using htx
      subst htx
      obtain ⟨h3, h4⟩ := h2 rest' (pos' + (pre ++ [q, q, q]).length) lines' nl'
      simp only [List.append_assoc, List.cons_append, List.nil_append] at h1 h3 h4 ⊢
      simp only [isTriple, BEq.rfl, Bool.and_self, if_true, List.drop_succ_cons, List.drop_zero, h3, h4]
      simp
    · simp only [hf, if_false, Bool.false_eq_true] at hty
      exact absurd rfl hty

theorem numberLoop_local (d : Char → Bool) (dot : Bool) (w rest rest' : Str)
    (h1 : (numberLoop d dot (w ++ rest)).1 = w) (h2 : (numberLoop d dot (w ++ rest)).2 = false)
    (hr : ∀ c, rest'.head? = some c → (∀ e, rest.head? = some e → d e = false ∧ e ≠ '.') → d c = false ∧ c ≠ '.') :
    numberLoop d dot (w ++ rest') = (w, false) := by
  induction w generalizing dot with
  | nil =>
    have hs : ∀ e, rest.head? = some e → d e = false ∧ e ≠ '.' := by
      intro e he
      cases rest with
      | nil => cases he
      | cons c cs =>
        obtain rfl : c = e := by simpa using he
        simp only [List.nil_append, numberLoop] at h1 h2
        by_cases hc : (d c || c == '.') = true
        · simp only [hc, if_true] at h1 h2
          by_cases hd : c = '.' ∧ dot = true
          · simp [hd] at h2
          · simp [hd] at h1
        · simpa using hc
    cases rest' with
    | nil => rfl
    | cons c cs =>
      have := hr c rfl hs
      simp [numberLoop, this.1, this.2]
  | cons c w ih =>
    rw [List.cons_append, numberLoop] at h1 h2 ⊢
    by_cases hc : (d c || c == '.') = true
    · simp only [hc, if_true] at h1 h2 ⊢
      by_cases hd : c = '.' ∧ dot = true
      · simp [hd] at h2
      · simp only [hd, if_false, List.cons.injEq, true_and] at h1 h2 ⊢
        rw [ih _ h1 h2]
    · simp [hc] at h1

theorem handleNumber_local {c : Char} {w rest rest' : Str} (hty : (handleNumber c (w ++ rest)).1 ≠ .error)
    (htx : (handleNumber c (w ++ rest)).2 = c :: w) (hc : Compat rest rest') :
    handleNumber c (w ++ rest') = (.numberLiteral, c :: w) ∧ (handleNumber c (w ++ rest)).1 = .numberLiteral := by
  have hdec : ∀ x, skipped x = true → isDigit x = false ∧ x ≠ '.' := skipped_all (by decide)
  have hxd : ∀ x, skipped x = true → isXDigit x = false ∧ x ≠ '.' := skipped_all (by decide)
  have hxo : ∀ x, skipped x = true → x ≠ 'x' ∧ x ≠ 'o' := skipped_all (by decide)
  have hb : ∃ b d, numberBase c (w ++ rest) = (b, d) ∧ (∃ v, w = b ++ v) ∧ numberBase c (w ++ rest') = (b, d) ∧
      (d = isDigit ∨ d = isXDigit) := by
    cases w with
    | cons a w =>
      simp only [List.cons_append]
      unfold numberBase
      split <;> rename_i heq
      · simp only [List.cons.injEq] at heq
        exact ⟨_, _, rfl, ⟨w, by rw [heq.1]; rfl⟩, by rw [heq.1]; rfl, Or.inr rfl⟩
      · simp only [List.cons.injEq] at heq
        exact ⟨_, _, rfl, ⟨w, by rw [heq.1]; rfl⟩, by rw [heq.1]; rfl, Or.inl rfl⟩
      · rename_i h1
        refine ⟨_, _, rfl, ⟨a :: w, rfl⟩, ?_, Or.inl rfl⟩
        split
        · rename_i e; cases e; exact absurd rfl (h1 _ rfl)
        · rename_i h2 _ _ e; cases e; exact absurd rfl (heq _ rfl)
        · rfl
    | nil =>
      have hx : c = '0' → ∀ e, rest.head? = some e → e ≠ 'x' ∧ e ≠ 'o' := by
        rintro rfl e he
        cases rest with
        | nil => cases he
        | cons r rs =>
          obtain rfl : r = e := by simpa using he
          constructor
          · rintro rfl; simp [handleNumber, numberBase] at htx
          · rintro rfl; simp [handleNumber, numberBase] at htx
      have none : ∀ x : Str, (c = '0' → ∀ e, x.head? = some e → e ≠ 'x' ∧ e ≠ 'o') →
          numberBase c x = ([], isDigit) := by
        intro x hx
        unfold numberBase
        split
        · exact absurd rfl (hx rfl _ rfl).1
        · exact absurd rfl (hx rfl _ rfl).2
        · rfl
      exact ⟨[], isDigit, none _ hx, ⟨[], rfl⟩, none _ (fun h0 => hc.head hxo (hx h0)), Or.inl rfl⟩
  obtain ⟨b, d, h1, ⟨v, rfl⟩, h2, hd⟩ := hb
  unfold handleNumber at hty htx ⊢
  simp only [h1, h2] at hty htx ⊢
  simp only [List.append_assoc, List.drop_left, List.cons.injEq, List.append_cancel_left_eq, true_and] at hty htx ⊢
  have hf : (numberLoop d false (v ++ rest)).2 = false := by
    cases e : (numberLoop d false (v ++ rest)).2
    · rfl
    · simp [e] at hty
  have := numberLoop_local d false v rest rest' htx hf (by
    intro c hc'  hall
    refine hc.head (p := fun c => d c = false ∧ c ≠ '.') ?_ hall c hc'
    rcases hd with rfl | rfl
    · exact hdec
    · exact hxd)
  simp [this, hf]

theorem takeWhile_stop {w rest : Str} (h : (w ++ rest).takeWhile isIdentifierChar = w) :
    (∀ d ∈ w, isIdentifierChar d = true) ∧ ∀ c, rest.head? = some c → isIdentifierChar c = false := by
  induction w with
  | nil =>
    refine ⟨by simp, fun c hc => ?_⟩
    cases rest with
    | nil => cases hc
    | cons d ds =>
      obtain rfl : d = c := by simpa using hc
      cases e : isIdentifierChar d
      · rfl
      · simp [e] at h
  | cons d w ih =>
    rw [List.cons_append, List.takeWhile_cons] at h
    cases e : isIdentifierChar d
    · simp [e] at h
    · simp only [e, if_true, List.cons.injEq, true_and] at h
      obtain ⟨h1, h2⟩ := ih h
      refine ⟨?_, h2⟩
      intro x hx
      rcases List.mem_cons.1 hx with rfl | hx
      · exact e
      · exact h1 x hx

theorem not_word {rest : Str} (h : ∀ c, rest.head? = some c → isIdentifierChar c = false) :
    ¬ startsWithWordChar rest := by
  rintro ⟨c, cs, rfl, hc⟩
  rw [h c rfl] at hc
  cases hc

theorem isRawString_iff {c : Char} {x : Str} : isRawString (c :: x) = true ↔
    (c = 'r' ∨ c = 'R') ∧ ∃ q d ds, x = q :: d :: ds ∧ (q = '"' ∨ q = '\'') := by
  match x with
  | [] => simp [isRawString]
  | [a] => simp [isRawString]
  | a :: b :: y =>
    simp only [isRawString, Bool.and_eq_true, Bool.or_eq_true, beq_iff_eq, List.cons.injEq]
    constructor
    · rintro ⟨h1, h2⟩; exact ⟨h1, a, b, y, ⟨rfl, rfl, rfl⟩, h2⟩
    · rintro ⟨h1, q, d, ds, ⟨rfl, rfl, rfl⟩, h2⟩; exact ⟨h1, h2⟩

theorem takeWhile_split (p : Char → Bool) (x : Str) :
    x = x.takeWhile p ++ x.drop (x.takeWhile p).length ∧ ∀ c ∈ x.takeWhile p, p c = true := by
  induction x with
  | nil => simp
  | cons d ds ih =>
    rw [List.takeWhile_cons]
    split
    · rename_i hd
      refine ⟨by simpa using ih.1, fun c hc => ?_⟩
      rcases List.mem_cons.1 hc with rfl | hc
      · exact hd
      · exact ih.2 c hc
    · simp

theorem consumeOptionalIn_some {x t : Str} (h : consumeOptionalIn x = some t) :
    ∃ ws r, t = ws ++ c!"in" ∧ x = ws ++ c!"in" ++ r ∧ (∀ c ∈ ws, isSpace c = true) := by
  unfold consumeOptionalIn at h
  simp only at h
  obtain ⟨hx, hall⟩ := takeWhile_split isSpace x
  split at h
  · rename_i r heq
    refine ⟨_, r, (Option.some.inj h).symm, ?_, hall⟩
    rw [heq] at hx
    simpa using hx
  · cases h

theorem consumeOptionalIn_of {ws r : Str} (h : ∀ c ∈ ws, isSpace c = true) :
    consumeOptionalIn (ws ++ c!"in" ++ r) = some (ws ++ c!"in") := by
  have : (ws ++ c!"in" ++ r).takeWhile isSpace = ws := by
    induction ws with
    | nil => simp [isSpace]
    | cons c cs ih =>
      simp only [List.mem_cons, forall_eq_or_imp] at h
      rw [List.cons_append, List.cons_append, List.takeWhile_cons, if_pos h.1, ih h.2]
  unfold consumeOptionalIn
  simp only [this]
  rw [List.append_assoc, List.drop_left]
  rfl

theorem handleWord_local {c : Char} {w rest rest' : Str} {pos : Nat} {lines : LineMap} {nl : Nat}
    (hty : (handleWord (c :: (w ++ rest)) pos lines nl).type ≠ .error)
    (htx : (handleWord (c :: (w ++ rest)) pos lines nl).text = c :: w) (hc : Compat rest rest')
    (hnot : c :: w = c!"not" → consumeOptionalIn rest' = none) (pos' : Nat) (lines' : LineMap) (nl' : Nat) :
    (handleWord (c :: (w ++ rest')) pos' lines' nl').type = (handleWord (c :: (w ++ rest)) pos lines nl).type ∧
    (handleWord (c :: (w ++ rest')) pos' lines' nl').text = c :: w := by
  by_cases hraw : isRawString (c :: (w ++ rest)) = true
  · obtain ⟨hr, q, d, ds, hx, hq⟩ := isRawString_iff.1 hraw
    have e1 : ∀ x p l n, isRawString x = true → handleWord x p l n = handleString x p l n := by
      intro x p l n h
      unfold handleWord
      rw [if_pos h]
    rw [e1 _ _ _ _ hraw] at hty htx ⊢
    have hpre : [c] = [] ∨ [c] = ['r'] ∨ [c] = ['R'] := by
      rcases hr with rfl | rfl <;> simp
    have hq' : q ∈ ['"', '\''] := by simpa using hq
    cases w with
    | nil =>
      exfalso
      simp only [List.nil_append] at hx htx
      subst hx
      have hrp : rawPrefix (c :: q :: d :: ds) = [c] := by
        rcases hr with rfl | rfl <;> rfl
      have hlen := congrArg List.length htx
      unfold handleString at hlen
      simp only [hrp, List.length_singleton, List.drop_one, List.tail_cons] at hlen
      split at hlen
      · split at hlen <;> simp at hlen
      · split at hlen <;> simp at hlen
    | cons b body =>
      simp only [List.cons_append, List.cons.injEq] at hx
      obtain ⟨rfl, hx⟩ := hx
      obtain ⟨h1, h2, h3, h4⟩ := handleString_local (pre := [c]) hpre (q := b) hq' (body := body) (rest := rest)
        (rest' := rest') (by simpa using hty) (by simpa using htx) (fun h => by
          rcases hc with hs | ⟨x, v, a, b, rfl, rfl, _⟩
          · have := hs _ h
            exfalso
            rcases hq with rfl | rfl <;> revert this <;> decide
          · exact h) pos' lines' nl'
      have hraw' : isRawString (c :: (b :: body ++ rest')) = true := by
        cases body with
        | nil => exact absurd rfl h4
        | cons x xs => exact isRawString_iff.2 ⟨hr, b, x, _, rfl, hq⟩
      rw [e1 _ _ _ _ hraw']
      simp only [List.cons_append, List.nil_append] at h1 h2 h3 ⊢
      rw [h1, h2]
      exact ⟨rfl, h3⟩
  · have e1 : ∀ x p l n, isRawString (c :: x) ≠ true → isIdentifierChar c = true →
        handleWord (c :: x) p l n =
          (if (c :: x).takeWhile isIdentifierChar = c!"not" then
            match consumeOptionalIn ((c :: x).drop ((c :: x).takeWhile isIdentifierChar).length) with
            | some t => ⟨.kNotIn, (c :: x).takeWhile isIdentifierChar ++ t, l, n⟩
            | none => ⟨.op '!', (c :: x).takeWhile isIdentifierChar, l, n⟩
          else ⟨wordType ((c :: x).takeWhile isIdentifierChar), (c :: x).takeWhile isIdentifierChar, l, n⟩) := by
      intro x p l n h hi
      unfold handleWord
      rw [if_neg h]
      simp only [hi, Bool.not_true, Bool.false_eq_true, if_false]
      rfl
    have hid : isIdentifierChar c = true := by
      cases e : isIdentifierChar c
      · exfalso
        apply hty
        unfold handleWord
        rw [if_neg hraw]
        simp [e]
      · rfl
    have hskip : ∀ x, skipped x = true → isIdentifierChar x = false := skipped_all (by decide)
    rw [e1 _ _ _ _ hraw hid] at hty htx ⊢
    by_cases hn : (c :: (w ++ rest)).takeWhile isIdentifierChar = c!"not"
    · rw [if_pos hn] at htx ⊢
      rw [hn] at htx ⊢
      cases hci : consumeOptionalIn ((c :: (w ++ rest)).drop (c!"not").length) with
      | none =>
        simp only [hci] at htx ⊢
        obtain ⟨rfl, rfl⟩ : c = 'n' ∧ w = ['o', 't'] := by
          simp only [List.cons.injEq] at htx
          exact ⟨htx.1.symm, htx.2.symm⟩
        have hst := takeWhile_stop (w := c!"not") (rest := rest) hn
        have hstop : ∀ x, rest'.head? = some x → isIdentifierChar x = false := hc.head hskip hst.2
        have htw := takeWhile_word hst.1 (not_word hstop)
        rw [e1 _ _ _ _ (by simp [isRawString_iff]) hid]
        have htw : ('n' :: (['o', 't'] ++ rest')).takeWhile isIdentifierChar = c!"not" := htw
        rw [if_pos htw, htw]
        have : consumeOptionalIn (('n' :: (['o', 't'] ++ rest')).drop (c!"not").length) = none := hnot rfl
        rw [this]
        exact ⟨rfl, rfl⟩
      | some t =>
        simp only [hci] at htx ⊢
        obtain ⟨rfl, rfl⟩ : c = 'n' ∧ w = 'o' :: 't' :: t := by
          simp only [List.cons_append, List.nil_append, List.cons.injEq] at htx
          exact ⟨htx.1.symm, htx.2.symm⟩
        obtain ⟨ws, r, rfl, _, hws⟩ := consumeOptionalIn_some hci
        have hne : ws ≠ [] := by
          rintro rfl
          simp [isIdentifierChar, isAlpha] at hn
        have htw : ∀ y : Str, ('n' :: (('o' :: 't' :: (ws ++ c!"in")) ++ y)).takeWhile isIdentifierChar = c!"not" := by
          intro y
          have := takeWhile_word (w := c!"not") (rest := ws ++ c!"in" ++ y) (by decide) (by
            cases ws with
            | nil => exact absurd rfl hne
            | cons d ds =>
              rintro ⟨e, es, he, hi⟩
              simp only [List.cons_append, List.cons.injEq] at he
              have h1 := hskip d (by simp [skipped, hws d (by simp)])
              rw [he.1, hi] at h1
              cases h1)
          simpa using this
        rw [e1 _ _ _ _ (by simp [isRawString_iff]) hid, if_pos (htw rest'), htw rest']
        have : consumeOptionalIn (('n' :: (('o' :: 't' :: (ws ++ c!"in")) ++ rest')).drop (c!"not").length) =
            some (ws ++ c!"in") := consumeOptionalIn_of hws
        rw [this]
        exact ⟨rfl, rfl⟩
    · rw [if_neg hn] at htx ⊢
      simp only at htx ⊢
      have htx' : (c :: w ++ rest).takeWhile isIdentifierChar = c :: w := htx
      have hst := takeWhile_stop htx'
      have hstop : ∀ x, rest'.head? = some x → isIdentifierChar x = false := hc.head hskip hst.2
      have htw : (c :: (w ++ rest')).takeWhile isIdentifierChar = c :: w := takeWhile_word hst.1 (not_word hstop)
      have hraw' : isRawString (c :: (w ++ rest')) ≠ true := by
        intro h
        obtain ⟨hr, q, d, ds, hx, hq⟩ := isRawString_iff.1 h
        cases w with
        | cons b v =>
          have := hst.1 b (by simp)
          simp only [List.cons_append, List.cons.injEq] at hx
          rw [hx.1] at this
          rcases hq with rfl | rfl <;> revert this <;> decide
        | nil =>
          simp only [List.nil_append] at hx
          rcases hc with hs | ⟨x, v, a, b, rfl, rfl, hv⟩
          · have := hs q (by rw [hx]; rfl)
            rcases hq with rfl | rfl <;> revert this <;> decide
          · simp only [List.cons.injEq] at hx
            obtain ⟨rfl, hx⟩ := hx
            cases v with
            | nil => exact hv hq rfl
            | cons y ys => exact hraw (isRawString_iff.2 ⟨hr, x, y, _, rfl, hq⟩)
      rw [e1 _ _ _ _ hraw' hid, htw]
      rw [htx] at hn ⊢
      rw [if_neg hn]
      exact ⟨rfl, rfl⟩

theorem dispatch_local {c : Char} {w rest rest' : Str} {pos : Nat} {lines : LineMap} {nl : Nat}
    (hty : (dispatch c (w ++ rest) pos lines nl).type ≠ .error)
    (htx : (dispatch c (w ++ rest) pos lines nl).text = c :: w) (hc : Compat rest rest')
    (hnot : c :: w = c!"not" → consumeOptionalIn rest' = none) (pos' : Nat) (lines' : LineMap) (nl' : Nat) :
    (dispatch c (w ++ rest') pos' lines' nl').type = (dispatch c (w ++ rest) pos lines nl).type ∧
    (dispatch c (w ++ rest') pos' lines' nl').text = c :: w := by
  have hrel : ∀ {r : TokenType × Str}, handleRelational c (w ++ rest) = r → r.2 = c :: w →
      handleRelational c (w ++ rest') = r := by
    intro r h1 h2
    cases w with
    | cons a v =>
      rw [← h1]
      simp only [List.cons_append]
      unfold handleRelational
      by_cases ha : a = '='
      · subst ha; rfl
      · split
        · rename_i e; cases e; exact absurd rfl ha
        · split
          · rename_i e; cases e; exact absurd rfl ha
          · rfl
    | nil =>
      simp only [List.nil_append] at h1 ⊢
      have no : ∀ x, rest.head? = some x → x ≠ '=' := by
        rintro x hx rfl
        cases rest with
        | nil => cases hx
        | cons y ys =>
          obtain rfl : y = '=' := by simpa using hx
          rw [← h1] at h2
          simp [handleRelational] at h2
      have no' := hc.head (p := fun x => x ≠ '=') (skipped_all (by decide)) no
      have key : ∀ x : Str, (∀ y, x.head? = some y → y ≠ '=') → handleRelational c x = (.op c, [c]) := by
        intro x hx
        unfold handleRelational
        split
        · exact absurd rfl (hx _ rfl)
        · rfl
      rw [← h1, key _ no, key _ no']
  unfold dispatch at hty htx ⊢
  by_cases h1 : singleChars.contains c = true
  · simp only [h1, if_true] at htx ⊢
    exact ⟨trivial, htx⟩
  · simp only [h1, if_false, Bool.false_eq_true] at hty htx ⊢
    by_cases h2 : c = '!'
    · simp only [h2, if_true] at htx hrel ⊢
      rw [hrel rfl htx]
      exact ⟨rfl, htx⟩
    · simp only [h2, if_false] at hty htx ⊢
      by_cases h3 : c = '<' ∨ c = '>' ∨ c = '='
      · simp only [h3, if_true] at htx ⊢
        rw [hrel rfl htx]
        exact ⟨rfl, htx⟩
      · simp only [h3, if_false] at hty htx ⊢
        by_cases h4 : isDigit c = true
        · simp only [h4, if_true] at hty htx ⊢
          obtain ⟨e1, e2⟩ := handleNumber_local hty htx hc
          rw [e1, e2]
          exact ⟨rfl, rfl⟩
        · simp only [h4, if_false, Bool.false_eq_true] at hty htx ⊢
          by_cases h5 : c = '"' ∨ c = '\''
          · simp only [h5, if_true] at hty htx ⊢
            obtain ⟨e1, e2, e3, _⟩ := handleString_local (pre := []) (q := c) (Or.inl rfl) (by simpa using h5)
              (body := w) (rest := rest) (rest' := rest') (by simpa using hty) (by simpa using htx) (fun h => by
                rcases hc with hs | ⟨x, v, a, b, rfl, rfl, _⟩
                · have := hs _ h
                  exfalso
                  rcases h5 with rfl | rfl <;> revert this <;> decide
                · exact h) pos' lines' nl'
            simp only [List.nil_append] at e1 e2 e3
            rw [e1, e2]
            exact ⟨rfl, e3⟩
          · simp only [h5, if_false] at hty htx ⊢
            exact handleWord_local hty htx hc hnot pos' lines' nl'

end Layout
end Bant
