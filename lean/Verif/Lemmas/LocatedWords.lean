import Verif.Lemmas.LocatedParser
import Verif.Spec.Words

/-! The words of a tree are those of the file. -/
namespace Bant
namespace Located
open Parser (P PState initState peek next errAt hasError fail Elem isBinOp endTokenFor Good)
open Words

theorem wordsIn_append (xs ys : List Tree) : wordsIn (xs ++ ys) = wordsIn xs ++ wordsIn ys := by
  induction xs with
  | nil => rfl
  | cons x xs ih => simp [wordsIn, ih]

theorem wordOf_none {t : Token} (h : isWord t.type = false) : wordOf t = none := by
  unfold wordOf
  rw [if_neg, if_neg]
  · simp [h]
  · intro e; rw [e] at h; cases h

/-- The second state is reached by reading. -/
structure After (s s' : PState) : Prop where
  eof : s'.eof = s.eof
  toks : s'.toks <:+ s.toks

theorem After.trans {a b c : PState} (h : After a b) (h' : After b c) : After a c :=
  ⟨h'.1.trans h.1, h'.2.trans h.2⟩

theorem After.good {s s' : PState} (h : After s s') (hg : Good s) : Good s' := hg.congr h.2 h.1

/-- The tokens that are read up to the second state have the words. -/
structure Reads (s s' : PState) (w : List (Nat × Nat)) : Prop where
  errs : s.errs = []
  seg : ∃ seg, s.toks = seg ++ s'.toks ∧ wordsOf seg = w

theorem Reads.trans {a b c : PState} {v w : List (Nat × Nat)} (h : Reads a b v) (h' : Reads b c w) :
    Reads a c (v ++ w) := by
  obtain ⟨h1, s1, h3, rfl⟩ := h
  obtain ⟨_, s2, g3, rfl⟩ := h'
  exact ⟨h1, s1 ++ s2, by rw [h3, g3, List.append_assoc], by simp [wordsOf]⟩

/-- The action reads what is new in its result. `known`: the current token, if known; `pre`: the words that have
been read before. -/
def Emit (known : Option Token) (pre : List (Nat × Nat)) (m : P Tree) : Prop :=
  ∀ s t s', Good s → (∀ k, known = some k → s.cur = k) → m s = some (t, s') →
    After s s' ∧ (s'.errs = [] → ∃ w, Reads s s' w ∧ words t = pre ++ w)

theorem Emit.pure {known : Option Token} {pre : List (Nat × Nat)} {t : Tree} (h : words t = pre) :
    Emit known pre (pure t) := by
  intro s _ _ _ _ he
  cases he
  exact ⟨⟨rfl, List.suffix_refl _⟩, fun herr => ⟨[], ⟨herr, [], rfl, rfl⟩, by simp [h]⟩⟩

theorem Emit.fail {known : Option Token} {pre : List (Nat × Nat)} : Emit known pre fail := by
  intro s _ _ _ _ he; cases he

theorem Emit.weaken {known : Option Token} {pre : List (Nat × Nat)} {m : P Tree} (h : Emit none pre m) :
    Emit known pre m := fun s t s' hg _ he => h s t s' hg (fun _ e => by cases e) he

theorem Emit.look {known : Option Token} {pre : List (Nat × Nat)} {f : Token → P Tree}
    (h : ∀ k, (∀ j, known = some j → k = j) → Emit (some k) pre (f k)) : Emit known pre (peek >>= f) := by
  intro s t s' hg hk he
  have he' : f s.cur { s with
      requests := s.requests + 1, scans := if s.ahead then s.scans else s.scans + 1, ahead := true } = some (t, s') := he
  obtain ⟨h1, h2⟩ := h s.cur (fun j hj => hk j hj) _ t s' (by exact hg.congr (List.suffix_refl _) rfl)
    (by rintro k e; cases e; rfl) he'
  refine ⟨⟨h1.1, h1.2⟩, fun herr => ?_⟩
  obtain ⟨w, ⟨h3, h4⟩, h5⟩ := h2 herr
  exact ⟨w, ⟨h3, h4⟩, h5⟩

theorem Emit.peek {known : Option Token} {pre : List (Nat × Nat)} {f : Token → P Tree}
    (h : ∀ k, Emit (some k) pre (f k)) : Emit known pre (peek >>= f) := .look fun k _ => h k

theorem Emit.take {known : Option Token} {pre : List (Nat × Nat)} {f : Token → P Tree}
    (h : ∀ k, (∀ j, known = some j → k = j) → Emit none (pre ++ (wordOf k).toList) (f k)) :
    Emit known pre (next >>= f) := by
  intro s t s' hg hk he
  have hg' : Good { s with
      toks := s.toks.tail, requests := s.requests + 1
      scans := if s.ahead then s.scans else s.scans + 1, ahead := false } :=
    hg.congr (List.tail_suffix _) rfl
  obtain ⟨ha, hr⟩ := h s.cur (fun j hj => hk j hj) _ t s' hg' (fun _ e => by cases e) he
  refine ⟨⟨ha.1, ha.2.trans (List.tail_suffix _)⟩, fun herr => ?_⟩
  obtain ⟨w, ⟨h1, seg, h3, h4⟩, h5⟩ := hr herr
  simp only at h1 h3
  cases ht : s.toks with
  | nil =>
    have hc : wordOf s.cur = none := by
      rw [PState.cur, ht]
      exact wordOf_none (by rw [List.headD_nil, hg.heof]; rfl)
    rw [hc] at h5
    refine ⟨w, ⟨h1, seg, ?_, h4⟩, by simpa using h5⟩
    rw [ht] at h3 ⊢
    exact h3
  | cons k ks =>
    have hc : s.cur = k := by rw [PState.cur, ht]; rfl
    rw [hc] at h5
    refine ⟨(wordOf k).toList ++ w, ⟨h1, k :: seg, ?_, ?_⟩, by rw [h5, List.append_assoc]⟩
    · rw [ht] at h3 ⊢
      rw [List.cons_append, ← h3]
      rfl
    · unfold wordsOf at h4 ⊢
      rw [List.filterMap_cons, h4]
      cases wordOf k <;> rfl

theorem Emit.next {k : Token} {pre : List (Nat × Nat)} {f : Token → P Tree}
    (h : Emit none (pre ++ (wordOf k).toList) (f k)) : Emit (some k) pre (next >>= f) :=
  .take fun j hj => by cases hj k rfl; exact h

theorem Emit.err {known : Option Token} {pre pre' : List (Nat × Nat)} {t : Token} {m : Parser.Complaint} {f : Unit → P Tree}
    (h : Emit none pre' (f ())) : Emit known pre (errAt t m >>= f) := by
  intro s r s' hg _ he
  have he' : f () { s with errs := s.errs ++ [t], said := s.said ++ [(m, s.scans)] } = some (r, s') := he
  obtain ⟨h1, h2⟩ := h _ r s' (by exact hg.congr (List.suffix_refl _) rfl) (fun _ e => by cases e) he'
  refine ⟨⟨h1.1, h1.2⟩, fun herr => ?_⟩
  obtain ⟨w, ⟨h3, _⟩, _⟩ := h2 herr
  simp at h3

theorem Emit.ite {known : Option Token} {pre : List (Nat × Nat)} {c : Prop} [Decidable c] {m n : P Tree}
    (h : c → Emit known pre m) (h' : ¬ c → Emit known pre n) : Emit known pre (if c then m else n) := by
  by_cases hc : c
  · rw [if_pos hc]; exact h hc
  · rw [if_neg hc]; exact h' hc

theorem Emit.bind {known : Option Token} {pre : List (Nat × Nat)} {m : P Tree} {f : Tree → P Tree}
    (hm : Emit known [] m) (h : ∀ a, Emit none (pre ++ words a) (f a)) : Emit known pre (m >>= f) := by
  intro s t s' hg hk he
  simp only [Bind.bind] at he
  cases h1 : m s with
  | none => rw [h1] at he; cases he
  | some r =>
    obtain ⟨a, s1⟩ := r
    rw [h1] at he
    simp only at he
    obtain ⟨ha, hr⟩ := hm s a s1 hg hk h1
    obtain ⟨hb, hb'⟩ := h a s1 t s' (ha.good hg) (fun _ e => by cases e) he
    refine ⟨ha.trans hb, fun herr => ?_⟩
    obtain ⟨v, hv, hvt⟩ := hb' herr
    obtain ⟨w, hw, hwa⟩ := hr hv.errs
    exact ⟨w ++ v, hw.trans hv, by rw [hvt, hwa]; simp⟩

theorem Emit.map {known : Option Token} {pre : List (Nat × Nat)} {m : P Tree} {f : Tree → Tree}
    (hm : Emit known pre m) (h : ∀ a, words (f a) = words a) : Emit known pre (m >>= fun a => Pure.pure (f a)) := by
  intro s t s' hg hk he
  simp only [Bind.bind] at he
  cases h1 : m s with
  | none => rw [h1] at he; cases he
  | some r =>
    obtain ⟨a, s1⟩ := r
    rw [h1] at he
    cases he
    obtain ⟨ha, hr⟩ := hm s a _ hg hk h1
    refine ⟨ha, fun herr => ?_⟩
    obtain ⟨w, hw, hwa⟩ := hr herr
    exact ⟨w, hw, by rw [h, hwa]⟩

/-! ### The functions -/

theorem isNull_eq {n : Tree} (h : n.isNull = true) : n = .null := by
  cases n <;> first | rfl | cases h

theorem viewOf_range (t : Token) : (viewOf t).range = span t := rfl

theorem wordOf_ident {t : Token} (h : t.type = .identifier) : wordOf t = some (span t) := by
  simp [wordOf, h, isWord, span]

theorem wordOf_number {t : Token} (h : t.type = .numberLiteral) : wordOf t = some (span t) := by
  simp [wordOf, h, isWord, span]

theorem wordOf_string {t : Token} (h : t.type = .stringLiteral) : wordOf t = some (inside t) := by
  simp [wordOf, h]

theorem wordOf_binop {t : Token} (h : isBinOp t.type = true) :
    (wordOf t).toList = if t.type = .op '+' then [span t] else [] := by
  unfold wordOf isWord
  cases ht : t.type <;> rw [ht] at h <;> simp_all [isBinOp, span]
  split <;> simp_all

theorem intOf_words {t : Token} {n : Tree} (h : intOf t = some n) : words n = [span t] := by
  unfold intOf intFromLiteral at h
  cases h1 : fromChars (literalBase t.text).1 (literalBase t.text).2 with
  | none => rw [h1] at h; cases h
  | some v => rw [h1] at h; cases h; rfl

theorem strOf_words {t : Token} {n : Tree} (h : strOf t = some n) : words n = [inside t] := by
  unfold strOf strFromLiteral at h
  have hk : ((stripRaw t.text).1 = true ∧ prefixed t.text = 1 ∨ (stripRaw t.text).1 = false ∧ prefixed t.text = 0) ∧
      (stripRaw t.text).2 = t.text.drop (prefixed t.text) ∧ prefixed t.text ≤ t.text.length := by
    unfold stripRaw prefixed
    cases t.text with
    | nil => exact ⟨.inr ⟨rfl, rfl⟩, rfl, Nat.le_refl _⟩
    | cons c cs => by_cases hc : c = 'r' ∨ c = 'R' <;> simp [hc]
  obtain ⟨hr, hb, hl⟩ := hk
  rw [hb] at h
  have hlen : (t.text.drop (prefixed t.text)).length = t.text.length - prefixed t.text := List.length_drop
  unfold inside
  simp only at h ⊢
  generalize t.text.drop (prefixed t.text) = body at h hlen ⊢
  have hraw : (if (stripRaw t.text).1 = true then 1 else 0) = prefixed t.text := by
    rcases hr with ⟨e1, e2⟩ | ⟨e1, e2⟩ <;> rw [e1, e2] <;> rfl
  by_cases h1 : 6 ≤ body.length ∧ body.take 3 = c!"\"\"\""
  · rw [if_pos h1] at h
    cases h
    have hq : quotes body = 3 := by unfold quotes; rw [if_pos (by simp only [h1.1, h1.2, decide_true, Bool.and_self])]
    have hlt : ((body.drop 3).take (body.length - 6)).length = body.length - 6 := by
      rw [List.length_take, List.length_drop]; omega
    simp only [words, View.range, hq, hlt, hraw, if_true, List.cons.injEq, Prod.mk.injEq, and_true, true_and]
    omega
  · rw [if_neg h1] at h
    have hq : quotes body = 1 := by
      unfold quotes
      rw [if_neg]
      intro e
      rw [Bool.and_eq_true, decide_eq_true_eq, decide_eq_true_eq] at e
      exact h1 ⟨e.2, e.1⟩
    by_cases h2 : 2 ≤ body.length
    · rw [if_pos h2] at h
      cases h
      have hlt : ((body.drop 1).take (body.length - 2)).length = body.length - 2 := by
        rw [List.length_take, List.length_drop]; omega
      simp only [words, View.range, hq, hlt, hraw, List.cons.injEq, Prod.mk.injEq, and_true]
      refine ⟨rfl, ?_⟩
      simp only [Bool.false_eq_true, if_false]
      omega
    · rw [if_neg h2] at h; cases h

/-- What has been read before the call. -/
def readBefore : Call → List (Nat × Nat)
  | .suffix n => words n
  | .ifElse n => words n
  | .tupleRest acc => wordsIn acc
  | .list _ acc _ _ => wordsIn acc
  | .funCall v => [v.range]
  | .comprFor _ b _ => words b
  | _ => []

/-- How the functions are called. -/
def Fits (known : Option Token) : Call → Prop
  | .list _ _ _ endTok => isWord endTok = false
  | .comprFor a b endTok => isWord endTok = false ∧ (a = b ∨ ∃ k, known = some k ∧ k.type = .kFor)
  | .statements _ => False
  | _ => True

theorem isWord_end (ty : ListType) : isWord (endTokenFor ty) = false := by cases ty <;> rfl

section
variable {call : Call → P Tree} (hcall : ∀ known c, Fits known c → Emit known (readBefore c) (call c))
include hcall

theorem expression_words (known : Option Token) (opt : Bool) : Emit known [] (parseExpression call opt) := by
  unfold parseExpression
  refine .peek fun k => .ite (fun h => .next ?_) fun _ => .ite (fun _ => ?_) fun _ => ?_
  · rw [wordOf_none (by rcases h with h | h <;> rw [h] <;> rfl)]
    exact .bind (hcall _ _ trivial) fun e => hcall none (.suffix _) trivial
  · exact .bind (hcall _ _ trivial) fun n =>
      .ite (fun h => .pure (by rw [isNull_eq h]; rfl)) fun _ => hcall none (.suffix n) trivial
  · exact .bind (hcall _ _ trivial) fun n =>
      .ite (fun h => .pure (by rw [isNull_eq h]; rfl)) fun _ => hcall none (.suffix n) trivial

theorem suffix_words (known : Option Token) (n : Tree) : Emit known (words n) (parseSuffix call n) := by
  unfold parseSuffix
  refine .peek fun k => .ite (fun _ => hcall _ (.ifElse n) trivial) fun _ => .ite (fun h => .next ?_) fun _ =>
    .ite (fun h => .ite (fun _ => .pure rfl) fun _ => .next ?_) fun _ => .pure rfl
  · refine .bind (hcall _ _ trivial) fun r => .pure ?_
    rw [wordOf_binop h]
    simp [words]
  · rw [wordOf_none (by rw [h]; rfl)]
    refine .bind (hcall _ _ trivial) fun r => ?_
    have := hcall none (.suffix (.binop k.type (span k) n r)) trivial
    rw [readBefore, words, h] at this
    simpa [h] using this

theorem ifElse_words (known : Option Token) (n : Tree) : Emit known (words n) (parseIfElse call n) := by
  unfold parseIfElse
  refine .take fun k _ => .ite (fun _ => .fail) fun h => .bind (hcall _ _ trivial) fun c => .peek fun k2 => .ite (fun h2 => .next ?_)
    fun _ => .pure ?_
  · rw [wordOf_none (t := k) (by rw [Classical.not_not.1 h]; rfl), wordOf_none (t := k2) (by rw [h2]; rfl)]
    exact .bind (hcall _ _ trivial) fun e => .pure (by simp [words])
  · rw [wordOf_none (t := k) (by rw [Classical.not_not.1 h]; rfl)]
    simp [words]

theorem arrayAccess_words (known : Option Token) : Emit known [] (parseArrayAccess call) := by
  unfold parseArrayAccess
  refine .bind (hcall _ _ trivial) fun n => .take fun k _ => .ite (fun h => .ite (fun _ => .err (.pure rfl)) fun _ => .pure ?_)
    fun _ => .ite (fun h => .bind (hcall _ _ trivial) fun r => .take fun k2 _ => .ite (fun _ => .err (.pure rfl)) fun h2 =>
      .ite (fun _ => .err (.pure rfl)) fun _ => .pure ?_) fun _ => .err (.pure rfl)
  · rw [wordOf_none (by rw [h]; rfl)]; simp
  · rw [wordOf_none (t := k) (by rw [h]; rfl), wordOf_none (t := k2) (by rw [Classical.not_not.1 h2]; rfl)]
    simp [words]

theorem value_words (known : Option Token) (opt : Bool) : Emit known [] (parseValue call opt) := by
  unfold parseValue
  refine .peek fun k => .ite (fun h => .next ?_) fun _ => .ite (fun h => .next ?_) fun _ => .ite (fun h => .next ?_) fun _ =>
    .ite (fun h => .next ?_) fun _ => .ite (fun h => .next ?_) fun _ => .ite (fun _ => .pure rfl) fun _ => .err (.pure rfl)
  · rw [wordOf_string h]
    cases hs : strOf k with
    | none => exact .fail
    | some n => exact .pure (strOf_words hs)
  · rw [wordOf_number h]
    cases hs : intOf k with
    | none => exact .err (.pure rfl)
    | some n => exact .pure (intOf_words hs)
  · rw [wordOf_ident h]
    refine .peek fun k2 => .ite (fun h2 => .next ?_) fun _ => .pure rfl
    rw [wordOf_none (t := k2) (by rw [h2]; rfl)]
    exact hcall none (.funCall (viewOf k)) trivial
  · rw [wordOf_none (by rw [h]; rfl)]
    exact hcall none (.listOrCompr _ _) trivial
  · rw [wordOf_none (by rw [h]; rfl)]
    exact hcall none (.listOrCompr _ _) trivial

theorem paren_words (known : Option Token) : Emit known [] (parseParen call) := by
  unfold parseParen
  refine .take fun k _ => .ite (fun _ => .fail) fun h => .bind (hcall _ _ trivial) fun n => .peek fun k2 => ?_
  rw [wordOf_none (t := k) (by rw [Classical.not_not.1 h]; rfl)]
  refine .ite (fun h2 => .next (.pure ?_)) fun _ => .ite (fun hn => .take fun k3 _ => .ite (fun _ => .err (.pure rfl)) fun h3 =>
    .pure ?_) fun _ => ?_
  · simp only [Bool.and_eq_true, decide_eq_true_eq] at h2
    rw [wordOf_none (t := k2) (by rw [h2.2]; rfl)]
    simp
  · rw [wordOf_none (t := k3) (by rw [Classical.not_not.1 h3]; rfl), isNull_eq hn]
    rfl
  · simpa [readBefore, wordsIn] using hcall (some k2) (.tupleRest [n]) trivial

theorem tupleRest_words (known : Option Token) (acc : List Tree) :
    Emit known (wordsIn acc) (parseTupleRest call acc) := by
  unfold parseTupleRest
  refine .take fun k _ => .ite (fun h => .pure ?_) fun _ => .ite (fun _ => .err (.pure rfl)) fun h => ?_
  · rw [wordOf_none (by rw [h]; rfl)]; simp [words]
  · rw [wordOf_none (by rw [Classical.not_not.1 h]; rfl)]
    refine .peek fun k2 => .ite (fun h2 => .next (.pure ?_)) fun _ => .bind (hcall _ _ trivial) fun e => ?_
    · rw [wordOf_none (by rw [h2]; rfl)]; simp [words]
    · simpa [readBefore, wordsIn, wordsIn_append] using hcall none (.tupleRest (acc ++ [e])) trivial

theorem listOrCompr_words (known : Option Token) (ty : ListType) (e : Elem) :
    Emit known [] (parseListOrCompr call ty e) := by
  unfold parseListOrCompr
  refine .peek fun k => .ite (fun h => .next (.pure ?_)) fun _ => .bind (hcall _ _ trivial) fun n => ?_
  · rw [wordOf_none (by rw [h]; exact isWord_end ty)]; rfl
  · have hl : ∀ known, Emit known ([] ++ words n) (call (.list ty [n] e (endTokenFor ty))) := fun known => by
      simpa [readBefore, wordsIn] using hcall known (.list ty [n] e (endTokenFor ty)) (isWord_end ty)
    refine .ite (fun hn => .pure (by rw [isNull_eq hn]; rfl)) fun _ => .peek fun k2 => .ite (fun h2 => ?_) fun _ =>
      .ite (fun h2 => .next ?_) fun _ => .ite (fun _ => .peek fun k3 => .err (hl none)) fun _ => hl _
    · exact .map (hcall (some k2) (.comprFor .null n (endTokenFor ty)) ⟨isWord_end ty, .inr ⟨k2, rfl, h2⟩⟩) fun _ => rfl
    · rw [wordOf_none (t := k2) (by rw [h2]; rfl)]
      simpa using hl none

theorem list_words (known : Option Token) (ty : ListType) (acc : List Tree) (e : Elem) (endTok : TokenType)
    (hend : isWord endTok = false) : Emit known (wordsIn acc) (parseList call ty acc e endTok) := by
  unfold parseList
  refine .peek fun k => .ite (fun h => .next (.pure ?_)) fun _ => .bind (hcall _ _ trivial) fun n => .peek fun k2 =>
    .ite (fun h => .next ?_) fun _ => .ite (fun _ => .take fun k3 _ => .err (.pure rfl)) fun h => .next (.pure ?_)
  · rw [wordOf_none (by rw [h]; exact hend)]; simp [words]
  · rw [wordOf_none (by rw [h]; rfl)]
    simpa [readBefore, wordsIn, wordsIn_append] using hcall none (.list ty (acc ++ [n]) e endTok) hend
  · rw [wordOf_none (by rw [Classical.not_not.1 h]; exact hend)]
    simp [words, wordsIn, wordsIn_append]

theorem elem_words (known : Option Token) (e : Elem) : Emit known [] (parseElem call e) := by
  cases e with
  | expression => exact hcall known (.expression false) trivial
  | expressionOrAssignment =>
    simp only [parseElem, expressionOrAssignment]
    refine .bind (hcall _ _ trivial) fun n => .ite (fun hn => .pure (by rw [isNull_eq hn]; rfl)) fun _ => .peek fun k =>
      .ite (fun h => .next ?_) fun _ => .pure rfl
    rw [wordOf_none (by rw [h.2]; rfl)]
    exact .bind (hcall _ _ trivial) fun r => .pure (by simp [words])
  | mapTuple =>
    simp only [parseElem, parseMapTuple]
    refine .bind (hcall _ _ trivial) fun n => .take fun k _ => .ite (fun _ => .err (.pure rfl)) fun h => ?_
    rw [wordOf_none (by rw [Classical.not_not.1 h]; rfl)]
    exact .bind (hcall _ _ trivial) fun r => .pure (by simp [words])
  | optionalIdentifier =>
    simp only [parseElem, parseOptionalIdentifier]
    refine .peek fun k => .ite (fun h => .next (.pure ?_)) fun _ => .pure rfl
    rw [wordOf_ident h]; rfl

theorem funCall_words (known : Option Token) (v : View) : Emit known [v.range] (parseFunCall call v) := by
  unfold parseFunCall
  exact .bind (hcall known (.list .tuple [] .expressionOrAssignment (.op ')')) rfl) fun a => .pure (by simp [words])

theorem comprFor_words (known : Option Token) (a b : Tree) (endTok : TokenType)
    (hf : Fits known (.comprFor a b endTok)) : Emit known (words b) (parseComprFor call a b endTok) := by
  obtain ⟨hend, hab⟩ := hf
  have hrec : ∀ known (k k' : Token) (vars values : Tree) (p : List (Nat × Nat)), p = words b ++ (words vars ++ words values) →
      Emit known p (call (.comprFor (.binop .kFor (span k) b (.binop .kIn (k.start + k.text.length, k'.start) vars values))
        (.binop .kFor (span k) b (.binop .kIn (k.start + k.text.length, k'.start) vars values)) endTok)) := by
    rintro known k k' vars values p rfl
    have := hcall known (.comprFor (.binop .kFor (span k) b (.binop .kIn (k.start + k.text.length, k'.start) vars values))
      (.binop .kFor (span k) b (.binop .kIn (k.start + k.text.length, k'.start) vars values)) endTok) ⟨hend, .inl rfl⟩
    simpa [readBefore, words] using this
  unfold parseComprFor
  refine .look fun k hk => .ite (fun h => .next ?_) fun h => .next (.ite (fun _ => .err (.pure rfl)) fun h2 => .pure ?_)
  · rw [wordOf_none (by rw [h]; rfl)]
    refine .peek fun k2 => .ite (fun h2 => .next ?_) fun _ => ?_
    · rw [wordOf_none (t := k2) (by rw [h2]; rfl)]
      refine .bind (hcall none (.list .tuple [] .optionalIdentifier (.op ')')) rfl) fun vars => .take fun k3 _ => ?_
      have H : Emit none (words b ++ (none : Option (Nat × Nat)).toList ++ (none : Option (Nat × Nat)).toList ++ words vars)
          (do
            let values ← call (.expression false)
            let after ← Parser.peek
            call (.comprFor (.binop .kFor (span k) b (.binop .kIn (k.start + k.text.length, after.start) vars values))
              (.binop .kFor (span k) b (.binop .kIn (k.start + k.text.length, after.start) vars values)) endTok)) :=
        .bind (hcall _ _ trivial) fun values => .peek fun k4 => hrec _ _ _ _ _ _ (by simp)
      refine .ite (fun _ => .err H) fun h3 => ?_
      rw [wordOf_none (t := k3) (by rw [Classical.not_not.1 h3]; rfl)]
      simpa using H
    · exact .bind (hcall _ (.list .tuple [] .optionalIdentifier .kIn) rfl) fun vars =>
        .bind (hcall _ _ trivial) fun values => .peek fun k4 => hrec _ _ _ _ _ _ (by simp)
  · rw [wordOf_none (by rw [Classical.not_not.1 h2]; exact hend)]
    rcases hab with rfl | ⟨k0, h0, h1⟩
    · simp
    · exact absurd (hk k0 h0 ▸ h1) h

end

theorem run_words (n : Nat) : ∀ known c, Fits known c → Emit known (readBefore c) (run n c) := by
  induction n with
  | zero => exact fun _ _ _ => .fail
  | succ n ih =>
    intro known c h
    unfold run body
    cases c with
    | expression o => exact expression_words ih _ _
    | suffix n => exact suffix_words ih _ _
    | ifElse n => exact ifElse_words ih _ _
    | arrayAccess => exact arrayAccess_words ih _
    | value o => exact value_words ih _ _
    | paren => exact paren_words ih _
    | tupleRest acc => exact tupleRest_words ih _ _
    | listOrCompr ty e => exact listOrCompr_words ih _ _ _
    | list ty acc e endTok => exact list_words ih _ _ _ _ _ h
    | elem e => exact elem_words ih _ _
    | funCall v => exact funCall_words ih _ _
    | comprFor a b endTok => exact comprFor_words ih _ _ _ _ h
    | statements acc => exact h.elim

/-! ### The statements -/

/-- The rest of the file is read as statements. -/
def Rest (acc : List Tree) (m : P Tree) : Prop :=
  ∀ s t s', Good s → m s = some (t, s') → s'.errs = [] →
    s.errs = [] ∧ ∃ xs, t = .list .list (acc ++ xs) ∧ Statements s.toks xs

/-- The rest of the file is read as a statement, of which the words have been read, and further ones. -/
def Within (pre : List (Nat × Nat)) (acc : List Tree) (m : P Tree) : Prop :=
  ∀ s t s', Good s → m s = some (t, s') → s'.errs = [] →
    s.errs = [] ∧ ∃ x xs seg ts, t = .list .list (acc ++ x :: xs) ∧ s.toks = seg ++ ts ∧
      words x = pre ++ wordsOf seg ∧ Statements ts xs

theorem Within.done {x : Tree} {pre : List (Nat × Nat)} {acc : List Tree} {m : P Tree} (h : Rest (acc ++ [x]) m)
    (hw : words x = pre) : Within pre acc m := by
  intro s t s' hg he herr
  obtain ⟨h1, xs, h2, h3⟩ := h s t s' hg he herr
  exact ⟨h1, x, xs, [], s.toks, by simpa using h2, rfl, by simp [hw, wordsOf], h3⟩

theorem Within.take {pre : List (Nat × Nat)} {acc : List Tree} {f : Token → P Tree}
    (h : ∀ k, Within (pre ++ (wordOf k).toList) acc (f k)) : Within pre acc (next >>= f) := by
  intro s t s' hg he herr
  have hg' : Good { s with
      toks := s.toks.tail, requests := s.requests + 1
      scans := if s.ahead then s.scans else s.scans + 1, ahead := false } :=
    hg.congr (List.tail_suffix _) rfl
  obtain ⟨h1, x, xs, seg, ts, h2, h3, h4, h5⟩ := h s.cur _ t s' hg' he herr
  simp only at h1 h3
  refine ⟨h1, x, xs, ?_⟩
  cases ht : s.toks with
  | nil =>
    have hc : wordOf s.cur = none := by
      rw [PState.cur, ht]
      exact wordOf_none (by rw [List.headD_nil, hg.heof]; rfl)
    rw [hc] at h4
    rw [ht] at h3
    exact ⟨seg, ts, h2, h3, by simpa using h4, h5⟩
  | cons k ks =>
    have hc : s.cur = k := by rw [PState.cur, ht]; rfl
    rw [hc] at h4
    rw [ht] at h3
    refine ⟨k :: seg, ts, h2, by rw [List.cons_append, ← h3]; rfl, ?_, h5⟩
    rw [h4, List.append_assoc]
    unfold wordsOf
    rw [List.filterMap_cons]
    cases wordOf k <;> rfl

theorem Within.err {pre : List (Nat × Nat)} {acc : List Tree} {k : Token} {m : Parser.Complaint} {x : Tree} :
    Within pre acc (errAt k m >>= fun _ => pure x) := by
  intro s t s' _ he herr
  simp only [Bind.bind, errAt, Pure.pure, Option.some.injEq, Prod.mk.injEq] at he
  rw [← he.2] at herr
  simp at herr

theorem Within.ite {pre : List (Nat × Nat)} {acc : List Tree} {c : Prop} [Decidable c] {m n : P Tree}
    (h : c → Within pre acc m) (h' : ¬ c → Within pre acc n) : Within pre acc (if c then m else n) := by
  by_cases hc : c
  · rw [if_pos hc]; exact h hc
  · rw [if_neg hc]; exact h' hc

theorem Within.bind {pre : List (Nat × Nat)} {acc : List Tree} {m : P Tree} {f : Tree → P Tree}
    (hm : Emit none [] m) (h : ∀ a, Within (pre ++ words a) acc (f a)) : Within pre acc (m >>= f) := by
  intro s t s' hg he herr
  simp only [Bind.bind] at he
  cases h1 : m s with
  | none => rw [h1] at he; cases he
  | some r =>
    obtain ⟨a, s1⟩ := r
    rw [h1] at he
    simp only at he
    obtain ⟨ha, hr⟩ := hm s a s1 hg (fun _ e => by cases e) h1
    obtain ⟨g1, x, xs, seg, ts, g2, g3, g4, g5⟩ := h a s1 t s' (ha.good hg) he herr
    obtain ⟨w, ⟨hw, seg', hseg, hsw⟩, hwa⟩ := hr g1
    refine ⟨hw, x, xs, seg' ++ seg, ts, g2, by rw [hseg, g3, List.append_assoc], ?_, g5⟩
    rw [g4, hwa, ← hsw]
    simp [wordsOf]

theorem Within.last {pre : List (Nat × Nat)} {acc : List Tree} {m : P Tree} {f : Tree → P Tree}
    (hm : Emit none pre m) (h : ∀ a, Rest (acc ++ [a]) (f a)) : Within pre acc (m >>= f) := by
  intro s t s' hg he herr
  simp only [Bind.bind] at he
  cases h1 : m s with
  | none => rw [h1] at he; cases he
  | some r =>
    obtain ⟨a, s1⟩ := r
    rw [h1] at he
    simp only at he
    obtain ⟨ha, hr⟩ := hm s a s1 hg (fun _ e => by cases e) h1
    obtain ⟨g1, xs, g2, g3⟩ := h a s1 t s' (ha.good hg) he herr
    obtain ⟨w, ⟨hw, seg', hseg, hsw⟩, hwa⟩ := hr g1
    exact ⟨hw, a, xs, seg', s1.toks, by simpa using g2, hseg, by rw [hwa, hsw], g3⟩

/-- The statement after its first token. -/
def afterFirst (call : Call → P Tree) (acc : List Tree) (tok : Token) : P Tree :=
  if tok.type = .op '[' then do
    let n ← call (.listOrCompr .list .expression)
    call (.statements (acc ++ [n]))
  else if tok.type = .op '(' then do
    let lhs ← call (.list .tuple [] .optionalIdentifier (.op ')'))
    let assign ← next
    if assign.type ≠ .op '=' then do
      errAt assign .assignment
      pure (.list .list acc)
    else do
      let rhs ← call (.expression false)
      call (.statements (acc ++ [.assign lhs rhs]))
  else if tok.type ≠ .identifier then do
    errAt tok .identifier
    pure (.list .list acc)
  else do
    let afterId ← next
    if afterId.type = .op '=' then do
      let rhs ← call (.expression false)
      call (.statements (acc ++ [.assign (.ident (viewOf tok)) rhs]))
    else if afterId.type = .op '(' then do
      let n ← call (.funCall (viewOf tok))
      call (.statements (acc ++ [n]))
    else if afterId.type = .op '.' then do
      let rhs ← call (.expression false)
      call (.statements (acc ++ [.binop (.op '.') (span afterId) (.ident (viewOf tok)) rhs]))
    else do
      errAt afterId .statement
      pure (.list .list acc)

theorem parseStatements_eq (call : Call → P Tree) (acc : List Tree) : parseStatements call acc = (do
    let err ← hasError
    if err then pure (.list .list acc)
    else do
      let tok ← next
      if tok.type = .eof then pure (.list .list acc)
      else if tok.type = .stringLiteral then call (.statements acc)
      else afterFirst call acc tok) := rfl

theorem afterFirst_within {call : Call → P Tree} (hcall : ∀ known c, Fits known c → Emit known (readBefore c) (call c))
    (hrest : ∀ acc, Rest acc (call (.statements acc))) (acc : List Tree) (tok : Token) :
    Within (wordOf tok).toList acc (afterFirst call acc tok) := by
  unfold afterFirst
  refine .ite (fun h => ?_) fun _ => .ite (fun h => ?_) fun _ => .ite (fun _ => .err) fun h => ?_
  · rw [wordOf_none (by rw [h]; rfl)]
    exact .last (hcall none (.listOrCompr _ _) trivial) fun a => hrest _
  · rw [wordOf_none (by rw [h]; rfl)]
    refine .bind (hcall none (.list .tuple [] .optionalIdentifier (.op ')')) rfl) fun lhs => .take fun k => .ite (fun _ => .err)
      fun h2 => ?_
    rw [wordOf_none (t := k) (by rw [Classical.not_not.1 h2]; rfl)]
    exact .bind (hcall _ _ trivial) fun rhs => .done (hrest _) (by simp [words])
  · rw [wordOf_ident (Classical.not_not.1 h)]
    refine .take fun k => .ite (fun h2 => ?_) fun _ => .ite (fun h2 => ?_) fun _ => .ite (fun h2 => ?_) fun _ => .err
    · rw [wordOf_none (t := k) (by rw [h2]; rfl)]
      exact .bind (hcall _ _ trivial) fun rhs => .done (hrest _) (by simp [words, viewOf_range])
    · rw [wordOf_none (t := k) (by rw [h2]; rfl)]
      exact .last (by simpa [readBefore, viewOf_range] using hcall none (.funCall (viewOf tok)) trivial) fun a => hrest _
    · rw [wordOf_none (t := k) (by rw [h2]; rfl)]
      exact .bind (hcall _ _ trivial) fun rhs => .done (hrest _) (by simp [words, viewOf_range])

theorem statements_words {call : Call → P Tree} (hcall : ∀ known c, Fits known c → Emit known (readBefore c) (call c))
    (hrest : ∀ acc, Rest acc (call (.statements acc))) (acc : List Tree) : Rest acc (parseStatements call acc) := by
  intro s t s' hg he herr
  rw [parseStatements_eq] at he
  simp only [Bind.bind, hasError] at he
  by_cases h0 : s.errs = []
  · rw [if_neg (by simp [h0])] at he
    simp only [next] at he
    cases ht : s.toks with
    | nil =>
      have hc : s.cur.type = .eof := by rw [PState.cur, ht]; exact hg.heof
      rw [if_pos hc] at he
      cases he
      exact ⟨h0, [], by simp, .none⟩
    | cons k ks =>
      have hc : s.cur = k := by rw [PState.cur, ht]; rfl
      rw [hc, if_neg (hg.noEof k (by rw [ht]; exact .head _))] at he
      have hg' : Good { s with
          toks := s.toks.tail, requests := s.requests + 1
          scans := if s.ahead then s.scans else s.scans + 1, ahead := false } :=
        hg.congr (List.tail_suffix _) rfl
      by_cases hs : k.type = .stringLiteral
      · rw [if_pos hs] at he
        obtain ⟨_, xs, h2, h3⟩ := hrest acc _ t s' hg' he herr
        simp only [ht, List.tail_cons] at h3
        exact ⟨h0, xs, h2, .doc hs h3⟩
      · rw [if_neg hs] at he
        obtain ⟨_, x, xs, seg, ts, h2, h3, h4, h5⟩ := afterFirst_within hcall hrest acc k _ t s' hg' he herr
        simp only [ht, List.tail_cons] at h3
        refine ⟨h0, x :: xs, h2, ?_⟩
        rw [h3, ← List.cons_append]
        refine .next hs ?_ h5
        rw [h4]
        unfold wordsOf
        rw [List.filterMap_cons]
        cases wordOf k <;> rfl
  · rw [if_pos (by simp [h0])] at he
    cases he
    exact absurd herr h0

theorem run_rest (n : Nat) : ∀ acc, Rest acc (run n (.statements acc)) := by
  induction n with
  | zero => intro acc s t s' _ he; cases he
  | succ n ih => exact fun acc => statements_words (run_words n) ih acc

/-- The words of the tree of a file without errors are those of the file. -/
theorem parseFile_words {content : Str} {t : Tree} {st : PState} (h : parseFile content = some (t, st))
    (he : st.errs = []) : ∃ xs, t = .list .list xs ∧ Statements (initState content).toks xs := by
  obtain ⟨_, xs, h1, h2⟩ := run_rest _ _ _ _ _ (Parser.initState_good content) h he
  exact ⟨xs, by simpa using h1, h2⟩

end Located
end Bant
