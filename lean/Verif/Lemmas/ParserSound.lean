import Verif.Lemmas.Parser
import Verif.Spec.Grammar

/-! Helper lemmas: without an error the parser follows the grammar. -/
namespace Bant
namespace Parser
open Grammar
set_option linter.unusedSimpArgs false

/-- Items of the grammar for the element functions. -/
def itemOf : Elem → Item
  | .expression => .value
  | .expressionOrAssignment => .argument
  | .mapTuple => .entry
  | .optionalIdentifier => .variable

/-- Tokens that start an atom. -/
def startsAtom (t : TokenType) : Prop :=
  t ∈ [.op '[', .op '{', .stringLiteral, .numberLiteral, .identifier]

/-- What a call means if no error has been reported. -/
def Meaning (c : Call) (s s' : List Token) (a : Node) : Prop :=
  match c with
  | .expression opt => Parses (.expr opt) s s' a
  | .suffix n => Parses (.cont n) s s' a
  | .ifElse n => Parses (.cont n) s s' a
  | .arrayAccess => Parses .index s s' a
  | .value opt => (a = .null ∧ opt = true ∧ s' = s ∧ ¬ startsAtom (hd s)) ∨ Parses .atom s s' a
  | .paren => ∃ t s1, s = t :: s1 ∧ t.type = .op '(' ∧ Parses .paren s1 s' a
  | .tupleRest acc => ∃ xs, a = .list .tuple (acc ++ xs) ∧ Parses .tupleTail s s' (.list .tuple xs)
  | .listOrCompr ty e => e ≠ .optionalIdentifier → Parses (.bracket ty (itemOf e)) s s' a
  | .list ty acc e close => close ≠ .eof →
      ∃ xs, a = .list ty (acc ++ xs) ∧ Parses (.items ty (itemOf e) close) s s' (.list ty xs)
  | .elem e => Parses (.item (itemOf e)) s s' a
  | .funCall name => ∃ args, a = .call (.ident name) args ∧
      Parses (.items .tuple .argument (.op ')')) s s' args
  | .comprFor tree target close => close ≠ .eof → close ≠ .kFor →
      (hd s = .kFor → Parses (.clauses close target) s s' a) ∧
      (tree = target → Parses (.moreClauses close target) s s' a)
  | .statements acc => ∃ xs, a = .list .list (acc ++ xs) ∧ s' = [] ∧
      Parses .program s [] (.list .list xs)

def Post (c : Call) (s : PState) (a : Node) (s' : PState) : Prop :=
  Later s s' ∧ (s'.errs = [] → s.errs = [] ∧ Meaning c s.toks s'.toks a)

def CallsSound (call : Call → P Node) : Prop :=
  ∀ c s, Good s → wlp (call c) (Post c s) s

theorem CallsSound.use {call : Call → P Node} (h : CallsSound call) {c : Call}
    {s st : PState} {Q : Node → PState → Prop} (hg : Good s) (hl : Later s st)
    (k : ∀ a s', Later s s' → (s'.errs = [] → st.errs = [] ∧ Meaning c st.toks s'.toks a) → Q a s') :
    wlp (call c) Q st := by
  refine wlp_mono (h c st (hg.congr hl.1 hl.2)) ?_
  intro a s' h'
  exact k a s' (hl.trans h'.1) h'.2

theorem cur_hd {s st : PState} (hg : Good s) (hl : Later s st) : st.cur.type = hd st.toks := by
  have h := (hg.congr hl.1 hl.2).heof
  cases hs : st.toks with
  | nil => simp [PState.cur, hs, hd, h]
  | cons t ts => simp [PState.cur, hs, hd]

theorem toks_cons {s st : PState} (hg : Good s) (hl : Later s st) (hc : st.cur.type ≠ .eof) :
    st.toks = st.cur :: st.toks.tail := by
  have h := (hg.congr hl.1 hl.2).heof
  cases hs : st.toks with
  | nil => simp [PState.cur, hs] at hc; exact absurd h hc
  | cons t ts => simp [PState.cur, hs]

theorem endTokenFor_eq (ty : ListType) : endTokenFor ty = closing ty := by cases ty <;> rfl
theorem closing_ne_eof (ty : ListType) : closing ty ≠ .eof := by cases ty <;> simp [closing]
theorem closing_ne_for (ty : ListType) : closing ty ≠ .kFor := by cases ty <;> simp [closing]

theorem isBinOp_iff (t : TokenType) : isBinOp t = true ↔ t ∈ Grammar.binary := by
  cases t <;> simp [isBinOp, Grammar.binary]
  all_goals try rename_i c
  · constructor
    · rintro (h | h | h | h | h | h | h | h | h) <;> simp [h]
    · rintro (h | h | h | h | h | h | h | h | h) <;> simp [h]
  · constructor
    · rintro (h | h | h | h) <;> simp [h]
    · rintro (h | h | h | h) <;> simp [h]

theorem isNull_iff (n : Node) : n.isNull = true ↔ n = .null := by
  cases n <;> simp [Node.isNull]
theorem isNull_false (n : Node) : n.isNull = false ↔ n ≠ .null := by
  cases n <;> simp [Node.isNull]

theorem strFromLiteral_ne_null {t : Str} {n : Node} (h : strFromLiteral t = some n) : n ≠ .null := by
  simp only [strFromLiteral] at h
  split at h
  · simp at h; simp [← h]
  · split at h
    · simp at h; simp [← h]
    · cases h

theorem intFromLiteral_ne_null {t : Str} {n : Node} (h : intFromLiteral t = some n) : n ≠ .null := by
  simp only [intFromLiteral] at h
  split at h
  · simp at h; simp [← h]
  · cases h

/-- Phrases that always have a tree. -/
def Substantial : NT → Prop
  | .expr opt => opt = false
  | .cont n => n ≠ .null
  | .item i => i ≠ .variable
  | .atom | .paren | .bracket .. | .items .. | .tupleTail | .index | .program => True
  | .clauses .. | .moreClauses .. => False

theorem ne_null {nt : NT} {s s' : List Token} {n : Node} (h : Parses nt s s' n)
    (hs : Substantial nt) : n ≠ .null := by
  induction h <;> simp_all [Substantial]
  · exact strFromLiteral_ne_null (by assumption)
  · exact intFromLiteral_ne_null (by assumption)

section
variable {call : Call → P Node} (hcall : CallsSound call)

/-- Uses the promise about a recursive call. -/
local macro "step" a:ident s1:ident h1:ident h2:ident : tactic => `(tactic|
  (refine CallsSound.use ‹CallsSound _› ‹Good _› (by first | assumption | later) ?_
   intro $a $s1 $h1 $h2))

local macro "lt" : tactic => `(tactic| (first | assumption | later | exact Later.refl _))

include hcall

theorem parseExpression_sound {s : PState} (hg : Good s) (opt : Bool) :
    wlp (parseExpression call opt) (Post (.expression opt) s) s := by
  simp only [parseExpression, wlp_bind, wlp_peek, wlp_next, wlp_ite, wlp_pure]
  refine ⟨fun h => ?_, fun g1 => ⟨fun h => ?_, fun g2 => ?_⟩⟩
  · have hc := toks_cons hg (.refl s) (by rcases h with h | h <;> simp [h])
    step a s1 h1 h2
    step b s2 h3 h4
    refine ⟨by lt, fun he => ?_⟩
    obtain ⟨e1, m1⟩ := h4 he
    obtain ⟨e2, m2⟩ := h2 e1
    refine ⟨e2, ?_⟩
    simp only [Meaning] at *
    rw [hc]
    exact .unary (by simpa using h) m2 m1
  · step a s1 h1 h2
    refine ⟨fun hn => ?_, fun hn => ?_⟩
    · refine ⟨by lt, fun he => ?_⟩
      obtain ⟨e1, t, r, m1, m2, m3⟩ := h2 he
      rw [isNull_iff] at hn
      subst hn
      exact absurd rfl (ne_null m3 trivial)
    · step b s2 h3 h4
      refine ⟨by lt, fun he => ?_⟩
      obtain ⟨e1, m1⟩ := h4 he
      obtain ⟨e2, t, r, m2, m3, m4⟩ := h2 e1
      refine ⟨e2, ?_⟩
      simp only [Meaning] at *
      rw [m2]
      exact .parenthesis m3 m4 m1
  · step a s1 h1 h2
    refine ⟨fun hn => ?_, fun hn => ?_⟩
    · refine ⟨by lt, fun he => ?_⟩
      obtain ⟨e1, m⟩ := h2 he
      rw [isNull_iff] at hn
      subst hn
      refine ⟨e1, ?_⟩
      rcases m with ⟨_, rfl, m1, m2⟩ | m
      · simp only [Meaning, m1]
        simp only at m2
        refine .missing ?_
        have hh := cur_hd hg (.refl s)
        rw [← hh] at m2 ⊢
        simp only [startsExpr, startsAtom, List.mem_cons, List.not_mem_nil, or_false, not_or] at m2 g1 ⊢
        exact ⟨g1.1, g1.2, g2, m2⟩
      · exact absurd rfl (ne_null m trivial)
    · step b s2 h3 h4
      refine ⟨by lt, fun he => ?_⟩
      obtain ⟨e1, m1⟩ := h4 he
      obtain ⟨e2, m2⟩ := h2 e1
      refine ⟨e2, ?_⟩
      rcases m2 with ⟨m2, _⟩ | m2
      · exact absurd ((isNull_iff _).2 m2) hn
      · exact .operand m2 m1

theorem parseSuffix_sound {s : PState} (hg : Good s) (n : Node) :
    wlp (parseSuffix call n) (Post (.suffix n) s) s := by
  simp only [parseSuffix, wlp_bind, wlp_peek, wlp_next, wlp_ite, wlp_pure]
  refine ⟨fun h => ?_, fun g1 => ⟨fun h => ?_, fun g2 => ⟨fun h => ⟨fun hn => ?_, fun hn => ?_⟩, fun h => ?_⟩⟩⟩
  · step a s1 h1 h2
    exact ⟨by lt, h2⟩
  · have hc := toks_cons hg (.refl s) (by intro he; rw [he] at h; simp [isBinOp] at h)
    step a s1 h1 h2
    refine ⟨by lt, fun he => ?_⟩
    obtain ⟨e1, m1⟩ := h2 he
    refine ⟨e1, ?_⟩
    simp only [Meaning] at *
    rw [hc]
    exact .binary ((isBinOp_iff _).1 h) m1
  · refine ⟨by lt, fun he => ⟨he, .stop ?_⟩⟩
    rintro ⟨t, r, h1, h2⟩
    have : s.cur = t := by simp [PState.cur, h1]
    subst this
    simp [h, g2, hn, ← isBinOp_iff, isBinOp] at h2
  · have hc := toks_cons hg (.refl s) (by simp [h])
    step a s1 h1 h2
    step b s2 h3 h4
    refine ⟨by lt, fun he => ?_⟩
    obtain ⟨e1, m1⟩ := h4 he
    obtain ⟨e2, m2⟩ := h2 e1
    refine ⟨e2, ?_⟩
    simp only [Meaning] at *
    rw [hc]
    rw [cur_req, h] at m1
    exact .indexed h (by simpa using hn) m2 m1
  · refine ⟨by lt, fun he => ⟨he, .stop ?_⟩⟩
    rintro ⟨t, r, h1, h2⟩
    have : s.cur = t := by simp [PState.cur, h1]
    subst this
    simp [h, g1, ← isBinOp_iff] at h2
    exact g2 h2

theorem parseIfElse_sound {s : PState} (hg : Good s) (n : Node) :
    wlp (parseIfElse call n) (Post (.ifElse n) s) s := by
  simp only [parseIfElse, wlp_bind, wlp_peek, wlp_next, wlp_ite, wlp_pure, wlp_fail]
  refine ⟨fun _ => trivial, fun h => ?_⟩
  simp only [ne_eq, Decidable.not_not] at h
  have hc := toks_cons hg (.refl s) (by simp [h])
  step a s1 h1 h2
  refine ⟨fun h3 => ?_, fun h3 => ?_⟩
  · have hc1 := toks_cons hg h1 (by simp [h3])
    step b s2 h4 h5
    refine ⟨by lt, fun he => ?_⟩
    obtain ⟨e1, m1⟩ := h5 he
    obtain ⟨e2, m2⟩ := h2 e1
    refine ⟨e2, ?_⟩
    simp only [Meaning] at *
    rw [hc]
    rw [hc1] at m2
    exact .ifElse h m2 h3 m1
  · refine ⟨by lt, fun he => ?_⟩
    obtain ⟨e2, m2⟩ := h2 he
    refine ⟨e2, ?_⟩
    simp only [Meaning] at *
    rw [hc]
    exact .ifOnly h m2 (by rw [← cur_hd hg h1]; exact h3)

theorem parseArrayAccess_sound {s : PState} (hg : Good s) :
    wlp (parseArrayAccess call) (Post .arrayAccess s) s := by
  simp only [parseArrayAccess, wlp_bind, wlp_peek, wlp_next, wlp_ite, wlp_pure, wlp_errAt]
  step a s1 h1 h2
  refine ⟨fun h => ⟨fun _ => ⟨by lt, fun he => by simp at he⟩, fun hn => ⟨by lt, fun he => ?_⟩⟩,
    fun _ => ⟨fun h => ?_, fun _ => ⟨by lt, fun he => by simp at he⟩⟩⟩
  · obtain ⟨e1, m1⟩ := h2 he
    refine ⟨e1, ?_⟩
    simp only [Meaning] at *
    rw [toks_cons hg h1 (by simp [h])] at m1
    exact .at_ m1 (by rw [isNull_iff] at hn; exact hn) h
  · have hc := toks_cons hg h1 (by simp [h])
    step b s2 h3 h4
    refine ⟨fun _ => ⟨by lt, fun he => by simp at he⟩, fun h5 => ⟨fun _ => ⟨by lt, fun he => by simp at he⟩,
      fun h6 => ⟨by lt, fun he => ?_⟩⟩⟩
    simp only [ne_eq, Decidable.not_not] at h5
    obtain ⟨e1, m1⟩ := h4 he
    obtain ⟨e2, m2⟩ := h2 e1
    refine ⟨e2, ?_⟩
    simp only [Meaning] at *
    rw [hc] at m2
    rw [toks_cons hg h3 (by simp [h5])] at m1
    refine .slice m2 h m1 h5 ?_
    simpa [isNull_iff] using h6

theorem parseValue_sound {s : PState} (hg : Good s) (opt : Bool) :
    wlp (parseValue call opt) (Post (.value opt) s) s := by
  simp only [parseValue, wlp_bind, wlp_peek, wlp_next, wlp_ite, wlp_pure, wlp_errAt]
  refine ⟨fun h => ?_, fun g1 => ⟨fun h => ?_, fun g2 => ⟨fun h => ?_, fun g3 => ⟨fun h => ?_,
    fun g4 => ⟨fun h => ?_, fun g5 => ⟨fun ho => ?_, fun _ => ⟨by lt, fun he => by simp at he⟩⟩⟩⟩⟩⟩⟩
  · have hc := toks_cons hg (.refl s) (by simp [h])
    change wlp (match strFromLiteral s.cur.text with
      | some n => pure n
      | none => fail) _ _
    cases he : strFromLiteral s.cur.text with
    | none => simp [wlp_fail]
    | some n =>
      simp only [wlp_pure]
      refine ⟨by lt, fun h2 => ⟨h2, .inr ?_⟩⟩
      rw [hc]
      exact .string h he
  · have hc := toks_cons hg (.refl s) (by simp [h])
    change wlp (match intFromLiteral s.cur.text with
      | some n => pure n
      | none => do errAt s.cur .intLiteral; pure .null) _ _
    cases he : intFromLiteral s.cur.text with
    | none =>
      simp only [wlp_bind, wlp_errAt, wlp_pure]
      exact ⟨by lt, fun h => by simp at h⟩
    | some n =>
      simp only [wlp_pure]
      refine ⟨by lt, fun h2 => ⟨h2, .inr ?_⟩⟩
      rw [hc]
      exact .number h he
  · have hc := toks_cons hg (.refl s) (by simp [h])
    refine ⟨fun h2 => ?_, fun h2 => ?_⟩
    · have hc2 := toks_cons hg (s := s) (st := ⟨s.toks.tail, s.eof, s.errs, s.requests + 1 + 1, s.scans, s.ahead, s.said⟩) (by lt)
        (fun e => by have := h2.symm.trans e; simp at this)
      simp only at hc2
      step a s1 h1 h3
      refine ⟨by lt, fun he => ?_⟩
      obtain ⟨e1, args, m1, m2⟩ := h3 he
      refine ⟨e1, .inr ?_⟩
      rw [hc, hc2, m1]
      exact .call h h2 m2
    · refine ⟨by lt, fun h3 => ⟨h3, .inr ?_⟩⟩
      rw [hc]
      refine .name h ?_
      rw [← cur_hd hg (st := ⟨s.toks.tail, s.eof, s.errs, s.requests + 1 + 1, s.scans, s.ahead, s.said⟩) (by lt)]
      exact h2
  · have hc := toks_cons hg (.refl s) (by simp [h])
    step a s1 h1 h3
    refine ⟨by lt, fun he => ?_⟩
    obtain ⟨e1, m1⟩ := h3 he
    refine ⟨e1, .inr ?_⟩
    rw [hc]
    exact .list h (m1 (by simp))
  · have hc := toks_cons hg (.refl s) (by simp [h])
    step a s1 h1 h3
    refine ⟨by lt, fun he => ?_⟩
    obtain ⟨e1, m1⟩ := h3 he
    refine ⟨e1, .inr ?_⟩
    rw [hc]
    exact .map h (m1 (by simp))
  · refine ⟨by lt, fun he => ⟨he, .inl ⟨rfl, ho, rfl, ?_⟩⟩⟩
    rw [← cur_hd hg (.refl s)]
    simp [startsAtom, g1, g2, g3, g4, g5]

theorem parseParen_sound {s : PState} (hg : Good s) :
    wlp (parseParen call) (Post .paren s) s := by
  simp only [parseParen, wlp_bind, wlp_peek, wlp_next, wlp_ite, wlp_pure, wlp_errAt, wlp_fail]
  refine ⟨fun _ => trivial, fun h => ?_⟩
  simp only [ne_eq, Decidable.not_not] at h
  have hc := toks_cons hg (.refl s) (by simp [h])
  step a s1 h1 h2
  refine ⟨fun h3 => ?_, fun h4 => ⟨fun h3 => ⟨fun _ => ⟨by lt, fun he => by simp at he⟩, fun h5 => ?_⟩,
    fun h5 => ?_⟩⟩
  · simp only [Bool.and_eq_true, Bool.not_eq_eq_eq_not, Bool.not_true, decide_eq_true_eq] at h3
    refine ⟨by lt, fun he => ?_⟩
    obtain ⟨e1, m1⟩ := h2 he
    refine ⟨e1, s.cur, _, hc, h, ?_⟩
    simp only [Meaning] at *
    have hc1 := toks_cons hg h1 (by intro e; have := h3.2.symm.trans e; simp at this)
    rw [hc1] at m1
    exact .grouped m1 ((isNull_false _).1 h3.1) h3.2
  · simp only [ne_eq, Decidable.not_not] at h5
    refine ⟨by lt, fun he => ?_⟩
    obtain ⟨e1, m1⟩ := h2 he
    refine ⟨e1, s.cur, _, hc, h, ?_⟩
    simp only [Meaning] at *
    rw [isNull_iff] at h3
    have hc1 := toks_cons hg h1 (by intro e; have := h5.symm.trans e; simp at this)
    rw [h3, hc1] at m1
    exact .emptyTuple m1 h5
  · step b s2 h6 h7
    refine ⟨by lt, fun he => ?_⟩
    obtain ⟨e1, xs, m1, m2⟩ := h7 he
    obtain ⟨e2, m3⟩ := h2 e1
    refine ⟨e2, s.cur, _, hc, h, ?_⟩
    simp only [Meaning] at *
    rw [m1]
    refine .tuple m3 (by rw [isNull_iff] at h5; exact h5) ?_ m2
    have hcur := cur_hd hg h1
    generalize s1.toks = ts at m2 hcur
    cases m2 with
    | tupleEnd ht =>
      exfalso
      apply h4
      simp only [Bool.and_eq_true, Bool.not_eq_eq_eq_not, Bool.not_true, decide_eq_true_eq]
      refine ⟨(isNull_false _).2 (fun e => h5 ((isNull_iff _).2 e)), ?_⟩
      rw [hcur]; simpa [hd] using ht
    | tupleComma ht _ => simpa [hd] using ht
    | tupleNext ht _ _ _ => simpa [hd] using ht

theorem parseTupleRest_sound {s : PState} (hg : Good s) (acc : List Node) :
    wlp (parseTupleRest call acc) (Post (.tupleRest acc) s) s := by
  simp only [parseTupleRest, wlp_bind, wlp_peek, wlp_next, wlp_ite, wlp_pure, wlp_errAt]
  refine ⟨fun h => ?_, fun _ => ⟨fun _ => ⟨by lt, fun he => by simp at he⟩, fun h => ⟨fun h2 => ?_, fun h2 => ?_⟩⟩⟩
  · have hc := toks_cons hg (.refl s) (by simp [h])
    refine ⟨by lt, fun he => ⟨he, [], by simp, ?_⟩⟩
    rw [hc]
    exact .tupleEnd h
  · simp only [ne_eq, Decidable.not_not] at h
    have hc := toks_cons hg (.refl s) (by simp [h])
    have hc2 := toks_cons hg (s := s) (st := ⟨s.toks.tail, s.eof, s.errs, s.requests + 1, s.scans, s.ahead, s.said⟩) (by lt)
        (fun e => by have := h2.symm.trans e; simp at this)
    simp only at hc2
    refine ⟨by lt, fun he => ⟨he, [], by simp, ?_⟩⟩
    rw [hc, hc2]
    exact .tupleComma h h2
  · simp only [ne_eq, Decidable.not_not] at h
    have hc := toks_cons hg (.refl s) (by simp [h])
    step a s1 h3 h4
    step b s2 h5 h6
    refine ⟨by lt, fun he => ?_⟩
    obtain ⟨e1, xs, m1, m2⟩ := h6 he
    obtain ⟨e2, m3⟩ := h4 e1
    refine ⟨e2, a :: xs, by simp [m1], ?_⟩
    rw [hc]
    refine .tupleNext h ?_ m3 m2
    rw [← cur_hd hg (st := ⟨s.toks.tail, s.eof, s.errs, s.requests + 1, s.scans, s.ahead, s.said⟩) (by lt)]
    exact h2

theorem parseListOrCompr_sound {s : PState} (hg : Good s) (ty : ListType) (e : Elem) :
    wlp (parseListOrCompr call ty e) (Post (.listOrCompr ty e) s) s := by
  simp only [parseListOrCompr, wlp_bind, wlp_peek, wlp_next, wlp_ite, wlp_pure, wlp_errAt,
    endTokenFor_eq]
  have hcl := closing_ne_eof ty
  refine ⟨fun h => ?_, fun h0 => ?_⟩
  · have hc := toks_cons hg (.refl s) (by rw [h]; exact hcl)
    refine ⟨by lt, fun he => ⟨he, ?_⟩⟩
    simp only [Meaning]
    rw [hc]
    exact fun _ => .emptyBracket h
  rw [cur_hd hg (.refl s)] at h0
  step a s1 h1 h2
  refine ⟨fun hn => ⟨by lt, fun he => ?_⟩, fun hn => ⟨fun h => ?_, fun g1 => ⟨fun h => ?_, fun g2 =>
    ⟨fun h => ?_, fun h => ?_⟩⟩⟩⟩
  · obtain ⟨e1, m1⟩ := h2 he
    rw [isNull_iff] at hn
    subst hn
    refine ⟨e1, fun hopt => absurd rfl (ne_null m1 ?_)⟩
    cases e <;> simp_all [Substantial, itemOf]
  · step b s2 h3 h4
    refine ⟨by lt, fun he => ?_⟩
    obtain ⟨e1, m1⟩ := h4 he
    obtain ⟨e2, m2⟩ := h2 e1
    refine ⟨e2, ?_⟩
    simp only [Meaning] at *
    rw [isNull_iff] at hn
    have hf : hd s1.toks = .kFor := by rw [← cur_hd hg h1]; exact h
    exact fun _ => .comprehension h0 m2 hn hf ((m1 hcl (closing_ne_for ty)).1 hf)
  · have hc := toks_cons hg h1 (by simp [h])
    step b s2 h3 h4
    refine ⟨by lt, fun he => ?_⟩
    obtain ⟨e1, m1⟩ := h4 he
    obtain ⟨e2, m2⟩ := h2 e1
    refine ⟨e2, ?_⟩
    simp only [Meaning] at *
    rw [isNull_iff] at hn
    obtain ⟨xs, m3, m4⟩ := m1 hcl
    rw [m3]
    rw [hc] at m2
    exact fun _ => .bracketMore h0 m2 hn h m4
  · step b s2 h3 h4
    exact ⟨by lt, fun he => by have := (h4 he).1; simp at this⟩
  · simp only [ne_eq, Decidable.not_not] at h
    have hc := toks_cons hg h1 (by rw [h]; exact hcl)
    step b s2 h3 h4
    refine ⟨by lt, fun he => ?_⟩
    obtain ⟨e1, m1⟩ := h4 he
    obtain ⟨e2, m2⟩ := h2 e1
    refine ⟨e2, ?_⟩
    simp only [Meaning] at *
    rw [isNull_iff] at hn
    obtain ⟨xs, m3, m4⟩ := m1 hcl
    rw [m3]
    rw [hc] at m2 m4
    have hs2 : s2.toks = s1.toks.tail ∧ xs = [] := by
      generalize s1.toks.tail = ts at m4
      generalize s2.toks = ts2 at m4
      cases m4 with
      | itemsEnd _ => simp
      | itemsLast h _ _ => exact absurd (by simpa [hd] using (by assumption)) h
      | itemsMore h _ _ _ => exact absurd (by simpa [hd] using (by assumption)) h
    rw [hs2.1, hs2.2]
    exact fun _ => .bracketOne h0 m2 hn h

theorem parseList_sound {s : PState} (hg : Good s) (ty : ListType) (acc : List Node) (e : Elem)
    (close : TokenType) :
    wlp (parseList call ty acc e close) (Post (.list ty acc e close) s) s := by
  simp only [parseList, wlp_bind, wlp_peek, wlp_next, wlp_ite, wlp_pure, wlp_errAt]
  refine ⟨fun h => ⟨by lt, fun he => ⟨he, fun hcl => ⟨[], by simp, ?_⟩⟩⟩, fun h0 => ?_⟩
  · rw [toks_cons hg (.refl s) (by rw [h]; exact hcl)]
    exact .itemsEnd h
  rw [cur_hd hg (.refl s)] at h0
  step a s1 h1 h2
  refine ⟨fun h => ?_, fun g1 => ⟨fun h => ⟨by lt, fun he => by simp at he⟩, fun h => ⟨by lt, fun he => ?_⟩⟩⟩
  · have hc := toks_cons hg h1 (by simp [h])
    step b s2 h3 h4
    refine ⟨by lt, fun he => ?_⟩
    obtain ⟨e1, m1⟩ := h4 he
    obtain ⟨e2, m2⟩ := h2 e1
    refine ⟨e2, fun hcl => ?_⟩
    obtain ⟨xs, m3, m4⟩ := m1 hcl
    refine ⟨a :: xs, by simp [m3], ?_⟩
    simp only [Meaning] at m2
    rw [hc] at m2
    exact .itemsMore h0 m2 h m4
  · simp only [ne_eq, Decidable.not_not] at h
    obtain ⟨e1, m1⟩ := h2 he
    refine ⟨e1, fun hcl => ⟨[a], rfl, ?_⟩⟩
    have hc := toks_cons hg h1 (by rw [h]; exact hcl)
    simp only [Meaning] at m1
    rw [hc] at m1
    exact .itemsLast h0 m1 h

omit hcall in
theorem asIdent_ne_none {n : Node} : n.asIdent ≠ none ↔ ∃ i, n = .ident i := by
  cases n <;> simp [Node.asIdent]

theorem parseElem_sound {s : PState} (hg : Good s) (e : Elem) :
    wlp (parseElem call e) (Post (.elem e) s) s := by
  cases e <;> simp only [parseElem, expressionOrAssignment, parseMapTuple, parseOptionalIdentifier,
    wlp_bind, wlp_peek, wlp_next, wlp_ite, wlp_pure, wlp_errAt]
  · step a s1 h1 h2
    exact ⟨by lt, fun he => ⟨(h2 he).1, .itemValue (h2 he).2⟩⟩
  · step a s1 h1 h2
    refine ⟨fun hn => ⟨by lt, fun he => ?_⟩, fun hn => ⟨fun h => ?_, fun h => ⟨by lt, fun he => ?_⟩⟩⟩
    · rw [isNull_iff] at hn
      exact absurd hn (ne_null (h2 he).2 rfl)
    · have hc := toks_cons hg h1 (by intro e; have := h.2.symm.trans e; simp at this)
      step b s2 h3 h4
      refine ⟨by lt, fun he => ?_⟩
      obtain ⟨e1, m1⟩ := h4 he
      obtain ⟨e2, m2⟩ := h2 e1
      refine ⟨e2, ?_⟩
      obtain ⟨i, rfl⟩ := asIdent_ne_none.1 h.1
      simp only [Meaning] at *
      rw [hc] at m2
      exact .itemKeyword m2 h.2 m1
    · obtain ⟨e1, m1⟩ := h2 he
      refine ⟨e1, .itemArgument m1 (by rw [isNull_iff] at hn; exact hn) ?_⟩
      rw [asIdent_ne_none] at h
      rw [← cur_hd hg h1]
      exact h
  · step a s1 h1 h2
    refine ⟨fun h => ⟨by lt, fun he => by simp at he⟩, fun h => ?_⟩
    simp only [ne_eq, Decidable.not_not] at h
    have hc := toks_cons hg h1 (by rw [h]; simp)
    step b s2 h3 h4
    refine ⟨by lt, fun he => ?_⟩
    obtain ⟨e1, m1⟩ := h4 he
    obtain ⟨e2, m2⟩ := h2 e1
    refine ⟨e2, ?_⟩
    simp only [Meaning] at *
    rw [hc] at m2
    exact .itemEntry m2 h m1
  · refine ⟨fun h => ⟨by lt, fun he => ⟨he, ?_⟩⟩, fun h => ⟨by lt, fun he => ⟨he, ?_⟩⟩⟩
    · simp only [Meaning]
      rw [toks_cons hg (.refl s) (by simp [h])]
      exact .itemVariable h
    · exact .itemNothing (by rw [← cur_hd hg (.refl s)]; exact h)

theorem parseFunCall_sound {s : PState} (hg : Good s) (name : Str) :
    wlp (parseFunCall call name) (Post (.funCall name) s) s := by
  simp only [parseFunCall, wlp_bind, wlp_pure]
  step a s1 h1 h2
  refine ⟨by lt, fun he => ?_⟩
  obtain ⟨e1, m1⟩ := h2 he
  obtain ⟨xs, m2, m3⟩ := m1 (by simp)
  exact ⟨e1, _, rfl, by rw [m2]; exact m3⟩

theorem parseComprFor_sound {s : PState} (hg : Good s) (tree target : Node) (close : TokenType) :
    wlp (parseComprFor call tree target close) (Post (.comprFor tree target close) s) s := by
  simp only [parseComprFor, wlp_bind, wlp_peek, wlp_next, wlp_ite, wlp_pure, wlp_errAt]
  refine ⟨fun h => ?_, fun h => ⟨fun _ => ⟨by lt, fun he => by simp at he⟩,
    fun h1 => ⟨by lt, fun he => ⟨he, fun hc1 hc2 => ⟨fun h2 => ?_, fun h2 => ?_⟩⟩⟩⟩⟩
  · have hc := toks_cons hg (.refl s) (by simp [h])
    have key : ∀ (s' : PState) (a : Node), Later s s' → (s'.errs = [] → s.errs = [] ∧
        (close ≠ .eof → close ≠ .kFor → Parses (.clauses close target) s.toks s'.toks a)) →
        Post (.comprFor tree target close) s a s' := by
      intro s' a h1 h2
      refine ⟨h1, fun he => ⟨(h2 he).1, fun hc1 hc2 => ⟨fun _ => (h2 he).2 hc1 hc2, fun _ => ?_⟩⟩⟩
      exact .nextClause (by rw [← cur_hd hg (.refl s)]; exact h) ((h2 he).2 hc1 hc2)
    refine ⟨fun h2 => ?_, fun h2 => ?_⟩
    · have hc2 := toks_cons hg (s := s) (st := ⟨s.toks.tail, s.eof, s.errs, s.requests + 1 + 1, s.scans, s.ahead, s.said⟩)
        (by lt) (fun e => by have := h2.symm.trans e; simp at this)
      simp only at hc2
      step a s1 h3 h4
      refine ⟨fun _ => ?_, fun h5 => ?_⟩
      · step b s2 h6 h7
        step c s3 h8 h9
        exact ⟨by lt, fun he => absurd (h7 (h9 he).1).1 (by simp)⟩
      · simp only [ne_eq, Decidable.not_not] at h5
        have hc3 := toks_cons hg h3 (by rw [h5]; simp)
        step b s2 h6 h7
        step c s3 h8 h9
        refine key _ _ h8 fun he => ?_
        obtain ⟨e1, m1⟩ := h9 he
        obtain ⟨e2, m2⟩ := h7 e1
        obtain ⟨e3, m3⟩ := h4 e2
        refine ⟨e3, fun hc4 hc5 => ?_⟩
        obtain ⟨xs, m4, m5⟩ := m3 (by simp)
        simp only [Meaning, List.nil_append] at *
        rw [hc3] at m5
        rw [hc, hc2]
        rw [m4] at m1
        exact .forTuple h h2 m5 h5 m2 ((m1 hc4 hc5).2 trivial)
    · step a s1 h3 h4
      step b s2 h6 h7
      step c s3 h8 h9
      refine key _ _ h8 fun he => ?_
      obtain ⟨e1, m1⟩ := h9 he
      obtain ⟨e2, m2⟩ := h7 e1
      obtain ⟨e3, m3⟩ := h4 e2
      refine ⟨e3, fun hc4 hc5 => ?_⟩
      obtain ⟨xs, m4, m5⟩ := m3 (by simp)
      simp only [Meaning, List.nil_append] at *
      rw [hc]
      rw [m4] at m1
      refine .forList h ?_ m5 m2 ((m1 hc4 hc5).2 trivial)
      rw [← cur_hd hg (st := ⟨s.toks.tail, s.eof, s.errs, s.requests + 1 + 1, s.scans, s.ahead, s.said⟩) (by lt)]
      exact h2
  · exfalso
    apply h
    rw [cur_hd hg (.refl s)]
    exact h2
  · simp only [ne_eq, Decidable.not_not] at h1
    rw [toks_cons hg (.refl s) (by intro e; apply hc1; rw [← h1]; exact e), h2]
    exact .lastClause h1 hc2

theorem parseStatements_sound {s : PState} (hg : Good s) (acc : List Node) :
    wlp (parseStatements call acc) (Post (.statements acc) s) s := by
  simp only [parseStatements, wlp_bind, wlp_peek, wlp_next, wlp_ite, wlp_pure, wlp_errAt,
    wlp_hasError]
  refine ⟨fun h => ⟨.refl s, fun he => by simp [he] at h⟩, fun _ => ⟨fun h => ⟨by lt, fun he => ?_⟩,
    fun heof => ?_⟩⟩
  · have : s.toks = [] := by
      cases hs : s.toks with
      | nil => rfl
      | cons t ts =>
        exfalso
        refine hg.noEof t (by simp [hs]) ?_
        have : s.cur = t := by simp [PState.cur, hs]
        rw [← this]; exact h
    refine ⟨he, [], by simp, ?_, ?_⟩
    · simp [this]
    · rw [this]; exact .endOfFile
  have hc := toks_cons hg (.refl s) heof
  refine ⟨fun h => ?_, fun _ => ⟨fun h => ?_, fun _ => ⟨fun h => ?_, fun _ =>
    ⟨fun h => ⟨by lt, fun he => by simp at he⟩, fun hid => ?_⟩⟩⟩⟩
  · step a s1 h1 h2
    refine ⟨by lt, fun he => ?_⟩
    obtain ⟨e1, xs, m1, m2, m3⟩ := h2 he
    refine ⟨e1, xs, m1, m2, ?_⟩
    rw [hc]
    exact .docString h m3
  · step a s1 h1 h2
    step b s2 h3 h4
    refine ⟨by lt, fun he => ?_⟩
    obtain ⟨e1, xs, m1, m2, m3⟩ := h4 he
    obtain ⟨e2, m4⟩ := h2 e1
    refine ⟨e2, a :: xs, by simp [m1], m2, ?_⟩
    rw [hc]
    exact .listStatement h (m4 (by simp)) m3
  · step a s1 h1 h2
    refine ⟨fun h => ⟨by lt, fun he => by simp at he⟩, fun h3 => ?_⟩
    simp only [ne_eq, Decidable.not_not] at h3
    have hc1 := toks_cons hg h1 (by rw [h3]; simp)
    step b s2 h4 h5
    step c s3 h6 h7
    refine ⟨by lt, fun he => ?_⟩
    obtain ⟨e1, xs, m1, m2, m3⟩ := h7 he
    obtain ⟨e2, m4⟩ := h5 e1
    obtain ⟨e3, m5⟩ := h2 e2
    obtain ⟨ys, m6, m7⟩ := m5 (by simp)
    refine ⟨e3, .assign a b :: xs, by simp [m1], m2, ?_⟩
    rw [hc]
    rw [List.nil_append] at m6
    rw [hc1, ← m6] at m7
    exact .tupleAssign h m7 h3 m4 m3
  · simp only [ne_eq, Decidable.not_not] at hid
    have key : ∀ x, x ≠ .eof → (PState.cur ⟨s.toks.tail, s.eof, s.errs, s.requests + 1, s.scans, s.ahead, s.said⟩).type = x →
        s.toks.tail = PState.cur ⟨s.toks.tail, s.eof, s.errs, s.requests + 1, s.scans, s.ahead, s.said⟩ :: s.toks.tail.tail := by
      intro x hx h
      exact toks_cons hg (s := s) (st := ⟨s.toks.tail, s.eof, s.errs, s.requests + 1, s.scans, s.ahead, s.said⟩)
        (by lt) (by rw [h]; exact hx)
    refine ⟨fun h => ?_, fun _ => ⟨fun h => ?_, fun _ => ⟨fun h => ?_, fun _ =>
      ⟨by lt, fun he => by simp at he⟩⟩⟩⟩
    all_goals
      have hc1 := key _ (by simp) h
      step a s1 h1 h2
      step b s2 h3 h4
      refine ⟨by lt, fun he => ?_⟩
      obtain ⟨e1, xs, m1, m2, m3⟩ := h4 he
      obtain ⟨e2, m4⟩ := h2 e1
    · refine ⟨e2, .assign (.ident s.cur.text) a :: xs, by simp [m1], m2, ?_⟩
      rw [hc, hc1]
      exact .assign hid h m4 m3
    · refine ⟨e2, a :: xs, by simp [m1], m2, ?_⟩
      obtain ⟨args, m5, m6⟩ := m4
      rw [hc, hc1, m5]
      exact .rule hid h m6 m3
    · refine ⟨e2, .binop (.op '.') (.ident s.cur.text) a :: xs, by simp [m1], m2, ?_⟩
      rw [hc, hc1]
      exact .method hid h m4 m3

theorem body_sound : CallsSound (body call) := by
  intro c s hg
  cases c with
  | expression opt => exact parseExpression_sound hcall hg opt
  | suffix n => exact parseSuffix_sound hcall hg n
  | ifElse n => exact parseIfElse_sound hcall hg n
  | arrayAccess => exact parseArrayAccess_sound hcall hg
  | value opt => exact parseValue_sound hcall hg opt
  | paren => exact parseParen_sound hcall hg
  | tupleRest acc => exact parseTupleRest_sound hcall hg acc
  | listOrCompr ty e => exact parseListOrCompr_sound hcall hg ty e
  | list ty acc e endTok => exact parseList_sound hcall hg ty acc e endTok
  | elem e => exact parseElem_sound hcall hg e
  | funCall name => exact parseFunCall_sound hcall hg name
  | comprFor tree target endTok => exact parseComprFor_sound hcall hg tree target endTok
  | statements acc => exact parseStatements_sound hcall hg acc

end

theorem run_sound (fuel : Nat) : CallsSound (run fuel) := by
  induction fuel with
  | zero => intro c s _; simp [run, wlp_fail]
  | succ n ih => exact body_sound ih

end Parser
end Bant
