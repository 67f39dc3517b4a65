import Verif.Spec.Trailing
import Verif.Lemmas.ParserComplete

/-! Lemmas about texts without commas after last elements. -/
namespace Bant
namespace Trailing
open LayoutSpec Grammar

/-! ### Inversion -/

theorem inv_nil {st : List Bool} {prev : TokenType} {u : List Token} (h : Trimmed false st prev [] u) : u = [] := by
  cases h; rfl

theorem inv_plain {st : List Bool} {prev : TokenType} {t : Token} {s u : List Token}
    (h : Trimmed false st prev (t :: s) u) (h1 : t.type ∉ openers) (h2 : t.type ∉ closers) (h3 : t.type ≠ .op ',') :
    ∃ t' u1, u = t' :: u1 ∧ SameToken t t' ∧ Trimmed false st t.type s u1 := by
  cases h with
  | plain a _ _ _ b => exact ⟨_, _, rfl, a, b⟩
  | opens _ b _ => exact absurd b h1
  | closes _ b _ => exact absurd b h2
  | comma _ b _ => exact absurd b h3
  | removed _ b _ _ _ => exact absurd b h3

theorem inv_open {st : List Bool} {prev : TokenType} {t : Token} {s u : List Token}
    (h : Trimmed false st prev (t :: s) u) (h1 : t.type ∈ openers) :
    ∃ t' u1, u = t' :: u1 ∧ SameToken t t' ∧
      Trimmed false (decide (t.type ≠ .op '(' ∨ prev = .identifier) :: st) t.type s u1 := by
  have hc : t.type ≠ .op ',' := by
    intro e; rw [e] at h1; simp [openers] at h1
  cases h with
  | plain _ b _ _ _ => exact absurd h1 b
  | opens a _ b => exact ⟨_, _, rfl, a, by simpa using b⟩
  | closes _ b _ =>
    exfalso
    revert h1 b
    generalize t.type = x
    intro h1 b
    simp only [openers, closers, List.mem_cons, List.not_mem_nil, or_false] at h1 b
    rcases h1 with rfl | rfl | rfl <;> simp at b
  | comma _ b _ => exact absurd b hc
  | removed _ b _ _ _ => exact absurd b hc

theorem inv_close {st : List Bool} {prev : TokenType} {t : Token} {s u : List Token}
    (h : Trimmed false st prev (t :: s) u) (h1 : t.type ∈ closers) :
    ∃ k st0 t' u1, st = k :: st0 ∧ u = t' :: u1 ∧ SameToken t t' ∧ Trimmed false st0 t.type s u1 := by
  have hc : t.type ≠ .op ',' := by
    intro e; rw [e] at h1; simp [closers] at h1
  cases h with
  | plain _ _ b _ _ => exact absurd h1 b
  | opens _ b _ =>
    exfalso
    revert h1 b
    generalize t.type = x
    intro h1 b
    simp only [openers, closers, List.mem_cons, List.not_mem_nil, or_false] at h1 b
    rcases h1 with rfl | rfl | rfl <;> simp at b
  | closes a _ b => exact ⟨_, _, _, _, rfl, rfl, a, b⟩
  | comma _ b _ => exact absurd b hc
  | removed _ b _ _ _ => exact absurd b hc

theorem inv_comma {st : List Bool} {prev : TokenType} {t : Token} {s u : List Token}
    (h : Trimmed false st prev (t :: s) u) (h1 : t.type = .op ',') :
    (∃ t' u1, u = t' :: u1 ∧ SameToken t t' ∧ Trimmed false (seen st) t.type s u1) ∨
      ∃ st0 c c' s1 u1, st = true :: st0 ∧ s = c :: s1 ∧ u = c' :: u1 ∧ SameToken c c' ∧ c.type ∈ closers ∧
        prev ∉ .op ',' :: openers ∧ Trimmed false st0 c.type s1 u1 := by
  cases h with
  | plain _ _ _ b _ => exact absurd h1 b
  | opens _ b _ => rw [h1] at b; simp [openers] at b
  | closes _ b _ => rw [h1] at b; simp [closers] at b
  | comma a _ b => exact Or.inl ⟨_, _, rfl, a, b⟩
  | removed a _ b c d => exact Or.inr ⟨_, _, _, _, _, rfl, rfl, rfl, a, c, b, d⟩

theorem inv_hd {st : List Bool} {prev : TokenType} {s u : List Token} (h : Trimmed false st prev s u) :
    hd u = hd s ∨ (hd s = .op ',' ∧ hd u ∈ closers ∧ prev ∉ .op ',' :: openers ∧ ∃ st0, st = true :: st0) := by
  cases h with
  | done => exact Or.inl rfl
  | plain a _ _ _ _ => exact Or.inl a.type
  | opens a _ _ => exact Or.inl a.type
  | closes a _ _ => exact Or.inl a.type
  | comma a _ _ => exact Or.inl a.type
  | removed a b c d _ =>
    refine Or.inr ⟨b, ?_, c, _, rfl⟩
    simp only [hd, a.type]; exact d

/-- What is not there in front of the phrase is not there in front of the other, but for closing brackets. -/
theorem hd_ne {st : List Bool} {prev : TokenType} {s u : List Token} (h : Trimmed false st prev s u) {x : TokenType}
    (hx : x ∉ closers) (hs : hd s ≠ x) : hd u ≠ x := by
  rcases inv_hd h with e | ⟨_, e, _⟩
  · rw [e]; exact hs
  · intro e'; rw [e'] at e; exact hx e

theorem hd_eq {st : List Bool} {prev : TokenType} {s u : List Token} (h : Trimmed false st prev s u) {x : TokenType}
    (hx : x ≠ .op ',') (hs : hd s = x) : hd u = x := by
  rcases inv_hd h with e | ⟨e, _⟩
  · rw [e]; exact hs
  · rw [e] at hs; exact absurd hs.symm hx

theorem hd_prev {st : List Bool} {prev : TokenType} {s u : List Token} (h : Trimmed false st prev s u)
    (hp : prev ∈ .op ',' :: openers) : hd u = hd s := by
  rcases inv_hd h with e | ⟨_, _, e, _⟩
  · exact e
  · exact absurd hp e

/-! ### Phrases -/

theorem atom_starts {s s' : List Token} {n : Node} (h : Parses .atom s s' n) : startsExpr (hd s) := by
  cases h <;> simp_all [startsExpr, hd]

theorem expr_starts {s s' : List Token} {n : Node} (h : Parses (.expr false) s s' n) : startsExpr (hd s) := by
  cases h with
  | unary h _ _ =>
    simp only [List.mem_cons, List.not_mem_nil, or_false] at h
    rcases h with h | h <;> simp [startsExpr, hd, h]
  | parenthesis h _ _ => simp [startsExpr, hd, h]
  | operand h _ => exact atom_starts h

theorem closer_starts {x : TokenType} (h : x ∈ closers) : ¬ startsExpr x := by
  simp only [closers, List.mem_cons, List.not_mem_nil, or_false] at h
  rcases h with rfl | rfl | rfl <;> simp [startsExpr]

/-- In front of a closing bracket there is no element, but perhaps a missing variable. -/
theorem item_closer {i : Item} {c : Token} {s s1 : List Token} {x : Node} (hc : c.type ∈ closers)
    (h : Parses (.item i) (c :: s) s1 x) : s1 = c :: s := by
  cases h with
  | itemValue h => exact absurd (expr_starts h) (closer_starts hc)
  | itemArgument h _ _ => exact absurd (expr_starts h) (closer_starts hc)
  | itemKeyword h _ _ => exact absurd (expr_starts h) (closer_starts hc)
  | itemEntry h _ _ => exact absurd (expr_starts h) (closer_starts hc)
  | itemVariable h => rw [h] at hc; simp [closers] at hc
  | itemNothing _ => rfl

theorem items_closer {ty : ListType} {i : Item} {close : TokenType} {c : Token} {s s2 : List Token} {n : Node}
    (hc : c.type ∈ closers) (h : Parses (.items ty i close) (c :: s) s2 n) :
    c.type = close ∧ s2 = s ∧ n = .list ty [] := by
  cases h with
  | itemsEnd h => exact ⟨h, rfl, rfl⟩
  | itemsLast h1 h2 h3 =>
    have := item_closer hc h2
    cases this
    exact absurd h3 h1
  | itemsMore h1 h2 h3 _ =>
    have := item_closer hc h2
    cases this
    rw [h3] at hc; simp [closers] at hc

/-- What has to be before a phrase. -/
def Before (st : List Bool) (prev : TokenType) : NT → Prop
  | .expr _ => prev ≠ .identifier
  | .item _ => prev ≠ .identifier
  | .index => prev ≠ .identifier
  | .paren => (∃ st0, st = false :: st0) ∧ prev ≠ .identifier
  | .bracket _ _ => prev ∈ openers
  | .items _ _ close =>
    (prev ∈ .op ',' :: openers ∧ close ∈ .kIn :: closers) ∨ (prev = .kFor ∧ close = .kIn)
  | .clauses close _ => close ∈ closers
  | .moreClauses close _ => close ∈ closers
  | _ => True

/-- How the open brackets change with a phrase. -/
def Step (st st' : List Bool) (prev' : TokenType) : NT → Prop
  | .expr _ => st' = st
  | .cont _ => st' = st
  | .atom => st' = st
  | .item _ => st' = st
  | .program => True
  | .items _ _ close =>
    if close = .kIn then (st' = st ∨ st' = seen st) ∧ prev' ≠ .identifier else ∃ k, st = k :: st'
  | _ => ∃ k, st = k :: st'

theorem seen_cons {st st' : List Bool} (h : ∃ k, seen st = k :: st') : ∃ k, st = k :: st' := by
  obtain ⟨k, h⟩ := h
  cases st with
  | nil => cases h
  | cons a st => cases h; exact ⟨a, rfl⟩

theorem closing_closer (ty : ListType) : closing ty ∈ closers := by cases ty <;> simp [closing, closers]

theorem continues_trim {st : List Bool} {prev : TokenType} {s u : List Token} (h : Trimmed false st prev s u)
    (hs : ¬ continues s) : ¬ continues u := by
  have key : ∀ {t t' : Token} {s u : List Token}, SameToken t t' → ¬ continues (t :: s) → ¬ continues (t' :: u) := by
    rintro t t' s u a hs ⟨x, r, e, h⟩
    cases e
    apply hs
    refine ⟨t, s, rfl, ?_⟩
    rw [a.type] at h
    rcases h with h | h | ⟨h1, h2⟩
    · exact Or.inl h
    · exact Or.inr (Or.inl h)
    · exact Or.inr (Or.inr ⟨h1, by rw [← a.line h1]; exact h2⟩)
  cases h with
  | done => exact hs
  | plain a _ _ _ _ => exact key a hs
  | opens a _ _ => exact key a hs
  | closes a _ _ => exact key a hs
  | comma a _ _ => exact key a hs
  | removed a b c d _ =>
    rintro ⟨x, r, e, h⟩
    cases e
    rw [a.type] at h
    simp only [closers, List.mem_cons, List.not_mem_nil, or_false] at d
    rcases d with d | d | d <;> rw [d] at h <;> simp [binary] at h

theorem startsExpr_trim {st : List Bool} {prev : TokenType} {s u : List Token} (h : Trimmed false st prev s u)
    (hs : ¬ startsExpr (hd s)) : ¬ startsExpr (hd u) := by
  rcases inv_hd h with e | ⟨_, e, _⟩
  · rw [e]; exact hs
  · exact closer_starts e

/-- Without the commas, there is the same phrase. -/
theorem parses_trim {nt : NT} {s s' : List Token} {n : Node} (h : Parses nt s s' n) :
    ∀ {st : List Bool} {prev : TokenType} {u : List Token}, Trimmed false st prev s u → Before st prev nt →
      ∃ st' prev' u', Trimmed false st' prev' s' u' ∧ Step st st' prev' nt ∧ Parses nt u u' n := by
  induction h with
  | missing h =>
    intro st prev u ht hb
    exact ⟨st, prev, u, ht, rfl, .missing (startsExpr_trim ht h)⟩
  | unary h _ _ ih1 ih2 =>
    intro st prev u ht hb
    have hm := h
    simp only [List.mem_cons, List.not_mem_nil, or_false] at hm
    obtain ⟨t', u1, rfl, a, h1⟩ := inv_plain ht (by rcases hm with h | h <;> simp [h, openers])
      (by rcases hm with h | h <;> simp [h, closers]) (by rcases hm with h | h <;> simp [h])
    obtain ⟨st1, p1, u2, h2, e, h3⟩ := ih1 h1 (by rcases hm with h | h <;> simp [Before, h])
    cases e
    obtain ⟨st2, p2, u3, h4, e, h5⟩ := ih2 h2 trivial
    cases e
    rw [← a.type] at h5
    exact ⟨_, _, _, h4, rfl, .unary (by rw [a.type]; exact h) h3 h5⟩
  | parenthesis h _ _ ih1 ih2 =>
    intro st prev u ht hb
    obtain ⟨t', u1, rfl, a, h1⟩ := inv_open ht (by simp [h, openers])
    have hb : prev ≠ .identifier := hb
    have hk : decide (_ ≠ TokenType.op '(' ∨ prev = .identifier) = false := decide_eq_false (by
      rintro (e | e)
      · exact e h
      · exact hb e)
    rw [hk] at h1
    obtain ⟨st1, p1, u2, h2, ⟨k, e⟩, h3⟩ := ih1 h1 ⟨⟨_, rfl⟩, by simp [h]⟩
    cases e
    obtain ⟨st2, p2, u3, h4, e, h5⟩ := ih2 h2 trivial
    cases e
    exact ⟨_, _, _, h4, rfl, .parenthesis (by rw [a.type]; exact h) h3 h5⟩
  | operand _ _ ih1 ih2 =>
    intro st prev u ht hb
    obtain ⟨st1, p1, u2, h2, e, h3⟩ := ih1 ht trivial
    cases e
    obtain ⟨st2, p2, u3, h4, e, h5⟩ := ih2 h2 trivial
    cases e
    exact ⟨_, _, _, h4, rfl, .operand h3 h5⟩
  | stop h =>
    intro st prev u ht hb
    exact ⟨st, prev, u, ht, rfl, .stop (continues_trim ht h)⟩
  | ifOnly h _ h2 ih =>
    intro st prev u ht hb
    obtain ⟨t', u1, rfl, a, h1⟩ := inv_plain ht (by simp [h, openers]) (by simp [h, closers]) (by simp [h])
    obtain ⟨st1, p1, u2, h3, e, h4⟩ := ih h1 (by simp [Before, h])
    cases e
    exact ⟨_, _, _, h3, rfl, .ifOnly (by rw [a.type]; exact h) h4 (hd_ne h3 (by simp [closers]) h2)⟩
  | ifElse h _ h2 _ ih1 ih2 =>
    intro st prev u ht hb
    obtain ⟨t', u1, rfl, a, h1⟩ := inv_plain ht (by simp [h, openers]) (by simp [h, closers]) (by simp [h])
    obtain ⟨st1, p1, u2, h3, e, h4⟩ := ih1 h1 (by simp [Before, h])
    cases e
    obtain ⟨t2', u3, rfl, a2, h5⟩ := inv_plain h3 (by simp [h2, openers]) (by simp [h2, closers]) (by simp [h2])
    obtain ⟨st2, p2, u4, h6, e, h7⟩ := ih2 h5 (by simp [Before, h2])
    cases e
    exact ⟨_, _, _, h6, rfl, .ifElse (by rw [a.type]; exact h) h4 (by rw [a2.type]; exact h2) h7⟩
  | @binary _ t _ _ _ h _ ih =>
    intro st prev u ht hb
    obtain ⟨t', u1, rfl, a, h1⟩ := inv_plain ht
      (by intro h'; revert h h'; generalize t.type = x; intro h h'
          simp only [openers, List.mem_cons, List.not_mem_nil, or_false] at h'
          rcases h' with rfl | rfl | rfl <;> simp [Grammar.binary] at h)
      (by intro h'; revert h h'; generalize t.type = x; intro h h'
          simp only [closers, List.mem_cons, List.not_mem_nil, or_false] at h'
          rcases h' with rfl | rfl | rfl <;> simp [Grammar.binary] at h)
      (by intro h'; rw [h'] at h; simp [Grammar.binary] at h)
    obtain ⟨st1, p1, u2, h3, e, h4⟩ := ih h1 (by intro h'; rw [h'] at h; simp [Grammar.binary] at h)
    cases e
    rw [← a.type] at h ⊢
    exact ⟨_, _, _, h3, rfl, .binary h h4⟩
  | indexed h h' _ _ ih1 ih2 =>
    intro st prev u ht hb
    obtain ⟨t', u1, rfl, a, h1⟩ := inv_open ht (by simp [h, openers])
    obtain ⟨st1, p1, u2, h2, ⟨k, e⟩, h3⟩ := ih1 h1 (by simp [Before, h])
    cases e
    obtain ⟨st2, p2, u3, h4, e, h5⟩ := ih2 h2 trivial
    cases e
    exact ⟨_, _, _, h4, rfl, .indexed (by rw [a.type]; exact h) (by rw [a.line h]; exact h') h3 h5⟩
  | at_ _ hn h ih =>
    intro st prev u ht hb
    obtain ⟨st1, p1, u2, h2, e, h3⟩ := ih ht hb
    cases e
    obtain ⟨k, st0, t', u1, rfl, rfl, a, h4⟩ := inv_close h2 (by simp [h, closers])
    exact ⟨_, _, _, h4, ⟨k, rfl⟩, .at_ h3 hn (by rw [a.type]; exact h)⟩
  | slice _ h _ h' hn ih1 ih2 =>
    intro st prev u ht hb
    obtain ⟨st1, p1, u2, h2, e, h3⟩ := ih1 ht hb
    cases e
    obtain ⟨t', u1, rfl, a, h4⟩ := inv_plain h2 (by simp [h, openers]) (by simp [h, closers]) (by simp [h])
    obtain ⟨st1, p1, u2, h5, e, h6⟩ := ih2 h4 (by simp [Before, h])
    cases e
    obtain ⟨k, st0, t2', u3, rfl, rfl, a2, h7⟩ := inv_close h5 (by simp [h', closers])
    exact ⟨_, _, _, h7, ⟨k, rfl⟩, .slice h3 (by rw [a.type]; exact h) h6 (by rw [a2.type]; exact h') hn⟩
  | string h h' =>
    intro st prev u ht hb
    obtain ⟨t', u1, rfl, a, h1⟩ := inv_plain ht (by simp [h, openers]) (by simp [h, closers]) (by simp [h])
    exact ⟨_, _, _, h1, rfl, .string (by rw [a.type]; exact h) (by rw [a.text]; exact h')⟩
  | number h h' =>
    intro st prev u ht hb
    obtain ⟨t', u1, rfl, a, h1⟩ := inv_plain ht (by simp [h, openers]) (by simp [h, closers]) (by simp [h])
    exact ⟨_, _, _, h1, rfl, .number (by rw [a.type]; exact h) (by rw [a.text]; exact h')⟩
  | name h h' =>
    intro st prev u ht hb
    obtain ⟨t', u1, rfl, a, h1⟩ := inv_plain ht (by simp [h, openers]) (by simp [h, closers]) (by simp [h])
    rw [← a.text]
    exact ⟨_, _, _, h1, rfl, .name (by rw [a.type]; exact h) (hd_ne h1 (by simp [closers]) h')⟩
  | call h h' _ ih =>
    intro st prev u ht hb
    obtain ⟨t', u1, rfl, a, h1⟩ := inv_plain ht (by simp [h, openers]) (by simp [h, closers]) (by simp [h])
    obtain ⟨t2', u2, rfl, a2, h2⟩ := inv_open h1 (by simp [h', openers])
    obtain ⟨st1, p1, u2, h3, e, h4⟩ := ih h2 (Or.inl ⟨by simp [h', openers], by simp [closers]⟩)
    simp only [Step, reduceCtorEq, if_false] at e
    obtain ⟨k, e⟩ := e
    cases e
    rw [← a.text]
    exact ⟨_, _, _, h3, rfl, .call (by rw [a.type]; exact h) (by rw [a2.type]; exact h') h4⟩
  | list h _ ih =>
    intro st prev u ht hb
    obtain ⟨t', u1, rfl, a, h1⟩ := inv_open ht (by simp [h, openers])
    obtain ⟨st1, p1, u2, h3, ⟨k, e⟩, h4⟩ := ih h1 (by simp [Before, h, openers])
    cases e
    exact ⟨_, _, _, h3, rfl, .list (by rw [a.type]; exact h) h4⟩
  | map h _ ih =>
    intro st prev u ht hb
    obtain ⟨t', u1, rfl, a, h1⟩ := inv_open ht (by simp [h, openers])
    obtain ⟨st1, p1, u2, h3, ⟨k, e⟩, h4⟩ := ih h1 (by simp [Before, h, openers])
    cases e
    exact ⟨_, _, _, h3, rfl, .map (by rw [a.type]; exact h) h4⟩
  | grouped _ hn h ih =>
    intro st prev u ht hb
    obtain ⟨st1, p1, u2, h2, e, h3⟩ := ih ht hb.2
    cases e
    obtain ⟨k, st0, t', u1, rfl, rfl, a, h4⟩ := inv_close h2 (by simp [h, closers])
    exact ⟨_, _, _, h4, ⟨k, rfl⟩, .grouped h3 hn (by rw [a.type]; exact h)⟩
  | emptyTuple _ h ih =>
    intro st prev u ht hb
    obtain ⟨st1, p1, u2, h2, e, h3⟩ := ih ht hb.2
    cases e
    obtain ⟨k, st0, t', u1, rfl, rfl, a, h4⟩ := inv_close h2 (by simp [h, closers])
    exact ⟨_, _, _, h4, ⟨k, rfl⟩, .emptyTuple h3 (by rw [a.type]; exact h)⟩
  | tuple _ hn h _ ih1 ih2 =>
    intro st prev u ht hb
    obtain ⟨st1, p1, u2, h2, e, h3⟩ := ih1 ht hb.2
    cases e
    obtain ⟨st2, p2, u3, h4, ⟨k, e⟩, h5⟩ := ih2 h2 trivial
    refine ⟨_, _, _, h4, ⟨k, e⟩, .tuple h3 hn ?_ h5⟩
    rcases inv_hd h2 with e' | ⟨_, _, _, st0, e'⟩
    · rw [e']; exact h
    · obtain ⟨⟨st0', e2⟩, _⟩ := hb
      rw [e2] at e'; cases e'
  | tupleEnd h =>
    intro st prev u ht hb
    obtain ⟨k, st0, t', u1, rfl, rfl, a, h4⟩ := inv_close ht (by simp [h, closers])
    exact ⟨_, _, _, h4, ⟨k, rfl⟩, .tupleEnd (by rw [a.type]; exact h)⟩
  | tupleComma h h' =>
    intro st prev u ht hb
    rcases inv_comma ht h with ⟨t', u1, rfl, a, h1⟩ | ⟨st0, c, c', s1, u1, rfl, e, rfl, a, _, _, h1⟩
    · obtain ⟨k, st0, t2', u2, e, rfl, a2, h4⟩ := inv_close h1 (by simp [h', closers])
      exact ⟨_, _, _, h4, seen_cons ⟨k, e⟩, .tupleComma (by rw [a.type]; exact h) (by rw [a2.type]; exact h')⟩
    · cases e
      exact ⟨_, _, _, h1, ⟨true, rfl⟩, .tupleEnd (by rw [a.type]; exact h')⟩
  | tupleNext h h' hx _ ih1 ih2 =>
    intro st prev u ht hb
    rcases inv_comma ht h with ⟨t', u1, rfl, a, h1⟩ | ⟨st0, c, c', s1, u1, rfl, e, rfl, a, hc, _, h1⟩
    · obtain ⟨st1, p1, u2, h2, e, h3⟩ := ih1 h1 (by simp [Before, h])
      cases e
      obtain ⟨st2, p2, u3, h4, e, h5⟩ := ih2 h2 trivial
      refine ⟨_, _, _, h4, seen_cons e, .tupleNext (by rw [a.type]; exact h) ?_ h3 h5⟩
      rw [hd_prev h1 (by simp [h])]; exact h'
    · cases e
      exact absurd (expr_starts hx) (closer_starts hc)
  | @emptyBracket ty _ t _ h =>
    intro st prev u ht hb
    obtain ⟨k, st0, t', u1, rfl, rfl, a, h4⟩ := inv_close ht (by rw [h]; exact closing_closer ty)
    exact ⟨_, _, _, h4, ⟨k, rfl⟩, .emptyBracket (by rw [a.type]; exact h)⟩
  | @comprehension ty _ _ _ _ _ _ h _ hn h' _ ih1 ih2 =>
    intro st prev u ht hb
    have hb : prev ∈ openers := hb
    obtain ⟨st1, p1, u2, h2, e, h3⟩ := ih1 ht (by intro e; rw [e] at hb; simp [openers] at hb)
    cases e
    obtain ⟨st2, p2, u3, h4, e, h5⟩ := ih2 h2 (closing_closer ty)
    exact ⟨_, _, _, h4, e, .comprehension (by rw [hd_prev ht (List.mem_cons_of_mem _ hb)]; exact h) h3 hn
      (hd_eq h2 (by simp) h') h5⟩
  | @bracketOne ty _ _ _ _ _ h _ hn h' ih =>
    intro st prev u ht hb
    have hb : prev ∈ openers := hb
    obtain ⟨st1, p1, u2, h2, e, h3⟩ := ih ht (by intro e; rw [e] at hb; simp [openers] at hb)
    cases e
    obtain ⟨k, st0, t', u1, rfl, rfl, a, h4⟩ := inv_close h2 (by rw [h']; exact closing_closer ty)
    exact ⟨_, _, _, h4, ⟨k, rfl⟩, .bracketOne (by rw [hd_prev ht (List.mem_cons_of_mem _ hb)]; exact h) h3 hn
      (by rw [a.type]; exact h')⟩
  | @bracketMore ty _ _ _ _ _ _ _ h _ hn h' hi ih1 ih2 =>
    intro st prev u ht hb
    have hb : prev ∈ openers := hb
    obtain ⟨st1, p1, u2, h2, e, h3⟩ := ih1 ht (by intro e; rw [e] at hb; simp [openers] at hb)
    cases e
    have hne : hd u ≠ closing ty := by rw [hd_prev ht (List.mem_cons_of_mem _ hb)]; exact h
    have hkin : closing ty ≠ .kIn := by cases ty <;> simp [closing]
    rcases inv_comma h2 h' with ⟨t', u1, rfl, a, h4⟩ | ⟨st0, c, c', s1, u1, rfl, e, rfl, a, hc, _, h4⟩
    · obtain ⟨st2, p2, u3, h5, e, h6⟩ := ih2 h4 (Or.inl ⟨by simp [h'], by simp [closing_closer ty]⟩)
      simp only [Step, if_neg hkin] at e
      exact ⟨_, _, _, h5, seen_cons e, .bracketMore hne h3 hn (by rw [a.type]; exact h') h6⟩
    · cases e
      obtain ⟨e1, rfl, e2⟩ := items_closer hc hi
      cases e2
      exact ⟨_, _, _, h4, ⟨true, rfl⟩, .bracketOne hne h3 hn (by rw [a.type]; exact e1)⟩
  | @itemsEnd ty i close t _ h =>
    intro st prev u ht hb
    by_cases hk : close = .kIn
    · subst hk
      obtain ⟨t', u1, rfl, a, h1⟩ := inv_plain ht (by simp [h, openers]) (by simp [h, closers]) (by simp [h])
      exact ⟨_, _, _, h1, ⟨Or.inl rfl, by simp [h]⟩, .itemsEnd (by rw [a.type]; exact h)⟩
    · have hc : close ∈ closers := by
        rcases hb with ⟨_, hb⟩ | ⟨_, hb⟩
        · simpa [hk] using hb
        · exact absurd hb hk
      obtain ⟨k, st0, t', u1, rfl, rfl, a, h4⟩ := inv_close ht (by rw [h]; exact hc)
      refine ⟨_, _, _, h4, ?_, .itemsEnd (by rw [a.type]; exact h)⟩
      simp only [Step, if_neg hk]; exact ⟨k, rfl⟩
  | @itemsLast ty i close t s s1 x h _ h' ih =>
    intro st prev u ht hb
    have hne : hd u ≠ close := by
      rcases hb with ⟨hb, _⟩ | ⟨_, rfl⟩
      · rw [hd_prev ht hb]; exact h
      · exact hd_ne ht (by simp [closers]) h
    obtain ⟨st1, p1, u2, h2, e, h3⟩ := ih ht (by
      rcases hb with ⟨hb, _⟩ | ⟨rfl, _⟩
      · intro e; rw [e] at hb; simp [openers] at hb
      · simp [Before])
    cases e
    by_cases hk : close = .kIn
    · subst hk
      obtain ⟨t', u1, rfl, a, h1⟩ := inv_plain h2 (by simp [h', openers]) (by simp [h', closers]) (by simp [h'])
      exact ⟨_, _, _, h1, ⟨Or.inl rfl, by simp [h']⟩, .itemsLast hne h3 (by rw [a.type]; exact h')⟩
    · have hc : close ∈ closers := by
        rcases hb with ⟨_, hb⟩ | ⟨_, hb⟩
        · simpa [hk] using hb
        · exact absurd hb hk
      obtain ⟨k, st0, t', u1, rfl, rfl, a, h4⟩ := inv_close h2 (by rw [h']; exact hc)
      refine ⟨_, _, _, h4, ?_, .itemsLast hne h3 (by rw [a.type]; exact h')⟩
      simp only [Step, if_neg hk]; exact ⟨k, rfl⟩
  | @itemsMore ty i close t s s1 s2 x xs h _ h' hi ih1 ih2 =>
    intro st prev u ht hb
    have hne : hd u ≠ close := by
      rcases hb with ⟨hb, _⟩ | ⟨_, rfl⟩
      · rw [hd_prev ht hb]; exact h
      · exact hd_ne ht (by simp [closers]) h
    have hclose : close ∈ .kIn :: closers := by
      rcases hb with ⟨_, hb⟩ | ⟨_, rfl⟩
      · exact hb
      · simp
    obtain ⟨st1, p1, u2, h2, e, h3⟩ := ih1 ht (by
      rcases hb with ⟨hb, _⟩ | ⟨rfl, _⟩
      · intro e; rw [e] at hb; simp [openers] at hb
      · simp [Before])
    cases e
    rcases inv_comma h2 h' with ⟨t', u1, rfl, a, h4⟩ | ⟨st0, c, c', s1, u1, rfl, e, rfl, a, hc, _, h4⟩
    · obtain ⟨st2, p2, u3, h5, e, h6⟩ := ih2 h4 (Or.inl ⟨by simp [h'], hclose⟩)
      refine ⟨_, _, _, h5, ?_, .itemsMore hne h3 (by rw [a.type]; exact h') h6⟩
      by_cases hk : close = .kIn
      · simp only [Step, if_pos hk] at e ⊢
        refine ⟨Or.inr ?_, e.2⟩
        rcases e.1 with e | e
        · exact e
        · rw [e]; cases st <;> rfl
      · simp only [Step, if_neg hk] at e ⊢
        exact seen_cons e
    · cases e
      obtain ⟨e1, rfl, e2⟩ := items_closer hc hi
      cases e2
      have hk : close ≠ .kIn := by
        intro e
        rw [e1, e] at hc; simp [closers] at hc
      refine ⟨_, _, _, h4, ?_, .itemsLast hne h3 (by rw [a.type]; exact e1)⟩
      simp only [Step, if_neg hk]; exact ⟨true, rfl⟩
  | itemValue _ ih =>
    intro st prev u ht hb
    obtain ⟨st1, p1, u2, h2, e, h3⟩ := ih ht hb
    exact ⟨_, _, _, h2, e, .itemValue h3⟩
  | itemArgument _ hn h ih =>
    intro st prev u ht hb
    obtain ⟨st1, p1, u2, h2, e, h3⟩ := ih ht hb
    refine ⟨_, _, _, h2, e, .itemArgument h3 hn ?_⟩
    rintro ⟨h4, h5⟩
    refine h ⟨h4, ?_⟩
    exact Decidable.byContradiction fun h6 => hd_ne h2 (by simp [closers]) h6 h5
  | itemKeyword _ h _ ih1 ih2 =>
    intro st prev u ht hb
    obtain ⟨st1, p1, u2, h2, e, h3⟩ := ih1 ht hb
    cases e
    obtain ⟨t', u1, rfl, a, h1⟩ := inv_plain h2 (by simp [h, openers]) (by simp [h, closers]) (by simp [h])
    obtain ⟨st1, p1, u2, h4, e, h5⟩ := ih2 h1 (by simp [Before, h])
    exact ⟨_, _, _, h4, e, .itemKeyword h3 (by rw [a.type]; exact h) h5⟩
  | itemEntry _ h _ ih1 ih2 =>
    intro st prev u ht hb
    obtain ⟨st1, p1, u2, h2, e, h3⟩ := ih1 ht hb
    cases e
    obtain ⟨t', u1, rfl, a, h1⟩ := inv_plain h2 (by simp [h, openers]) (by simp [h, closers]) (by simp [h])
    obtain ⟨st1, p1, u2, h4, e, h5⟩ := ih2 h1 (by simp [Before, h])
    exact ⟨_, _, _, h4, e, .itemEntry h3 (by rw [a.type]; exact h) h5⟩
  | itemVariable h =>
    intro st prev u ht hb
    obtain ⟨t', u1, rfl, a, h1⟩ := inv_plain ht (by simp [h, openers]) (by simp [h, closers]) (by simp [h])
    rw [← a.text]
    exact ⟨_, _, _, h1, rfl, .itemVariable (by rw [a.type]; exact h)⟩
  | itemNothing h =>
    intro st prev u ht hb
    exact ⟨_, _, _, ht, rfl, .itemNothing (hd_ne ht (by simp [closers]) h)⟩
  | forTuple h h' _ hi _ _ ih1 ih2 ih3 =>
    intro st prev u ht hb
    obtain ⟨t', u1, rfl, a, h1⟩ := inv_plain ht (by simp [h, openers]) (by simp [h, closers]) (by simp [h])
    obtain ⟨t2', u2, rfl, a2, h2⟩ := inv_open h1 (by simp [h', openers])
    obtain ⟨st1, p1, u3, h3, e, h4⟩ := ih1 h2 (Or.inl ⟨by simp [h', openers], by simp [closers]⟩)
    simp only [Step, reduceCtorEq, if_false] at e
    obtain ⟨k, e⟩ := e
    cases e
    obtain ⟨t3', u4, rfl, a3, h5⟩ := inv_plain h3 (by simp [hi, openers]) (by simp [hi, closers]) (by simp [hi])
    obtain ⟨st1, p1, u5, h6, e, h7⟩ := ih2 h5 (by simp [Before, hi])
    cases e
    obtain ⟨st1, p1, u6, h8, e, h9⟩ := ih3 h6 hb
    exact ⟨_, _, _, h8, e, .forTuple (by rw [a.type]; exact h) (by rw [a2.type]; exact h') h4
      (by rw [a3.type]; exact hi) h7 h9⟩
  | forList h h' _ _ _ ih1 ih2 ih3 =>
    intro st prev u ht hb
    obtain ⟨t', u1, rfl, a, h1⟩ := inv_plain ht (by simp [h, openers]) (by simp [h, closers]) (by simp [h])
    obtain ⟨st1, p1, u3, h3, ⟨e, hp⟩, h4⟩ := ih1 h1 (Or.inr ⟨h, rfl⟩)
    obtain ⟨st2, p2, u5, h6, e2, h7⟩ := ih2 h3 hp
    cases e2
    obtain ⟨st3, p3, u6, h8, e3, h9⟩ := ih3 h6 hb
    refine ⟨_, _, _, h8, ?_, .forList (by rw [a.type]; exact h) (hd_ne h1 (by simp [closers]) h') h4 h7 h9⟩
    rcases e with rfl | rfl
    · exact e3
    · exact seen_cons e3
  | nextClause h _ ih =>
    intro st prev u ht hb
    obtain ⟨st1, p1, u2, h2, e, h3⟩ := ih ht hb
    exact ⟨_, _, _, h2, e, .nextClause (hd_eq ht (by simp) h) h3⟩
  | lastClause h h' =>
    intro st prev u ht hb
    obtain ⟨k, st0, t', u1, rfl, rfl, a, h4⟩ := inv_close ht (by rw [h]; exact hb)
    exact ⟨_, _, _, h4, ⟨k, rfl⟩, .lastClause (by rw [a.type]; exact h) h'⟩
  | endOfFile =>
    intro st prev u ht hb
    cases inv_nil ht
    exact ⟨_, _, _, ht, trivial, .endOfFile⟩
  | docString h _ ih =>
    intro st prev u ht hb
    obtain ⟨t', u1, rfl, a, h1⟩ := inv_plain ht (by simp [h, openers]) (by simp [h, closers]) (by simp [h])
    obtain ⟨st1, p1, u2, h2, e, h3⟩ := ih h1 trivial
    cases inv_nil h2
    exact ⟨_, _, _, h2, trivial, .docString (by rw [a.type]; exact h) h3⟩
  | listStatement h _ _ ih1 ih2 =>
    intro st prev u ht hb
    obtain ⟨t', u1, rfl, a, h1⟩ := inv_open ht (by simp [h, openers])
    obtain ⟨st1, p1, u2, h3, _, h4⟩ := ih1 h1 (by simp [Before, h, openers])
    obtain ⟨st2, p2, u3, h5, _, h6⟩ := ih2 h3 trivial
    cases inv_nil h5
    exact ⟨_, _, _, h5, trivial, .listStatement (by rw [a.type]; exact h) h4 h6⟩
  | tupleAssign h _ h' _ _ ih1 ih2 ih3 =>
    intro st prev u ht hb
    obtain ⟨t', u1, rfl, a, h1⟩ := inv_open ht (by simp [h, openers])
    obtain ⟨st1, p1, u2, h3, _, h4⟩ := ih1 h1 (Or.inl ⟨by simp [h, openers], by simp [closers]⟩)
    obtain ⟨t2', u3, rfl, a2, h5⟩ := inv_plain h3 (by simp [h', openers]) (by simp [h', closers]) (by simp [h'])
    obtain ⟨st2, p2, u4, h6, _, h7⟩ := ih2 h5 (by simp [Before, h'])
    obtain ⟨st3, p3, u5, h8, _, h9⟩ := ih3 h6 trivial
    cases inv_nil h8
    exact ⟨_, _, _, h8, trivial, .tupleAssign (by rw [a.type]; exact h) h4 (by rw [a2.type]; exact h') h7 h9⟩
  | assign h h' _ _ ih1 ih2 =>
    intro st prev u ht hb
    obtain ⟨t', u1, rfl, a, h1⟩ := inv_plain ht (by simp [h, openers]) (by simp [h, closers]) (by simp [h])
    obtain ⟨t2', u3, rfl, a2, h2⟩ := inv_plain h1 (by simp [h', openers]) (by simp [h', closers]) (by simp [h'])
    obtain ⟨st2, p2, u4, h3, _, h4⟩ := ih1 h2 (by simp [Before, h'])
    obtain ⟨st3, p3, u5, h5, _, h6⟩ := ih2 h3 trivial
    cases inv_nil h5
    rw [← a.text]
    exact ⟨_, _, _, h5, trivial, .assign (by rw [a.type]; exact h) (by rw [a2.type]; exact h') h4 h6⟩
  | rule h h' _ _ ih1 ih2 =>
    intro st prev u ht hb
    obtain ⟨t', u1, rfl, a, h1⟩ := inv_plain ht (by simp [h, openers]) (by simp [h, closers]) (by simp [h])
    obtain ⟨t2', u3, rfl, a2, h2⟩ := inv_open h1 (by simp [h', openers])
    obtain ⟨st2, p2, u4, h3, _, h4⟩ := ih1 h2 (Or.inl ⟨by simp [h', openers], by simp [closers]⟩)
    obtain ⟨st3, p3, u5, h5, _, h6⟩ := ih2 h3 trivial
    cases inv_nil h5
    rw [← a.text]
    exact ⟨_, _, _, h5, trivial, .rule (by rw [a.type]; exact h) (by rw [a2.type]; exact h') h4 h6⟩
  | method h h' _ _ ih1 ih2 =>
    intro st prev u ht hb
    obtain ⟨t', u1, rfl, a, h1⟩ := inv_plain ht (by simp [h, openers]) (by simp [h, closers]) (by simp [h])
    obtain ⟨t2', u3, rfl, a2, h2⟩ := inv_plain h1 (by simp [h', openers]) (by simp [h', closers]) (by simp [h'])
    obtain ⟨st2, p2, u4, h3, _, h4⟩ := ih1 h2 (by simp [Before, h'])
    obtain ⟨st3, p3, u5, h5, _, h6⟩ := ih2 h3 trivial
    cases inv_nil h5
    rw [← a.text]
    exact ⟨_, _, _, h5, trivial, .method (by rw [a.type]; exact h) (by rw [a2.type]; exact h') h4 h6⟩

theorem program_trim {ts ts' : List Token} {tree : Node} (h : Trimmed false [] .eof ts ts')
    (hp : Parses .program ts [] tree) : Parses .program ts' [] tree := by
  obtain ⟨st, prev, u, h1, _, h2⟩ := parses_trim hp h trivial
  cases inv_nil h1
  exact h2

end Trailing
end Bant
