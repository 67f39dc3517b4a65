import Verif.Spec.Parens
import Verif.Lemmas.Trailing
import Verif.Lemmas.LayoutParse
import Verif.Lemmas.ParserRest

/-! Lemmas about texts with parentheses around expressions. -/
namespace Bant
namespace Parens
open LayoutSpec Grammar Parser Layout
open Trailing (expr_starts atom_starts closer_starts closing_closer)

/-- Tokens the parser can be run on. -/
structure Fine (s : List Token) : Prop where
  noEof : ∀ t ∈ s, t.type ≠ .eof
  strings : ∀ t ∈ s, t.type = .stringLiteral → strFromLiteral t.text ≠ none

theorem Fine.sub {s s' : List Token} (h : Fine s) (hs : ∀ t ∈ s', t ∈ s) : Fine s' :=
  ⟨fun t ht => h.noEof t (hs t ht), fun t ht => h.strings t (hs t ht)⟩

/-- A state with these tokens. -/
def stateOf (s : List Token) : PState := { initState [] with toks := s }

theorem good_of {s : List Token} (h : Fine s) : Good (stateOf s) :=
  ⟨(initState_good []).heof, h.noEof, h.strings⟩

theorem runs_unique {c : Call} {s s1 s2 : List Token} {n m : Node} (hf : Fine s) (hpre : Pre c (stateOf s))
    (h1 : Runs c s s1 n) (h2 : Runs c s s2 m) : s1 = s2 ∧ n = m := by
  obtain ⟨a, s', h, _⟩ := run_total (8 * s.length + rank c + 1) c (stateOf s) (good_of hf) hpre (by simp [stateOf])
  obtain ⟨_, rfl, e1, _⟩ := h1 _ _ (good_of hf) rfl rfl _ _ h
  obtain ⟨_, rfl, e2, _⟩ := h2 _ _ (good_of hf) rfl rfl _ _ h
  exact ⟨e1.symm.trans e2, rfl⟩

/-- An expression is an optional expression. -/
theorem optional {nt : NT} {s s' : List Token} {n : Node} (h : Parses nt s s' n) :
    ∀ {opt : Bool}, nt = .expr opt → Parses (.expr true) s s' n := by
  induction h with
  | missing h => intro _ _; exact .missing h
  | unary h _ h2 ih _ => intro _ e; cases e; exact .unary h (ih rfl) h2
  | parenthesis h h1 h2 => intro _ _; exact .parenthesis h h1 h2
  | operand h1 h2 => intro _ _; exact .operand h1 h2
  | _ => intro _ e; cases e

theorem expr_unique {opt : Bool} {s s1 s2 : List Token} {n m : Node} (hf : Fine s)
    (h1 : Parses (.expr opt) s s1 n) (h2 : Parses (.expr false) s s2 m) : s1 = s2 ∧ n = m :=
  runs_unique hf (by simp [Pre]) (agree (optional h1 rfl)) (agree (optional h2 rfl))

/-- What follows an expression does not continue it. -/
theorem ends {nt : NT} {s s' : List Token} {n : Node} (h : Parses nt s s' n) :
    (nt = .expr false ∨ ∃ m, nt = .cont m) → ¬ continues s' := by
  induction h with
  | unary _ _ _ _ ih => intro _; exact ih (.inr ⟨_, rfl⟩)
  | parenthesis _ _ _ _ ih => intro _; exact ih (.inr ⟨_, rfl⟩)
  | operand _ _ _ ih => intro _; exact ih (.inr ⟨_, rfl⟩)
  | stop h => intro _; exact h
  | ifOnly _ _ _ ih => intro _; exact ih (.inl rfl)
  | ifElse _ _ _ _ _ ih => intro _; exact ih (.inl rfl)
  | binary _ _ ih => intro _; exact ih (.inl rfl)
  | indexed _ _ _ _ _ ih => intro _; exact ih (.inr ⟨_, rfl⟩)
  | _ => rintro (h | ⟨m, h⟩) <;> cases h

/-! ### The relation -/

/-- The relation, with tokens that the parser can be run on. -/
def A (v : Bool) (prev : TokenType) (s u : List Token) : Prop := Around v prev s u ∧ Fine s

theorem inv_nil {v : Bool} {prev : TokenType} {u : List Token} (h : A v prev [] u) : u = [] := by
  obtain ⟨h, _⟩ := h
  generalize hs : ([] : List Token) = s at h
  cases h with
  | done => rfl
  | next => cases hs
  | wrap _ h _ _ _ =>
    rw [← hs] at h
    exact absurd (expr_starts h) (by simp [startsExpr, hd])

/-- Not at a place where parentheses can be. -/
def Outside (v : Bool) (prev t : TokenType) : Prop := v = true ∨ prev ∉ expecting ∨ ¬ startsExpr t

theorem inv {v : Bool} {prev : TokenType} {t : Token} {s u : List Token} (h : A v prev (t :: s) u)
    (ho : Outside v prev t.type) : ∃ u1, u = t :: u1 ∧ A (variables v prev t.type) t.type s u1 := by
  obtain ⟨h, hf⟩ := h
  generalize hs : t :: s = s0 at h
  cases h with
  | done => cases hs
  | next h => cases hs; exact ⟨_, rfl, h, hf.sub (by simp +contextual)⟩
  | wrap hp h _ _ _ =>
    rw [← hs] at h
    rcases ho with h' | h' | h'
    · cases h'
    · exact absurd hp h'
    · exact absurd (expr_starts h) h'

/-- After an expression. -/
structure Past (v : Bool) (prev : TokenType) (s : List Token) : Prop where
  out : v = false
  off : prev ∉ expecting ∨ ¬ startsExpr (hd s)
  call : prev = .identifier → hd s ≠ .op '('

theorem Past.outside {v : Bool} {prev : TokenType} {t : Token} {s : List Token} (h : Past v prev (t :: s)) :
    Outside v prev t.type := .inr h.off

theorem past_of {prev : TokenType} (s : List Token) (h : prev ∉ .identifier :: expecting) : Past false prev s :=
  ⟨rfl, .inl fun h' => h (List.mem_cons_of_mem _ h'), fun e => absurd (by simp [e]) h⟩

theorem hd_past {v : Bool} {prev : TokenType} {s u : List Token} (h : A v prev s u)
    (hp : v = true ∨ prev ∉ expecting ∨ ¬ startsExpr (hd s)) : hd u = hd s := by
  cases s with
  | nil => rw [inv_nil h]
  | cons t s => obtain ⟨u1, rfl, _⟩ := inv h hp; rfl

/-- The first tokens are the same, or there is a parenthesis before an expression. -/
theorem hd_any {v : Bool} {prev : TokenType} {s u : List Token} (h : A v prev s u) :
    hd u = hd s ∨ (hd u = .op '(' ∧ startsExpr (hd s)) := by
  obtain ⟨h, _⟩ := h
  cases h with
  | done => exact .inl rfl
  | next => exact .inl rfl
  | wrap _ h hp _ _ => exact .inr ⟨hp, expr_starts h⟩

theorem hd_ne {v : Bool} {prev : TokenType} {s u : List Token} (h : A v prev s u) {x : TokenType} (hs : hd s ≠ x)
    (hx : x ≠ .op '(' ∨ ¬ startsExpr (hd s)) : hd u ≠ x := by
  rcases hd_any h with e | ⟨e, h'⟩
  · rw [e]; exact hs
  · rcases hx with hx | hx
    · rw [e]; exact hx.symm
    · exact absurd h' hx

theorem continues_past {v : Bool} {prev : TokenType} {s u : List Token} (h : A v prev s u)
    (hp : v = true ∨ prev ∉ expecting ∨ ¬ startsExpr (hd s)) (hs : ¬ continues s) : ¬ continues u := by
  cases s with
  | nil => rw [inv_nil h]; exact hs
  | cons t s =>
    obtain ⟨u1, rfl, _⟩ := inv h hp
    rintro ⟨x, r, e, h⟩
    cases e
    exact hs ⟨t, s, rfl, h⟩

theorem closer_past {x : TokenType} (h : x ∈ closers) (s : List Token) : Past false x s := by
  refine past_of s ?_
  simp only [closers, List.mem_cons, List.not_mem_nil, or_false] at h
  rcases h with rfl | rfl | rfl <;> decide

/-- At an expression there are parentheses, or it begins the same. -/
theorem expr_cases {opt : Bool} {prev : TokenType} {s s' u : List Token} {n : Node} (h : Parses (.expr opt) s s' n)
    (ha : A false prev s u) :
    (∃ u', A false (.op ')') s' u' ∧ Parses (.expr opt) u u' n) ∨
      (s = [] ∧ u = []) ∨ ∃ t s0 u0, s = t :: s0 ∧ u = t :: u0 ∧ A (variables false prev t.type) t.type s0 u0 := by
  obtain ⟨ha, hf⟩ := ha
  generalize hs : s = s1 at ha
  cases ha with
  | done => exact .inr (.inl ⟨rfl, rfl⟩)
  | next h1 => subst hs; exact .inr (.inr ⟨_, _, _, rfl, rfl, h1, hf.sub (by simp +contextual)⟩)
  | @wrap _ p q e r u1 m hp h1 h2 h3 h4 =>
    subst hs
    obtain ⟨rfl, rfl⟩ := expr_unique hf h h1
    have ha' : A false (.op ')') s' u1 := ⟨h4, hf.sub (by simp +contextual)⟩
    refine .inl ⟨u1, ha', ?_⟩
    obtain ⟨p', e1, _, e2⟩ := replace h1 (by simp)
    have e1 : e = p' := List.append_cancel_right e1
    subst e1
    have h5 := e2 (q :: u1) (.inr (.inr (.inl (by simp [Stops, hd, h3]))))
    refine .parenthesis h2 (.grouped (optional h5 rfl) (ne_null h1 rfl) h3) (.stop ?_)
    exact continues_past ha' (.inr (.inl (by decide))) (ends h1 (.inl rfl))

/-! ### The phrases -/

theorem var_off {prev t : TokenType} (h : t ≠ .kFor) (h2 : t ≠ .op '(' ∨ prev ∈ .identifier :: expecting) :
    variables false prev t = false := by
  unfold variables
  rw [if_neg h]
  split
  · rfl
  · split
    · rename_i h3
      obtain ⟨h4, h5, h6⟩ := h3
      rcases h2 with h2 | h2
      · exact absurd h4 h2
      · rcases List.mem_cons.1 h2 with h2 | h2
        · exact absurd h2 h5
        · exact absurd h2 h6
    · rfl

theorem var_on {prev t : TokenType} (h : t ≠ .kIn) (h2 : t ≠ .op '=') : variables true prev t = true := by
  unfold variables
  split
  · rfl
  · split
    · rename_i h3; rcases h3 with h3 | h3
      · exact absurd h3 h
      · exact absurd h3 h2
    · split <;> rfl

/-- At the begin of a phrase. -/
def Before (v : Bool) (prev : TokenType) (s : List Token) : NT → Prop
  | .expr _ | .index | .paren => v = false ∧ prev ∈ expecting
  | .bracket _ i => v = false ∧ prev ∈ expecting ∧ i ≠ .variable
  | .item .variable => v = true
  | .item _ => v = false ∧ prev ∈ expecting
  | .items _ .variable close => v = true ∧ close ∈ .kIn :: closers
  | .items _ _ close => v = false ∧ prev ∈ expecting ∧ close ∈ closers
  | .cont _ | .program | .tupleTail => Past v prev s
  | .atom => v = false ∧ prev = .eof
  | .clauses close _ | .moreClauses close _ => Past v prev s ∧ close ∈ closers

/-- At the end of a phrase. -/
def After (v : Bool) (prev : TokenType) (s : List Token) : NT → Prop
  | .item .variable => v = true
  | .items _ .variable close => if close = .kIn then v = false ∧ prev = .kIn else v = true
  | .program => True
  | _ => Past v prev s

theorem before_items {v : Bool} {prev : TokenType} {s : List Token} {ty : ListType} {i : Item} {close : TokenType}
    (h : Before v prev s (.items ty i close)) : Before v prev s (.item i) := by
  cases i <;> simp_all [Before]

theorem before_item {prev : TokenType} {s : List Token} {i : Item} (hi : i ≠ .variable) (hp : prev ∈ expecting) :
    Before false prev s (.item i) := by
  cases i <;> simp_all [Before]

theorem after_item {v : Bool} {prev : TokenType} {s : List Token} {i : Item} (hi : i ≠ .variable)
    (h : After v prev s (.item i)) : Past v prev s := by
  cases i <;> simp_all [After]

theorem out_item {v : Bool} {prev : TokenType} {t : Token} {s : List Token} {i : Item}
    (h : After v prev (t :: s) (.item i)) : Outside v prev t.type := by
  cases i
  case «variable» => exact .inl h
  all_goals exact .inr (Past.off h)

/-- After a comma in a list. -/
theorem next_items {v v1 : Bool} {prev prev1 : TokenType} {s s0 s1 : List Token} {ty : ListType} {i : Item}
    {close : TokenType} (h : Before v prev s0 (.items ty i close)) (h1 : After v1 prev1 s1 (.item i)) :
    Before (variables v1 prev1 (.op ',')) (.op ',') s (.items ty i close) := by
  cases i
  case «variable» =>
    cases (show v1 = true from h1)
    exact ⟨var_on (by decide) (by decide), h.2⟩
  all_goals
    cases (show v1 = false from Past.out h1)
    exact ⟨var_off (by decide) (.inl (by decide)), by decide, h.2.2⟩

theorem closers_facts {x : TokenType} (h : x ∈ closers) :
    x ≠ .kFor ∧ x ≠ .kIn ∧ x ≠ .op '=' ∧ x ≠ .op '(' ∧ ¬ startsExpr x := by
  simp only [closers, List.mem_cons, List.not_mem_nil, or_false] at h
  rcases h with rfl | rfl | rfl <;> simp [startsExpr]

/-- After the end of a list. -/
theorem end_items {v v1 : Bool} {prev prev1 : TokenType} {s s0 : List Token} {ty : ListType} {i : Item}
    {close : TokenType} (h : Before v prev s0 (.items ty i close)) (h1 : i = .variable → v1 = true)
    (h2 : i ≠ .variable → v1 = false) : After (variables v1 prev1 close) close s (.items ty i close) := by
  cases i
  case «variable» =>
    cases h1 rfl
    simp only [After]
    split
    · rename_i e; subst e; exact ⟨by simp [variables], rfl⟩
    · rename_i e
      have hc : close ∈ closers := by
        rcases List.mem_cons.1 h.2 with h' | h'
        · exact absurd h' e
        · exact h'
      exact var_on e (closers_facts hc).2.2.1
  all_goals
    cases h2 (by simp)
    have hc : close ∈ closers := h.2.2
    have := closers_facts hc
    simp only [After]
    rw [var_off this.1 (.inl this.2.2.2.1)]
    exact closer_past hc s

theorem items_close {v : Bool} {prev : TokenType} {s : List Token} {ty : ListType} {i : Item}
    {close : TokenType} (h : Before v prev s (.items ty i close)) :
    (close ≠ .op '(' ∧ ¬ startsExpr close) := by
  have : close ∈ .kIn :: closers := by
    cases i
    case «variable» => exact h.2
    all_goals exact List.mem_cons_of_mem _ h.2.2
  rcases List.mem_cons.1 this with rfl | h
  · simp [startsExpr]
  · exact ⟨(closers_facts h).2.2.2.1, (closers_facts h).2.2.2.2⟩

theorem item_flag {v : Bool} {prev : TokenType} {s : List Token} {i : Item} (h : After v prev s (.item i)) :
    (i = .variable → v = true) ∧ (i ≠ .variable → v = false) := by
  cases i
  case «variable» => exact ⟨fun _ => h, fun e => absurd rfl e⟩
  all_goals exact ⟨fun e => (nomatch e), fun _ => Past.out h⟩

theorem items_flag {v : Bool} {prev : TokenType} {s : List Token} {ty : ListType} {i : Item} {close : TokenType}
    (h : Before v prev s (.items ty i close)) : (i = .variable → v = true) ∧ (i ≠ .variable → v = false) := by
  cases i
  case «variable» => exact ⟨fun _ => h.1, fun e => absurd rfl e⟩
  all_goals exact ⟨fun e => (nomatch e), fun _ => h.1⟩

theorem binary_expecting {x : TokenType} (h : x ∈ Grammar.binary) :
    x ∈ expecting ∧ x ≠ .kFor ∧ x ≠ .op '(' := by
  refine ⟨by simp [expecting, h], ?_, ?_⟩ <;> rintro rfl <;> revert h <;> decide

/-- The next token at the end of a phrase. -/
theorem take {v : Bool} {prev : TokenType} {t : Token} {s u : List Token} {x : TokenType} (h : A v prev (t :: s) u)
    (hp : Past v prev (t :: s)) (ht : t.type = x) (hx : x ≠ .kFor) (hx2 : x ≠ .op '(') :
    ∃ u1, u = t :: u1 ∧ A false x s u1 := by
  obtain ⟨u1, e, ha⟩ := inv h hp.outside
  rw [hp.out, ht, var_off hx (.inl hx2)] at ha
  exact ⟨u1, e, ha⟩

theorem hd_after {v : Bool} {prev : TokenType} {s u : List Token} (h : A v prev s u) (hp : Past v prev s) :
    hd u = hd s := hd_past h (.inr hp.off)

/-- Parentheses around expressions do not change what is read. -/
theorem parses_parens {nt : NT} {s s' : List Token} {n : Node} (h : Parses nt s s' n) :
    ∀ {v : Bool} {prev : TokenType} {u : List Token}, A v prev s u → Before v prev s nt →
      ∃ v' prev' u', A v' prev' s' u' ∧ After v' prev' s' nt ∧ Parses nt u u' n := by
  induction h with
  | missing h =>
    rintro v prev u ha ⟨rfl, hp⟩
    refine ⟨false, prev, u, ha, ⟨rfl, .inr h, ?_⟩, .missing ?_⟩
    · rintro rfl; exact absurd hp (by decide)
    · rw [hd_past ha (.inr (.inr h))]; exact h
  | unary ht h1 h2 ih1 ih2 =>
    rintro v prev u ha ⟨rfl, hp⟩
    rcases expr_cases (.unary ht h1 h2) ha with ⟨u', h3, h4⟩ | ⟨h3, _⟩ | ⟨t', s0, u0, e1, rfl, ha⟩
    · exact ⟨_, _, _, h3, past_of _ (by decide), h4⟩
    · cases h3
    · cases e1
      rw [var_off (by rintro e; rw [e] at ht; exact absurd ht (by decide))
        (.inl (by rintro e; rw [e] at ht; exact absurd ht (by decide)))] at ha
      obtain ⟨v1, p1, u1, ha1, b1, r1⟩ := ih1 ha ⟨rfl, by
        rcases List.mem_cons.1 ht with e | e
        · rw [e]; decide
        · rw [List.mem_singleton.1 e]; decide⟩
      obtain ⟨v2, p2, u2, ha2, b2, r2⟩ := ih2 ha1 b1
      exact ⟨v2, p2, u2, ha2, b2, .unary ht r1 r2⟩
  | parenthesis ht h1 h2 ih1 ih2 =>
    rintro v prev u ha ⟨rfl, hp⟩
    rcases expr_cases (.parenthesis ht h1 h2) ha with ⟨u', h3, h4⟩ | ⟨h3, _⟩ | ⟨t', s0, u0, e1, rfl, ha⟩
    · exact ⟨_, _, _, h3, past_of _ (by decide), h4⟩
    · cases h3
    · cases e1
      rw [ht, var_off (by decide) (.inr (List.mem_cons_of_mem _ hp))] at ha
      obtain ⟨v1, p1, u1, ha1, b1, r1⟩ := ih1 ha ⟨rfl, by decide⟩
      obtain ⟨v2, p2, u2, ha2, b2, r2⟩ := ih2 ha1 b1
      exact ⟨v2, p2, u2, ha2, b2, .parenthesis ht r1 r2⟩
  | operand h1 h2 ih1 ih2 =>
    rintro v prev u ha ⟨rfl, hp⟩
    have hf := ha.2
    rcases expr_cases (.operand h1 h2) ha with ⟨u', h3, h4⟩ | ⟨rfl, _⟩ | ⟨t', s0, u0, rfl, rfl, ha'⟩
    · exact ⟨_, _, _, h3, past_of _ (by decide), h4⟩
    · exact absurd (atom_starts h1) (by simp [hd, startsExpr])
    · have hne : t'.type ≠ .op '(' := by
        intro e
        cases h1 <;> simp_all
      have e : variables false prev t'.type = variables false .eof t'.type := by
        simp [variables, hne]
      rw [e] at ha'
      obtain ⟨v1, p1, u1, ha1, b1, r1⟩ := ih1 (v := false) (prev := .eof) (u := t' :: u0) ⟨.next ha'.1, hf⟩ ⟨rfl, rfl⟩
      obtain ⟨v2, p2, u2, ha2, b2, r2⟩ := ih2 ha1 b1
      exact ⟨v2, p2, u2, ha2, b2, .operand r1 r2⟩
  | stop h =>
    intro v prev u ha hp
    exact ⟨v, prev, u, ha, hp, .stop (continues_past ha (.inr (Past.off hp)) h)⟩
  | ifOnly ht _ hne ih =>
    intro v prev u ha hp
    obtain ⟨u0, rfl, hz⟩ := take ha hp ht (by decide) (by decide)
    have ha := hz
    clear hz
    obtain ⟨v1, p1, u1, ha1, b1, r1⟩ := ih ha ⟨rfl, by decide⟩
    exact ⟨v1, p1, u1, ha1, b1, .ifOnly ht r1 (by rw [hd_after ha1 b1]; exact hne)⟩
  | ifElse ht _ hu _ ih1 ih2 =>
    intro v prev u ha hp
    obtain ⟨u0, rfl, hz⟩ := take ha hp ht (by decide) (by decide)
    have ha := hz
    clear hz
    obtain ⟨v1, p1, u1, ha1, b1, r1⟩ := ih1 ha ⟨rfl, by decide⟩
    obtain ⟨u2, rfl, hz⟩ := take ha1 b1 hu (by decide) (by decide)
    have ha := hz
    clear hz
    obtain ⟨v3, p3, u3, ha3, b3, r3⟩ := ih2 ha ⟨rfl, by decide⟩
    exact ⟨v3, p3, u3, ha3, b3, .ifElse ht r1 hu r3⟩
  | binary ht _ ih =>
    intro v prev u ha hp
    have hb := binary_expecting ht
    obtain ⟨u0, rfl, hz⟩ := take ha hp rfl hb.2.1 hb.2.2
    have ha := hz
    clear hz
    obtain ⟨v1, p1, u1, ha1, b1, r1⟩ := ih ha ⟨rfl, hb.1⟩
    exact ⟨v1, p1, u1, ha1, b1, .binary ht r1⟩
  | indexed ht hn _ _ ih1 ih2 =>
    intro v prev u ha hp
    obtain ⟨u0, rfl, hz⟩ := take ha hp ht (by decide) (by decide)
    have ha := hz
    clear hz
    obtain ⟨v1, p1, u1, ha1, b1, r1⟩ := ih1 ha ⟨rfl, by decide⟩
    obtain ⟨v2, p2, u2, ha2, b2, r2⟩ := ih2 ha1 b1
    exact ⟨v2, p2, u2, ha2, b2, .indexed ht hn r1 r2⟩
  | at_ _ hn ht ih =>
    rintro v prev u ha hb
    obtain ⟨v1, p1, u1, ha1, b1, r1⟩ := ih ha hb
    obtain ⟨u2, rfl, hz⟩ := take ha1 b1 ht (by decide) (by decide)
    have ha := hz
    clear hz
    exact ⟨_, _, _, ha, past_of _ (by decide), .at_ r1 hn ht⟩
  | slice _ ht _ hu hn ih1 ih2 =>
    rintro v prev u ha hb
    obtain ⟨v1, p1, u1, ha1, b1, r1⟩ := ih1 ha hb
    obtain ⟨u2, rfl, hz⟩ := take ha1 b1 ht (by decide) (by decide)
    have ha := hz
    clear hz
    obtain ⟨v3, p3, u3, ha3, b3, r3⟩ := ih2 ha ⟨rfl, by decide⟩
    obtain ⟨u4, rfl, hz⟩ := take ha3 b3 hu (by decide) (by decide)
    have ha := hz
    clear hz
    exact ⟨_, _, _, ha, past_of _ (by decide), .slice r1 ht r3 hu hn⟩
  | string ht hs =>
    rintro v prev u ha ⟨rfl, rfl⟩
    obtain ⟨u2, rfl, hz⟩ := take ha (past_of _ (by decide)) ht (by decide) (by decide)
    have ha := hz
    clear hz
    exact ⟨_, _, _, ha, past_of _ (by decide), .string ht hs⟩
  | number ht hs =>
    rintro v prev u ha ⟨rfl, rfl⟩
    obtain ⟨u2, rfl, hz⟩ := take ha (past_of _ (by decide)) ht (by decide) (by decide)
    have ha := hz
    clear hz
    exact ⟨_, _, _, ha, past_of _ (by decide), .number ht hs⟩
  | name ht hs =>
    rintro v prev u ha ⟨rfl, rfl⟩
    obtain ⟨u2, rfl, hz⟩ := take ha (past_of _ (by decide)) ht (by decide) (by decide)
    have ha := hz
    clear hz
    have hp : Past false .identifier _ := ⟨rfl, .inl (by decide), fun _ => hs⟩
    exact ⟨_, _, _, ha, hp, .name ht (by rw [hd_after ha hp]; exact hs)⟩
  | call ht hu _ ih =>
    rintro v prev u ha ⟨rfl, rfl⟩
    obtain ⟨u2, rfl, hz⟩ := take ha (past_of _ (by decide)) ht (by decide) (by decide)
    have ha := hz
    clear hz
    obtain ⟨u3, rfl, hz⟩ := inv ha (.inr (.inl (by decide)))
    have ha := hz
    clear hz
    rw [hu, var_off (by decide) (.inr (by decide))] at ha
    obtain ⟨v1, p1, u1, ha1, b1, r1⟩ := ih ha ⟨rfl, by decide, by decide⟩
    exact ⟨v1, p1, u1, ha1, b1, .call ht hu r1⟩
  | list ht _ ih =>
    rintro v prev u ha ⟨rfl, rfl⟩
    obtain ⟨u2, rfl, hz⟩ := take ha (past_of _ (by decide)) ht (by decide) (by decide)
    have ha := hz
    clear hz
    obtain ⟨v1, p1, u1, ha1, b1, r1⟩ := ih ha ⟨rfl, by decide, by simp⟩
    exact ⟨v1, p1, u1, ha1, b1, .list ht r1⟩
  | map ht _ ih =>
    rintro v prev u ha ⟨rfl, rfl⟩
    obtain ⟨u2, rfl, hz⟩ := take ha (past_of _ (by decide)) ht (by decide) (by decide)
    have ha := hz
    clear hz
    obtain ⟨v1, p1, u1, ha1, b1, r1⟩ := ih ha ⟨rfl, by decide, by simp⟩
    exact ⟨v1, p1, u1, ha1, b1, .map ht r1⟩
  | grouped _ hn ht ih =>
    rintro v prev u ha hb
    obtain ⟨v1, p1, u1, ha1, b1, r1⟩ := ih ha hb
    obtain ⟨u2, rfl, hz⟩ := take ha1 b1 ht (by decide) (by decide)
    have ha := hz
    clear hz
    exact ⟨_, _, _, ha, past_of _ (by decide), .grouped r1 hn ht⟩
  | emptyTuple _ ht ih =>
    rintro v prev u ha hb
    obtain ⟨v1, p1, u1, ha1, b1, r1⟩ := ih ha hb
    obtain ⟨u2, rfl, hz⟩ := take ha1 b1 ht (by decide) (by decide)
    have ha := hz
    clear hz
    exact ⟨_, _, _, ha, past_of _ (by decide), .emptyTuple r1 ht⟩
  | tuple _ hn hh _ ih1 ih2 =>
    rintro v prev u ha hb
    obtain ⟨v1, p1, u1, ha1, b1, r1⟩ := ih1 ha hb
    obtain ⟨v2, p2, u2, ha2, b2, r2⟩ := ih2 ha1 b1
    exact ⟨_, _, _, ha2, b2, .tuple r1 hn (by rw [hd_after ha1 b1]; exact hh) r2⟩
  | tupleEnd ht =>
    intro v prev u ha hp
    obtain ⟨u0, rfl, hz⟩ := take ha hp ht (by decide) (by decide)
    have ha := hz
    clear hz
    exact ⟨_, _, _, ha, past_of _ (by decide), .tupleEnd ht⟩
  | tupleComma ht hu =>
    intro v prev u ha hp
    obtain ⟨u0, rfl, hz⟩ := take ha hp ht (by decide) (by decide)
    have ha := hz
    clear hz
    obtain ⟨u1, rfl, hz⟩ := take ha ⟨rfl, .inr (by simp [hd, hu, startsExpr]), fun e => by cases e⟩ hu (by decide) (by decide)
    have ha := hz
    clear hz
    exact ⟨_, _, _, ha, past_of _ (by decide), .tupleComma ht hu⟩
  | tupleNext ht hh _ _ ih1 ih2 =>
    intro v prev u ha hp
    obtain ⟨u0, rfl, hz⟩ := take ha hp ht (by decide) (by decide)
    have ha := hz
    clear hz
    have hne := hd_ne ha hh (.inl (by decide))
    obtain ⟨v1, p1, u1, ha1, b1, r1⟩ := ih1 ha ⟨rfl, by decide⟩
    obtain ⟨v2, p2, u2, ha2, b2, r2⟩ := ih2 ha1 b1
    exact ⟨_, _, _, ha2, b2, .tupleNext ht hne r1 r2⟩
  | @emptyBracket ty i t s ht =>
    rintro v prev u ha ⟨rfl, hp, hi⟩
    have hc := closers_facts (closing_closer ty)
    obtain ⟨u0, rfl, hz⟩ := inv ha (.inr (.inr (by rw [ht]; exact hc.2.2.2.2)))
    have ha := hz
    clear hz
    rw [ht, var_off hc.1 (.inl hc.2.2.2.1)] at ha
    exact ⟨_, _, _, ha, closer_past (closing_closer ty) _, .emptyBracket ht⟩
  | @comprehension ty i s s1 s2 x f hh _ hn hh1 _ ih1 ih2 =>
    rintro v prev u ha ⟨rfl, hp, hi⟩
    have hc := closers_facts (closing_closer ty)
    have hne := hd_ne ha hh (.inl hc.2.2.2.1)
    obtain ⟨v1, p1, u1, ha1, b1, r1⟩ := ih1 ha (before_item hi hp)
    have b1 := after_item hi b1
    obtain ⟨v2, p2, u2, ha2, b2, r2⟩ := ih2 ha1 ⟨b1, closing_closer ty⟩
    exact ⟨_, _, _, ha2, b2, .comprehension hne r1 hn (by rw [hd_after ha1 b1]; exact hh1) r2⟩
  | @bracketOne ty i t s s1 x hh _ hn ht ih =>
    rintro v prev u ha ⟨rfl, hp, hi⟩
    have hc := closers_facts (closing_closer ty)
    have hne := hd_ne ha hh (.inl hc.2.2.2.1)
    obtain ⟨v1, p1, u1, ha1, b1, r1⟩ := ih ha (before_item hi hp)
    obtain ⟨u2, rfl, hz⟩ := take ha1 (after_item hi b1) ht hc.1 hc.2.2.2.1
    have ha := hz
    clear hz
    exact ⟨_, _, _, ha, closer_past (closing_closer ty) _, .bracketOne hne r1 hn ht⟩
  | @bracketMore ty i t s s1 s2 x xs hh _ hn ht _ ih1 ih2 =>
    rintro v prev u ha ⟨rfl, hp, hi⟩
    have hc := closers_facts (closing_closer ty)
    have hne := hd_ne ha hh (.inl hc.2.2.2.1)
    obtain ⟨v1, p1, u1, ha1, b1, r1⟩ := ih1 ha (before_item hi hp)
    obtain ⟨u2, rfl, hz⟩ := take ha1 (after_item hi b1) ht (by decide) (by decide)
    have ha := hz
    clear hz
    obtain ⟨v3, p3, u3, ha3, b3, r3⟩ := ih2 ha (by
      cases i
      case «variable» => exact absurd rfl hi
      all_goals exact ⟨rfl, by decide, closing_closer ty⟩)
    refine ⟨_, _, _, ha3, ?_, .bracketMore hne r1 hn ht r3⟩
    cases i
    case «variable» => exact absurd rfl hi
    all_goals exact b3
  | itemsEnd ht =>
    rintro v prev u ha hb
    have hc := items_close hb
    obtain ⟨u0, rfl, hz⟩ := inv ha (.inr (.inr (by rw [ht]; exact hc.2)))
    have ha := hz
    clear hz
    rw [ht] at ha
    exact ⟨_, _, _, ha, end_items hb (items_flag hb).1 (items_flag hb).2, .itemsEnd ht⟩
  | itemsLast hh _ ht ih =>
    rintro v prev u ha hb
    have hc := items_close hb
    have hne := hd_ne ha hh (.inl hc.1)
    obtain ⟨v1, p1, u1, ha1, b1, r1⟩ := ih ha (before_items hb)
    obtain ⟨u0, rfl, hz⟩ := inv ha1 (out_item b1)
    have ha := hz
    clear hz
    rw [ht] at ha
    exact ⟨_, _, _, ha, end_items hb (item_flag b1).1 (item_flag b1).2, .itemsLast hne r1 ht⟩
  | itemsMore hh _ ht _ ih1 ih2 =>
    rintro v prev u ha hb
    have hc := items_close hb
    have hne := hd_ne ha hh (.inl hc.1)
    obtain ⟨v1, p1, u1, ha1, b1, r1⟩ := ih1 ha (before_items hb)
    obtain ⟨u0, rfl, hz⟩ := inv ha1 (out_item b1)
    have ha := hz
    clear hz
    rw [ht] at ha
    obtain ⟨v2, p2, u2, ha2, b2, r2⟩ := ih2 ha (next_items hb b1)
    refine ⟨_, _, _, ha2, ?_, .itemsMore hne r1 ht r2⟩
    exact b2
  | itemValue _ ih =>
    rintro v prev u ha hb
    obtain ⟨v1, p1, u1, ha1, b1, r1⟩ := ih ha hb
    exact ⟨_, _, _, ha1, b1, .itemValue r1⟩
  | itemArgument _ hn hk ih =>
    rintro v prev u ha hb
    obtain ⟨v1, p1, u1, ha1, b1, r1⟩ := ih ha hb
    exact ⟨_, _, _, ha1, b1, .itemArgument r1 hn (by rw [hd_after ha1 b1]; exact hk)⟩
  | itemKeyword _ ht _ ih1 ih2 =>
    rintro v prev u ha hb
    obtain ⟨v1, p1, u1, ha1, b1, r1⟩ := ih1 ha hb
    obtain ⟨u2, rfl, hz⟩ := take ha1 b1 ht (by decide) (by decide)
    have ha := hz
    clear hz
    obtain ⟨v3, p3, u3, ha3, b3, r3⟩ := ih2 ha ⟨rfl, by decide⟩
    exact ⟨_, _, _, ha3, b3, .itemKeyword r1 ht r3⟩
  | itemEntry _ ht _ ih1 ih2 =>
    rintro v prev u ha hb
    obtain ⟨v1, p1, u1, ha1, b1, r1⟩ := ih1 ha hb
    obtain ⟨u2, rfl, hz⟩ := take ha1 b1 ht (by decide) (by decide)
    have ha := hz
    clear hz
    obtain ⟨v3, p3, u3, ha3, b3, r3⟩ := ih2 ha ⟨rfl, by decide⟩
    exact ⟨_, _, _, ha3, b3, .itemEntry r1 ht r3⟩
  | itemVariable ht =>
    rintro v prev u ha (rfl : v = true)
    obtain ⟨u2, rfl, hz⟩ := inv ha (.inl rfl)
    have ha := hz
    clear hz
    rw [ht] at ha
    exact ⟨_, _, _, ha, var_on (by decide) (by decide), .itemVariable ht⟩
  | itemNothing hh =>
    rintro v prev u ha (rfl : v = true)
    exact ⟨_, _, _, ha, rfl, .itemNothing (by rw [hd_past ha (.inl rfl)]; exact hh)⟩
  | forTuple ht hp1 _ hi _ _ ih1 ih2 ih3 =>
    rintro v prev u ha ⟨hp, hc⟩
    obtain ⟨u0, rfl, hz⟩ := inv ha hp.outside
    have ha := hz
    clear hz
    rw [ht, show variables v prev .kFor = true by simp [variables]] at ha
    obtain ⟨u1, rfl, hz⟩ := inv ha (.inl rfl)
    have ha := hz
    clear hz
    rw [hp1, var_on (by decide) (by decide)] at ha
    obtain ⟨v2, p2, u2, ha2, b2, r2⟩ := ih1 ha ⟨rfl, by decide⟩
    have b2 : v2 = true := by simpa [After] using b2
    subst b2
    obtain ⟨u3, rfl, hz⟩ := inv ha2 (.inl rfl)
    have ha := hz
    clear hz
    rw [hi, show variables true p2 .kIn = false by simp [variables]] at ha
    obtain ⟨v4, p4, u4, ha4, b4, r4⟩ := ih2 ha ⟨rfl, by decide⟩
    obtain ⟨v5, p5, u5, ha5, b5, r5⟩ := ih3 ha4 ⟨b4, hc⟩
    exact ⟨_, _, _, ha5, b5, .forTuple ht hp1 r2 hi r4 r5⟩
  | forList ht hh _ _ _ ih1 ih2 ih3 =>
    rintro v prev u ha ⟨hp, hc⟩
    obtain ⟨u0, rfl, hz⟩ := inv ha hp.outside
    have ha := hz
    clear hz
    rw [ht, show variables v prev .kFor = true by simp [variables]] at ha
    have hne : hd u0 ≠ .op '(' := by rw [hd_past ha (.inl rfl)]; exact hh
    obtain ⟨v2, p2, u2, ha2, b2, r2⟩ := ih1 ha ⟨rfl, by decide⟩
    have b2 : v2 = false ∧ p2 = .kIn := by simpa [After] using b2
    obtain ⟨rfl, rfl⟩ := b2
    obtain ⟨v4, p4, u4, ha4, b4, r4⟩ := ih2 ha2 ⟨rfl, by decide⟩
    obtain ⟨v5, p5, u5, ha5, b5, r5⟩ := ih3 ha4 ⟨b4, hc⟩
    exact ⟨_, _, _, ha5, b5, .forList ht hne r2 r4 r5⟩
  | nextClause hh _ ih =>
    rintro v prev u ha ⟨hp, hc⟩
    obtain ⟨v1, p1, u1, ha1, b1, r1⟩ := ih ha ⟨hp, hc⟩
    exact ⟨_, _, _, ha1, b1, .nextClause (by rw [hd_after ha hp]; exact hh) r1⟩
  | lastClause ht hk =>
    rintro v prev u ha ⟨hp, hc⟩
    have hf := closers_facts hc
    obtain ⟨u2, rfl, hz⟩ := take ha hp ht hf.1 hf.2.2.2.1
    have ha := hz
    clear hz
    exact ⟨_, _, _, ha, closer_past hc _, .lastClause ht hk⟩
  | endOfFile =>
    intro v prev u ha hp
    cases inv_nil ha
    exact ⟨_, _, _, ha, trivial, .endOfFile⟩
  | docString ht _ ih =>
    intro v prev u ha hp
    obtain ⟨u0, rfl, hz⟩ := take ha hp ht (by decide) (by decide)
    have ha := hz
    clear hz
    obtain ⟨v1, p1, u1, ha1, _, r1⟩ := ih ha (past_of _ (by decide))
    cases inv_nil ha1
    exact ⟨_, _, _, ha1, trivial, .docString ht r1⟩
  | listStatement ht _ _ ih1 ih2 =>
    intro v prev u ha hp
    obtain ⟨u0, rfl, hz⟩ := take ha hp ht (by decide) (by decide)
    have ha := hz
    clear hz
    obtain ⟨v1, p1, u1, ha1, b1, r1⟩ := ih1 ha ⟨rfl, by decide, by simp⟩
    obtain ⟨v2, p2, u2, ha2, _, r2⟩ := ih2 ha1 b1
    cases inv_nil ha2
    exact ⟨_, _, _, ha2, trivial, .listStatement ht r1 r2⟩
  | tupleAssign ht _ he _ _ ih1 ih2 ih3 =>
    intro v prev u ha hp
    have h1 : prev ∉ expecting := by
      rcases Past.off hp with h | h
      · exact h
      · exact absurd (by simp [hd, ht, startsExpr]) h
    have h2 : prev ≠ .identifier := fun e => Past.call hp e ht
    obtain ⟨u0, rfl, hz⟩ := inv ha (Past.outside hp)
    have ha := hz
    clear hz
    rw [ht, show variables v prev (.op '(') = true by simp [variables, h1, h2]] at ha
    obtain ⟨v2, p2, u2, ha2, b2, r2⟩ := ih1 ha ⟨rfl, by decide⟩
    have b2 : v2 = true := by simpa [After] using b2
    subst b2
    obtain ⟨u3, rfl, hz⟩ := inv ha2 (.inl rfl)
    have ha := hz
    clear hz
    rw [he, show variables true p2 (.op '=') = false by simp [variables]] at ha
    obtain ⟨v4, p4, u4, ha4, b4, r4⟩ := ih2 ha ⟨rfl, by decide⟩
    obtain ⟨v5, p5, u5, ha5, _, r5⟩ := ih3 ha4 b4
    cases inv_nil ha5
    exact ⟨_, _, _, ha5, trivial, .tupleAssign ht r2 he r4 r5⟩
  | assign ht he _ _ ih1 ih2 =>
    intro v prev u ha hp
    obtain ⟨u0, rfl, hz⟩ := take ha hp ht (by decide) (by decide)
    have ha := hz
    clear hz
    obtain ⟨u1, rfl, hz⟩ := take ha ⟨rfl, .inl (by decide), by simp [hd, he]⟩ he (by decide) (by decide)
    have ha := hz
    clear hz
    obtain ⟨v1, p1, u1, ha1, b1, r1⟩ := ih1 ha ⟨rfl, by decide⟩
    obtain ⟨v2, p2, u2, ha2, _, r2⟩ := ih2 ha1 b1
    cases inv_nil ha2
    exact ⟨_, _, _, ha2, trivial, .assign ht he r1 r2⟩
  | rule ht he _ _ ih1 ih2 =>
    intro v prev u ha hp
    obtain ⟨u0, rfl, hz⟩ := take ha hp ht (by decide) (by decide)
    have ha := hz
    clear hz
    obtain ⟨u1, rfl, hz⟩ := inv ha (.inr (.inl (by decide)))
    have ha := hz
    clear hz
    rw [he, var_off (by decide) (.inr (by decide))] at ha
    obtain ⟨v1, p1, u1, ha1, b1, r1⟩ := ih1 ha ⟨rfl, by decide, by decide⟩
    obtain ⟨v2, p2, u2, ha2, _, r2⟩ := ih2 ha1 b1
    cases inv_nil ha2
    exact ⟨_, _, _, ha2, trivial, .rule ht he r1 r2⟩
  | method ht he _ _ ih1 ih2 =>
    intro v prev u ha hp
    obtain ⟨u0, rfl, hz⟩ := take ha hp ht (by decide) (by decide)
    have ha := hz
    clear hz
    obtain ⟨u1, rfl, hz⟩ := take ha ⟨rfl, .inl (by decide), by simp [hd, he]⟩ he (by decide) (by decide)
    have ha := hz
    clear hz
    obtain ⟨v1, p1, u1, ha1, b1, r1⟩ := ih1 ha ⟨rfl, by decide⟩
    obtain ⟨v2, p2, u2, ha2, _, r2⟩ := ih2 ha1 b1
    cases inv_nil ha2
    exact ⟨_, _, _, ha2, trivial, .method ht he r1 r2⟩

/-- Tokens that the parser can be run on stay so. -/
theorem around_fine {v : Bool} {prev : TokenType} {s u : List Token} (h : Around v prev s u) : Fine s → Fine u := by
  induction h with
  | done => exact id
  | next _ ih =>
    intro hf
    have := ih (hf.sub (by simp +contextual))
    exact ⟨by simpa using ⟨hf.noEof _ (by simp), this.noEof⟩, by
      intro t ht
      rcases List.mem_cons.1 ht with rfl | h
      · exact hf.strings _ (by simp)
      · exact this.strings _ h⟩
  | @wrap _ p q e s u n _ _ hp hq _ ih =>
    intro hf
    have := ih (hf.sub (by simp +contextual))
    constructor
    · intro t ht
      simp only [List.mem_cons, List.mem_append] at ht
      rcases ht with rfl | h | rfl | h
      · rw [hp]; simp
      · exact hf.noEof _ (by simp [h])
      · rw [hq]; simp
      · exact this.noEof _ h
    · intro t ht
      simp only [List.mem_cons, List.mem_append] at ht
      rcases ht with rfl | h | rfl | h
      · rw [hp]; simp
      · exact hf.strings _ (by simp [h])
      · rw [hq]; simp
      · exact this.strings _ h

/-- A file is read the same with parentheses. -/
theorem program_parens {s u : List Token} {n : Node} (hf : Fine s) (ha : Around false .eof s u)
    (h : Parses .program s [] n) : Parses .program u [] n ∧ Fine u := by
  obtain ⟨_, _, u', ha', _, r⟩ := parses_parens h ⟨ha, hf⟩ (past_of _ (by decide))
  cases inv_nil ha'
  exact ⟨r, around_fine ha hf⟩

theorem fine_same {u ts : List Token} (h : SameTokens u ts) : Fine u → Fine ts := by
  induction h with
  | nil => exact id
  | @cons t t' s s' h1 _ ih =>
    intro hf
    have := ih (hf.sub (by simp +contextual))
    constructor
    · intro t ht
      rcases List.mem_cons.1 ht with rfl | h
      · rw [h1.type]; exact hf.noEof _ (by simp)
      · exact this.noEof _ h
    · intro t ht
      rcases List.mem_cons.1 ht with rfl | h
      · rw [h1.type, h1.text]; exact hf.strings _ (by simp)
      · exact this.strings _ h

/-- Tokens that are the same for the parser are read the same. -/
theorem program_same {u ts' : List Token} {n : Node} (hf : Fine u) (hs : SameTokens u ts')
    (h : Parses .program u [] n) : Parses .program ts' [] n := by
  have hform : ∃ xs, n = .list .list xs := by cases h <;> exact ⟨_, rfl⟩
  obtain ⟨xs, rfl⟩ := hform
  obtain ⟨a, st, h1, _⟩ := run_total (8 * u.length + rank (.statements []) + 1) (.statements []) (stateOf u) (good_of hf)
    (by simp [Pre]) (by simp [stateOf])
  obtain ⟨_, rfl, _, he⟩ := agree h xs [] rfl _ (stateOf u) (good_of hf) rfl rfl a st h1
  have hss : SameState (stateOf u) (stateOf ts') := ⟨hs, ⟨rfl, rfl, fun _ => rfl⟩, .nil⟩
  rcases run_sim (8 * u.length + rank (.statements []) + 1) (.statements []) _ _ hss with
    ⟨h2, _⟩ | ⟨a, a', s1, s1', h2, h3, h4, h5⟩
  · rw [h1] at h2; cases h2
  · rw [h1] at h2
    cases h2
    subst h4
    obtain ⟨_, h6⟩ := run_sound _ (.statements []) (stateOf ts') (good_of (fine_same hs hf)) _ _ h3
    have he' : s1'.errs = [] := by
      have := SameTokens.length h5.errs
      rw [he] at this
      exact List.eq_nil_of_length_eq_zero this
    obtain ⟨_, xs', hx, _, hp⟩ := h6 he'
    rw [List.nil_append] at hx
    rw [hx]
    exact hp

theorem fine_of {content : Str} {ts : List Token} (h : TokensOf content ts) : Fine ts := by
  have := initState_good content
  rw [← initState_toks h]
  exact ⟨this.2, this.3⟩

/-- A text is read the same with parentheses. -/
theorem tree_parens {c c' : Str} (h : WithParens c c') {tree : Node} {st : PState} (hp : parseFile c = some (tree, st))
    (he : st.errs = []) : ∃ st', parseFile c' = some (tree, st') ∧ st'.errs = [] := by
  obtain ⟨ts, u, ts', h1, h2, h3, h4⟩ := h
  obtain ⟨h5, h6⟩ := program_parens (fine_of h1) h3 ((parseFile_iff h1 tree).1 ⟨st, hp, he⟩)
  exact (parseFile_iff h2 tree).2 (program_same h6 h4 h5)

theorem tree_all {c c' : Str} (h : Parenthesized c c') : ∀ {tree : Node} {st : PState}, parseFile c = some (tree, st) →
    st.errs = [] → ∃ st', parseFile c' = some (tree, st') ∧ st'.errs = [] := by
  induction h with
  | same => intro tree st h1 h2; exact ⟨st, h1, h2⟩
  | step _ h3 ih =>
    intro tree st h1 h2
    obtain ⟨st', h4, h5⟩ := ih h1 h2
    exact tree_parens h3 h4 h5

end Parens
end Bant
