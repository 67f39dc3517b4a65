import Verif.Lemmas.LayoutScan

/-! Lemmas about texts with other layout: the parser. -/
namespace Bant
namespace Layout
open Parser LayoutSpec

/-- States that the parser does not tell apart. -/
structure SameState (s s' : PState) : Prop where
  toks : SameTokens s.toks s'.toks
  eof : SameToken s.eof s'.eof
  errs : SameTokens s.errs s'.errs

/-- Actions with the same effect. -/
def Sim {α : Type} (R : α → α → Prop) (m m' : P α) : Prop :=
  ∀ s s', SameState s s' → (m s = none ∧ m' s' = none) ∨
    ∃ a a' s1 s1', m s = some (a, s1) ∧ m' s' = some (a', s1') ∧ R a a' ∧ SameState s1 s1'

theorem Sim.bind {α β : Type} {R : α → α → Prop} {Q : β → β → Prop} {m m' : P α} {f f' : α → P β}
    (h : Sim R m m') (hf : ∀ a a', R a a' → Sim Q (f a) (f' a')) : Sim Q (m >>= f) (m' >>= f') := by
  intro s s' hs
  rcases h s s' hs with ⟨h1, h2⟩ | ⟨a, a', s1, s1', h1, h2, h3, h4⟩
  · exact Or.inl ⟨by simp only [Bind.bind, h1], by simp only [Bind.bind, h2]⟩
  · simp only [Bind.bind, h1, h2]
    exact hf a a' h3 s1 s1' h4

theorem Sim.bindEq {α β : Type} {Q : β → β → Prop} {m m' : P α} {f f' : α → P β}
    (h : Sim Eq m m') (hf : ∀ a, Sim Q (f a) (f' a)) : Sim Q (m >>= f) (m' >>= f') :=
  Sim.bind h fun a _ e => e ▸ hf a

theorem Sim.pure {α : Type} (a : α) : Sim Eq (Pure.pure a : P α) (Pure.pure a) :=
  fun s s' hs => Or.inr ⟨a, a, s, s', rfl, rfl, rfl, hs⟩

theorem Sim.ite {α : Type} {R : α → α → Prop} {c : Prop} [Decidable c] {m1 m2 m1' m2' : P α}
    (h1 : c → Sim R m1 m1') (h2 : ¬ c → Sim R m2 m2') : Sim R (if c then m1 else m2) (if c then m1' else m2') := by
  by_cases h : c
  · rw [if_pos h, if_pos h]; exact h1 h
  · rw [if_neg h, if_neg h]; exact h2 h

theorem Sim.fail {α : Type} {R : α → α → Prop} : Sim R (Parser.fail : P α) Parser.fail :=
  fun _ _ _ => Or.inl ⟨rfl, rfl⟩

theorem SameTokens.tail {ts ts' : List Token} (h : SameTokens ts ts') : SameTokens ts.tail ts'.tail := by
  cases h with
  | nil => exact .nil
  | cons _ h => exact h

theorem SameTokens.append {a a' b b' : List Token} (h : SameTokens a a') (h2 : SameTokens b b') :
    SameTokens (a ++ b) (a' ++ b') := by
  induction h with
  | nil => exact h2
  | cons h _ ih => exact .cons h ih

theorem SameState.cur {s s' : PState} (h : SameState s s') : SameToken s.cur s'.cur := by
  unfold PState.cur
  have := h.toks
  revert this
  generalize s.toks = x
  generalize s'.toks = y
  intro this
  cases this with
  | nil => exact h.eof
  | cons h _ => exact h

theorem Sim.peek : Sim SameToken Parser.peek Parser.peek := by
  intro s s' hs
  refine Or.inr ⟨_, _, _, _, rfl, rfl, hs.cur, hs.toks, hs.eof, hs.errs⟩

theorem Sim.next : Sim SameToken Parser.next Parser.next := by
  intro s s' hs
  refine Or.inr ⟨_, _, _, _, rfl, rfl, hs.cur, SameTokens.tail hs.toks, hs.eof, hs.errs⟩

theorem Sim.errAt {t t' : Token} {m : Complaint} (h : SameToken t t') :
    Sim Eq (Parser.errAt t m) (Parser.errAt t' m) := by
  intro s s' hs
  exact Or.inr ⟨_, _, _, _, rfl, rfl, rfl, hs.toks, hs.eof, SameTokens.append hs.errs (.cons h .nil)⟩

theorem Sim.hasError : Sim Eq Parser.hasError Parser.hasError := by
  intro s s' hs
  refine Or.inr ⟨_, _, _, _, rfl, rfl, ?_, hs⟩
  have := hs.errs
  revert this
  generalize s.errs = x
  generalize s'.errs = y
  intro this
  cases this <;> rfl

section
variable {call : Call → P Node} (hc : ∀ c, Sim Eq (call c) (call c))

include hc in
theorem suffix_sim (n : Node) : Sim Eq (parseSuffix call n) (parseSuffix call n) := by
  unfold parseSuffix
  refine Sim.bind Sim.peek fun t t' ht => ?_
  simp only [ht.type]
  refine Sim.ite (fun _ => hc _) (fun _ => ?_)
  refine Sim.ite (fun _ => ?_) (fun _ => ?_)
  · refine Sim.bind Sim.next fun u u' hu => ?_
    simp only [hu.type]
    exact Sim.bindEq (hc _) fun _ => Sim.pure _
  · refine Sim.ite (fun hb => ?_) (fun _ => Sim.pure _)
    rw [ht.line hb]
    refine Sim.ite (fun _ => Sim.pure _) (fun _ => ?_)
    refine Sim.bind Sim.next fun u u' hu => ?_
    simp only [hu.type]
    exact Sim.bindEq (hc _) fun _ => hc _

include hc in
theorem body_sim (c : Call) : Sim Eq (body call c) (body call c) := by
  cases c
  case suffix n => exact suffix_sim hc n
  case elem e =>
    cases e <;> simp only [body, parseElem, expressionOrAssignment, parseMapTuple, parseOptionalIdentifier] <;>
    repeat' (first
    | exact hc _ | exact Sim.pure _ | (refine Sim.errAt ?_; assumption)
    | (refine Sim.bind Sim.peek fun t t' ht => ?_; try simp only [ht.type])
    | (refine Sim.bind Sim.next fun t t' ht => ?_; try simp only [ht.type, ht.text])
    | (refine Sim.bindEq ?_ fun _ => ?_) | refine Sim.ite (fun _ => ?_) (fun _ => ?_))
  all_goals
    simp only [body, parseExpression, parseIfElse, parseArrayAccess, parseValue,
      parseParen, parseTupleRest, parseListOrCompr, parseList, parseFunCall, parseComprFor,
      parseStatements]
    repeat' (first
    | exact hc _ | exact Sim.pure _ | exact Sim.fail | exact Sim.hasError
    | (refine Sim.errAt ?_; assumption)
    | (refine Sim.bind Sim.peek fun t t' ht => ?_; try simp only [ht.type, ht.text])
    | (refine Sim.bind Sim.next fun t t' ht => ?_; try simp only [ht.type, ht.text])
    | (refine Sim.bindEq ?_ fun _ => ?_) | refine Sim.ite (fun _ => ?_) (fun _ => ?_)
    | split)
end

theorem run_sim (n : Nat) (c : Call) : Sim Eq (run n c) (run n c) := by
  induction n generalizing c with
  | zero => exact Sim.fail
  | succ n ih => exact body_sim ih c

theorem SameTokens.length {ts ts' : List Token} (h : SameTokens ts ts') : ts'.length = ts.length := by
  induction h with
  | nil => rfl
  | cons _ _ ih => simp [ih]

/-- Texts with the same tokens are read alike. -/
theorem parse_same {c c' : Str} {ts ts' : List Token} (h : TokensOf c ts) (h' : TokensOf c' ts')
    (hs : SameTokens ts ts') : ∃ tree st st', parseFile c = some (tree, st) ∧ parseFile c' = some (tree, st') ∧
      SameTokens st.errs st'.errs := by
  have e1 := initState_toks h
  have e2 := initState_toks h'
  have hss : SameState (initState c) (initState c') :=
    ⟨by rw [e1, e2]; exact hs, ⟨rfl, rfl, fun h => by cases h⟩, .nil⟩
  obtain ⟨tree, st, hp, _⟩ := parseFile_total c
  have hlen : (initState c').toks.length = (initState c).toks.length := by
    rw [e1, e2]; exact SameTokens.length hs
  unfold parseFile at hp ⊢
  rw [hlen, hp]
  rcases run_sim (enoughFuel (initState c).toks.length) (.statements []) _ _ hss with
    ⟨h1, _⟩ | ⟨a, a', s1, s1', h1, h2, h3, h4⟩
  · rw [hp] at h1; cases h1
  · rw [hp] at h1
    cases h1
    subst h3
    exact ⟨tree, st, s1', rfl, h2, h4.errs⟩

end Layout
end Bant
