import Verif.Lemmas.ParserScans

/-! Up to its first error the parser depends on nothing behind the token it complains about. -/
namespace Bant
namespace Parser

/-- Tokens are consumed, errors stay. -/
def Keeps {α : Type} (m : P α) : Prop := Mono (fun s s' => Later s s' ∧ s.errs <+: s'.errs) m

/-- The first error is at one of the tokens to come, or at one of `ts`. -/
def Ahead (ts : List Token) {α : Type} (m : P α) : Prop :=
  ∀ s a s', s.errs = [] → m s = some (a, s') →
    s'.errs = [] ∨ ∃ e, s'.errs.head? = some e ∧ (e ∈ s.toks ∨ e = s.eof ∨ e ∈ ts)

/-- Two runs with the tokens `p` in common, followed by `r1` and `r2`: they are still the same,
or have the same first error, or the first run left `p` before its first error. -/
def Local {α : Type} (m : P α) : Prop :=
  ∀ p r1 r2 s1 s2 a1 a2 s1' s2', s1.toks = p ++ r1 → s2.toks = p ++ r2 → s1.errs = [] → s2.errs = [] →
    m s1 = some (a1, s1') → m s2 = some (a2, s2') →
    (a1 = a2 ∧ s1'.errs = [] ∧ s2'.errs = [] ∧ ∃ q, s1'.toks = q ++ r1 ∧ s2'.toks = q ++ r2) ∨
    (∃ e, s1'.errs.head? = some e ∧ s2'.errs.head? = some e) ∨
    ((s1'.errs = [] ∧ s1'.toks <:+ r1) ∨ ∃ e, s1'.errs.head? = some e ∧ (e ∈ r1 ∨ e = s1.eof))

/-- All of it. -/
structure Loc (ts : List Token) {α : Type} (m : P α) : Prop where
  keeps : Keeps m
  ahead : Ahead ts m
  loc : Local m

theorem head_keeps {a b : List Token} {e : Token} (h : a <+: b) (he : a.head? = some e) : b.head? = some e := by
  obtain ⟨c, rfl⟩ := h
  cases a <;> simp_all

theorem Ahead.weaken {ts : List Token} {α : Type} {m : P α} (h : Ahead [] m) : Ahead ts m := by
  intro s a s' he hm
  rcases h s a s' he hm with h2 | ⟨e, h2, h3 | h3 | h3⟩
  · exact .inl h2
  · exact .inr ⟨e, h2, .inl h3⟩
  · exact .inr ⟨e, h2, .inr (.inl h3)⟩
  · simp at h3

theorem Loc.weaken {ts : List Token} {α : Type} {m : P α} (h : Loc [] m) : Loc ts m :=
  ⟨h.keeps, h.ahead.weaken, h.loc⟩

theorem bind_some {α β : Type} {m : P α} {f : α → P β} {s : PState} {b : β} {s' : PState}
    (h : (m >>= f) s = some (b, s')) : ∃ a s1, m s = some (a, s1) ∧ f a s1 = some (b, s') := by
  simp only [Bind.bind] at h
  cases hm : m s with
  | none => simp [hm] at h
  | some x => obtain ⟨a, s1⟩ := x; simp only [hm] at h; exact ⟨a, s1, rfl, h⟩

theorem Keeps.bind {α β : Type} {m : P α} {f : α → P β} (h1 : Keeps m) (h2 : ∀ a, Keeps (f a)) :
    Keeps (m >>= f) := Mono.bind (fun _ _ _ h h' => ⟨h.1.trans h'.1, h.2.trans h'.2⟩) h1 h2

theorem Keeps.peek : Keeps peek := fun s a s' h => by
  cases h; exact ⟨⟨List.suffix_refl _, rfl⟩, List.prefix_refl _⟩
theorem Keeps.next : Keeps next := fun s a s' h => by
  cases h; exact ⟨⟨List.tail_suffix _, rfl⟩, List.prefix_refl _⟩
theorem Keeps.errAt (t : Token) (m : Complaint) : Keeps (errAt t m) := fun s a s' h => by
  cases h; exact ⟨⟨List.suffix_refl _, rfl⟩, List.prefix_append _ _⟩
theorem Keeps.hasError : Keeps hasError := fun s a s' h => by
  cases h; exact ⟨.refl _, List.prefix_refl _⟩

theorem Loc.pure {ts : List Token} {α : Type} (a : α) : Loc ts (Pure.pure a : P α) := by
  refine ⟨?_, ?_, ?_⟩
  · intro s b s' h; cases h; exact ⟨.refl _, List.prefix_refl _⟩
  · intro s b s' he h; cases h; exact .inl he
  · intro p r1 r2 s1 s2 a1 a2 s1' s2' h1 h2 e1 e2 m1 m2
    cases m1; cases m2
    exact .inl ⟨rfl, e1, e2, p, h1, h2⟩

theorem Loc.fail {ts : List Token} {α : Type} : Loc ts (Parser.fail : P α) := by
  refine ⟨?_, ?_, ?_⟩
  · intro s b s' h; cases h
  · intro s b s' he h; cases h
  · intro p r1 r2 s1 s2 a1 a2 s1' s2' h1 h2 e1 e2 m1 m2
    cases m1

theorem Loc.ite {ts : List Token} {α : Type} {c : Prop} [Decidable c] {m1 m2 : P α} (h1 : Loc ts m1)
    (h2 : Loc ts m2) : Loc ts (if c then m1 else m2) := by
  split
  · exact h1
  · exact h2

theorem Loc.bind {ts : List Token} {α β : Type} {m : P α} {f : α → P β} (h1 : Loc ts m)
    (h2 : ∀ a, Loc [] (f a)) : Loc ts (m >>= f) := by
  refine ⟨h1.keeps.bind fun a => (h2 a).keeps, ?_, ?_⟩
  · intro s b s' he h
    obtain ⟨a, s1, hm, hf⟩ := bind_some h
    have g1 := (h1.keeps _ _ _ hm).1
    rcases h1.ahead _ _ _ he hm with g2 | ⟨e, g2, g3⟩
    · rcases (h2 a).ahead _ _ _ g2 hf with g5 | ⟨e, g5, g6 | g6 | g6⟩
      · exact .inl g5
      · exact .inr ⟨e, g5, .inl (g1.1.subset g6)⟩
      · exact .inr ⟨e, g5, .inr (.inl (g6.trans g1.2))⟩
      · simp at g6
    · exact .inr ⟨e, head_keeps ((h2 a).keeps _ _ _ hf).2 g2, g3⟩
  · intro p r1 r2 s1 s2 b1 b2 t1 t2 g1 g2 e1 e2 n1 n2
    obtain ⟨a1, s1', hm1, hf1⟩ := bind_some n1
    obtain ⟨a2, s2', hm2, hf2⟩ := bind_some n2
    have k1 := (h1.keeps _ _ _ hm1).1
    rcases h1.loc p r1 r2 s1 s2 a1 a2 s1' s2' g1 g2 e1 e2 hm1 hm2 with
      ⟨rfl, c1, c2, q, d1, d2⟩ | ⟨e, c1, c2⟩ | ⟨c1, c2⟩ | ⟨e, c1, c2⟩
    · rcases (h2 a1).loc q r1 r2 s1' s2' b1 b2 t1 t2 d1 d2 c1 c2 hf1 hf2 with h | h | h | ⟨e, h3, h4⟩
      · exact .inl h
      · exact .inr (.inl h)
      · exact .inr (.inr (.inl h))
      · exact .inr (.inr (.inr ⟨e, h3, by rw [← k1.2]; exact h4⟩))
    · exact .inr (.inl ⟨e, head_keeps ((h2 a1).keeps _ _ _ hf1).2 c1, head_keeps ((h2 a2).keeps _ _ _ hf2).2 c2⟩)
    · right; right
      rcases (h2 a1).ahead _ _ _ c1 hf1 with g5 | ⟨e, g5, g6 | g6 | g6⟩
      · exact .inl ⟨g5, (((h2 a1).keeps _ _ _ hf1).1.1).trans c2⟩
      · exact .inr ⟨e, g5, .inl (c2.subset g6)⟩
      · exact .inr ⟨e, g5, .inr (g6.trans k1.2)⟩
      · simp at g6
    · exact .inr (.inr (.inr ⟨e, head_keeps ((h2 a1).keeps _ _ _ hf1).2 c1, c2⟩))

/-- `peek` or `next`. -/
theorem Loc.fetch {g : P Token} (hk : Keeps g)
    (hg : ∀ s, ∃ s', g s = some (s.cur, s') ∧ s'.errs = s.errs ∧ (s'.toks = s.toks ∨ s'.toks = s.toks.tail))
    (hg2 : ∀ s1 s2 s1' s2', g s1 = some (s1.cur, s1') → g s2 = some (s2.cur, s2') →
      (s1'.toks = s1.toks ∧ s2'.toks = s2.toks) ∨ (s1'.toks = s1.toks.tail ∧ s2'.toks = s2.toks.tail))
    {ts : List Token} {β : Type} {f : Token → P β} (h2 : ∀ t, Loc [t] (f t)) : Loc ts (g >>= f) := by
  have ha : Ahead [] (g >>= f) := by
    intro s b s' he h
    obtain ⟨a, s1, hm, hf⟩ := bind_some h
    obtain ⟨s1', hm', q1, q2⟩ := hg s
    obtain ⟨rfl, rfl⟩ : a = s.cur ∧ s1 = s1' := by rw [hm'] at hm; cases hm; exact ⟨rfl, rfl⟩
    have k1 := (hk _ _ _ hm').1
    rcases (h2 s.cur).ahead _ _ _ (q1.trans he) hf with g5 | ⟨e, g5, g6 | g6 | g6⟩
    · exact .inl g5
    · exact .inr ⟨e, g5, .inl (k1.1.subset g6)⟩
    · exact .inr ⟨e, g5, .inr (.inl (g6.trans k1.2))⟩
    · simp only [List.mem_singleton] at g6
      refine .inr ⟨e, g5, ?_⟩
      cases hs : s.toks with
      | nil => exact .inr (.inl (by simp [g6, PState.cur, hs]))
      | cons t r => exact .inl (by simp [g6, PState.cur, hs])
  refine ⟨hk.bind fun a => (h2 a).keeps, ha.weaken, ?_⟩
  intro p r1 r2 s1 s2 b1 b2 t1 t2 g1 g2 e1 e2 n1 n2
  cases p with
  | nil =>
    right; right
    rcases ha _ _ _ e1 n1 with c | ⟨e, c, d | d | d⟩
    · refine .inl ⟨c, ?_⟩
      have := ((hk.bind fun a => (h2 a).keeps) _ _ _ n1).1.1
      rwa [g1] at this
    · exact .inr ⟨e, c, .inl (by simpa [g1] using d)⟩
    · exact .inr ⟨e, c, .inr d⟩
    · simp at d
  | cons t p =>
    obtain ⟨a1, s1', hm1, hf1⟩ := bind_some n1
    obtain ⟨a2, s2', hm2, hf2⟩ := bind_some n2
    obtain ⟨u1, hm1', q1, _⟩ := hg s1
    obtain ⟨u2, hm2', q2, _⟩ := hg s2
    obtain ⟨rfl, rfl⟩ : a1 = s1.cur ∧ s1' = u1 := by rw [hm1'] at hm1; cases hm1; exact ⟨rfl, rfl⟩
    obtain ⟨rfl, rfl⟩ : a2 = s2.cur ∧ s2' = u2 := by rw [hm2'] at hm2; cases hm2; exact ⟨rfl, rfl⟩
    have c1 : s1.cur = t := by simp [PState.cur, g1]
    have c2 : s2.cur = t := by simp [PState.cur, g2]
    rw [c1] at hf1
    rw [c2] at hf2
    have k1 := (hk _ _ _ hm1).1
    have key : ∃ q, s1'.toks = q ++ r1 ∧ s2'.toks = q ++ r2 := by
      rcases hg2 _ _ _ _ hm1 hm2 with ⟨w1, w2⟩ | ⟨w1, w2⟩
      · exact ⟨t :: p, by rw [w1, g1], by rw [w2, g2]⟩
      · exact ⟨p, by simp [w1, g1], by simp [w2, g2]⟩
    obtain ⟨q, d1, d2⟩ := key
    rcases (h2 t).loc q r1 r2 s1' s2' b1 b2 t1 t2 d1 d2 (q1.trans e1) (q2.trans e2) hf1 hf2 with
      h | h | h | ⟨e, h3, h4⟩
    · exact .inl h
    · exact .inr (.inl h)
    · exact .inr (.inr (.inl h))
    · exact .inr (.inr (.inr ⟨e, h3, by rw [← k1.2]; exact h4⟩))

theorem Loc.peek {ts : List Token} {β : Type} {f : Token → P β} (h2 : ∀ t, Loc [t] (f t)) :
    Loc ts (peek >>= f) :=
  Loc.fetch Keeps.peek (fun s => ⟨_, rfl, rfl, .inl rfl⟩)
    (fun s1 s2 s1' s2' h1 h2 => by cases h1; cases h2; exact .inl ⟨rfl, rfl⟩) h2

theorem Loc.next {ts : List Token} {β : Type} {f : Token → P β} (h2 : ∀ t, Loc [t] (f t)) :
    Loc ts (Parser.next >>= f) :=
  Loc.fetch Keeps.next (fun s => ⟨_, rfl, rfl, .inr rfl⟩)
    (fun s1 s2 s1' s2' h1 h2 => by cases h1; cases h2; exact .inr ⟨rfl, rfl⟩) h2

theorem Loc.errAt (t : Token) (m : Complaint) : Loc [t] (errAt t m) := by
  refine ⟨Keeps.errAt t m, ?_, ?_⟩
  · intro s a s' he h
    cases h
    exact .inr ⟨t, by simp [he], .inr (.inr (by simp))⟩
  · intro p r1 r2 s1 s2 a1 a2 s1' s2' h1 h2 e1 e2 m1 m2
    cases m1; cases m2
    exact .inr (.inl ⟨t, by simp [e1], by simp [e2]⟩)

theorem Loc.hasError : Loc [] hasError := by
  refine ⟨Keeps.hasError, ?_, ?_⟩
  · intro s a s' he h
    cases h
    exact .inl he
  · intro p r1 r2 s1 s2 a1 a2 s1' s2' h1 h2 e1 e2 m1 m2
    cases m1; cases m2
    exact .inl ⟨by simp [e1, e2], e1, e2, p, h1, h2⟩

theorem body_loc {call : Call → P Node} (hc : ∀ c, Loc [] (call c)) (c : Call) : Loc [] (body call c) := by
  cases c
  case elem e =>
    cases e <;> simp only [body, parseElem, expressionOrAssignment, parseMapTuple, parseOptionalIdentifier] <;>
    repeat' (first
    | exact (hc _).weaken | exact Loc.errAt _ _ | exact Loc.pure _
    | refine Loc.peek fun _ => ?_ | refine Loc.next fun _ => ?_
    | refine Loc.bind ?_ fun _ => ?_ | refine Loc.ite ?_ ?_)
  all_goals
    simp only [body, parseExpression, parseSuffix, parseIfElse, parseArrayAccess, parseValue,
      parseParen, parseTupleRest, parseListOrCompr, parseList, parseFunCall, parseComprFor,
      parseStatements]
    repeat' (first
    | exact (hc _).weaken | exact Loc.errAt _ _ | exact Loc.pure _ | exact Loc.fail | exact Loc.hasError
    | refine Loc.peek fun _ => ?_ | refine Loc.next fun _ => ?_
    | refine Loc.bind ?_ fun _ => ?_ | refine Loc.ite ?_ ?_ | split)

theorem run_loc (fuel : Nat) (c : Call) : Loc [] (run fuel c) := by
  induction fuel generalizing c with
  | zero => exact Loc.fail
  | succ n ih => exact body_loc ih c

/-! ### More depth does not change results -/

/-- `m'` returns what `m` returns. -/
def Below {α : Type} (m m' : P α) : Prop := ∀ s x, m s = some x → m' s = some x

theorem Below.refl {α : Type} (m : P α) : Below m m := fun _ _ h => h

theorem Below.bind {α β : Type} {m m' : P α} {f f' : α → P β} (h1 : Below m m')
    (h2 : ∀ a, Below (f a) (f' a)) : Below (m >>= f) (m' >>= f') := by
  intro s x h
  obtain ⟨b, s'⟩ := x
  obtain ⟨a, s1, hm, hf⟩ := bind_some h
  simp only [Bind.bind, h1 _ _ hm]
  exact h2 a _ _ hf

theorem Below.ite {α : Type} {c : Prop} [Decidable c] {m1 m2 m1' m2' : P α} (h1 : Below m1 m1')
    (h2 : Below m2 m2') : Below (if c then m1 else m2) (if c then m1' else m2') := by
  split
  · exact h1
  · exact h2

theorem body_below {call call' : Call → P Node} (hc : ∀ c, Below (call c) (call' c)) (c : Call) :
    Below (body call c) (body call' c) := by
  cases c
  case elem e =>
    cases e <;> simp only [body, parseElem, expressionOrAssignment, parseMapTuple, parseOptionalIdentifier] <;>
    repeat' (first
    | exact hc _ | exact Below.refl _
    | refine Below.bind ?_ fun _ => ?_ | refine Below.ite ?_ ?_)
  all_goals
    simp only [body, parseExpression, parseSuffix, parseIfElse, parseArrayAccess, parseValue,
      parseParen, parseTupleRest, parseListOrCompr, parseList, parseFunCall, parseComprFor,
      parseStatements]
    repeat' (first
    | exact hc _ | exact Below.refl _
    | refine Below.bind ?_ fun _ => ?_ | refine Below.ite ?_ ?_ | split)

theorem run_below (n k : Nat) (c : Call) : Below (run n c) (run (n + k) c) := by
  induction n generalizing c with
  | zero => intro s x h; cases h
  | succ n ih =>
    rw [Nat.add_right_comm]
    exact body_below ih c

/-- The same first error in all files that start with the same tokens up to it. -/
theorem same_first_error {c1 c2 : Str} {t1 t2 : Node} {st1 st2 : PState} {pre post post' es : List Token}
    {e : Token} (h1 : parseFile c1 = some (t1, st1)) (h2 : parseFile c2 = some (t2, st2))
    (he : st1.errs = e :: es) (hts1 : (initState c1).toks = pre ++ e :: post)
    (hts2 : (initState c2).toks = pre ++ e :: post') (hnd : e ∉ post) (hne : e ≠ (initState c1).eof) :
    st2.errs.head? = some e := by
  unfold parseFile at h1 h2
  generalize enoughFuel (initState c1).toks.length = n1 at h1
  generalize enoughFuel (initState c2).toks.length = n2 at h2
  have h1' := run_below n1 n2 _ _ _ h1
  have h2' := run_below n2 n1 _ _ _ h2
  rw [Nat.add_comm] at h2'
  have := (run_loc (n1 + n2) (.statements [])).loc (pre ++ [e]) post post' _ _ _ _ _ _ (by simpa using hts1)
    (by simpa using hts2) rfl rfl h1' h2'
  rcases this with ⟨_, h, _⟩ | ⟨e', h, h'⟩ | ⟨h, _⟩ | ⟨e', h, h'⟩
  · simp [he] at h
  · simp only [he, List.head?_cons, Option.some.injEq] at h
    rw [h', h]
  · simp [he] at h
  · simp only [he, List.head?_cons, Option.some.injEq] at h
    subst h
    rcases h' with h' | h'
    · exact absurd h' hnd
    · exact absurd h' hne

end Parser
end Bant
