import Verif.Lemmas.ParserFirst

/-! Every token that the parser complains about has been scanned at that time, and the complaints are
proper. -/
namespace Bant
namespace Parser
set_option linter.unusedSimpArgs false

/-- `t` is one of the tokens `T` or the end `E`, and among the first `k`. -/
def SeenIn (T : List Token) (E : Token) (k : Nat) (t : Token) : Prop :=
  ∃ pre rest, T = pre ++ rest ∧ t = rest.headD E ∧ pre.length + 1 ≤ k

theorem SeenIn.mono {T : List Token} {E t : Token} {k k' : Nat} (h : SeenIn T E k t) (hk : k ≤ k') :
    SeenIn T E k' t := by
  obtain ⟨pre, rest, h1, h2, h3⟩ := h
  exact ⟨pre, rest, h1, h2, by omega⟩

/-- The closing token that is named. -/
def Proper : Complaint → Prop
  | .listStart close | .comprehensionEnd close => Closer close
  | .listSeparator close => Closer close ∨ close = .kIn
  | _ => True

/-- One report. -/
def Fair (T : List Token) (E : Token) (r : Token × Complaint × Nat) : Prop :=
  SeenIn T E r.2.2 r.1 ∧ Proper r.2.1

structure Reports (T : List Token) (E : Token) (s : PState) : Prop where
  place : ∃ pre, T = pre ++ s.toks ∧ pre.length + s.ahead.toNat ≤ s.scans
  eof : s.eof = E
  fair : ∃ l : List (Token × Complaint × Nat), s.errs = l.map (·.1) ∧ s.said = l.map (·.2) ∧ ∀ r ∈ l, Fair T E r

/-- `m` keeps the reports fair if the tokens `D` are seen. -/
def Safe (D : List Token) {α : Type} (m : P α) : Prop :=
  ∀ T E s, Reports T E s → (∀ t ∈ D, SeenIn T E s.scans t) → ∀ a s', m s = some (a, s') →
    Reports T E s' ∧ s.scans ≤ s'.scans

theorem Reports.peeked {T : List Token} {E : Token} {s : PState} (h : Reports T E s) :
    Reports T E s.peeked ∧ s.scans ≤ s.peeked.scans ∧ SeenIn T E s.peeked.scans s.cur := by
  obtain ⟨⟨pre, h1, h2⟩, h3, h4⟩ := h
  have h5 : pre.length + 1 ≤ s.peeked.scans ∧ s.scans ≤ s.peeked.scans := by
    simp only [PState.peeked]
    cases hb : s.ahead <;> simp [hb] at h2 ⊢ <;> omega
  exact ⟨⟨⟨pre, h1, by simpa [PState.peeked] using h5.1⟩, h3, h4⟩, h5.2, pre, s.toks, h1, by simp [PState.cur, h3], h5.1⟩

theorem Reports.nexted {T : List Token} {E : Token} {s : PState} (h : Reports T E s) :
    Reports T E s.nexted ∧ s.scans ≤ s.nexted.scans ∧ SeenIn T E s.nexted.scans s.cur := by
  obtain ⟨⟨pre, h1, h2⟩, h3, h4⟩ := h
  have h5 : pre.length + 1 ≤ s.nexted.scans ∧ s.scans ≤ s.nexted.scans := by
    simp only [PState.nexted]
    cases hb : s.ahead <;> simp [hb] at h2 ⊢ <;> omega
  refine ⟨⟨?_, h3, h4⟩, h5.2, pre, s.toks, h1, by simp [PState.cur, h3], h5.1⟩
  cases ht : s.toks with
  | nil => exact ⟨pre, by simp [PState.nexted, h1, ht], by simp [PState.nexted] at h5 ⊢; omega⟩
  | cons t ts => exact ⟨pre ++ [t], by simp [PState.nexted, h1, ht], by simp [PState.nexted] at h5 ⊢; omega⟩

theorem Safe.weaken {α : Type} {D : List Token} {m : P α} (h : Safe [] m) : Safe D m :=
  fun T E s h1 _ => h T E s h1 (by simp)
theorem Safe.pure {α : Type} {D : List Token} (a : α) : Safe D (Pure.pure a : P α) := by
  intro T E s h1 _ b s' h; cases h; exact ⟨h1, Nat.le_refl _⟩
theorem Safe.fail {α : Type} {D : List Token} : Safe D (Parser.fail : P α) := by
  intro T E s h1 _ b s' h; cases h
theorem Safe.hasError {D : List Token} : Safe D Parser.hasError := by
  intro T E s h1 _ b s' h; cases h; exact ⟨h1, Nat.le_refl _⟩
theorem Safe.ite {α : Type} {D : List Token} {c : Prop} [Decidable c] {m1 m2 : P α} (h1 : Safe D m1) (h2 : Safe D m2) :
    Safe D (if c then m1 else m2) := by
  split
  · exact h1
  · exact h2
theorem Safe.bind {α β : Type} {D : List Token} {m : P α} {f : α → P β} (h1 : Safe D m) (h2 : ∀ a, Safe D (f a)) :
    Safe D (m >>= f) := by
  intro T E s hs hd b s' h
  simp only [Bind.bind] at h
  cases hm : m s with
  | none => simp [hm] at h
  | some x =>
    obtain ⟨a, s1⟩ := x
    simp only [hm] at h
    obtain ⟨g1, g2⟩ := h1 T E s hs hd a s1 hm
    obtain ⟨g3, g4⟩ := h2 a T E s1 g1 (fun t ht => (hd t ht).mono g2) b s' h
    exact ⟨g3, by omega⟩
theorem Safe.peek {β : Type} {D : List Token} {f : Token → P β} (h : ∀ t, Safe (t :: D) (f t)) :
    Safe D (Parser.peek >>= f) := by
  intro T E s hs hd b s' he
  obtain ⟨g1, g2, g3⟩ := hs.peeked
  have he : f s.cur s.peeked = some (b, s') := he
  obtain ⟨g4, g5⟩ := h s.cur T E _ g1 (by
    intro t ht
    rcases List.mem_cons.1 ht with rfl | ht
    · exact g3
    · exact (hd t ht).mono g2) b s' he
  exact ⟨g4, by omega⟩
theorem Safe.next {β : Type} {D : List Token} {f : Token → P β} (h : ∀ t, Safe (t :: D) (f t)) :
    Safe D (Parser.next >>= f) := by
  intro T E s hs hd b s' he
  obtain ⟨g1, g2, g3⟩ := hs.nexted
  have he : f s.cur s.nexted = some (b, s') := he
  obtain ⟨g4, g5⟩ := h s.cur T E _ g1 (by
    intro t ht
    rcases List.mem_cons.1 ht with rfl | ht
    · exact g3
    · exact (hd t ht).mono g2) b s' he
  exact ⟨g4, by omega⟩
theorem Safe.errAt {D : List Token} {t : Token} {m : Complaint} (ht : t ∈ D) (hm : Proper m) :
    Safe D (Parser.errAt t m) := by
  intro T E s hs hd b s' he
  cases he
  obtain ⟨h1, h2, l, l1, l2, l3⟩ := hs
  refine ⟨⟨h1, h2, l ++ [(t, m, s.scans)], by simp [l1], by simp [l2], fun r hr => ?_⟩, Nat.le_refl _⟩
  rcases List.mem_append.1 hr with hr | hr
  · exact l3 r hr
  · simp at hr; subst hr; exact ⟨hd t ht, hm⟩

/-- The closing tokens of calls. -/
def Closes : Call → Prop
  | .list _ _ _ close => Closer close ∨ close = .kIn
  | .comprFor _ _ close => Closer close
  | _ => True

theorem closer_end (ty : ListType) : Closer (endTokenFor ty) := by cases ty <;> simp [Closer, endTokenFor]

theorem run_safe (fuel : Nat) (c : Call) (hc : Closes c) : Safe [] (run fuel c) := by
  induction fuel generalizing c with
  | zero => exact Safe.fail
  | succ n ih =>
    have close := closer_end
    have paren : Closer (.op ')') := by simp [Closer]
    have key : ∀ c, Closes c → ∀ D, Safe D (run n c) := fun c hc D => (ih c hc).weaken
    cases c
    case elem e =>
      cases e <;> simp only [run, body, parseElem, expressionOrAssignment, parseMapTuple, parseOptionalIdentifier] <;>
      repeat' (first
      | (refine key _ ?_ _; exact True.intro) | exact Safe.pure _
      | refine Safe.peek fun _ => ?_ | refine Safe.next fun _ => ?_ | exact Safe.errAt (by simp) trivial
      | refine Safe.bind ?_ fun _ => ?_ | refine Safe.ite ?_ ?_)
    all_goals
      simp only [run, body, parseExpression, parseSuffix, parseIfElse, parseArrayAccess, parseValue,
        parseParen, parseTupleRest, parseListOrCompr, parseList, parseFunCall, parseComprFor,
        parseStatements]
      repeat' (first
      | (refine key _ ?_ _; first | exact hc | exact close _ | exact .inl (close _) | exact .inl paren | exact .inr rfl | exact True.intro)
      | exact Safe.pure _ | exact Safe.fail | exact Safe.hasError
      | refine Safe.peek fun _ => ?_ | refine Safe.next fun _ => ?_
      | exact Safe.errAt (by simp) trivial | exact Safe.errAt (by simp) hc | exact Safe.errAt (by simp) (close _)
      | refine Safe.bind ?_ fun _ => ?_ | refine Safe.ite ?_ ?_ | split)

/-- The reports for a file. -/
theorem parseFile_reports {content : Str} {tree : Node} {st : PState} (h : parseFile content = some (tree, st)) :
    ∃ l : List (Token × Complaint × Nat), st.errs = l.map (·.1) ∧ st.said = l.map (·.2) ∧
      ∀ r ∈ l, Fair (initState content).toks (initState content).eof r := by
  have h0 : Reports (initState content).toks (initState content).eof (initState content) :=
    ⟨⟨[], rfl, by simp [initState]⟩, rfl, [], rfl, rfl, by simp⟩
  exact (run_safe _ (.statements []) trivial _ _ _ h0 (by simp) _ _ h).1.fair

end Parser
end Bant
