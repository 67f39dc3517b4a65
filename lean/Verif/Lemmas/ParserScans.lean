import Verif.Lemmas.ParserFile

/-! How far the scanner is after parsing. -/
namespace Bant
namespace Parser

/-- Everything a program does to the state. -/
def Mono (R : PState → PState → Prop) {α : Type} (m : P α) : Prop :=
  ∀ s a s', m s = some (a, s') → R s s'

section
variable {R : PState → PState → Prop} (hr : ∀ s, R s s) (ht : ∀ a b c, R a b → R b c → R a c)
include hr in
theorem Mono.pure {α : Type} (a : α) : Mono R (Pure.pure a : P α) := by
  intro s b s' h; cases h; exact hr _
include ht in
theorem Mono.bind {α β : Type} {m : P α} {f : α → P β} (h1 : Mono R m) (h2 : ∀ a, Mono R (f a)) :
    Mono R (m >>= f) := by
  intro s b s' h
  simp only [Bind.bind] at h
  cases hm : m s with
  | none => simp [hm] at h
  | some x => obtain ⟨a, s1⟩ := x; simp only [hm] at h; exact ht _ _ _ (h1 _ _ _ hm) (h2 _ _ _ _ h)
theorem Mono.ite {α : Type} {c : Prop} [Decidable c] {m1 m2 : P α} (h1 : Mono R m1) (h2 : Mono R m2) :
    Mono R (if c then m1 else m2) := by
  split
  · exact h1
  · exact h2
theorem Mono.fail {α : Type} : Mono R (Parser.fail : P α) := by
  intro s b s' h; cases h
include hr in
theorem Mono.hasError : Mono R hasError := by
  intro s b s' h; cases h; exact hr _

variable (hpeek : Mono R peek) (hnext : Mono R Parser.next) (herr : ∀ t m, Mono R (errAt t m))

include hr ht hpeek hnext herr in
theorem body_mono {call : Call → P Node} (hc : ∀ c, Mono R (call c)) (c : Call) :
    Mono R (body call c) := by
  cases c
  case elem e =>
    cases e <;> simp only [body, parseElem, expressionOrAssignment, parseMapTuple, parseOptionalIdentifier] <;>
    repeat' (first
    | exact hc _ | exact hpeek | exact hnext | exact herr _ _ | exact Mono.pure hr _
    | refine Mono.bind ht ?_ fun _ => ?_ | refine Mono.ite ?_ ?_)
  all_goals
    simp only [body, parseExpression, parseSuffix, parseIfElse, parseArrayAccess, parseValue,
      parseParen, parseTupleRest, parseListOrCompr, parseList, parseFunCall, parseComprFor,
      parseStatements]
    repeat' (first
    | exact hc _ | exact hpeek | exact hnext | exact herr _ _ | exact Mono.pure hr _ | exact Mono.fail
    | exact Mono.hasError hr
    | refine Mono.bind ht ?_ fun _ => ?_ | refine Mono.ite ?_ ?_ | split)

include hr ht hpeek hnext herr in
theorem run_mono (fuel : Nat) (c : Call) : Mono R (run fuel c) := by
  induction fuel generalizing c with
  | zero => exact Mono.fail
  | succ n ih => exact body_mono hr ht hpeek hnext herr ih c
end

/-- The scanner has scanned what is consumed, and one more if it is ahead. -/
def Scanned (N : Nat) (s : PState) : Prop := N + s.ahead.toNat ≤ s.scans + s.toks.length

/-- Relation of the states before and after. -/
def Onward (s s' : PState) : Prop := Later s s' ∧ ∀ N, Scanned N s → Scanned N s'

theorem Onward.peek : Mono Onward peek := by
  intro s a s' h
  cases h
  refine ⟨⟨List.suffix_refl _, rfl⟩, fun N h => ?_⟩
  simp only [Scanned] at *
  cases hb : s.ahead <;> simp [hb] at h ⊢ <;> omega

theorem Onward.next : Mono Onward next := by
  intro s a s' h
  cases h
  refine ⟨⟨List.tail_suffix _, rfl⟩, fun N h => ?_⟩
  simp only [Scanned] at *
  cases hb : s.ahead <;> simp [hb] at h ⊢ <;> omega

theorem run_onward (fuel : Nat) (c : Call) : Mono Onward (run fuel c) :=
  run_mono (fun s => ⟨Later.refl s, fun _ h => h⟩)
    (fun _ _ _ h1 h2 => ⟨h1.1.trans h2.1, fun N h => h2.2 N (h1.2 N h)⟩) Onward.peek Onward.next
    (fun _ _ s a s' h => by cases h; exact ⟨⟨List.suffix_refl _, rfl⟩, fun N h => h⟩) fuel c

/-- Without an error, end-of-file has been scanned. -/
theorem statements_scanned (N fuel : Nat) (acc : List Node) (s : PState) (hg : Good s)
    (h : Scanned N s) :
    wlp (run fuel (.statements acc)) (fun _ s' => s'.errs = [] → N + 1 ≤ s'.scans) s := by
  induction fuel generalizing acc s with
  | zero => simp [run, wlp_fail]
  | succ n ih =>
    have ihc : ∀ (c : Call) (s1 : PState) (Q : Node → PState → Prop), Onward s s1 →
        (∀ a s', Onward s s' → Q a s') → wlp (run n c) Q s1 := by
      intro c s1 Q h1 h2 a s' hr
      have h3 := run_onward n c _ _ _ hr
      exact h2 a s' ⟨h1.1.trans h3.1, fun N h => h3.2 N (h1.2 N h)⟩
    have ihs : ∀ acc s1, Onward s s1 → wlp (run n (.statements acc))
        (fun _ s' => s'.errs = [] → N + 1 ≤ s'.scans) s1 :=
      fun acc s1 h1 => ih acc s1 (hg.congr h1.1.1 h1.1.2) (h1.2 N h)
    have hn : Onward s { s with
        toks := s.toks.tail, requests := s.requests + 1
        scans := if s.ahead then s.scans else s.scans + 1, ahead := false } := Onward.next _ _ _ rfl
    have hn' : ∀ s1, Onward s s1 → Onward s { s1 with
        toks := s1.toks.tail, requests := s1.requests + 1
        scans := if s1.ahead then s1.scans else s1.scans + 1, ahead := false } := fun s1 h1 =>
      have h2 := Onward.next s1 _ _ rfl
      ⟨h1.1.trans h2.1, fun N h => h2.2 N (h1.2 N h)⟩
    simp only [run, body, parseStatements, wlp_bind, wlp_hasError, wlp_ite, wlp_next, wlp_errAt, wlp_pure]
    refine ⟨fun he h0 => by simp [h0] at he, fun he => ⟨fun h1 => ?_, fun _ => ⟨fun _ => ihs _ _ hn, fun _ =>
      ⟨fun _ => ihc _ _ _ hn fun a s1 h1 => ihs _ _ h1, fun _ => ⟨fun _ => ?_, fun _ => ⟨?_, fun _ => ?_⟩⟩⟩⟩⟩⟩
    · intro _
      have hs : s.toks = [] := by
        cases ht : s.toks with
        | nil => rfl
        | cons t ts => exact absurd h1 (by simp only [PState.cur, ht]; exact hg.noEof t (by simp [ht]))
      simp only [Scanned, hs] at h
      cases hb : s.ahead <;> simp [hb] at h ⊢ <;> omega
    · refine ihc _ _ _ hn fun a s1 h1 => ⟨fun _ h0 => by simp at h0, fun _ => ?_⟩
      exact ihc _ _ _ (hn' _ h1) fun b s2 h2 => ihs _ _ h2
    · intro _ h0; simp at h0
    · refine ⟨fun _ => ?_, fun _ => ⟨fun _ => ?_, fun _ => ⟨fun _ => ?_, fun _ h0 => by simp at h0⟩⟩⟩
      · exact ihc _ _ _ (hn' _ hn) fun b s2 h2 => ihs _ _ h2
      · exact ihc _ _ _ (hn' _ hn) fun b s2 h2 => ihs _ _ h2
      · exact ihc _ _ _ (hn' _ hn) fun b s2 h2 => ihs _ _ h2

/-- After `parse`: what is consumed has been scanned, and the end if there was no error. -/
theorem parseFile_scanned {content : Str} {tree : Node} {st : PState}
    (h : parseFile content = some (tree, st)) :
    (initState content).toks.length ≤ st.scans + st.toks.length ∧
    (st.errs = [] → (initState content).toks.length + 1 ≤ st.scans) := by
  have h0 : Scanned (initState content).toks.length (initState content) := by
    simp [Scanned, initState]
  refine ⟨?_, statements_scanned _ _ _ _ (initState_good content) h0 _ _ h⟩
  have := (run_onward _ _ _ _ _ h).2 _ h0
  simp only [Scanned] at this
  omega

end Parser
end Bant
