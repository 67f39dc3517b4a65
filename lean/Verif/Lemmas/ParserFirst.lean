import Verif.Lemmas.ParserViable

/-! The parser gives its first error at the first token with which what it has read can not be
continued. -/
namespace Bant
namespace Parser
open Grammar
set_option linter.unusedSimpArgs false

/-- State after `Peek` and after `Next`. -/
def PState.peeked (s : PState) : PState := { s with
  requests := s.requests + 1, scans := if s.ahead then s.scans else s.scans + 1, ahead := true }
def PState.nexted (s : PState) : PState := { s with
  toks := s.toks.tail, requests := s.requests + 1
  scans := if s.ahead then s.scans else s.scans + 1, ahead := false }

@[simp] theorem peeked_cur (s : PState) : s.peeked.cur = s.cur := rfl
@[simp] theorem peeked_toks (s : PState) : s.peeked.toks = s.toks := rfl
@[simp] theorem peeked_errs (s : PState) : s.peeked.errs = s.errs := rfl
@[simp] theorem nexted_toks (s : PState) : s.nexted.toks = s.toks.tail := rfl
@[simp] theorem nexted_errs (s : PState) : s.nexted.errs = s.errs := rfl

theorem peek_bind {β : Type} {f : Token → P β} {Q : β → PState → Prop} {s : PState} :
    wlp (peek >>= f) Q s ↔ wlp (f s.cur) Q s.peeked := by
  rw [wlp_bind, wlp_peek]; rfl
theorem next_bind {β : Type} {f : Token → P β} {Q : β → PState → Prop} {s : PState} :
    wlp (next >>= f) Q s ↔ wlp (f s.cur) Q s.nexted := by
  rw [wlp_bind, wlp_next]; rfl

@[simp] theorem peeked_said (s : PState) : s.peeked.said = s.said := rfl
@[simp] theorem nexted_said (s : PState) : s.nexted.said = s.said := rfl

/-- Errors and what is said about them are only added, one for one. -/
def Talks {α : Type} (m : P α) : Prop :=
  Mono (fun s s' => ∃ k : List (Token × Complaint × Nat),
    s'.errs = s.errs ++ k.map (·.1) ∧ s'.said = s.said ++ k.map (·.2)) m

theorem Talks.bind {α β : Type} {m : P α} {f : α → P β} (h1 : Talks m) (h2 : ∀ a, Talks (f a)) :
    Talks (m >>= f) :=
  Mono.bind (fun _ _ _ h h' => by
    obtain ⟨k, e1, e2⟩ := h
    obtain ⟨k', e3, e4⟩ := h'
    exact ⟨k ++ k', by rw [e3, e1]; simp, by rw [e4, e2]; simp⟩) h1 h2
theorem Talks.peek : Talks peek := fun s a s' h => by cases h; exact ⟨[], by simp, by simp⟩
theorem Talks.next : Talks next := fun s a s' h => by cases h; exact ⟨[], by simp, by simp⟩
theorem Talks.errAt (t : Token) (m : Complaint) : Talks (errAt t m) := fun s a s' h => by
  cases h; exact ⟨[(t, m, s.scans)], by simp, by simp⟩
theorem Talks.hasError : Talks hasError := fun s a s' h => by cases h; exact ⟨[], by simp, by simp⟩
theorem Talks.pure {α : Type} (a : α) : Talks (Pure.pure a : P α) := fun s b s' h => by
  cases h; exact ⟨[], by simp, by simp⟩
theorem Talks.fail {α : Type} : Talks (Parser.fail : P α) := fun s a s' h => by cases h
theorem Talks.ite {α : Type} {c : Prop} [Decidable c] {m1 m2 : P α} (h1 : Talks m1) (h2 : Talks m2) :
    Talks (if c then m1 else m2) := by
  split
  · exact h1
  · exact h2

/-- The first error and what is said about it are like this. -/
def Err (H : Token → Complaint → Prop) (_ : Node) (s' : PState) : Prop :=
  ∀ e es, s'.errs = e :: es → ∃ m k ks, s'.said = (m, k) :: ks ∧ H e m

/-- Type and text of the words that are named as expected. -/
def offered : Complaint → List (TokenType × Str)
  | .emptyAccess | .emptySlice | .intLiteral | .value => values
  | .closingAccess => [(.op ']', c!"]")]
  | .accessSeparator => [(.op ':', c!":"), (.op ']', c!"]")]
  | .emptyTuple => [(.op ')', c!")")]
  | .tupleSeparator => [(.op ',', c!",")]
  | .listStart close => [(.kFor, c!"for"), (close, closeText close), (.op ',', c!",")]
  | .listSeparator close => [(.op ',', c!","), (close, closeText close)]
  | .mapSeparator => [(.op ':', c!":")]
  | .expectedIn => [(.kIn, c!"in")]
  | .comprehensionEnd close => [(close, closeText close)]
  | .assignment => [(.op '=', c!"=")]
  | .identifier => [(.identifier, c!"x")]
  | .statement => [(.op '(', c!"("), (.op '=', c!"=")]

/-- Nothing, or only the colon of a slice. -/
def Inside (pre : List Token) : Prop := pre = [] ∨ ∃ u, pre = [u] ∧ u.type = .op ':'

/-- The end of an access that is still empty. -/
def Opened (pre : List Token) : Prop := ∃ a t b, pre = a ++ t :: b ∧ t.type = .op '[' ∧ Inside b

/-- The exception: the closing bracket of an access that is still empty. -/
def Bare (c : Call) (m : Complaint) (w : TokenType × Str) (pre : List Token) : Prop :=
  (m = .accessSeparator ∨ m = .closingAccess) ∧ w.1 = .op ']' ∧ (Opened pre ∨ (c = .arrayAccess ∧ Inside pre))

/-- What was read before the token can be completed, also with the words named. -/
def Found (c : Call) (s : PState) (e : Token) (m : Complaint) : Prop :=
  ∃ pre rest, s.toks = pre ++ rest ∧ e = rest.headD s.eof ∧ (∃ w ∈ simple, Hope c (hd s.toks) w pre) ∧
    ∀ w ∈ offered m, Hope c (hd s.toks) w pre ∨ Bare c m w pre

def CallsViable (call : Call → P Node) : Prop :=
  ∀ c s, Good s → Fine c → s.errs = [] → s.said = [] → wlp (call c) (Err (Found c s)) s

/-- Without errors the state `st` was reached by reading `R`. -/
structure At (s st : PState) (R : List Token) : Prop where
  toks : s.toks = R ++ st.toks
  eof : st.eof = s.eof
  errs : st.errs = []
  said : st.said = []

theorem At.later {s st : PState} {R : List Token} (h : At s st R) : Later s st :=
  ⟨⟨R, h.toks.symm⟩, h.eof⟩
theorem At.start {s : PState} (h : s.errs = []) (h2 : s.said = []) : At s s [] := ⟨rfl, rfl, h, h2⟩
theorem At.peeked {s st : PState} {R : List Token} (h : At s st R) : At s st.peeked R :=
  ⟨h.toks, h.eof, h.errs, h.said⟩
theorem At.nexted {s st : PState} {R : List Token} (h : At s st R) (hg : Good s) (hc : st.cur.type ≠ .eof) :
    At s st.nexted (R ++ [st.cur]) :=
  ⟨by rw [h.toks, nexted_toks, List.append_assoc]
      exact congrArg (R ++ ·) (toks_cons hg h.later hc), h.eof, h.errs, h.said⟩

theorem quiet {H : Token → Complaint → Prop} {st : PState} {a : Node} (h : st.errs = []) : Err H a st := by
  intro e es he; simp [h] at he

/-- An error that stays the first one. -/
theorem Err.keep {H : Token → Complaint → Prop} {α : Type} {f : P Node} {s1 s' : PState} {a : Node} {e : Token}
    {es : List Token} {m : Complaint} {k : Nat} {ks : List (Complaint × Nat)} (hk : Talks f)
    (h1 : s1.errs = e :: es) (h2 : s1.said = (m, k) :: ks) (hf : f s1 = some (a, s')) (h : H e m) : Err H a s' := by
  obtain ⟨l, g1, g2⟩ := hk _ _ _ hf
  intro e' es' he
  rw [g1, h1, List.cons_append] at he
  cases he
  exact ⟨m, k, _, by rw [g2, h2]; rfl, h⟩

/-- An error at the token the parser is at. -/
theorem complain {c : Call} {s st st' : PState} {R : List Token} {f : Unit → P Node} {t : Token}
    {m : Complaint} (hA : At s st R)
    (hv : ∀ w ∈ offered m, Viable c w R ∨ Bare c m w R)
    (hb : ∀ w ∈ offered m, R = [] → Begins c (hd s.toks) w.1)
    (hw : ∃ w ∈ simple, Hope c (hd s.toks) w R)
    (ht : t = st.cur) (he : st'.errs = []) (he2 : st'.said = []) (hk : ∀ a, Talks (f a)) :
    wlp (errAt t m >>= f) (Err (Found c s)) st' := by
  rw [wlp_bind, wlp_errAt]
  intro a s' hf
  refine Err.keep (α := Unit) (hk _) (e := t) (es := []) (m := m) (k := st'.scans) (ks := []) (by simp [he]) (by simp [he2]) hf ?_
  refine ⟨R, st.toks, hA.toks, ?_, hw, fun w hw => ?_⟩
  · rw [ht, ← hA.eof]; rfl
  · rcases hv w hw with h | h
    · exact .inl ⟨h, hb w hw⟩
    · exact .inr h

/-- The same, if all words named are viable. -/
theorem complain_all {c : Call} {s st st' : PState} {R : List Token} {f : Unit → P Node} {t : Token}
    {m : Complaint} (hA : At s st R)
    (hv : ∀ w ∈ offered m, Viable c w R)
    (hb : ∀ w ∈ offered m, R = [] → Begins c (hd s.toks) w.1)
    (hw : ∃ w ∈ offered m, w ∈ simple)
    (ht : t = st.cur) (he : st'.errs = []) (he2 : st'.said = []) (hk : ∀ a, Talks (f a)) :
    wlp (errAt t m >>= f) (Err (Found c s)) st' := by
  obtain ⟨w, h1, h2⟩ := hw
  exact complain hA (fun w h => .inl (hv w h)) hb ⟨w, h2, hv w h1, hb w h1⟩ ht he he2 hk

section
variable {call : Call → P Node}

/-- The exception in a part. -/
theorem Bare.up {c c1 : Call} {m : Complaint} {w : TokenType × Str} {pre R : List Token} (h : Bare c1 m w pre)
    (ha : c1 = .arrayAccess → ∃ a t, R = a ++ [t] ∧ t.type = .op '[') : Bare c m w (R ++ pre) := by
  obtain ⟨h1, h2, h3⟩ := h
  refine ⟨h1, h2, .inl ?_⟩
  rcases h3 with ⟨a, t, b, rfl, ht, hb⟩ | ⟨h3, h4⟩
  · exact ⟨R ++ a, t, b, by simp, ht, hb⟩
  · obtain ⟨a, t, rfl, ht⟩ := ha h3
    exact ⟨a, t, pre, by simp, ht, h4⟩

theorem Found.up {c c1 : Call} {s st : PState} {R : List Token} {e : Token} {m : Complaint} (hA : At s st R)
    (h : Found c1 st e m)
    (herr : ∀ w pre rest, st.toks = pre ++ rest → Hope c1 (hd st.toks) w pre → Viable c w (R ++ pre))
    (hb : R = [] → ∀ w, Begins c1 (hd s.toks) w → Begins c (hd s.toks) w)
    (ha : c1 = .arrayAccess → ∃ a t, R = a ++ [t] ∧ t.type = .op '[') : Found c s e m := by
  obtain ⟨pre, rest, h2, h3, ⟨w, h4, h5⟩, h6⟩ := h
  have hope : ∀ w, Hope c1 (hd st.toks) w pre → Hope c (hd s.toks) w (R ++ pre) := by
    intro w hw
    refine ⟨herr w pre rest h2 hw, fun h => ?_⟩
    obtain ⟨rfl, rfl⟩ := List.append_eq_nil_iff.1 h
    have : s.toks = st.toks := by simpa using hA.toks
    exact hb rfl _ (by rw [this]; exact hw.begins rfl)
  refine ⟨R ++ pre, rest, by rw [hA.toks, h2, List.append_assoc], by rw [h3, hA.eof], ⟨w, h4, hope w h5⟩, ?_⟩
  intro w hw
  rcases h6 w hw with h | h
  · exact .inl (hope w h)
  · exact .inr (h.up ha)

theorem go (hV : CallsViable call) (hS : CallsSound call) (hK : ∀ c, Talks (call c)) {c c1 : Call} {s st : PState}
    {R : List Token} {f : Node → P Node} (hg : Good s) (hA : At s st R) (hf : Fine c1) (hk : ∀ a, Talks (f a))
    (herr : ∀ w pre rest, st.toks = pre ++ rest → Hope c1 (hd st.toks) w pre → Viable c w (R ++ pre))
    (hok : ∀ a s1, Meaning c1 st.toks s1.toks a → (∀ p, st.toks = p ++ s1.toks → At s s1 (R ++ p)) →
      s1.errs = [] → Later s s1 → wlp (f a) (Err (Found c s)) s1)
    (hb : R = [] → ∀ w, Begins c1 (hd s.toks) w → Begins c (hd s.toks) w := by simp)
    (ha : c1 = .arrayAccess → ∃ a t, R = a ++ [t] ∧ t.type = .op '[' := by simp) :
    wlp (call c1 >>= f) (Err (Found c s)) st := by
  rw [wlp_bind]
  intro a s1 hm
  have g1 := hV c1 st (hg.congr hA.later.1 hA.later.2) hf hA.errs hA.said a s1 hm
  have g2 := hS c1 st (hg.congr hA.later.1 hA.later.2) a s1 hm
  cases he : s1.errs with
  | nil =>
    have hsaid : s1.said = [] := by
      obtain ⟨k, e1, e2⟩ := hK c1 _ _ _ hm
      rw [hA.errs, he] at e1
      have : k = [] := by simpa using e1.symm
      rw [e2, hA.said, this]; rfl
    refine hok a s1 (g2.2 he).2 (fun p hp => ⟨?_, g2.1.2.trans hA.eof, he, hsaid⟩) he (hA.later.trans g2.1)
    rw [hA.toks, hp, List.append_assoc]
  | cons e es =>
    intro b s' hf
    obtain ⟨m, k, ks, h1, h2⟩ := g1 e es he
    exact Err.keep (α := Unit) (hk _) he h1 hf (h2.up hA herr hb ha)

theorem goTail (hV : CallsViable call) {c c1 : Call} {s st : PState} {R : List Token}
    (hg : Good s) (hA : At s st R) (hf : Fine c1)
    (herr : ∀ w pre rest, st.toks = pre ++ rest → Hope c1 (hd st.toks) w pre → Viable c w (R ++ pre))
    (hb : R = [] → ∀ w, Begins c1 (hd s.toks) w → Begins c (hd s.toks) w := by simp)
    (ha : c1 = .arrayAccess → ∃ a t, R = a ++ [t] ∧ t.type = .op '[' := by simp) :
    wlp (call c1) (Err (Found c s)) st := by
  intro a s1 hm e es hh
  obtain ⟨m, k, ks, h1, h2⟩ := hV c1 st (hg.congr hA.later.1 hA.later.2) hf hA.errs hA.said a s1 hm e es hh
  exact ⟨m, k, ks, h1, h2.up hA herr hb ha⟩

/-- Shows that a part of the parser keeps the errors. -/
macro "keeps" h:ident : tactic => `(tactic| (
  intro _
  repeat' (first
    | exact $h _ | exact Talks.errAt _ _ | exact Talks.pure _ | exact Talks.fail | exact Talks.hasError
    | exact Talks.peek | exact Talks.next
    | refine Talks.bind ?_ fun _ => ?_ | refine Talks.ite ?_ ?_ | split)))

theorem null_empty {s s' : List Token} (h : Parses (.expr true) s s' .null) : s' = s := by
  have key : ∀ nt n, Parses nt s s' n → nt = .expr true → n = .null → s' = s := by
    intro nt n h h1 h2
    cases h with
    | missing => rfl
    | unary _ _ hc => exact absurd h2 (ne_null hc (by simp [Substantial]))
    | parenthesis _ hp hc => exact absurd h2 (ne_null hc (by simpa [Substantial] using ne_null hp (by simp [Substantial])))
    | operand hp hc => exact absurd h2 (ne_null hc (by simpa [Substantial] using ne_null hp (by simp [Substantial])))
    | _ => cases h1
  exact key _ _ h rfl rfl

theorem zero_simple : ∃ w ∈ values, w ∈ simple := ⟨(.numberLiteral, c!"0"), by decide, by decide⟩

theorem values_begin {w : TokenType × Str} (h : w ∈ values) : w.1 ∈ values.map (·.1) :=
  List.mem_map.2 ⟨w, h, rfl⟩

set_option linter.unusedSectionVars false
variable (hV : CallsViable call) (hS : CallsSound call) (hK : ∀ c, Talks (call c))
include hV hS hK

theorem expression_first (opt : Bool) (s : PState) (hg : Good s) (he : s.errs = []) (hs : s.said = []) :
    wlp (parseExpression call opt) (Err (Found (.expression opt) s)) s := by
  have A := At.start he hs
  simp only [parseExpression, peek_bind, next_bind, wlp_ite, peeked_cur]
  refine ⟨fun h1 => ?_, fun h1 => ⟨fun h2 => ?_, fun h2 => ?_⟩⟩
  · have A1 := A.peeked.nexted hg (by rcases h1 with h | h <;> simp [peeked_cur, h])
    refine go hV hS hK hg A1 trivial (by keeps hK) (fun w pre rest _ hv => v_unary h1 hv.viable) fun a s1 g hA he1 hl1 => ?_
    obtain ⟨p1, hp1, hf1, k1⟩ := replace g (by simp)
    exact goTail hV hg (hA p1 hp1) (by simp [Fine]) fun w pre rest hr hv => by
      simpa using v_unary_suffix h1 hr k1 hv
  · refine go hV hS hK hg A.peeked trivial (by keeps hK) (fun w pre rest _ hv => v_paren_expr hv.viable) (fun a s1 g hA he1 hl1 => ?_) (by simp [Begins])
    obtain ⟨t, s2, hs, ht, g⟩ := g
    obtain ⟨p1, hp1, hf1, k1⟩ := replace g (by simp)
    rw [wlp_ite]
    refine ⟨fun _ => wlp_pure.2 (quiet he1), fun hn => ?_⟩
    exact goTail hV hg (hA (t :: p1) (by rw [hs, hp1]; rfl)) (ne_null g (by simp [Substantial])) fun w pre rest hr hv => by
      simpa using v_paren_suffix ht hr k1 hv
  · refine go hV hS hK hg A.peeked trivial (by keeps hK) (fun w pre rest _ hv => v_value_expr hv.viable) (fun a s1 g hA he1 hl1 => ?_) (by simp [Begins])
    rw [wlp_ite]
    refine ⟨fun _ => wlp_pure.2 (quiet he1), fun hn => ?_⟩
    have hn : a ≠ .null := fun h => hn ((isNull_iff a).2 h)
    rcases g with g | g
    · exact absurd g.1 hn
    obtain ⟨p1, hp1, hf1, k1⟩ := replace g (by simp)
    exact goTail hV hg (hA p1 hp1) hn (fun w pre rest hr hv => by
      simpa using v_value_suffix hr k1 hv) (by simp [Begins])

theorem suffix_first (n : Node) (s : PState) (hg : Good s) (hf : n ≠ .null) (he : s.errs = []) (hs : s.said = []) :
    wlp (parseSuffix call n) (Err (Found (.suffix n) s)) s := by
  have A := At.start he hs
  simp only [parseSuffix, peek_bind, next_bind, wlp_ite, wlp_pure, peeked_cur]
  refine ⟨fun h1 => ?_, fun h1 => ⟨fun h2 => ?_, fun h2 => ⟨fun h3 => ⟨fun h4 => ?_, fun h4 => ?_⟩, fun h3 => ?_⟩⟩⟩
  · exact goTail hV hg A.peeked hf (fun w pre rest hr hv => v_ifElse hv.viable) (by simp [Begins])
  · have hb := (isBinOp_iff _).1 h2
    have A1 := A.peeked.nexted hg (by intro h; rw [peeked_cur] at h; rw [h] at hb; simp [binary] at hb)
    refine go hV hS hK hg A1 trivial (by keeps hK) (fun w pre rest _ hv => v_binary hb hv.viable) fun a s1 g hA he1 hl1 => ?_
    exact wlp_pure.2 (quiet he1)
  · exact quiet A.peeked.errs
  · have A1 := A.peeked.nexted hg (by simp [peeked_cur, h3])
    have h4 : s.cur.newlineSinceLast = false := by simpa using h4
    refine go hV hS hK hg A1 trivial (by keeps hK) (fun w pre rest _ hv => v_index h3 h4 hv.viable)
      (fun a s1 g hA he1 hl1 => ?_) (by simp) (fun _ => ⟨[], s.cur, rfl, h3⟩)
    obtain ⟨p1, hp1, hf1, k1⟩ := replace g (by simp)
    exact goTail hV hg (hA p1 hp1) (by simp [Fine]) fun w pre rest hr hv => by
      rw [h3] at hv
      simpa using v_index_suffix h3 h4 hr k1 hv
  · exact quiet A.peeked.errs

theorem ifElse_first (n : Node) (s : PState) (hg : Good s) (he : s.errs = []) (hs : s.said = []) :
    wlp (parseIfElse call n) (Err (Found (.ifElse n) s)) s := by
  have A := At.start he hs
  simp only [parseIfElse, peek_bind, next_bind, wlp_ite, wlp_fail, wlp_pure, implies_true, true_and]
  intro h1
  have h1 : s.cur.type = .kIf := by simpa using h1
  have A1 := A.nexted hg (by simp [h1])
  refine go hV hS hK hg A1 trivial (by keeps hK) (fun w pre rest _ hv => v_if h1 hv.viable) fun a s1 g hA he1 hl1 => ?_
  obtain ⟨p1, hp1, hf1, k1⟩ := replace g (by simp)
  simp only [peek_bind, next_bind, wlp_ite, wlp_pure]
  refine ⟨fun h2 => ?_, fun _ => quiet he1⟩
  have A2 := (hA p1 hp1).peeked.nexted hg (by simp [peeked_cur, h2])
  have hc := toks_cons hg hl1 (by simp [h2])
  rw [hc] at k1
  refine go hV hS hK hg A2 trivial (by keeps hK) (fun w pre rest _ hv => by simpa using v_else h1 h2 k1 hv.viable)
    fun a s1 g hA he1 hl1 => wlp_pure.2 (quiet he1)

theorem arrayAccess_first (s : PState) (hg : Good s) (he : s.errs = []) (hs : s.said = []) :
    wlp (parseArrayAccess call) (Err (Found .arrayAccess s)) s := by
  have A := At.start he hs
  simp only [parseArrayAccess]
  refine go hV hS hK hg A trivial (by keeps hK) (fun w pre rest _ hv => v_at hv.viable)
    (fun a s1 g hA he1 hl1 => ?_) (by simp [Begins])
  obtain ⟨p1, hp1, hf1, k1⟩ := replace g (by simp)
  have A1 := hA p1 hp1
  have hn1 : a = .null → p1 = [] := by
    rintro rfl
    have := null_empty g
    rw [this] at hp1
    simpa using hp1
  simp only [peek_bind, next_bind, wlp_ite, wlp_pure]
  refine ⟨fun h1 => ⟨fun h2 => ?_, fun _ => quiet he1⟩, fun h1 => ⟨fun h2 => ?_, fun h2 => ?_⟩⟩
  · have ha : a = .null := (isNull_iff a).1 h2
    obtain rfl := hn1 ha
    exact complain_all A1 (fun w hw => v_at_empty hw) (by simp [Begins]) zero_simple rfl he1 A1.said (by keeps hK)
  · have A2 := A1.nexted hg (by simp [h2])
    have hc := toks_cons hg hl1 (by simp [h2])
    rw [hc] at k1
    refine go hV hS hK hg A2 trivial (by keeps hK) (fun w pre rest _ hv => by simpa using v_slice h2 k1 hv.viable)
      fun b s2 g2 hA2 he2 hl2 => ?_
    obtain ⟨p2, hp2, hf2, k2⟩ := replace g2 (by simp)
    have A3 := hA2 p2 hp2
    have hn2 : b = .null → p2 = [] := by
      rintro rfl
      have := null_empty g2
      rw [this] at hp2
      simpa using hp2
    have zero : b = .null → Hope .arrayAccess (hd s.toks) (.numberLiteral, c!"0") (([] ++ p1 ++ [s1.cur]) ++ p2) := by
      intro hb
      obtain rfl := hn2 hb
      exact ⟨by simpa using v_slice_value h2 (by decide) k1, by simp⟩
    have close : ∀ w : TokenType × Str, w.1 = .op ']' → ¬ (a = .null ∧ b = .null) →
        Viable .arrayAccess w (([] ++ p1 ++ [s1.cur]) ++ p2) := by
      intro w hw hn
      simpa using v_slice_done h2 hw k1 hn k2
    simp only [next_bind, wlp_ite, wlp_pure]
    refine ⟨fun _ => ?_, fun _ => ⟨fun h3 => ?_, fun _ => quiet he2⟩⟩
    · refine complain A3 (fun w hw => ?_) (by simp) ?_ rfl he2 A3.said (by keeps hK)
      · obtain rfl : w = (.op ']', c!"]") := by simpa [offered] using hw
        by_cases hn : a = .null ∧ b = .null
        · right
          obtain rfl := hn1 hn.1
          obtain rfl := hn2 hn.2
          exact ⟨.inr rfl, rfl, .inr ⟨rfl, .inr ⟨s1.cur, by simp, h2⟩⟩⟩
        · exact .inl (close _ rfl hn)
      · by_cases hb : b = .null
        · exact ⟨_, by decide, zero hb⟩
        · exact ⟨(.op ']', c!"]"), by decide, close _ rfl (fun h => hb h.2), by simp⟩
    · have hb : b = .null := by
        simp only [Bool.and_eq_true, isNull_iff] at h3
        exact h3.2
      obtain rfl := hn2 hb
      exact complain_all A3 (fun w hw => by simpa using v_slice_value h2 hw k1) (by simp) zero_simple rfl he2 A3.said
        (by keeps hK)
  · refine complain A1 (fun w hw => ?_) (by simp [Begins])
      ⟨(.op ':', c!":"), by decide, by simpa using v_at_colon rfl k1, by simp [Begins]⟩ rfl he1 A1.said (by keeps hK)
    simp only [offered, List.mem_cons, List.not_mem_nil, or_false] at hw
    rcases hw with rfl | rfl
    · exact .inl (by simpa using v_at_colon rfl k1)
    · by_cases ha : a = .null
      · right
        obtain rfl := hn1 ha
        exact ⟨.inl rfl, rfl, .inr ⟨rfl, .inl rfl⟩⟩
      · exact .inl (by simpa using v_at_done rfl ha k1)

theorem value_first (opt : Bool) (s : PState) (hg : Good s) (he : s.errs = []) (hs : s.said = []) :
    wlp (parseValue call opt) (Err (Found (.value opt) s)) s := by
  have A := At.start he hs
  simp only [parseValue, peek_bind, next_bind, wlp_ite, wlp_pure, peeked_cur]
  refine ⟨fun h1 => ?_, fun h1 => ⟨fun h2 => ?_, fun h2 => ⟨fun h3 => ?_, fun h3 => ⟨fun h4 => ?_, fun h4 =>
    ⟨fun h5 => ?_, fun h5 => ⟨fun h6 => ?_, fun h6 => ?_⟩⟩⟩⟩⟩⟩
  · split
    · exact wlp_pure.2 (quiet he)
    · exact wlp_fail.2 trivial
  · split
    · exact wlp_pure.2 (quiet he)
    · exact complain_all A (fun w hw => v_value hw) (fun w hw _ => values_begin hw) zero_simple rfl he A.said (by keeps hK)
  · have A1 := A.peeked.nexted hg (by simp [peeked_cur, h3])
    refine ⟨fun h4 => ?_, fun _ => quiet he⟩
    have A2 := A1.peeked.nexted hg (by simp [peeked_cur, h4])
    exact goTail hV hg A2 trivial fun w pre rest hr hv => by simpa using v_call h3 h4 hv.viable
  · have A1 := A.peeked.nexted hg (by simp [peeked_cur, h4])
    exact goTail hV hg A1 (by simp [Fine]) fun w pre rest hr hv => by simpa using v_list h4 hv.viable
  · have A1 := A.peeked.nexted hg (by simp [peeked_cur, h5])
    exact goTail hV hg A1 (by simp [Fine]) fun w pre rest hr hv => by simpa using v_map h5 hv.viable
  · exact quiet he
  · exact complain_all A (fun w hw => v_value hw) (fun w hw _ => values_begin hw) zero_simple rfl he A.said (by keeps hK)

theorem paren_first (s : PState) (hg : Good s) (he : s.errs = []) (hs : s.said = []) :
    wlp (parseParen call) (Err (Found .paren s)) s := by
  have A := At.start he hs
  simp only [parseParen, next_bind, wlp_ite, wlp_fail, implies_true, true_and]
  intro h1
  have h1 : s.cur.type = .op '(' := by simpa using h1
  have A1 := A.nexted hg (by simp [h1])
  refine go hV hS hK hg A1 trivial (by keeps hK) (fun w pre rest _ hv => v_paren h1 hv.viable) fun a s1 g hA he1 hl1 => ?_
  obtain ⟨p1, hp1, hf1, k1⟩ := replace g (by simp)
  have A2 := hA p1 hp1
  simp only [peek_bind, next_bind, wlp_ite, wlp_pure]
  refine ⟨fun _ => quiet he1, fun h2 => ⟨fun h3 => ⟨fun h4 => ?_, fun _ => quiet he1⟩, fun h3 => ?_⟩⟩
  · have hn : a = .null := (isNull_iff a).1 h3
    subst hn
    have := null_empty g
    rw [this] at hp1
    obtain rfl : p1 = [] := by simpa using hp1
    refine complain_all A2 (fun w hw => ?_) (by simp) ⟨_, by simp [offered]; rfl, by decide⟩ rfl he1 A2.said (by keeps hK)
    obtain rfl : w = (.op ')', c!")") := by simpa [offered] using hw
    simpa using v_paren_empty h1 rfl
  · have hn : a ≠ .null := fun h => h3 ((isNull_iff a).2 h)
    have h2 : s1.cur.type ≠ .op ')' := by
      intro h; apply h2
      simp [h, (isNull_false a).2 hn]
    exact goTail hV hg A2.peeked trivial fun w pre rest hr hv => by
      simpa using v_paren_tuple h1 hn hr (by rw [peeked_toks, ← cur_hd hg hl1]; exact h2) k1 hv

theorem tupleRest_first (acc : List Node) (s : PState) (hg : Good s) (he : s.errs = []) (hs : s.said = []) :
    wlp (parseTupleRest call acc) (Err (Found (.tupleRest acc) s)) s := by
  have A := At.start he hs
  simp only [parseTupleRest, peek_bind, next_bind, wlp_ite, wlp_pure]
  refine ⟨fun _ => quiet he, fun h1 => ⟨fun h2 => ?_, fun h2 => ⟨fun h3 => ?_, fun h3 => ?_⟩⟩⟩
  · refine complain_all A (fun w hw => ?_) (fun w hw _ => ?_) ⟨_, by simp [offered]; rfl, by decide⟩ rfl he A.said (by keeps hK)
    · exact v_tuple (by simp_all [offered])
    · simp_all [offered, Begins]
  · exact quiet he
  · have h2 : s.cur.type = .op ',' := by simpa using h2
    have A1 := A.nexted hg (by simp [h2])
    have h3 : hd s.nexted.toks ≠ .op ')' := by rw [← cur_hd hg A1.later]; exact h3
    refine go hV hS hK hg A1.peeked trivial (by keeps hK) (fun w pre rest hr hv => by simpa using v_tuple_expr h2 hr h3 hv)
      fun a s1 g hA he1 hl1 => ?_
    obtain ⟨p1, hp1, hf1, k1⟩ := replace g (by simp)
    rw [peeked_toks] at hp1
    exact goTail hV hg (hA p1 hp1) trivial fun w pre rest hr hv => by
      simpa using v_tuple_next h2 hr (by rw [← hp1]; exact h3) (hf1 (by simp [Filled])) k1 hv

theorem listOrCompr_first (ty : ListType) (e : Elem) (s : PState) (hg : Good s) (hf : e ≠ .optionalIdentifier)
    (he : s.errs = []) (hs : s.said = []) :
    wlp (parseListOrCompr call ty e) (Err (Found (.listOrCompr ty e) s)) s := by
  have A := At.start he hs
  simp only [parseListOrCompr, peek_bind, next_bind, wlp_ite, wlp_pure, endTokenFor_eq]
  refine ⟨fun _ => quiet he, fun h1 => ?_⟩
  have h1 : hd s.toks ≠ closing ty := by rw [← cur_hd hg (.refl s)]; exact h1
  refine go hV hS hK hg A.peeked trivial (by keeps hK) (fun w pre rest hr hv => v_bracket_elem hr h1 hv)
    (fun a s1 g hA he1 hl1 => ?_) (by simp [Begins])
  obtain ⟨p1, hp1, hf1, k1⟩ := replace g (by simp)
  have A1 := hA p1 hp1
  rw [peeked_toks] at hp1
  rw [hp1] at h1
  simp only [peek_bind, next_bind, wlp_ite, wlp_pure, peeked_cur]
  refine ⟨fun _ => quiet he1, fun hn => ?_⟩
  have hn : a ≠ .null := fun h => hn ((isNull_iff a).2 h)
  have hp : p1 ≠ [] := hf1 (by cases e <;> simp_all [Filled, itemOf])
  refine ⟨fun h2 => ?_, fun h2 => ⟨fun h3 => ?_, fun h3 => ⟨fun h4 => ?_, fun h4 => ?_⟩⟩⟩
  · refine go hV hS hK hg A1.peeked ⟨closer_closing ty, hn⟩ (by keeps hK) (fun w pre rest hr hv => ?_)
      (fun a s1 g hA he1 hl1 => wlp_pure.2 (quiet he1)) (by simp [hp])
    exact v_bracket_compr h1 hp hn hr (by rw [← cur_hd hg hl1]; exact h2) k1 hv
  · have A2 := A1.peeked.nexted hg (by simp [peeked_cur, h3])
    have hc := toks_cons hg hl1 (by simp [h3])
    rw [hc] at k1 h1
    exact goTail hV hg A2 (.inl (closer_closing ty)) fun w pre rest hr hv => by
      simpa using v_bracket_more h1 hn h3 k1 hv.viable
  · refine complain_all A1 (fun w hw => ?_) (by simp [hp]) ⟨(.op ',', c!","), by simp [offered], by decide⟩ rfl he1 A1.said
      (by keeps hK)
    simp only [offered, List.mem_cons, List.not_mem_nil, or_false] at hw
    rcases hw with rfl | rfl | rfl
    · exact v_bracket_for h1 hp hn rfl k1
    · exact v_bracket_done h1 hp hn rfl k1
    · exact v_bracket_comma h1 hp hn rfl k1
  · have h4 : s1.cur.type = closing ty := by simpa using h4
    exact goTail hV hg A1.peeked (.inl (closer_closing ty)) (fun w pre rest hr hv => by
      simpa using v_bracket_end h1 hp hn hr (by rw [← cur_hd hg hl1]; exact h4) k1 hv) (by simp [hp])

theorem list_first (ty : ListType) (acc : List Node) (e : Elem) (close : TokenType) (s : PState) (hg : Good s)
    (hf : Fine (.list ty acc e close)) (hE : ∀ s, Good s → s.errs = [] → s.said = [] → e = .optionalIdentifier →
      wlp (call (.elem e)) (fun _ s' => s'.errs = [] ∧ s'.said = []) s) (he : s.errs = []) (hs : s.said = []) :
    wlp (parseList call ty acc e close) (Err (Found (.list ty acc e close) s)) s := by
  have A := At.start he hs
  simp only [parseList, peek_bind, next_bind, wlp_ite, wlp_pure]
  refine ⟨fun _ => quiet he, fun h1 => ?_⟩
  have h1 : hd s.toks ≠ close := by rw [← cur_hd hg (.refl s)]; exact h1
  have rest : ∀ a s1, Meaning (.elem e) s.peeked.toks s1.toks a →
      (∀ p, s.peeked.toks = p ++ s1.toks → At s s1 ([] ++ p)) →
      s1.errs = [] → Later s s1 → wlp (do
        let upcoming ← peek
        if upcoming.type = .op ',' then
          let _ ← next
          call (.list ty (acc ++ [a]) e close)
        else if upcoming.type ≠ close then
          let t ← next
          errAt t (.listSeparator close)
          pure (.list ty (acc ++ [a]))
        else
          let _ ← next
          pure (.list ty (acc ++ [a]))) (Err (Found (.list ty acc e close) s)) s1 := by
    intro a s1 g hA he1 hl1
    obtain ⟨p1, hp1, hf1, k1⟩ := replace g (by simp)
    have A1 := hA p1 hp1
    rw [peeked_toks] at hp1
    rw [hp1] at h1
    simp only [peek_bind, next_bind, wlp_ite, wlp_pure, peeked_cur]
    refine ⟨fun h2 => ?_, fun h2 => ⟨fun h3 => ?_, fun _ => quiet he1⟩⟩
    · have A2 := A1.peeked.nexted hg (by simp [peeked_cur, h2])
      have hc := toks_cons hg hl1 (by simp [h2])
      rw [hc] at k1 h1
      exact goTail hV hg A2 (by simpa [Fine] using hf) fun w pre rest hr hv => by
        simpa using v_items_next hf h1 h2 k1 hv.viable
    · refine complain_all A1 (fun w hw => ?_) (fun w hw hR => ?_) ⟨(.op ',', c!","), by simp [offered], by decide⟩ rfl he1
        A1.said (by keeps hK)
      · simp only [offered, List.mem_cons, List.not_mem_nil, or_false] at hw
        rcases hw with rfl | rfl
        · exact v_items_comma hf h1 rfl k1
        · exact v_items_done hf h1 rfl k1
      · refine ⟨by rw [hp1]; exact h1, ?_⟩
        have ho : e = .optionalIdentifier := by
          refine Classical.byContradiction fun ho => hf1 ?_ (by simpa using hR)
          cases e <;> simp_all [Filled, itemOf]
        rw [if_pos ho]
        simp only [offered, List.mem_cons, List.not_mem_nil, or_false] at hw
        rcases hw with rfl | rfl
        · exact .inl rfl
        · exact .inr rfl
  by_cases ho : e = .optionalIdentifier
  · rw [wlp_bind]
    intro a s1 hm
    obtain ⟨he1, hs1⟩ := hE s.peeked (hg.congr A.peeked.later.1 A.peeked.later.2) he hs ho a s1 hm
    have g2 := hS _ _ (hg.congr A.peeked.later.1 A.peeked.later.2) a s1 hm
    exact rest a s1 (g2.2 he1).2 (fun p hp => ⟨hp, g2.1.2, he1, hs1⟩) he1 g2.1
  · refine go hV hS hK hg A.peeked trivial (by keeps hK) (fun w pre rest hr hv => v_items_elem hf ho hr h1 hv) rest
      (fun _ w hw => ⟨h1, by rw [if_neg ho]; exact hw⟩)

theorem elem_first (e : Elem) (s : PState) (hg : Good s) (he : s.errs = []) (hs : s.said = []) :
    wlp (parseElem call e) (Err (Found (.elem e) s)) s := by
  have A := At.start he hs
  cases e with
  | expression => exact goTail hV hg A trivial (fun w pre rest hr hv => v_elem hv.viable) (by simp [Begins])
  | expressionOrAssignment =>
    simp only [parseElem, expressionOrAssignment]
    refine go hV hS hK hg A trivial (by keeps hK) (fun w pre rest _ hv => v_argument hv.viable)
      (fun a s1 g hA he1 hl1 => ?_) (by simp [Begins])
    obtain ⟨p1, hp1, hf1, k1⟩ := replace g (by simp)
    simp only [peek_bind, next_bind, wlp_ite, wlp_pure]
    refine ⟨fun _ => quiet he1, fun hn => ⟨fun h2 => ?_, fun _ => quiet he1⟩⟩
    have A2 := (hA p1 hp1).peeked.nexted hg (by simp [peeked_cur, h2.2])
    have hc := toks_cons hg hl1 (by simp [h2.2])
    obtain ⟨i, rfl⟩ : ∃ i, a = .ident i := by
      have h3 := h2.1
      cases a <;> first | exact ⟨_, rfl⟩ | exact absurd rfl h3
    rw [hc] at k1
    refine go hV hS hK hg A2 trivial (by keeps hK) (fun w pre rest _ hv => by simpa using v_keyword h2.2 k1 hv.viable)
      fun a s1 g hA he1 hl1 => wlp_pure.2 (quiet he1)
  | mapTuple =>
    simp only [parseElem, parseMapTuple]
    refine go hV hS hK hg A trivial (by keeps hK) (fun w pre rest _ hv => v_entry hv.viable)
      (fun a s1 g hA he1 hl1 => ?_) (by simp [Begins])
    obtain ⟨p1, hp1, hf1, k1⟩ := replace g (by simp)
    have A1 := hA p1 hp1
    simp only [next_bind, wlp_ite]
    refine ⟨fun h2 => ?_, fun h2 => ?_⟩
    · refine complain_all A1 (fun w hw => ?_) (fun w hw hR => ?_) ⟨_, by simp [offered]; rfl, by decide⟩ rfl he1 A1.said
        (by keeps hK)
      · exact v_entry_done (by simp_all [offered]) k1
      · exact absurd (by simpa using hR) (hf1 (by simp [Filled]))
    · have h2 : s1.cur.type = .op ':' := by simpa using h2
      have A2 := A1.nexted hg (by simp [h2])
      have hc := toks_cons hg hl1 (by simp [h2])
      rw [hc] at k1
      refine go hV hS hK hg A2 trivial (by keeps hK) (fun w pre rest _ hv => by simpa using v_entry_value h2 k1 hv.viable)
        fun a s1 g hA he1 hl1 => wlp_pure.2 (quiet he1)
  | optionalIdentifier =>
    simp only [parseElem, parseOptionalIdentifier, peek_bind, next_bind, wlp_ite, wlp_pure]
    exact ⟨fun _ => quiet he, fun _ => quiet he⟩

theorem funCall_first (name : Str) (s : PState) (hg : Good s) (he : s.errs = []) (hs : s.said = []) :
    wlp (parseFunCall call name) (Err (Found (.funCall name) s)) s := by
  simp only [parseFunCall]
  exact go hV hS hK hg (At.start he hs) (.inl (by simp [Closer])) (by keeps hK) (fun w pre rest _ hv => v_funCall hv.viable)
    (fun a s1 g hA he1 hl1 => wlp_pure.2 (quiet he1)) (by simp [Begins])

theorem comprFor_first (tree x : Node) (close : TokenType) (s : PState) (hg : Good s)
    (hf : Closer close ∧ x ≠ .null) (he : s.errs = []) (hs : s.said = []) :
    wlp (parseComprFor call tree x close) (Err (Found (.comprFor tree x close) s)) s := by
  have A := At.start he hs
  simp only [parseComprFor, peek_bind, next_bind, wlp_ite, wlp_pure, peeked_cur]
  refine ⟨fun h1 => ?_, fun h1 => wlp_ite.2 ⟨fun h2 => ?_, fun _ => wlp_pure.2 (quiet he)⟩⟩
  · have A1 := A.peeked.nexted hg (by simp [peeked_cur, h1])
    refine ⟨fun h2 => ?_, fun h2 => ?_⟩
    · have A2 := A1.peeked.nexted hg (by simp [peeked_cur, h2])
      refine go hV hS hK hg A2 (.inl (by simp [Closer])) (by keeps hK)
        (fun w pre rest _ hv => by simpa using v_for_tuple hf.1 h1 h2 hv.viable) fun a s1 g hA he1 hl1 => ?_
      have g : Parses (.items .tuple .variable (.op ')')) s.peeked.nexted.peeked.nexted.toks s1.toks a := by
        obtain ⟨xs, rfl, g'⟩ := g (by simp)
        simpa [itemOf] using g'
      obtain ⟨p1, hp1, hf1, k1⟩ := replace g (by simp)
      have B := hA p1 hp1
      rw [next_bind]
      by_cases h3 : s1.cur.type = .kIn
      · have A3 := B.nexted hg (by simp [h3])
        simp only [h3, ne_eq, not_true_eq_false, if_false, pure_bind]
        refine go hV hS hK hg A3 trivial (by keeps hK)
          (fun w pre rest _ hv => by simpa using v_for_tuple_values hf.1 h1 h2 h3 k1 hv.viable) fun b s2 g2 hA2 he2 hl2 => ?_
        obtain ⟨p2, hp2, hf2, k2⟩ := replace g2 (by simp)
        rw [peek_bind]
        exact goTail hV hg (hA2 p2 hp2).peeked ⟨hf.1, by simp⟩ fun w pre rest hr hv => by
          simpa using v_for_tuple_more hf.1 h1 h2 h3 k1 k2 hr hv
      · simp only [ne_eq, h3, not_false_eq_true, if_true]
        refine complain_all B (fun w hw => ?_) (by simp) ⟨_, by simp [offered]; rfl, by decide⟩ rfl he1 B.said (by keeps hK)
        simpa using v_for_tuple_in hf.1 h1 h2 (by simp_all [offered]) k1
    · have h2 : hd s.peeked.nexted.toks ≠ .op '(' := by rw [← cur_hd hg A1.later]; exact h2
      refine go hV hS hK hg A1.peeked (.inr ⟨rfl, rfl⟩) (by keeps hK)
        (fun w pre rest hr hv => by simpa using v_for_list hf.1 h1 hr h2 hv) fun a s1 g hA he1 hl1 => ?_
      have g : Parses (.items .tuple .variable .kIn) s.peeked.nexted.toks s1.toks a := by
        obtain ⟨xs, rfl, g'⟩ := g (by simp)
        simpa [itemOf] using g'
      obtain ⟨p1, hp1, hf1, k1⟩ := replace g (by simp)
      rw [hp1] at h2
      refine go hV hS hK hg (hA p1 hp1) trivial (by keeps hK) (fun w pre rest _ hv => by
        simpa using v_for_list_values hf.1 h1 (hf1 (by simp [Filled])) h2 k1 hv.viable) fun b s2 g2 hA2 he2 hl2 => ?_
      obtain ⟨p2, hp2, hf2, k2⟩ := replace g2 (by simp)
      rw [peek_bind]
      exact goTail hV hg (hA2 p2 hp2).peeked ⟨hf.1, by simp⟩ fun w pre rest hr hv => by
        simpa using v_for_list_more hf.1 h1 (hf1 (by simp [Filled])) h2 k1 k2 hr hv
  · refine complain_all A (fun w hw => ?_) (fun w hw _ => ⟨?_, ?_⟩) ⟨(close, closeText close), by simp [offered], hf.1.simple⟩ rfl he A.said
      (by keeps hK)
    · exact v_for hf.1 hf.2 (by simp_all [offered])
    · rw [← cur_hd hg (.refl s)]; exact h1
    · simp_all [offered]

theorem statements_first (acc : List Node) (s : PState) (hg : Good s) (he : s.errs = []) (hs : s.said = []) :
    wlp (parseStatements call acc) (Err (Found (.statements acc) s)) s := by
  have A := At.start he hs
  simp only [parseStatements]
  rw [wlp_bind, wlp_hasError]
  simp only [he, next_bind, wlp_ite, wlp_pure, ne_eq, not_true_eq_false, decide_false, Bool.false_eq_true, false_implies,
    true_and, not_false_eq_true, true_implies]
  refine ⟨fun _ => quiet he, fun h0 => ⟨fun h1 => ?_, fun h1 => ⟨fun h2 => ?_, fun h2 => ⟨fun h3 => ?_, fun h3 =>
    ⟨fun h4 => ?_, fun h4 => ?_⟩⟩⟩⟩⟩
  · exact goTail hV hg (A.nexted hg h0) trivial fun w pre rest hr hv => by simpa using v_doc h1 hv.viable
  · refine go hV hS hK hg (A.nexted hg h0) (by simp [Fine]) (by keeps hK)
      (fun w pre rest _ hv => by simpa using v_list_statement h2 hv.viable) fun a s1 g hA he1 hl1 => ?_
    obtain ⟨p1, hp1, hf1, k1⟩ := replace (g (by simp)) (by simp)
    refine goTail hV hg (hA p1 hp1) trivial fun w pre rest hr hv => ?_
    exact v_next (fun r xs q1 q2 q3 => by simpa using Parses.listStatement h2 (k1 r (fits_next hr q1 q2)) q3) hv
  · refine go hV hS hK hg (A.nexted hg h0) (.inl (by simp [Closer])) (by keeps hK)
      (fun w pre rest _ hv => by simpa using v_tuple_list h3 hv.viable) fun a s1 g hA he1 hl1 => ?_
    have g : Parses (.items .tuple .variable (.op ')')) s.nexted.toks s1.toks a := by
      obtain ⟨xs, rfl, g'⟩ := g (by simp)
      simpa [itemOf] using g'
    obtain ⟨p1, hp1, hf1, k1⟩ := replace g (by simp)
    have A1 := hA p1 hp1
    simp only [next_bind, wlp_ite]
    refine ⟨fun h5 => ?_, fun h5 => ?_⟩
    · refine complain_all A1 (fun w hw => ?_) (by simp) ⟨_, by simp [offered]; rfl, by decide⟩ rfl he1 A1.said (by keeps hK)
      simpa using v_tuple_assign h3 (by simp_all [offered]) k1
    · have h5 : s1.cur.type = .op '=' := by simpa using h5
      have A2 := A1.nexted hg (by simp [h5])
      refine go hV hS hK hg A2 trivial (by keeps hK)
        (fun w pre rest _ hv => by simpa using v_tuple_rhs h3 h5 k1 hv.viable) fun b s2 g2 hA2 he2 hl2 => ?_
      obtain ⟨p2, hp2, hf2, k2⟩ := replace g2 (by simp)
      refine goTail hV hg (hA2 p2 hp2) trivial fun w pre rest hr hv => ?_
      exact v_next (fun r xs q1 q2 q3 => by
        simpa using Parses.tupleAssign h3 (k1 _ (.inr (.inl trivial))) h5 (k2 r (fits_next hr q1 q2)) q3) hv
  · refine complain_all A (fun w hw => ?_) (fun w hw _ => ?_) ⟨_, by simp [offered]; rfl, by decide⟩ rfl he A.said
      (by keeps hK)
    · exact v_statements (by simp_all [offered])
    · simp_all [offered, Begins]
  · have h4 : s.cur.type = .identifier := by simpa using h4
    have A1 := A.nexted hg h0
    refine ⟨fun h5 => ?_, fun h5 => ⟨fun h6 => ?_, fun h6 => ⟨fun h7 => ?_, fun h7 => ?_⟩⟩⟩
    · refine go hV hS hK hg (A1.nexted hg (by simp [h5])) trivial (by keeps hK)
        (fun w pre rest _ hv => by simpa using v_assign h4 h5 hv.viable) fun b s2 g2 hA2 he2 hl2 => ?_
      obtain ⟨p2, hp2, hf2, k2⟩ := replace g2 (by simp)
      refine goTail hV hg (hA2 p2 hp2) trivial fun w pre rest hr hv => ?_
      exact v_next (fun r xs q1 q2 q3 => by simpa using Parses.assign h4 h5 (k2 r (fits_next hr q1 q2)) q3) hv
    · refine go hV hS hK hg (A1.nexted hg (by simp [h6])) trivial (by keeps hK)
        (fun w pre rest _ hv => by simpa using v_rule h4 h6 hv.viable) fun b s2 g2 hA2 he2 hl2 => ?_
      obtain ⟨args, rfl, g2⟩ := g2
      obtain ⟨p2, hp2, hf2, k2⟩ := replace g2 (by simp)
      refine goTail hV hg (hA2 p2 hp2) trivial fun w pre rest hr hv => ?_
      exact v_next (fun r xs q1 q2 q3 => by simpa using Parses.rule h4 h6 (k2 r (fits_next hr q1 q2)) q3) hv
    · refine go hV hS hK hg (A1.nexted hg (by simp [h7])) trivial (by keeps hK)
        (fun w pre rest _ hv => by simpa using v_method h4 h7 hv.viable) fun b s2 g2 hA2 he2 hl2 => ?_
      obtain ⟨p2, hp2, hf2, k2⟩ := replace g2 (by simp)
      refine goTail hV hg (hA2 p2 hp2) trivial fun w pre rest hr hv => ?_
      exact v_next (fun r xs q1 q2 q3 => by simpa using Parses.method h4 h7 (k2 r (fits_next hr q1 q2)) q3) hv
    · refine complain_all A1 (fun w hw => ?_) (by simp) ⟨(.op '=', c!"="), by simp [offered], by decide⟩ rfl he A1.said
        (by keeps hK)
      simp only [offered, List.mem_cons, List.not_mem_nil, or_false] at hw
      rcases hw with rfl | rfl
      · simpa using v_ident_paren h4 rfl
      · simpa using v_ident h4 rfl

end

theorem run_optional (fuel : Nat) (s : PState) (he : s.errs = []) (hs : s.said = []) :
    wlp (run fuel (.elem .optionalIdentifier)) (fun _ s' => s'.errs = [] ∧ s'.said = []) s := by
  cases fuel with
  | zero => simp [run, wlp_fail]
  | succ n =>
    simp only [run, body, parseElem, parseOptionalIdentifier, peek_bind, next_bind, wlp_ite, wlp_pure]
    exact ⟨fun _ => ⟨he, hs⟩, fun _ => ⟨he, hs⟩⟩

theorem run_talks (n : Nat) (c : Call) : Talks (run n c) := by
  induction n generalizing c with
  | zero => exact Talks.fail
  | succ n ih =>
    cases c
    case elem e =>
      cases e <;> simp only [run, body, parseElem, expressionOrAssignment, parseMapTuple, parseOptionalIdentifier] <;>
      exact (by keeps ih : Unit → Talks _) ()
    all_goals
      simp only [run, body, parseExpression, parseSuffix, parseIfElse, parseArrayAccess, parseValue,
        parseParen, parseTupleRest, parseListOrCompr, parseList, parseFunCall, parseComprFor,
        parseStatements]
      exact (by keeps ih : Unit → Talks _) ()

theorem run_first (fuel : Nat) : CallsViable (run fuel) := by
  induction fuel with
  | zero => intro c s _ _ _ _; simp [run, wlp_fail]
  | succ n ih =>
    have hS := run_sound n
    have hK := run_talks n
    intro c s hg hf he hs
    cases c with
    | expression opt => exact expression_first ih hS hK opt s hg he hs
    | suffix m => exact suffix_first ih hS hK m s hg hf he hs
    | ifElse m => exact ifElse_first ih hS hK m s hg he hs
    | arrayAccess => exact arrayAccess_first ih hS hK s hg he hs
    | value opt => exact value_first ih hS hK opt s hg he hs
    | paren => exact paren_first ih hS hK s hg he hs
    | tupleRest acc => exact tupleRest_first ih hS hK acc s hg he hs
    | listOrCompr ty e => exact listOrCompr_first ih hS hK ty e s hg hf he hs
    | list ty acc e close =>
      exact list_first ih hS hK ty acc e close s hg hf (fun s _ he hs ho => by subst ho; exact run_optional n s he hs) he hs
    | elem e => exact elem_first ih hS hK e s hg he hs
    | funCall name => exact funCall_first ih hS hK name s hg he hs
    | comprFor tree x close => exact comprFor_first ih hS hK tree x close s hg hf he hs
    | statements acc => exact statements_first ih hS hK acc s hg he hs

/-- What was read before the first error can be completed to a file, also with the words that are
named as expected. -/
theorem first_error_offers {content : Str} {tree : Node} {st : PState} {e : Token} {es : List Token}
    (h : parseFile content = some (tree, st)) (he : st.errs = e :: es) :
    ∃ pre rest m k ks, (initState content).toks = pre ++ rest ∧ e = rest.headD (initState content).eof ∧
      st.said = (m, k) :: ks ∧ (∃ w ∈ simple, Viable (.statements []) w pre) ∧
      ∀ w ∈ offered m, Viable (.statements []) w pre ∨ Bare (.statements []) m w pre := by
  obtain ⟨m, k, ks, h0, pre, rest, h1, h2, ⟨w, h3, h4⟩, h5⟩ := run_first _ (.statements []) _ (initState_good content)
    trivial rfl rfl tree st h e es he
  exact ⟨pre, rest, m, k, ks, h1, h2, h0, ⟨w, h3, h4.viable⟩, fun w hw => (h5 w hw).imp (·.viable) id⟩

/-- A completion to a file. -/
theorem viable_file {w : TokenType × Str} {pre : List Token} (h : Viable (.statements []) w pre) :
    ∃ ws, (∀ w ∈ ws, w ∈ simple) ∧ ∀ us, Spells (w :: ws) us → ∃ n, Parses .program (pre ++ us) [] n := by
  obtain ⟨ws, h3, h4⟩ := h
  refine ⟨ws, h3, fun us hs => ?_⟩
  obtain ⟨n, _, xs, _, _, g⟩ := h4 us hs [] rfl
  exact ⟨_, by simpa using g⟩

/-- What was read before the first error can be completed to a file. -/
theorem first_error_viable {content : Str} {tree : Node} {st : PState} {e : Token} {es : List Token}
    (h : parseFile content = some (tree, st)) (he : st.errs = e :: es) :
    ∃ pre rest, (initState content).toks = pre ++ rest ∧ e = rest.headD (initState content).eof ∧
      ∃ ws, (∀ w ∈ ws, w ∈ simple) ∧ ∀ us, Spells ws us →
        ∃ n, Parses .program (pre ++ us) [] n := by
  obtain ⟨pre, rest, m, k, ks, h1, h2, -, ⟨w, h3, h4⟩, -⟩ := first_error_offers h he
  obtain ⟨ws, h5, h6⟩ := viable_file h4
  exact ⟨pre, rest, h1, h2, w :: ws, by simpa using ⟨h3, fun a b => h5 (a, b)⟩, h6⟩

end Parser
end Bant
