import Verif.Model.Parser

/-! Helper lemmas about the parser: total correctness (C14). -/
namespace Bant
namespace Parser
set_option linter.unusedSimpArgs false

/-- `m` returns from `s`, with a result as described by `Q`. -/
def wp {α : Type} (m : P α) (Q : α → PState → Prop) (s : PState) : Prop :=
  ∃ a s', m s = some (a, s') ∧ Q a s'

/-- If `m` returns from `s`, then as described by `Q`. -/
def wlp {α : Type} (m : P α) (Q : α → PState → Prop) (s : PState) : Prop :=
  ∀ a s', m s = some (a, s') → Q a s'

theorem wp_bind {α β : Type} {m : P α} {f : α → P β} {Q : β → PState → Prop} {s : PState} :
    wp (m >>= f) Q s ↔ wp m (fun a s' => wp (f a) Q s') s := by
  simp only [wp, bind]
  constructor
  · rintro ⟨b, s', h, hq⟩
    cases hm : m s with
    | none => simp [hm] at h
    | some x => obtain ⟨a, s1⟩ := x; simp only [hm] at h; exact ⟨a, s1, rfl, b, s', h, hq⟩
  · rintro ⟨a, s1, hm, b, s', h, hq⟩
    exact ⟨b, s', by simp only [hm]; exact h, hq⟩

theorem wlp_bind {α β : Type} {m : P α} {f : α → P β} {Q : β → PState → Prop} {s : PState} :
    wlp (m >>= f) Q s ↔ wlp m (fun a s' => wlp (f a) Q s') s := by
  simp only [wlp, bind]
  constructor
  · intro h a s1 hm b s' hf
    exact h b s' (by simp only [hm]; exact hf)
  · intro h b s' hb
    cases hm : m s with
    | none => simp [hm] at hb
    | some x => obtain ⟨a, s1⟩ := x; simp only [hm] at hb; exact h a s1 hm b s' hb

theorem wp_of_eq {α : Type} {m : P α} {Q : α → PState → Prop} {s s' : PState} {a : α}
    (h : m s = some (a, s')) : wp m Q s ↔ Q a s' := by
  constructor
  · rintro ⟨a', s'', h1, h2⟩
    rw [h] at h1
    simp only [Option.some.injEq, Prod.mk.injEq] at h1
    rw [h1.1, h1.2]; exact h2
  · intro h2; exact ⟨a, s', h, h2⟩

theorem wlp_of_eq {α : Type} {m : P α} {Q : α → PState → Prop} {s s' : PState} {a : α}
    (h : m s = some (a, s')) : wlp m Q s ↔ Q a s' := by
  constructor
  · intro h2; exact h2 a s' h
  · intro h2 a' s'' h1
    rw [h] at h1
    simp only [Option.some.injEq, Prod.mk.injEq] at h1
    rw [← h1.1, ← h1.2]; exact h2

theorem wp_pure {α : Type} {a : α} {Q : α → PState → Prop} {s : PState} :
    wp (pure a) Q s ↔ Q a s := wp_of_eq rfl
theorem wlp_pure {α : Type} {a : α} {Q : α → PState → Prop} {s : PState} :
    wlp (pure a) Q s ↔ Q a s := wlp_of_eq rfl
theorem wp_peek {Q : Token → PState → Prop} {s : PState} :
    wp peek Q s ↔ Q s.cur { s with
      requests := s.requests + 1, scans := if s.ahead then s.scans else s.scans + 1,
      ahead := true } := wp_of_eq rfl
theorem wlp_peek {Q : Token → PState → Prop} {s : PState} :
    wlp peek Q s ↔ Q s.cur { s with
      requests := s.requests + 1, scans := if s.ahead then s.scans else s.scans + 1,
      ahead := true } := wlp_of_eq rfl
theorem wp_next {Q : Token → PState → Prop} {s : PState} :
    wp next Q s ↔ Q s.cur { s with
      toks := s.toks.tail, requests := s.requests + 1,
      scans := if s.ahead then s.scans else s.scans + 1, ahead := false } :=
  wp_of_eq rfl
theorem wlp_next {Q : Token → PState → Prop} {s : PState} :
    wlp next Q s ↔ Q s.cur { s with
      toks := s.toks.tail, requests := s.requests + 1,
      scans := if s.ahead then s.scans else s.scans + 1, ahead := false } :=
  wlp_of_eq rfl
theorem wp_errAt {Q : Unit → PState → Prop} {s : PState} {t : Token} {m : Complaint} :
    wp (errAt t m) Q s ↔ Q () { s with errs := s.errs ++ [t], said := s.said ++ [(m, s.scans)] } := wp_of_eq rfl
theorem wlp_errAt {Q : Unit → PState → Prop} {s : PState} {t : Token} {m : Complaint} :
    wlp (errAt t m) Q s ↔ Q () { s with errs := s.errs ++ [t], said := s.said ++ [(m, s.scans)] } := wlp_of_eq rfl
theorem wp_hasError {Q : Bool → PState → Prop} {s : PState} :
    wp hasError Q s ↔ Q (s.errs ≠ []) s := wp_of_eq rfl
theorem wlp_hasError {Q : Bool → PState → Prop} {s : PState} :
    wlp hasError Q s ↔ Q (s.errs ≠ []) s := wlp_of_eq rfl
theorem wlp_fail {α : Type} {Q : α → PState → Prop} {s : PState} : wlp fail Q s ↔ True := by
  simp [wlp, fail]

theorem wp_ite {α : Type} {c : Prop} [Decidable c] {m1 m2 : P α} {Q : α → PState → Prop}
    {s : PState} : wp (if c then m1 else m2) Q s ↔ (c → wp m1 Q s) ∧ (¬ c → wp m2 Q s) := by
  by_cases h : c <;> simp [h]
theorem wlp_ite {α : Type} {c : Prop} [Decidable c] {m1 m2 : P α} {Q : α → PState → Prop}
    {s : PState} : wlp (if c then m1 else m2) Q s ↔ (c → wlp m1 Q s) ∧ (¬ c → wlp m2 Q s) := by
  by_cases h : c <;> simp [h]

theorem wp_mono {α : Type} {m : P α} {Q R : α → PState → Prop} {s : PState}
    (h : wp m Q s) (hqr : ∀ a s', Q a s' → R a s') : wp m R s := by
  obtain ⟨a, s', h1, h2⟩ := h
  exact ⟨a, s', h1, hqr a s' h2⟩
theorem wlp_mono {α : Type} {m : P α} {Q R : α → PState → Prop} {s : PState}
    (h : wlp m Q s) (hqr : ∀ a s', Q a s' → R a s') : wlp m R s :=
  fun a s' hm => hqr a s' (h a s' hm)

/-- What the scanner guarantees about the tokens. -/
structure Good (s : PState) : Prop where
  heof : s.eof.type = .eof
  noEof : ∀ t ∈ s.toks, t.type ≠ .eof
  strings : ∀ t ∈ s.toks, t.type = .stringLiteral → strFromLiteral t.text ≠ none

theorem Good.congr {s s' : PState} (h : Good s) (h1 : s'.toks <:+ s.toks) (h2 : s'.eof = s.eof) :
    Good s' :=
  ⟨by rw [h2]; exact h.heof, fun t ht => h.noEof t (h1.subset ht),
    fun t ht => h.strings t (h1.subset ht)⟩

/-- Call depth without consuming a token. -/
def rank : Call → Nat
  | .ifElse _ | .value _ | .paren | .tupleRest _ | .comprFor .. | .statements _ => 0
  | .suffix _ => 1
  | .expression _ => 2
  | .arrayAccess | .elem _ => 3
  | .list .. => 4
  | .funCall _ | .listOrCompr .. => 5

/-- Requests without consuming a token. -/
def work : Call → Nat
  | .ifElse _ | .paren => 0
  | .suffix _ | .value _ | .tupleRest _ | .statements _ => 1
  | .comprFor .. => 2
  | .expression _ => 3
  | .arrayAccess | .elem _ => 4
  | .list .. | .funCall _ => 7
  | .listOrCompr .. => 14

/-- Calls that expect a certain token. -/
def Pre (c : Call) (s : PState) : Prop :=
  match c with
  | .ifElse _ => s.cur.type = .kIf
  | .paren => s.cur.type = .op '('
  | _ => True

/-- State `s'` is later than `s`. -/
def Later (s s' : PState) : Prop := s'.toks <:+ s.toks ∧ s'.eof = s.eof

theorem Later.refl (s : PState) : Later s s := ⟨List.suffix_refl _, rfl⟩
theorem Later.trans {a b c : PState} (h : Later a b) (h' : Later b c) : Later a c :=
  ⟨h'.1.trans h.1, h'.2.trans h.2⟩
theorem Later.mk' {s s' : PState} {t e : List Token} {k n : Nat} {b : Bool} {sd : List (Complaint × Nat)} (h : Later s s')
    (ht : t <:+ s'.toks) : Later s ⟨t, s'.eof, e, k, n, b, sd⟩ := ⟨ht.trans h.1, h.2⟩

/-- Proves that a state is later than the initial one. -/
macro "later" : tactic => `(tactic|
  (refine Later.mk' (by first | assumption | exact Later.refl _) ?_
   first
   | exact List.suffix_refl _
   | exact List.tail_suffix _
   | exact (List.tail_suffix _).trans (List.tail_suffix _)
   | exact ((List.tail_suffix _).trans (List.tail_suffix _)).trans (List.tail_suffix _)))

theorem cur_req (s : PState) (k n : Nat) (b : Bool) (sd : List (Complaint × Nat)) :
    PState.cur ⟨s.toks, s.eof, s.errs, k, n, b, sd⟩ = s.cur := rfl

theorem consumed {s st : PState} (hg : Good s) (hl : Later s st) (hc : st.cur.type ≠ .eof) :
    st.toks.tail.length + 1 = st.toks.length := by
  have h := hg.congr hl.1 hl.2
  cases hs : st.toks with
  | nil => simp [PState.cur, hs] at hc; exact absurd h.heof hc
  | cons t ts => simp

theorem cur_mem {s st : PState} (hg : Good s) (hl : Later s st) (hc : st.cur.type ≠ .eof) :
    st.cur ∈ s.toks := by
  have h := hg.congr hl.1 hl.2
  cases hs : st.toks with
  | nil => simp [PState.cur, hs] at hc; exact absurd h.heof hc
  | cons t ts =>
    have : t ∈ st.toks := by simp [hs]
    simpa [PState.cur, hs] using hl.1.subset this

/-- All calls up to a measure return as promised. -/
def CallsOk (call : Call → P Node) (fuel : Nat) : Prop :=
  ∀ c s, Good s → Pre c s → 8 * s.toks.length + rank c < fuel →
    wp (call c) (fun _ s' => Later s s' ∧
      s'.requests + 16 * s'.toks.length ≤ s.requests + 16 * s.toks.length + work c) s

theorem CallsOk.use {call : Call → P Node} {fuel : Nat} (h : CallsOk call fuel) {c : Call}
    {s st : PState} {Q : Node → PState → Prop} (hg : Good s) (hl : Later s st)
    (hpre : Pre c st) (hm : 8 * st.toks.length + rank c < fuel)
    (k : ∀ a s', Later s s' → s'.toks.length ≤ st.toks.length →
      s'.requests + 16 * s'.toks.length ≤ st.requests + 16 * st.toks.length + work c → Q a s') :
    wp (call c) Q st := by
  refine wp_mono (h c st (hg.congr hl.1 hl.2) hpre hm) ?_
  intro a s' h'
  exact k a s' (hl.trans h'.1) h'.1.1.length_le h'.2

section
variable {call : Call → P Node} {fuel : Nat} (hcall : CallsOk call fuel)

/-- Uses the promise about a recursive call. -/
local macro "step" a:ident s1:ident h1:ident h2:ident h3:ident : tactic => `(tactic|
  (refine CallsOk.use ‹CallsOk _ _› ‹Good _› (by first | assumption | later)
      (by first | exact trivial | assumption)
      (by (try simp only [rank, List.length_tail] at *); omega) ?_
   intro $a $s1 $h1 $h2 $h3
   try simp only [work, List.length_tail] at $h2:ident $h3:ident))

/-- Finishes a path. -/
local macro "done!" : tactic => `(tactic|
  (refine ⟨by first | assumption | later, ?_⟩; (try simp only [List.length_tail] at *); omega))

include hcall

theorem parseExpression_total {s : PState} (hg : Good s) (opt : Bool)
    (hm : 8 * s.toks.length + 2 < fuel + 1) :
    wp (parseExpression call opt) (fun _ s' => Later s s' ∧
      s'.requests + 16 * s'.toks.length ≤ s.requests + 16 * s.toks.length + 3) s := by
  simp only [parseExpression, wp_bind, wp_peek, wp_next, wp_ite, wp_pure]
  refine ⟨fun h => ?_, fun _ => ⟨fun h => ?_, fun _ => ?_⟩⟩
  · have hc := consumed hg (.refl s) (by rcases h with h | h <;> simp [h])
    step a s1 h1 h2 h3
    step a s2 h4 h5 h6
    done!
  · step a s1 h1 h2 h3
    refine ⟨fun _ => by done!, fun _ => ?_⟩
    step a s2 h4 h5 h6
    done!
  · step a s1 h1 h2 h3
    refine ⟨fun _ => by done!, fun _ => ?_⟩
    step a s2 h4 h5 h6
    done!

theorem parseSuffix_total {s : PState} (hg : Good s) (n : Node)
    (hm : 8 * s.toks.length + 1 < fuel + 1) :
    wp (parseSuffix call n) (fun _ s' => Later s s' ∧
      s'.requests + 16 * s'.toks.length ≤ s.requests + 16 * s.toks.length + 1) s := by
  simp only [parseSuffix, wp_bind, wp_peek, wp_next, wp_ite, wp_pure]
  refine ⟨fun h => ?_, fun _ => ⟨fun h => ?_, fun _ => ⟨fun h => ⟨fun _ => ?_, fun _ => ?_⟩, fun _ => ?_⟩⟩⟩
  · step a s1 h1 h2 h3
    done!
  · have hc := consumed hg (.refl s) (by intro he; rw [he] at h; simp [isBinOp] at h)
    step a s1 h1 h2 h3
    done!
  · done!
  · have hc := consumed hg (.refl s) (by simp [h])
    step a s1 h1 h2 h3
    step a s2 h4 h5 h6
    done!
  · done!

theorem parseIfElse_total {s : PState} (hg : Good s) (n : Node) (hpre : s.cur.type = .kIf)
    (hm : 8 * s.toks.length + 0 < fuel + 1) :
    wp (parseIfElse call n) (fun _ s' => Later s s' ∧
      s'.requests + 16 * s'.toks.length ≤ s.requests + 16 * s.toks.length + 0) s := by
  simp only [parseIfElse, wp_bind, wp_peek, wp_next, wp_ite, wp_pure]
  have hc := consumed hg (.refl s) (by simp [hpre])
  refine ⟨fun h => absurd hpre h, fun _ => ?_⟩
  step a s1 h1 h2 h3
  refine ⟨fun h => ?_, fun _ => by done!⟩
  have hc := consumed hg h1 (by simp [h])
  step a s2 h4 h5 h6
  done!

theorem parseArrayAccess_total {s : PState} (hg : Good s)
    (hm : 8 * s.toks.length + 3 < fuel + 1) :
    wp (parseArrayAccess call) (fun _ s' => Later s s' ∧
      s'.requests + 16 * s'.toks.length ≤ s.requests + 16 * s.toks.length + 4) s := by
  simp only [parseArrayAccess, wp_bind, wp_peek, wp_next, wp_ite, wp_pure, wp_errAt]
  step a s1 h1 h2 h3
  refine ⟨fun h => ⟨fun _ => by done!, fun _ => by done!⟩, fun _ => ⟨fun h => ?_, fun _ => by done!⟩⟩
  have hc := consumed hg h1 (by simp [h])
  step a s2 h4 h5 h6
  exact ⟨fun _ => by done!, fun _ => ⟨fun _ => by done!, fun _ => by done!⟩⟩

theorem parseValue_total {s : PState} (hg : Good s) (opt : Bool)
    (hm : 8 * s.toks.length + 0 < fuel + 1) :
    wp (parseValue call opt) (fun _ s' => Later s s' ∧
      s'.requests + 16 * s'.toks.length ≤ s.requests + 16 * s.toks.length + 1) s := by
  simp only [parseValue, wp_bind, wp_peek, wp_next, wp_ite, wp_pure, wp_errAt]
  refine ⟨fun h => ?_, fun _ => ⟨fun h => ?_, fun _ => ⟨fun h => ?_, fun _ => ⟨fun h => ?_,
    fun _ => ⟨fun h => ?_, fun _ => ⟨fun _ => by done!, fun _ => by done!⟩⟩⟩⟩⟩⟩
  all_goals have hc := consumed hg (.refl s) (by simp [h])
  · have hs := hg.strings s.cur (cur_mem hg (.refl s) (by simp [h])) h
    change wp (match strFromLiteral s.cur.text with
      | some n => pure n
      | none => fail) _ _
    cases he : strFromLiteral s.cur.text with
    | none => exact absurd he hs
    | some n => simp only [wp_pure]; done!
  · change wp (match intFromLiteral s.cur.text with
      | some n => pure n
      | none => do errAt s.cur .intLiteral; pure .null) _ _
    cases he : intFromLiteral s.cur.text with
    | none => simp only [wp_bind, wp_errAt, wp_pure]; done!
    | some n => simp only [wp_pure]; done!
  · refine ⟨fun h2 => ?_, fun _ => by done!⟩
    have hc2 := consumed hg (st := { s with toks := s.toks.tail }) (by later)
      (by change (PState.cur ⟨s.toks.tail, s.eof, s.errs, _, _, _, _⟩).type ≠ _; exact fun e => by
            have := h2.symm.trans e; simp at this)
    simp only at hc2
    step a s1 h1 h2 h3
    done!
  · step a s1 h1 h2 h3
    done!
  · step a s1 h1 h2 h3
    done!

theorem parseParen_total {s : PState} (hg : Good s) (hpre : s.cur.type = .op '(')
    (hm : 8 * s.toks.length + 0 < fuel + 1) :
    wp (parseParen call) (fun _ s' => Later s s' ∧
      s'.requests + 16 * s'.toks.length ≤ s.requests + 16 * s.toks.length + 0) s := by
  simp only [parseParen, wp_bind, wp_peek, wp_next, wp_ite, wp_pure, wp_errAt]
  have hc := consumed hg (.refl s) (by simp [hpre])
  refine ⟨fun h => absurd hpre h, fun _ => ?_⟩
  step a s1 h1 h2 h3
  refine ⟨fun h => by done!, fun _ => ⟨fun _ => ⟨fun _ => by done!, fun _ => by done!⟩, fun _ => ?_⟩⟩
  step a s2 h4 h5 h6
  done!

theorem parseTupleRest_total {s : PState} (hg : Good s) (acc : List Node)
    (hm : 8 * s.toks.length + 0 < fuel + 1) :
    wp (parseTupleRest call acc) (fun _ s' => Later s s' ∧
      s'.requests + 16 * s'.toks.length ≤ s.requests + 16 * s.toks.length + 1) s := by
  simp only [parseTupleRest, wp_bind, wp_peek, wp_next, wp_ite, wp_pure, wp_errAt]
  refine ⟨fun h => by done!, fun _ => ⟨fun _ => by done!, fun h => ⟨fun _ => ?_, fun _ => ?_⟩⟩⟩
  · have hc := consumed hg (.refl s) (by simp at h; simp [h])
    done!
  · have hc := consumed hg (.refl s) (by simp at h; simp [h])
    step a s1 h1 h2 h3
    step a s2 h4 h5 h6
    done!

theorem parseListOrCompr_total {s : PState} (hg : Good s) (ty : ListType) (e : Elem)
    (hm : 8 * s.toks.length + 5 < fuel + 1) :
    wp (parseListOrCompr call ty e) (fun _ s' => Later s s' ∧
      s'.requests + 16 * s'.toks.length ≤ s.requests + 16 * s.toks.length + 14) s := by
  simp only [parseListOrCompr, wp_bind, wp_peek, wp_next, wp_ite, wp_pure, wp_errAt]
  refine ⟨fun h => by done!, fun _ => ?_⟩
  step a s1 h1 h2 h3
  refine ⟨fun h => by done!, fun _ => ⟨fun h => ?_, fun _ => ⟨fun h => ?_, fun _ =>
    ⟨fun _ => ?_, fun _ => ?_⟩⟩⟩⟩
  all_goals step a s2 h4 h5 h6; done!

theorem parseList_total {s : PState} (hg : Good s) (ty : ListType) (acc : List Node) (e : Elem)
    (endTok : TokenType) (hm : 8 * s.toks.length + 4 < fuel + 1) :
    wp (parseList call ty acc e endTok) (fun _ s' => Later s s' ∧
      s'.requests + 16 * s'.toks.length ≤ s.requests + 16 * s.toks.length + 7) s := by
  simp only [parseList, wp_bind, wp_peek, wp_next, wp_ite, wp_pure, wp_errAt]
  refine ⟨fun h => by done!, fun _ => ?_⟩
  step a s1 h1 h2 h3
  refine ⟨fun h => ?_, fun _ => ⟨fun h => by done!, fun _ => by done!⟩⟩
  have hc := consumed hg h1 (by simp [h])
  step a s2 h4 h5 h6
  done!

theorem parseElem_total {s : PState} (hg : Good s) (e : Elem)
    (hm : 8 * s.toks.length + 3 < fuel + 1) :
    wp (parseElem call e) (fun _ s' => Later s s' ∧
      s'.requests + 16 * s'.toks.length ≤ s.requests + 16 * s.toks.length + 4) s := by
  cases e <;> simp only [parseElem, expressionOrAssignment, parseMapTuple, parseOptionalIdentifier,
    wp_bind, wp_peek, wp_next, wp_ite, wp_pure, wp_errAt]
  · step a s1 h1 h2 h3
    done!
  · step a s1 h1 h2 h3
    refine ⟨fun h => by done!, fun _ => ⟨fun h => ?_, fun _ => by done!⟩⟩
    have hc := consumed hg h1 (by intro e; have := h.2.symm.trans e; simp at this)
    step a s2 h4 h5 h6
    done!
  · step a s1 h1 h2 h3
    refine ⟨fun h => by done!, fun h => ?_⟩
    have hc := consumed hg h1 (by simp at h; simp [h])
    step a s2 h4 h5 h6
    done!
  · exact ⟨fun _ => by done!, fun _ => by done!⟩

theorem parseFunCall_total {s : PState} (hg : Good s) (name : Str)
    (hm : 8 * s.toks.length + 5 < fuel + 1) :
    wp (parseFunCall call name) (fun _ s' => Later s s' ∧
      s'.requests + 16 * s'.toks.length ≤ s.requests + 16 * s.toks.length + 7) s := by
  simp only [parseFunCall, wp_bind, wp_pure]
  step a s1 h1 h2 h3
  done!

theorem parseComprFor_total {s : PState} (hg : Good s) (tree target : Node)
    (endTok : TokenType) (hm : 8 * s.toks.length + 0 < fuel + 1) :
    wp (parseComprFor call tree target endTok) (fun _ s' => Later s s' ∧
      s'.requests + 16 * s'.toks.length ≤ s.requests + 16 * s.toks.length + 2) s := by
  simp only [parseComprFor, wp_bind, wp_peek, wp_next, wp_ite, wp_pure, wp_errAt]
  refine ⟨fun h => ?_, fun _ => ⟨fun h => by done!, fun h => by done!⟩⟩
  have hc := consumed hg (.refl s) (by simp [h])
  refine ⟨fun h => ?_, fun _ => ?_⟩
  · step a s1 h1 h2 h3
    refine ⟨fun h => ?_, fun _ => ?_⟩
    · step a s2 h4 h5 h6
      step a s3 h7 h8 h9
      done!
    · step a s2 h4 h5 h6
      step a s3 h7 h8 h9
      done!
  · step a s1 h1 h2 h3
    step a s2 h4 h5 h6
    step a s3 h7 h8 h9
    done!

theorem parseStatements_total {s : PState} (hg : Good s) (acc : List Node)
    (hm : 8 * s.toks.length + 0 < fuel + 1) :
    wp (parseStatements call acc) (fun _ s' => Later s s' ∧
      s'.requests + 16 * s'.toks.length ≤ s.requests + 16 * s.toks.length + 1) s := by
  simp only [parseStatements, wp_bind, wp_peek, wp_next, wp_ite, wp_pure, wp_errAt, wp_hasError]
  refine ⟨fun _ => ⟨.refl s, by omega⟩, fun _ => ⟨fun _ => by done!, fun heof => ?_⟩⟩
  have hc := consumed hg (.refl s) heof
  refine ⟨fun h => ?_, fun _ => ⟨fun h => ?_, fun _ => ⟨fun h => ?_, fun _ =>
    ⟨fun h => by done!, fun _ => ⟨fun h => ?_, fun _ => ⟨fun h => ?_, fun _ => ⟨fun h => ?_,
      fun _ => by done!⟩⟩⟩⟩⟩⟩⟩
  · step a s1 h1 h2 h3
    done!
  · step a s1 h1 h2 h3
    step a s2 h4 h5 h6
    done!
  · step a s1 h1 h2 h3
    refine ⟨fun h => by done!, fun _ => ?_⟩
    step a s2 h4 h5 h6
    step a s3 h7 h8 h9
    done!
  all_goals
    step a s1 h1 h2 h3
    step a s2 h4 h5 h6
    done!

theorem body_total : CallsOk (body call) (fuel + 1) := by
  intro c s hg hpre hm
  cases c with
  | expression opt => exact parseExpression_total hcall hg opt hm
  | suffix n => exact parseSuffix_total hcall hg n hm
  | ifElse n => exact parseIfElse_total hcall hg n hpre hm
  | arrayAccess => exact parseArrayAccess_total hcall hg hm
  | value opt => exact parseValue_total hcall hg opt hm
  | paren => exact parseParen_total hcall hg hpre hm
  | tupleRest acc => exact parseTupleRest_total hcall hg acc hm
  | listOrCompr ty e => exact parseListOrCompr_total hcall hg ty e hm
  | list ty acc e endTok => exact parseList_total hcall hg ty acc e endTok hm
  | elem e => exact parseElem_total hcall hg e hm
  | funCall name => exact parseFunCall_total hcall hg name hm
  | comprFor tree target endTok => exact parseComprFor_total hcall hg tree target endTok hm
  | statements acc => exact parseStatements_total hcall hg acc hm

end

theorem run_total (fuel : Nat) : CallsOk (run fuel) fuel := by
  induction fuel with
  | zero => intro c s _ _ h; omega
  | succ n ih => exact body_total ih

end Parser
end Bant
