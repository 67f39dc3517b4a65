import Verif.Lemmas.ParserSound

/-! Helper lemmas: the parser accepts every sentence of the grammar and builds its tree. -/
namespace Bant
namespace Parser
open Grammar
set_option linter.unusedSimpArgs false

def elemOf : Item → Elem
  | .value => .expression
  | .argument => .expressionOrAssignment
  | .entry => .mapTuple
  | .variable => .optionalIdentifier

/-- Whatever the depth, the call either gives up or has this result, without error. -/
def Runs (c : Call) (s s' : List Token) (r : Node) : Prop :=
  ∀ (fuel : Nat) (st : PState), Good st → st.toks = s → st.errs = [] →
    wlp (run fuel c) (fun a st' => Later st st' ∧ a = r ∧ st'.toks = s' ∧ st'.errs = []) st

theorem Runs.of_body {c : Call} {s s' : List Token} {r : Node}
    (h : ∀ (fuel : Nat) (eof : Token) (k : Nat × Nat × Bool × List (Complaint × Nat)), Good ⟨s, eof, [], k.1, k.2.1, k.2.2.1, k.2.2.2⟩ →
      wlp (body (run fuel) c) (fun a st' => Later ⟨s, eof, [], k.1, k.2.1, k.2.2.1, k.2.2.2⟩ st' ∧ a = r ∧ st'.toks = s' ∧
        st'.errs = []) ⟨s, eof, [], k.1, k.2.1, k.2.2.1, k.2.2.2⟩) : Runs c s s' r := by
  intro fuel st hg ht he
  obtain ⟨toks, eof, errs, k, m, b, sd⟩ := st
  simp only at ht he
  subst ht he
  cases fuel with
  | zero => simp [run, wlp_fail]
  | succ n => exact h n eof (k, m, b, sd) hg

theorem Runs.use {c : Call} {s s' : List Token} {r : Node} (h : Runs c s s' r) {fuel : Nat}
    {st0 st : PState} {Q : Node → PState → Prop} (hg : Good st0) (hl : Later st0 st)
    (ht : st.toks = s) (he : st.errs = [])
    (k : ∀ (eof : Token) (k : Nat × Nat × Bool × List (Complaint × Nat)), Later st0 ⟨s', eof, [], k.1, k.2.1, k.2.2.1, k.2.2.2⟩ →
      Q r ⟨s', eof, [], k.1, k.2.1, k.2.2.1, k.2.2.2⟩) :
    wlp (run fuel c) Q st := by
  refine wlp_mono (h fuel st (hg.congr hl.1 hl.2) ht he) ?_
  rintro a ⟨t, e, er, n, m, b, sd⟩ ⟨h1, h2, h3, h4⟩
  simp only at h3 h4
  subst h2 h3 h4
  exact k e (n, m, b, sd) (hl.trans h1)

theorem cur_cons (t : Token) (s : List Token) (e : Token) (er : List Token) (k n : Nat) (b : Bool)
    (sd : List (Complaint × Nat)) :
    PState.cur ⟨t :: s, e, er, k, n, b, sd⟩ = t := rfl

theorem cur_hd' {st0 : PState} {s er : List Token} {e : Token} {k n : Nat} {b : Bool} {sd : List (Complaint × Nat)} (hg : Good st0)
    (hl : Later st0 ⟨s, e, er, k, n, b, sd⟩) : (PState.cur ⟨s, e, er, k, n, b, sd⟩).type = hd s := cur_hd hg hl

theorem Later.self {t e : List Token} {eof : Token} {k k' n n' : Nat} {b b' : Bool} {sd sd' : List (Complaint × Nat)} :
    Later ⟨t, eof, e, k, n, b, sd⟩ ⟨t, eof, e, k', n', b', sd'⟩ := ⟨List.suffix_refl _, rfl⟩
theorem Later.tail1 {a : Token} {t e : List Token} {eof : Token} {k k' n n' : Nat} {b b' : Bool} {sd sd' : List (Complaint × Nat)} :
    Later ⟨a :: t, eof, e, k, n, b, sd⟩ ⟨t, eof, e, k', n', b', sd'⟩ := ⟨List.suffix_cons _ _, rfl⟩
theorem Later.tail2 {a a' : Token} {t e : List Token} {eof : Token} {k k' n n' : Nat} {b b' : Bool} {sd sd' : List (Complaint × Nat)} :
    Later ⟨a :: a' :: t, eof, e, k, n, b, sd⟩ ⟨t, eof, e, k', n', b', sd'⟩ :=
  ⟨(List.suffix_cons _ _).trans (List.suffix_cons _ _), rfl⟩
theorem Later.drop {st : PState} {a : Token} {t e : List Token} {eof : Token} {k k' n n' : Nat} {b b' : Bool} {sd sd' : List (Complaint × Nat)}
    (h : Later st ⟨a :: t, eof, e, k, n, b, sd⟩) : Later st ⟨t, eof, e, k', n', b', sd'⟩ := h.trans .tail1
theorem Later.drop2 {st : PState} {a a' : Token} {t e : List Token} {eof : Token} {k k' n n' : Nat} {b b' : Bool} {sd sd' : List (Complaint × Nat)}
    (h : Later st ⟨a :: a' :: t, eof, e, k, n, b, sd⟩) : Later st ⟨t, eof, e, k', n', b', sd'⟩ := h.trans .tail2
theorem Later.keep {st : PState} {t e : List Token} {eof : Token} {k k' n n' : Nat} {b b' : Bool} {sd sd' : List (Complaint × Nat)}
    (h : Later st ⟨t, eof, e, k, n, b, sd⟩) : Later st ⟨t, eof, e, k', n', b', sd'⟩ := h.trans .self

local macro "lt" : tactic => `(tactic|
  (first
   | exact Later.self | exact Later.tail1 | exact Later.tail2 | assumption
   | exact Later.keep (by assumption) | exact Later.drop (by assumption)
   | exact Later.drop2 (by assumption)))

/-- Uses what is known about a recursive call. -/
local macro "step" h:term ", " e:ident k:ident hl:ident : tactic => `(tactic|
  (refine Runs.use $h ‹Good _› (by lt) rfl rfl ?_
   intro $e $k $hl))

local macro "done!" : tactic => `(tactic| refine ⟨by lt, ?_, ?_, ?_⟩ <;> first | trivial | rfl | simp)

/-- What a phrase means for the parser. -/
def Agree (nt : NT) (s s' : List Token) (n : Node) : Prop :=
  match nt with
  | .expr opt => Runs (.expression opt) s s' n
  | .cont m => Runs (.suffix m) s s' n
  | .atom => ∀ opt, Runs (.value opt) s s' n
  | .paren => ∀ t : Token, t.type = .op '(' → Runs .paren (t :: s) s' n
  | .tupleTail => ∀ xs acc, n = .list .tuple xs → Runs (.tupleRest acc) s s' (.list .tuple (acc ++ xs))
  | .index => Runs .arrayAccess s s' n
  | .bracket ty i => Runs (.listOrCompr ty (elemOf i)) s s' n
  | .items ty i close => close ≠ .op ',' → ∀ xs acc, n = .list ty xs →
      Runs (.list ty acc (elemOf i) close) s s' (.list ty (acc ++ xs))
  | .item i => Runs (.elem (elemOf i)) s s' n
  | .clauses close x => ∀ tree, Runs (.comprFor tree x close) s s' n
  | .moreClauses close tree => Runs (.comprFor tree tree close) s s' n
  | .program => ∀ xs acc, n = .list .list xs → Runs (.statements acc) s s' (.list .list (acc ++ xs))

theorem atom_hd {s s' : List Token} {n : Node} (h : Parses .atom s s' n) : startsAtom (hd s) := by
  cases h <;> simp_all [startsAtom, hd]

theorem items_form {ty : ListType} {i : Item} {c : TokenType} {s s' : List Token} {n : Node}
    (h : Parses (.items ty i c) s s' n) : ∃ xs, n = .list ty xs := by
  cases h <;> exact ⟨_, rfl⟩

theorem runs_list_end (ty : ListType) (acc : List Node) (e : Elem) (close : TokenType)
    (t : Token) (s : List Token) (h : t.type = close) :
    Runs (.list ty acc e close) (t :: s) s (.list ty acc) := by
  refine Runs.of_body fun fuel eof k hg => ?_
  simp only [body, parseList, wlp_bind, wlp_peek, wlp_next, wlp_ite, wlp_pure, wlp_errAt, cur_cons,
    List.tail_cons]
  exact ⟨fun _ => by done!, fun h' => absurd h h'⟩

theorem runs_funCall {s s' : List Token} {args : Node} (name : Str)
    (h : Runs (.list .tuple [] .expressionOrAssignment (.op ')')) s s' args) :
    Runs (.funCall name) s s' (.call (.ident name) args) := by
  refine Runs.of_body fun fuel eof k hg => ?_
  simp only [body, parseFunCall, wlp_bind, wlp_pure]
  step h, e1 k1 l1
  done!

theorem runs_value_missing {s : List Token} (h : ¬ startsAtom (hd s)) :
    Runs (.value true) s s .null := by
  refine Runs.of_body fun fuel eof k hg => ?_
  simp only [body, parseValue, wlp_bind, wlp_peek, wlp_next, wlp_ite, wlp_pure, wlp_errAt,
    cur_hd' hg Later.self]
  simp only [startsAtom, List.mem_cons, List.not_mem_nil, or_false, not_or] at h
  obtain ⟨h1, h2, h3, h4, h5⟩ := h
  refine ⟨fun h => absurd h h3, fun _ => ⟨fun h => absurd h h4, fun _ => ⟨fun h => absurd h h5,
    fun _ => ⟨fun h => absurd h h1, fun _ => ⟨fun h => absurd h h2, fun _ => ⟨fun _ => by done!,
      fun h => (h (by trivial)).elim⟩⟩⟩⟩⟩⟩

set_option maxHeartbeats 2000000 in
theorem agree {nt : NT} {s s' : List Token} {n : Node} (h : Parses nt s s' n) : Agree nt s s' n := by
  induction h with
  | missing h =>
    refine Runs.of_body fun fuel eof k hg => ?_
    simp only [body, parseExpression, wlp_bind, wlp_peek, wlp_next, wlp_ite, wlp_pure,
      cur_hd' hg Later.self]
    simp only [startsExpr, List.mem_cons, List.not_mem_nil, or_false, not_or] at h
    obtain ⟨h1, h2, h3, h4⟩ := h
    refine ⟨fun h => absurd h (by simp [h1, h2]), fun _ => ⟨fun h => absurd h h3, fun _ => ?_⟩⟩
    step runs_value_missing (by simp [startsAtom, h4]), e1 k1 l1
    exact ⟨fun _ => by done!, fun h => (h (by trivial)).elim⟩
  | unary h1 _ _ ih1 ih2 =>
    refine Runs.of_body fun fuel eof k hg => ?_
    simp only [body, parseExpression, wlp_bind, wlp_peek, wlp_next, wlp_ite, wlp_pure, cur_cons,
      List.tail_cons]
    refine ⟨fun _ => ?_, fun h => absurd (by simpa using h1) h⟩
    step ih1, e1 k1 l1
    step ih2, e2 k2 l2
    done!
  | parenthesis h1 hp _ ih1 ih2 =>
    refine Runs.of_body fun fuel eof k hg => ?_
    simp only [body, parseExpression, wlp_bind, wlp_peek, wlp_next, wlp_ite, wlp_pure, cur_cons,
      List.tail_cons]
    refine ⟨fun h => by simp [h1] at h, fun _ => ⟨fun _ => ?_, fun h => absurd h1 h⟩⟩
    step ih1 _ h1, e1 k1 l1
    refine ⟨fun h => absurd ((isNull_iff _).1 h) (ne_null hp trivial), fun _ => ?_⟩
    step ih2, e2 k2 l2
    done!
  | operand hp _ ih1 ih2 =>
    refine Runs.of_body fun fuel eof k hg => ?_
    simp only [body, parseExpression, wlp_bind, wlp_peek, wlp_next, wlp_ite, wlp_pure,
      cur_hd' hg Later.self]
    have ha := atom_hd hp
    refine ⟨fun h => ?_, fun _ => ⟨fun h => ?_, fun _ => ?_⟩⟩
    · rcases h with h | h <;> simp [startsAtom, h] at ha
    · simp [startsAtom, h] at ha
    · step ih1 _, e1 k1 l1
      refine ⟨fun h => absurd ((isNull_iff _).1 h) (ne_null hp trivial), fun _ => ?_⟩
      step ih2, e2 k2 l2
      done!
  | @stop n s h =>
    refine Runs.of_body fun fuel eof k hg => ?_
    simp only [body, parseSuffix, wlp_bind, wlp_peek, wlp_next, wlp_ite, wlp_pure]
    have hcase : s = [] ∨ ∃ t r, s = t :: r := by cases s <;> simp
    rcases hcase with rfl | ⟨t, r, rfl⟩
    · have he : eof.type = .eof := hg.heof
      simp only [PState.cur, List.headD_nil, he]
      exact ⟨fun h => by simp at h, fun _ => ⟨fun h => by simp [isBinOp] at h,
        fun _ => ⟨fun h => by simp at h, fun _ => by done!⟩⟩⟩
    · simp only [cur_cons]
      have hc : ¬ (t.type = .kIf ∨ t.type ∈ Grammar.binary ∨
        (t.type = .op '[' ∧ t.newlineSinceLast = false)) := fun h' => h ⟨t, r, rfl, h'⟩
      simp only [not_or] at hc
      refine ⟨fun h => absurd h hc.1, fun _ => ⟨fun h => absurd ((isBinOp_iff _).1 h) hc.2.1,
        fun _ => ⟨fun h => ⟨fun _ => by done!, fun h2 => absurd ⟨h, by simpa using h2⟩ hc.2.2⟩,
          fun _ => by done!⟩⟩⟩
  | @ifOnly n t s s1 c h1 _ h2 ih =>
    refine Runs.of_body fun fuel eof k hg => ?_
    simp only [body, parseSuffix, wlp_bind, wlp_peek, wlp_next, wlp_ite, wlp_pure, cur_cons]
    refine ⟨fun _ => ?_, fun h => absurd h1 h⟩
    have hr : Runs (.ifElse n) (t :: s) s1 (.ternary c n .null) := by
      refine Runs.of_body fun fuel eof k hg => ?_
      simp only [body, parseIfElse, wlp_bind, wlp_peek, wlp_next, wlp_ite, wlp_pure, cur_cons,
        List.tail_cons, wlp_fail]
      refine ⟨fun _ => trivial, fun _ => ?_⟩
      step ih, e1 k1 l1
      refine ⟨fun h => absurd ((cur_hd' hg l1).symm.trans h) h2, fun _ => by done!⟩
    step hr, e1 k1 l1
    done!
  | @ifElse n t u s s1 s2 c e h1 _ h2 _ ih1 ih2 =>
    refine Runs.of_body fun fuel eof k hg => ?_
    simp only [body, parseSuffix, wlp_bind, wlp_peek, wlp_next, wlp_ite, wlp_pure, cur_cons]
    refine ⟨fun _ => ?_, fun h => absurd h1 h⟩
    have hr : Runs (.ifElse n) (t :: s) s2 (.ternary c n e) := by
      refine Runs.of_body fun fuel eof k hg => ?_
      simp only [body, parseIfElse, wlp_bind, wlp_peek, wlp_next, wlp_ite, wlp_pure, cur_cons,
        List.tail_cons, wlp_fail]
      refine ⟨fun _ => trivial, fun _ => ?_⟩
      step ih1, e1 k1 l1
      simp only [cur_cons, List.tail_cons]
      refine ⟨fun h => ?_, fun h => absurd h2 h⟩
      step ih2, e2 k2 l2
      done!
    step hr, e1 k1 l1
    done!
  | binary h1 _ ih =>
    refine Runs.of_body fun fuel eof k hg => ?_
    simp only [body, parseSuffix, wlp_bind, wlp_peek, wlp_next, wlp_ite, wlp_pure, cur_cons,
      List.tail_cons]
    refine ⟨fun h => ?_, fun _ => ⟨fun _ => ?_, fun h => absurd ((isBinOp_iff _).2 h1) h⟩⟩
    · simp [h, Grammar.binary] at h1
    · step ih, e1 k1 l1
      done!
  | indexed h1 h2 _ _ ih1 ih2 =>
    refine Runs.of_body fun fuel eof k hg => ?_
    simp only [body, parseSuffix, wlp_bind, wlp_peek, wlp_next, wlp_ite, wlp_pure, cur_cons,
      List.tail_cons, h1, h2]
    refine ⟨fun h => by simp at h, fun _ => ⟨fun h => by simp [isBinOp] at h, fun _ =>
      ⟨fun _ => ⟨fun h => by simp at h, fun _ => ?_⟩, fun h => (h (by trivial)).elim⟩⟩⟩
    step ih1, e1 k1 l1
    step ih2, e2 k2 l2
    done!
  | at_ _ h1 h2 ih =>
    refine Runs.of_body fun fuel eof k hg => ?_
    simp only [body, parseArrayAccess, wlp_bind, wlp_peek, wlp_next, wlp_ite, wlp_pure, wlp_errAt]
    step ih, e1 k1 l1
    simp only [cur_cons, List.tail_cons, h2]
    exact ⟨fun _ => ⟨fun h => absurd ((isNull_iff _).1 h) h1, fun _ => by done!⟩,
      fun h => (h (by trivial)).elim⟩
  | slice _ h1 _ h2 h3 ih1 ih2 =>
    refine Runs.of_body fun fuel eof k hg => ?_
    simp only [body, parseArrayAccess, wlp_bind, wlp_peek, wlp_next, wlp_ite, wlp_pure, wlp_errAt]
    step ih1, e1 k1 l1
    simp only [cur_cons, List.tail_cons, h1]
    refine ⟨fun h => by simp at h, fun _ => ⟨fun _ => ?_, fun h => (h (by trivial)).elim⟩⟩
    step ih2, e2 k2 l2
    simp only [cur_cons, List.tail_cons, h2]
    refine ⟨fun h => (h (by trivial)).elim, fun _ => ⟨fun h => ?_, fun _ => by done!⟩⟩
    simp only [Bool.and_eq_true, isNull_iff] at h
    exact absurd h h3
  | @string t s n h1 h2 =>
    intro opt
    refine Runs.of_body fun fuel eof k hg => ?_
    simp only [body, parseValue, wlp_bind, wlp_peek, wlp_next, wlp_ite, wlp_pure, wlp_errAt,
      cur_cons, List.tail_cons, h1]
    refine ⟨fun _ => ?_, fun h => (h (by trivial)).elim⟩
    change wlp (match strFromLiteral t.text with
      | some n => pure n
      | none => fail) _ _
    simp only [h2, wlp_pure]
    done!
  | @number t s n h1 h2 =>
    intro opt
    refine Runs.of_body fun fuel eof k hg => ?_
    simp only [body, parseValue, wlp_bind, wlp_peek, wlp_next, wlp_ite, wlp_pure, wlp_errAt,
      cur_cons, List.tail_cons, h1]
    refine ⟨fun h => by simp at h, fun _ => ⟨fun _ => ?_, fun h => (h (by trivial)).elim⟩⟩
    change wlp (match intFromLiteral t.text with
      | some n => pure n
      | none => do errAt t .intLiteral; pure .null) _ _
    simp only [h2, wlp_pure]
    done!
  | name h1 h2 =>
    intro opt
    refine Runs.of_body fun fuel eof k hg => ?_
    simp only [body, parseValue, wlp_bind, wlp_peek, wlp_next, wlp_ite, wlp_pure, wlp_errAt,
      cur_cons, List.tail_cons, h1]
    refine ⟨fun h => by simp at h, fun _ => ⟨fun h => by simp at h, fun _ => ⟨fun _ =>
      ⟨fun h => absurd ((cur_hd' hg (by lt)).symm.trans h) h2, fun _ => by done!⟩, fun h => (h (by trivial)).elim⟩⟩⟩
  | @call t u s s1 args h1 h2 hp ih =>
    intro opt
    refine Runs.of_body fun fuel eof k hg => ?_
    simp only [body, parseValue, wlp_bind, wlp_peek, wlp_next, wlp_ite, wlp_pure, wlp_errAt,
      cur_cons, List.tail_cons, h1, h2]
    refine ⟨fun h => by simp at h, fun _ => ⟨fun h => by simp at h, fun _ => ⟨fun _ =>
      ⟨fun _ => ?_, fun h => (h (by trivial)).elim⟩, fun h => (h (by trivial)).elim⟩⟩⟩
    obtain ⟨xs, rfl⟩ := items_form hp
    step runs_funCall t.text (ih (by simp) xs [] rfl), e1 k1 l1
    done!
  | list h1 _ ih =>
    intro opt
    refine Runs.of_body fun fuel eof k hg => ?_
    simp only [body, parseValue, wlp_bind, wlp_peek, wlp_next, wlp_ite, wlp_pure, wlp_errAt,
      cur_cons, List.tail_cons, h1]
    refine ⟨fun h => by simp at h, fun _ => ⟨fun h => by simp at h, fun _ => ⟨fun h => by simp at h,
      fun _ => ⟨fun _ => ?_, fun h => (h (by trivial)).elim⟩⟩⟩⟩
    step ih, e1 k1 l1
    done!
  | map h1 _ ih =>
    intro opt
    refine Runs.of_body fun fuel eof k hg => ?_
    simp only [body, parseValue, wlp_bind, wlp_peek, wlp_next, wlp_ite, wlp_pure, wlp_errAt,
      cur_cons, List.tail_cons, h1]
    refine ⟨fun h => by simp at h, fun _ => ⟨fun h => by simp at h, fun _ => ⟨fun h => by simp at h,
      fun _ => ⟨fun h => by simp at h, fun _ => ⟨fun _ => ?_, fun h => (h (by trivial)).elim⟩⟩⟩⟩⟩
    step ih, e1 k1 l1
    done!
  | grouped _ h1 h2 ih =>
    intro t ht
    refine Runs.of_body fun fuel eof k hg => ?_
    simp only [body, parseParen, wlp_bind, wlp_peek, wlp_next, wlp_ite, wlp_pure, wlp_errAt,
      cur_cons, List.tail_cons, ht, wlp_fail]
    refine ⟨fun _ => trivial, fun _ => ?_⟩
    step ih, e1 k1 l1
    simp only [cur_cons, List.tail_cons, h2]
    refine ⟨fun _ => by done!, fun h => absurd ?_ h⟩
    simp [(isNull_false _).2 h1]
  | emptyTuple _ h1 ih =>
    intro t ht
    refine Runs.of_body fun fuel eof k hg => ?_
    simp only [body, parseParen, wlp_bind, wlp_peek, wlp_next, wlp_ite, wlp_pure, wlp_errAt,
      cur_cons, List.tail_cons, ht, wlp_fail]
    refine ⟨fun _ => trivial, fun _ => ?_⟩
    step ih, e1 k1 l1
    simp only [cur_cons, List.tail_cons, h1]
    refine ⟨fun h => by simp [Node.isNull] at h, fun _ => ⟨fun _ => ⟨fun h => (h (by trivial)).elim,
      fun _ => by done!⟩, fun h => (h (by trivial)).elim⟩⟩
  | tuple _ h1 h2 _ ih1 ih2 =>
    intro t ht
    refine Runs.of_body fun fuel eof k hg => ?_
    simp only [body, parseParen, wlp_bind, wlp_peek, wlp_next, wlp_ite, wlp_pure, wlp_errAt,
      cur_cons, List.tail_cons, ht, wlp_fail]
    refine ⟨fun _ => trivial, fun _ => ?_⟩
    step ih1, e1 k1 l1
    simp only [cur_hd' hg l1, h2]
    refine ⟨fun h => by simp at h, fun _ => ⟨fun h => absurd ((isNull_iff _).1 h) h1, fun _ => ?_⟩⟩
    step ih2 _ [_] rfl, e2 k2 l2
    done!
  | tupleEnd h1 =>
    intro xs acc hx
    simp only [Node.list.injEq, true_and] at hx
    subst hx
    refine Runs.of_body fun fuel eof k hg => ?_
    simp only [body, parseTupleRest, wlp_bind, wlp_peek, wlp_next, wlp_ite, wlp_pure, wlp_errAt,
      cur_cons, List.tail_cons, h1, List.append_nil]
    exact ⟨fun _ => by done!, fun h => (h (by trivial)).elim⟩
  | tupleComma h1 h2 =>
    intro xs acc hx
    simp only [Node.list.injEq, true_and] at hx
    subst hx
    refine Runs.of_body fun fuel eof k hg => ?_
    simp only [body, parseTupleRest, wlp_bind, wlp_peek, wlp_next, wlp_ite, wlp_pure, wlp_errAt,
      cur_cons, List.tail_cons, h1, h2, List.append_nil]
    exact ⟨fun h => by simp at h, fun _ => ⟨fun h => (h (by trivial)).elim, fun _ => ⟨fun _ => by done!,
      fun h => (h (by trivial)).elim⟩⟩⟩
  | tupleNext h1 h2 _ _ ih1 ih2 =>
    intro xs acc hx
    simp only [Node.list.injEq, true_and] at hx
    subst hx
    refine Runs.of_body fun fuel eof k hg => ?_
    simp only [body, parseTupleRest, wlp_bind, wlp_peek, wlp_next, wlp_ite, wlp_pure, wlp_errAt,
      cur_cons, List.tail_cons, h1]
    refine ⟨fun h => by simp at h, fun _ => ⟨fun h => (h (by trivial)).elim, fun _ =>
      ⟨fun h => absurd ((cur_hd' hg (by lt)).symm.trans h) h2, fun _ => ?_⟩⟩⟩
    step ih1, e1 k1 l1
    step ih2 _ (acc ++ [_]) rfl, e2 k2 l2
    refine ⟨by lt, ?_, ?_, ?_⟩ <;> first | trivial | simp
  | emptyBracket h1 =>
    refine Runs.of_body fun fuel eof k hg => ?_
    simp only [body, parseListOrCompr, wlp_bind, wlp_peek, wlp_next, wlp_ite, wlp_pure, wlp_errAt,
      cur_cons, List.tail_cons, h1, endTokenFor_eq]
    exact ⟨fun _ => by done!, fun h => (h (by trivial)).elim⟩
  | @comprehension ty i s s1 s2 x f h0 _ h1 h2 _ ih1 ih2 =>
    refine Runs.of_body fun fuel eof k hg => ?_
    simp only [body, parseListOrCompr, wlp_bind, wlp_peek, wlp_next, wlp_ite, wlp_pure, wlp_errAt,
      endTokenFor_eq, cur_hd' hg Later.self]
    refine ⟨fun h => absurd h h0, fun _ => ?_⟩
    step ih1, e1 k1 l1
    simp only [cur_hd' hg l1, h2]
    refine ⟨fun h => absurd ((isNull_iff _).1 h) h1, fun _ => ⟨fun _ => ?_, fun h => (h (by trivial)).elim⟩⟩
    step ih2 .null, e2 k2 l2
    done!
  | @bracketOne ty i t s s1 x h0 _ h1 h2 ih1 =>
    refine Runs.of_body fun fuel eof k hg => ?_
    simp only [body, parseListOrCompr, wlp_bind, wlp_peek, wlp_next, wlp_ite, wlp_pure, wlp_errAt,
      endTokenFor_eq, cur_hd' hg Later.self]
    refine ⟨fun h => absurd h h0, fun _ => ?_⟩
    step ih1, e1 k1 l1
    simp only [cur_cons, List.tail_cons, h2]
    refine ⟨fun h => absurd ((isNull_iff _).1 h) h1, fun _ => ⟨fun h => absurd h (closing_ne_for ty),
      fun _ => ⟨fun h => ?_, fun _ => ⟨fun h => (h (by trivial)).elim, fun _ => ?_⟩⟩⟩⟩
    · cases ty <;> simp [closing] at h
    · step runs_list_end ty [x] (elemOf i) (closing ty) t s1 h2, e2 k2 l2
      done!
  | @bracketMore ty i t s s1 s2 x xs h0 _ h1 h2 _ ih1 ih2 =>
    refine Runs.of_body fun fuel eof k hg => ?_
    simp only [body, parseListOrCompr, wlp_bind, wlp_peek, wlp_next, wlp_ite, wlp_pure, wlp_errAt,
      endTokenFor_eq, cur_hd' hg Later.self]
    refine ⟨fun h => absurd h h0, fun _ => ?_⟩
    step ih1, e1 k1 l1
    simp only [cur_cons, List.tail_cons, h2]
    refine ⟨fun h => absurd ((isNull_iff _).1 h) h1, fun _ => ⟨fun h => by simp at h,
      fun _ => ⟨fun _ => ?_, fun h => (h (by trivial)).elim⟩⟩⟩
    step ih2 (by cases ty <;> simp [closing]) _ [x] rfl, e2 k2 l2
    done!
  | itemsEnd h1 =>
    intro hc xs acc hx
    simp only [Node.list.injEq, true_and] at hx
    subst hx
    rw [List.append_nil]
    exact runs_list_end _ _ _ _ _ _ h1
  | itemsLast h0 _ h1 ih =>
    intro hc xs acc hx
    simp only [Node.list.injEq, true_and] at hx
    subst hx
    refine Runs.of_body fun fuel eof k hg => ?_
    simp only [body, parseList, wlp_bind, wlp_peek, wlp_next, wlp_ite, wlp_pure, wlp_errAt,
      cur_hd' hg Later.self]
    refine ⟨fun h => absurd h h0, fun _ => ?_⟩
    step ih, e1 k1 l1
    simp only [cur_cons, List.tail_cons, h1]
    exact ⟨fun h => absurd h hc, fun _ => ⟨fun h => (h (by trivial)).elim, fun _ => by done!⟩⟩
  | itemsMore h0 _ h1 _ ih1 ih2 =>
    intro hc xs acc hx
    simp only [Node.list.injEq, true_and] at hx
    subst hx
    refine Runs.of_body fun fuel eof k hg => ?_
    simp only [body, parseList, wlp_bind, wlp_peek, wlp_next, wlp_ite, wlp_pure, wlp_errAt,
      cur_hd' hg Later.self]
    refine ⟨fun h => absurd h h0, fun _ => ?_⟩
    step ih1, e1 k1 l1
    simp only [cur_cons, List.tail_cons, h1]
    refine ⟨fun _ => ?_, fun h => (h (by trivial)).elim⟩
    step ih2 hc _ (acc ++ [_]) rfl, e2 k2 l2
    refine ⟨by lt, ?_, ?_, ?_⟩ <;> first | trivial | simp
  | itemValue _ ih =>
    refine Runs.of_body fun fuel eof k hg => ?_
    simp only [body, parseElem, elemOf]
    step ih, e1 k1 l1
    done!
  | itemArgument _ h1 h2 ih =>
    refine Runs.of_body fun fuel eof k hg => ?_
    simp only [body, parseElem, elemOf, expressionOrAssignment, wlp_bind, wlp_peek, wlp_next,
      wlp_ite, wlp_pure, wlp_errAt]
    step ih, e1 k1 l1
    simp only [cur_hd' hg l1, asIdent_ne_none]
    exact ⟨fun h => absurd ((isNull_iff _).1 h) h1, fun _ => ⟨fun h => absurd h h2, fun _ => by done!⟩⟩
  | itemKeyword _ h1 _ ih1 ih2 =>
    refine Runs.of_body fun fuel eof k hg => ?_
    simp only [body, parseElem, elemOf, expressionOrAssignment, wlp_bind, wlp_peek, wlp_next,
      wlp_ite, wlp_pure, wlp_errAt]
    step ih1, e1 k1 l1
    simp only [cur_cons, List.tail_cons, asIdent_ne_none, h1]
    refine ⟨fun h => by simp [Node.isNull] at h, fun _ => ⟨fun _ => ?_, fun h => absurd ⟨⟨_, rfl⟩, trivial⟩ h⟩⟩
    step ih2, e2 k2 l2
    done!
  | itemEntry _ h1 _ ih1 ih2 =>
    refine Runs.of_body fun fuel eof k hg => ?_
    simp only [body, parseElem, elemOf, parseMapTuple, wlp_bind, wlp_peek, wlp_next,
      wlp_ite, wlp_pure, wlp_errAt]
    step ih1, e1 k1 l1
    simp only [cur_cons, List.tail_cons, h1]
    refine ⟨fun h => (h (by trivial)).elim, fun _ => ?_⟩
    step ih2, e2 k2 l2
    done!
  | itemVariable h1 =>
    refine Runs.of_body fun fuel eof k hg => ?_
    simp only [body, parseElem, elemOf, parseOptionalIdentifier, wlp_bind, wlp_peek, wlp_next,
      wlp_ite, wlp_pure, wlp_errAt, cur_cons, List.tail_cons, h1]
    exact ⟨fun _ => by done!, fun h => (h (by trivial)).elim⟩
  | itemNothing h1 =>
    refine Runs.of_body fun fuel eof k hg => ?_
    simp only [body, parseElem, elemOf, parseOptionalIdentifier, wlp_bind, wlp_peek, wlp_next,
      wlp_ite, wlp_pure, wlp_errAt, cur_hd' hg Later.self]
    exact ⟨fun h => absurd h h1, fun _ => by done!⟩
  | forTuple h1 h2 hv h3 _ _ ih1 ih2 ih3 =>
    intro tree
    obtain ⟨xs, rfl⟩ := items_form hv
    refine Runs.of_body fun fuel eof k hg => ?_
    simp only [body, parseComprFor, wlp_bind, wlp_peek, wlp_next, wlp_ite, wlp_pure, wlp_errAt,
      cur_cons, List.tail_cons, h1, h2]
    refine ⟨fun _ => ⟨fun _ => ?_, fun h => (h (by trivial)).elim⟩, fun h => (h (by trivial)).elim⟩
    step ih1 (by simp) xs [] rfl, e1 k1 l1
    simp only [cur_cons, List.tail_cons, h3]
    refine ⟨fun h => (h (by trivial)).elim, fun _ => ?_⟩
    step ih2, e2 k2 l2
    step ih3, e3 k3 l3
    done!
  | forList h1 h2 hv _ _ ih1 ih2 ih3 =>
    intro tree
    obtain ⟨xs, rfl⟩ := items_form hv
    refine Runs.of_body fun fuel eof k hg => ?_
    simp only [body, parseComprFor, wlp_bind, wlp_peek, wlp_next, wlp_ite, wlp_pure, wlp_errAt,
      cur_cons, List.tail_cons, h1]
    refine ⟨fun _ => ⟨fun h => absurd ((cur_hd' hg (by lt)).symm.trans h) h2, fun _ => ?_⟩,
      fun h => (h (by trivial)).elim⟩
    step ih1 (by simp) xs [] rfl, e1 k1 l1
    step ih2, e2 k2 l2
    step ih3, e3 k3 l3
    done!
  | nextClause _ _ ih => exact ih _
  | lastClause h1 h2 =>
    refine Runs.of_body fun fuel eof k hg => ?_
    simp only [body, parseComprFor, wlp_bind, wlp_peek, wlp_next, wlp_ite, wlp_pure, wlp_errAt,
      cur_cons, List.tail_cons, h1]
    exact ⟨fun h => absurd h h2, fun _ => ⟨fun h => (h (by trivial)).elim, fun _ => by done!⟩⟩
  | endOfFile =>
    intro xs acc hx
    simp only [Node.list.injEq, true_and] at hx
    subst hx
    refine Runs.of_body fun fuel eof k hg => ?_
    simp only [body, parseStatements, wlp_bind, wlp_peek, wlp_next, wlp_ite, wlp_pure, wlp_errAt,
      wlp_hasError, List.append_nil]
    have he : eof.type = .eof := hg.heof
    exact ⟨fun h => by simp at h, fun _ => ⟨fun _ => by done!, fun h => absurd he h⟩⟩
  | docString h1 _ ih =>
    intro xs acc hx
    refine Runs.of_body fun fuel eof k hg => ?_
    simp only [body, parseStatements, wlp_bind, wlp_peek, wlp_next, wlp_ite, wlp_pure, wlp_errAt,
      wlp_hasError, cur_cons, List.tail_cons, h1]
    refine ⟨fun h => by simp at h, fun _ => ⟨fun h => by simp at h, fun _ => ⟨fun _ => ?_,
      fun h => (h (by trivial)).elim⟩⟩⟩
    step ih xs acc hx, e1 k1 l1
    done!
  | listStatement h1 _ _ ih1 ih2 =>
    intro xs acc hx
    simp only [Node.list.injEq, true_and] at hx
    subst hx
    refine Runs.of_body fun fuel eof k hg => ?_
    simp only [body, parseStatements, wlp_bind, wlp_peek, wlp_next, wlp_ite, wlp_pure, wlp_errAt,
      wlp_hasError, cur_cons, List.tail_cons, h1]
    refine ⟨fun h => by simp at h, fun _ => ⟨fun h => by simp at h, fun _ => ⟨fun h => by simp at h,
      fun _ => ⟨fun _ => ?_, fun h => (h (by trivial)).elim⟩⟩⟩⟩
    step ih1, e1 k1 l1
    step ih2 _ (acc ++ [_]) rfl, e2 k2 l2
    refine ⟨by lt, ?_, ?_, ?_⟩ <;> first | trivial | simp
  | tupleAssign h1 hv h2 _ _ ih1 ih2 ih3 =>
    intro xs acc hx
    simp only [Node.list.injEq, true_and] at hx
    subst hx
    obtain ⟨ys, rfl⟩ := items_form hv
    refine Runs.of_body fun fuel eof k hg => ?_
    simp only [body, parseStatements, wlp_bind, wlp_peek, wlp_next, wlp_ite, wlp_pure, wlp_errAt,
      wlp_hasError, cur_cons, List.tail_cons, h1]
    refine ⟨fun h => by simp at h, fun _ => ⟨fun h => by simp at h, fun _ => ⟨fun h => by simp at h,
      fun _ => ⟨fun h => by simp at h, fun _ => ⟨fun _ => ?_, fun h => (h (by trivial)).elim⟩⟩⟩⟩⟩
    step ih1 (by simp) ys [] rfl, e1 k1 l1
    simp only [cur_cons, List.tail_cons, h2]
    refine ⟨fun h => (h (by trivial)).elim, fun _ => ?_⟩
    step ih2, e2 k2 l2
    step ih3 _ (acc ++ [_]) rfl, e3 k3 l3
    refine ⟨by lt, ?_, ?_, ?_⟩ <;> first | trivial | simp
  | assign h1 h2 _ _ ih1 ih2 =>
    intro xs acc hx
    simp only [Node.list.injEq, true_and] at hx
    subst hx
    refine Runs.of_body fun fuel eof k hg => ?_
    simp only [body, parseStatements, wlp_bind, wlp_peek, wlp_next, wlp_ite, wlp_pure, wlp_errAt,
      wlp_hasError, cur_cons, List.tail_cons, h1, h2]
    refine ⟨fun h => by simp at h, fun _ => ⟨fun h => by simp at h, fun _ => ⟨fun h => by simp at h,
      fun _ => ⟨fun h => by simp at h, fun _ => ⟨fun h => by simp at h, fun _ =>
        ⟨fun h => (h (by trivial)).elim, fun _ => ⟨fun _ => ?_, fun h => (h (by trivial)).elim⟩⟩⟩⟩⟩⟩⟩
    step ih1, e1 k1 l1
    step ih2 _ (acc ++ [_]) rfl, e2 k2 l2
    refine ⟨by lt, ?_, ?_, ?_⟩ <;> first | trivial | simp
  | @rule t p s s1 args xs h1 h2 hv _ ih1 ih2 =>
    intro xs acc hx
    simp only [Node.list.injEq, true_and] at hx
    subst hx
    obtain ⟨ys, rfl⟩ := items_form hv
    refine Runs.of_body fun fuel eof k hg => ?_
    simp only [body, parseStatements, wlp_bind, wlp_peek, wlp_next, wlp_ite, wlp_pure, wlp_errAt,
      wlp_hasError, cur_cons, List.tail_cons, h1, h2]
    refine ⟨fun h => by simp at h, fun _ => ⟨fun h => by simp at h, fun _ => ⟨fun h => by simp at h,
      fun _ => ⟨fun h => by simp at h, fun _ => ⟨fun h => by simp at h, fun _ =>
        ⟨fun h => (h (by trivial)).elim, fun _ => ⟨fun h => by simp at h, fun _ => ⟨fun _ => ?_, fun h => (h (by trivial)).elim⟩⟩⟩⟩⟩⟩⟩⟩
    step runs_funCall t.text (ih1 (by simp) ys [] rfl), e1 k1 l1
    step ih2 _ (acc ++ [_]) rfl, e2 k2 l2
    refine ⟨by lt, ?_, ?_, ?_⟩ <;> first | trivial | simp
  | method h1 h2 _ _ ih1 ih2 =>
    intro xs acc hx
    simp only [Node.list.injEq, true_and] at hx
    subst hx
    refine Runs.of_body fun fuel eof k hg => ?_
    simp only [body, parseStatements, wlp_bind, wlp_peek, wlp_next, wlp_ite, wlp_pure, wlp_errAt,
      wlp_hasError, cur_cons, List.tail_cons, h1, h2]
    refine ⟨fun h => by simp at h, fun _ => ⟨fun h => by simp at h, fun _ => ⟨fun h => by simp at h,
      fun _ => ⟨fun h => by simp at h, fun _ => ⟨fun h => by simp at h, fun _ =>
        ⟨fun h => (h (by trivial)).elim, fun _ => ⟨fun h => by simp at h, fun _ => ⟨fun h => by simp at h,
          fun _ => ⟨fun _ => ?_, fun h => (h (by trivial)).elim⟩⟩⟩⟩⟩⟩⟩⟩⟩
    step ih1, e1 k1 l1
    step ih2 _ (acc ++ [_]) rfl, e2 k2 l2
    refine ⟨by lt, ?_, ?_, ?_⟩ <;> first | trivial | simp

end Parser
end Bant
