import Verif.Lemmas.ParserRest
import Verif.Lemmas.ParserLocal

/-! Helper lemmas: what is written before a statement with an error. -/
namespace Bant
namespace Broken
open Parser Grammar

/-- Statements are only added. -/
theorem statements_form (fuel : Nat) : ∀ (acc : List Node) (st : PState),
    wlp (run fuel (.statements acc)) (fun a _ => ∃ ys, a = .list .list (acc ++ ys)) st := by
  induction fuel with
  | zero => intro acc st; simp [run, wlp_fail]
  | succ n ih =>
    have more : ∀ (acc : List Node) (x : Node) (st : PState),
        wlp (run n (.statements (acc ++ [x]))) (fun a _ => ∃ ys, a = .list .list (acc ++ ys)) st := by
      intro acc x st
      refine wlp_mono (ih (acc ++ [x]) st) ?_
      rintro a s' ⟨ys, rfl⟩
      exact ⟨x :: ys, by simp⟩
    have all : ∀ (c : Call) (st : PState), wlp (run n c) (fun _ _ => True) st := fun c st a s' _ => trivial
    intro acc st
    simp only [run, body, parseStatements, wlp_bind, wlp_peek, wlp_next, wlp_ite, wlp_pure, wlp_errAt, wlp_hasError]
    refine ⟨fun _ => ⟨[], by simp⟩, fun _ => ⟨fun _ => ⟨[], by simp⟩, fun _ => ⟨fun _ => ih _ _, fun _ =>
      ⟨fun _ => wlp_mono (all _ _) fun _ _ _ => more _ _ _, fun _ =>
      ⟨fun _ => wlp_mono (all _ _) fun _ _ _ => ⟨fun _ => ⟨[], by simp⟩, fun _ => wlp_mono (all _ _) fun _ _ _ => more _ _ _⟩, fun _ =>
      ⟨fun _ => ⟨[], by simp⟩, fun _ =>
      ⟨fun _ => wlp_mono (all _ _) fun _ _ _ => more _ _ _, fun _ =>
      ⟨fun _ => wlp_mono (all _ _) fun _ _ _ => more _ _ _, fun _ =>
      ⟨fun _ => wlp_mono (all _ _) fun _ _ _ => more _ _ _, fun _ => ⟨[], by simp⟩⟩⟩⟩⟩⟩⟩⟩⟩⟩

/-- What begins a new statement, or cannot be part of one. -/
def StartsNew (t : TokenType) : Prop := Stops t ∨ Anew t

theorem fits_rest {nt : NT} (h : Loose nt ∨ SelfClosed nt) {r1 rest : List Token} (hb : StartsNew (hd rest)) :
    Fits nt r1 (r1 ++ rest) := by
  cases r1 with
  | cons t r1 => exact .inl rfl
  | nil =>
    rcases h with h | h
    · rcases hb with hb | hb
      · exact .inr (.inr (.inl hb))
      · exact .inr (.inr (.inr (.inr ⟨h, hb⟩)))
    · exact .inr (.inl h)

/-- A phrase, with something behind what follows. -/
theorem widen {nt : NT} (hp : nt ≠ .program) (hl : Loose nt ∨ SelfClosed nt) {s s' : List Token} {n : Node}
    (h : Parses nt s s' n) {rest : List Token} (hb : StartsNew (hd rest)) :
    Parses nt (s ++ rest) (s' ++ rest) n := by
  obtain ⟨p, rfl, _, k⟩ := replace h hp
  simpa using k (s' ++ rest) (fits_rest hl hb)

/-- A phrase, with something behind what follows taken away. -/
theorem narrow {nt : NT} (hp : nt ≠ .program) {s p r : List Token} {n : Node}
    (h : Parses nt s (p ++ r) n) : ∃ q, s = q ++ (p ++ r) ∧ Parses nt (q ++ p) p n := by
  obtain ⟨q, rfl, _, k⟩ := replace h hp
  refine ⟨q, rfl, k p ?_⟩
  cases p with
  | cons t p => exact .inl rfl
  | nil => exact .inr (.inr (.inl (by simp [Stops, hd])))

/-- What is left to be done: to read the rest. -/
def Goes (acc : List Node) (rest : List Token) (eof : Token) (a : Node) (st' : PState) : Prop :=
  ∃ (fuel : Nat) (st1 : PState), st1.toks = rest ∧ st1.eof = eof ∧ st1.errs = [] ∧ run fuel (.statements acc) st1 = some (a, st')

/-- The statements of `pre` are found, and what follows is read as if it was alone. -/
def Found (pre rest : List Token) (xs : List Node) : Prop :=
  ∀ (acc : List Node) (fuel : Nat) (st : PState), Good st → st.toks = pre ++ rest → st.errs = [] →
    wlp (run fuel (.statements acc)) (Goes (acc ++ xs) rest st.eof) st

local macro "lt" : tactic => `(tactic|
  (first
   | exact Later.self | exact Later.tail1 | exact Later.tail2 | assumption
   | exact Later.keep (by assumption) | exact Later.drop (by assumption)
   | exact Later.drop2 (by assumption)))

theorem Found.of_body {t : Token} {s rest : List Token} {xs : List Node}
    (h : ∀ (acc : List Node) (fuel : Nat) (eof : Token) (k : Nat × Nat × Bool × List (Complaint × Nat)),
      Good ⟨t :: (s ++ rest), eof, [], k.1, k.2.1, k.2.2.1, k.2.2.2⟩ →
      wlp (body (run fuel) (.statements acc)) (Goes (acc ++ xs) rest eof)
        ⟨t :: (s ++ rest), eof, [], k.1, k.2.1, k.2.2.1, k.2.2.2⟩) : Found (t :: s) rest xs := by
  intro acc fuel st hg ht he
  obtain ⟨toks, eof, errs, k, m, b, sd⟩ := st
  simp only [List.cons_append] at ht he
  subst ht he
  cases fuel with
  | zero => simp [run, wlp_fail]
  | succ n => exact h acc n eof (k, m, b, sd) hg

theorem Found.use {pre rest : List Token} {xs : List Node} {x : Node} (h : Found pre rest xs) {acc : List Node} {fuel : Nat}
    {st0 st : PState} (hg : Good st0) (hl : Later st0 st) (ht : st.toks = pre ++ rest) (he : st.errs = []) :
    wlp (run fuel (.statements (acc ++ [x]))) (Goes (acc ++ (x :: xs)) rest st0.eof) st := by
  refine wlp_mono (h (acc ++ [x]) fuel st (hg.congr hl.1 hl.2) ht he) ?_
  intro a s' h2
  rw [← hl.2]
  simpa using h2

theorem found {pre : List Token} {n : Node} (h : Parses .program pre [] n) : ∀ {rest : List Token}, StartsNew (hd rest) →
    ∀ {xs : List Node}, n = .list .list xs → Found pre rest xs := by
  generalize hnt : NT.program = nt at h
  generalize hs : ([] : List Token) = s' at h
  induction h with
  | endOfFile =>
    intro rest hb xs hx acc fuel st hg ht he
    simp only [Node.list.injEq, true_and] at hx
    subst hx
    intro a st' hr
    exact ⟨fuel, st, ht, rfl, he, by simpa using hr⟩
  | docString h1 _ ih =>
    intro rest hb xs hx
    refine Found.of_body fun acc fuel eof k hg => ?_
    simp only [body, parseStatements, wlp_bind, wlp_peek, wlp_next, wlp_ite, wlp_pure, wlp_errAt,
      wlp_hasError, cur_cons, List.tail_cons, h1]
    refine ⟨fun h => by simp at h, fun _ => ⟨fun h => by simp at h, fun _ => ⟨fun _ => ?_,
      fun h => (h (by trivial)).elim⟩⟩⟩
    refine wlp_mono (ih rfl rfl hb hx acc fuel _ (hg.congr (List.suffix_cons _ _) rfl) rfl rfl) ?_
    exact fun a s' h => h
  | listStatement h1 hv _ ih1 ih2 =>
    intro rest hb xs hx
    simp only [Node.list.injEq, true_and] at hx
    subst hx
    refine Found.of_body fun acc fuel eof k hg => ?_
    simp only [body, parseStatements, wlp_bind, wlp_peek, wlp_next, wlp_ite, wlp_pure, wlp_errAt,
      wlp_hasError, cur_cons, List.tail_cons, h1]
    refine ⟨fun h => by simp at h, fun _ => ⟨fun h => by simp at h, fun _ => ⟨fun h => by simp at h,
      fun _ => ⟨fun _ => ?_, fun h => (h (by trivial)).elim⟩⟩⟩⟩
    refine Runs.use (agree (widen (by simp) (by simp [SelfClosed]) hv hb)) hg (by lt) rfl rfl fun e1 k1 l1 => ?_
    exact (ih2 rfl rfl hb rfl).use hg l1 rfl rfl
  | tupleAssign h1 hv h2 hw _ ih1 ih2 ih3 =>
    intro rest hb xs hx
    simp only [Node.list.injEq, true_and] at hx
    subst hx
    obtain ⟨ys, rfl⟩ := items_form hv
    refine Found.of_body fun acc fuel eof k hg => ?_
    simp only [body, parseStatements, wlp_bind, wlp_peek, wlp_next, wlp_ite, wlp_pure, wlp_errAt,
      wlp_hasError, cur_cons, List.tail_cons, h1]
    refine ⟨fun h => by simp at h, fun _ => ⟨fun h => by simp at h, fun _ => ⟨fun h => by simp at h,
      fun _ => ⟨fun h => by simp at h, fun _ => ⟨fun _ => ?_, fun h => (h (by trivial)).elim⟩⟩⟩⟩⟩
    refine Runs.use (agree (widen (by simp) (by simp [SelfClosed]) hv hb) (by simp) ys [] rfl) hg (by lt) rfl rfl
      fun e1 k1 l1 => ?_
    simp only [List.cons_append, cur_cons, List.tail_cons, h2]
    refine ⟨fun h => (h (by trivial)).elim, fun _ => ?_⟩
    refine Runs.use (agree (widen (by simp) (by simp [Loose]) hw hb)) hg (Later.drop l1) rfl rfl fun e2 k2 l2 => ?_
    exact (ih3 rfl rfl hb rfl).use hg l2 rfl rfl
  | assign h1 h2 hv _ ih1 ih2 =>
    intro rest hb xs hx
    simp only [Node.list.injEq, true_and] at hx
    subst hx
    refine Found.of_body fun acc fuel eof k hg => ?_
    simp only [List.cons_append, body, parseStatements, wlp_bind, wlp_peek, wlp_next, wlp_ite, wlp_pure, wlp_errAt,
      wlp_hasError, cur_cons, List.tail_cons, h1, h2]
    refine ⟨fun h => by simp at h, fun _ => ⟨fun h => by simp at h, fun _ => ⟨fun h => by simp at h,
      fun _ => ⟨fun h => by simp at h, fun _ => ⟨fun h => by simp at h, fun _ =>
        ⟨fun h => (h (by trivial)).elim, fun _ => ⟨fun _ => ?_, fun h => (h (by trivial)).elim⟩⟩⟩⟩⟩⟩⟩
    refine Runs.use (agree (widen (by simp) (by simp [Loose]) hv hb)) hg Later.tail2 rfl rfl fun e2 k2 l2 => ?_
    exact (ih2 rfl rfl hb rfl).use hg l2 rfl rfl
  | rule h1 h2 hv _ ih1 ih2 =>
    intro rest hb xs hx
    simp only [Node.list.injEq, true_and] at hx
    subst hx
    obtain ⟨ys, rfl⟩ := items_form hv
    refine Found.of_body fun acc fuel eof k hg => ?_
    simp only [List.cons_append, body, parseStatements, wlp_bind, wlp_peek, wlp_next, wlp_ite, wlp_pure, wlp_errAt,
      wlp_hasError, cur_cons, List.tail_cons, h1, h2]
    refine ⟨fun h => by simp at h, fun _ => ⟨fun h => by simp at h, fun _ => ⟨fun h => by simp at h,
      fun _ => ⟨fun h => by simp at h, fun _ => ⟨fun h => by simp at h, fun _ =>
        ⟨fun h => (h (by trivial)).elim, fun _ => ⟨fun h => by simp at h, fun _ => ⟨fun _ => ?_, fun h => (h (by trivial)).elim⟩⟩⟩⟩⟩⟩⟩⟩
    refine Runs.use (runs_funCall _ (agree (widen (by simp) (by simp [SelfClosed]) hv hb) (by simp) ys [] rfl)) hg Later.tail2
      rfl rfl fun e2 k2 l2 => ?_
    exact (ih2 rfl rfl hb rfl).use hg l2 rfl rfl
  | method h1 h2 hv _ ih1 ih2 =>
    intro rest hb xs hx
    simp only [Node.list.injEq, true_and] at hx
    subst hx
    refine Found.of_body fun acc fuel eof k hg => ?_
    simp only [List.cons_append, body, parseStatements, wlp_bind, wlp_peek, wlp_next, wlp_ite, wlp_pure, wlp_errAt,
      wlp_hasError, cur_cons, List.tail_cons, h1, h2]
    refine ⟨fun h => by simp at h, fun _ => ⟨fun h => by simp at h, fun _ => ⟨fun h => by simp at h,
      fun _ => ⟨fun h => by simp at h, fun _ => ⟨fun h => by simp at h, fun _ =>
        ⟨fun h => (h (by trivial)).elim, fun _ => ⟨fun h => by simp at h, fun _ => ⟨fun h => by simp at h, fun _ =>
          ⟨fun _ => ?_, fun h => (h (by trivial)).elim⟩⟩⟩⟩⟩⟩⟩⟩⟩
    refine Runs.use (agree (widen (by simp) (by simp [Loose]) hv hb)) hg Later.tail2 rfl rfl fun e2 k2 l2 => ?_
    exact (ih2 rfl rfl hb rfl).use hg l2 rfl rfl
  | _ => cases hnt

/-! ### Where the reading of a file ends -/

/-- Complete statements `pre`, then at most one that is not, with the first error. -/
def Split (acc : List Node) (s : List Token) (eof : Token) (a : Node) (errs : List Token) : Prop :=
  ∃ pre rest xs ys, s = pre ++ rest ∧ Parses .program pre [] (.list .list xs) ∧ a = .list .list (acc ++ xs ++ ys) ∧
    (errs = [] → rest = [] ∧ ys = []) ∧
    (errs ≠ [] → rest ≠ [] ∧ ys.length ≤ 1 ∧ ∃ e, errs.head? = some e ∧ (e ∈ rest ∨ e = eof))

theorem Split.stop {acc : List Node} {s : List Token} {eof : Token} {ys : List Node} {errs : List Token} (hs : s ≠ [])
    (hy : ys.length ≤ 1) (he : ∃ e, errs.head? = some e ∧ (e ∈ s ∨ e = eof)) :
    Split acc s eof (.list .list (acc ++ ys)) errs := by
  refine ⟨[], s, [], ys, rfl, .endOfFile, by simp, ?_, fun _ => ⟨hs, hy, he⟩⟩
  rintro rfl
  obtain ⟨e, h, _⟩ := he
  simp at h

/-- With an error no more statement is read. -/
theorem statements_error {fuel : Nat} {acc : List Node} {st st' : PState} {a : Node} (he : st.errs ≠ [])
    (h : run fuel (.statements acc) st = some (a, st')) : a = .list .list acc ∧ st' = st := by
  cases fuel with
  | zero => cases h
  | succ n =>
    have hb : st.errs.isEmpty = false := by simpa using he
    simp only [run, body, parseStatements, Bind.bind, hasError] at h
    simp [hb, he, Pure.pure] at h
    exact ⟨h.1.symm, h.2.symm⟩

/-- A statement that was read, and what follows. -/
theorem split_next {fuel : Nat} (ih : ∀ (acc : List Node) (st : PState), Good st → st.errs = [] →
      wlp (run fuel (.statements acc)) (fun a st' => Split acc st.toks st.eof a st'.errs) st)
    {acc : List Node} {st0 st : PState} {x : Node} (hg : Good st0) (hl : Later st0 st) (hs : st0.toks ≠ [])
    (herr : st.errs = [] ∨ ∃ e, st.errs.head? = some e ∧ (e ∈ st0.toks ∨ e = st0.eof))
    (hw : st.errs = [] → ∀ pre rest xs, st.toks = pre ++ rest → Parses .program pre [] (.list .list xs) →
      ∃ q, st0.toks = q ++ rest ∧ Parses .program q [] (.list .list (x :: xs))) :
    wlp (run fuel (.statements (acc ++ [x]))) (fun a st' => Split acc st0.toks st0.eof a st'.errs) st := by
  intro a st' hr
  rcases herr with he | he
  · obtain ⟨pre, rest, xs, ys, h1, h2, h3, h4, h5⟩ := ih (acc ++ [x]) st (hg.congr hl.1 hl.2) he a st' hr
    obtain ⟨q, h6, h7⟩ := hw he pre rest xs h1 h2
    refine ⟨q, rest, x :: xs, ys, h6, h7, by simp [h3], h4, fun h => ?_⟩
    rw [← hl.2]; exact h5 h
  · have hne : st.errs ≠ [] := by obtain ⟨e, h, _⟩ := he; intro h'; simp [h'] at h
    obtain ⟨rfl, rfl⟩ := statements_error hne hr
    exact Split.stop hs (by simp) he
/-- The first error is at a token of the statement, or behind. -/
def Inside (st0 st : PState) : Prop :=
  st.errs = [] ∨ ∃ e, st.errs.head? = some e ∧ (e ∈ st0.toks ∨ e = st0.eof)

/-- A part of a statement. -/
theorem part {fuel : Nat} {c : Call} {st0 st : PState} {R : Node → PState → Prop} (hg : Good st0) (hl : Later st0 st)
    (hq : Inside st0 st)
    (k : ∀ a s', Later st0 s' → Inside st0 s' → (s'.errs = [] → st.errs = [] ∧ Meaning c st.toks s'.toks a) → R a s') :
    wlp (run fuel c) R st := by
  intro a s' hr
  obtain ⟨h1, h2⟩ := run_sound fuel c st (hg.congr hl.1 hl.2) a s' hr
  refine k a s' (hl.trans h1) ?_ h2
  rcases hq with he | ⟨e, he, hm⟩
  · rcases (run_loc fuel c).ahead st a s' he hr with h | ⟨e, h3, h4 | h4 | h4⟩
    · exact .inl h
    · exact .inr ⟨e, h3, .inl (hl.1.subset h4)⟩
    · exact .inr ⟨e, h3, .inr (by rw [h4, hl.2])⟩
    · simp at h4
  · exact .inr ⟨e, head_keeps ((run_loc fuel c).keeps st a s' hr).2 he, hm⟩

theorem cur_inside {st0 st : PState} (hl : Later st0 st) : st.cur ∈ st0.toks ∨ st.cur = st0.eof := by
  cases h : st.toks with
  | nil => exact .inr (by simp [PState.cur, h, hl.2])
  | cons t ts => exact .inl (hl.1.subset (by simp [PState.cur, h]))

theorem split (fuel : Nat) : ∀ (acc : List Node) (st : PState), Good st → st.errs = [] →
    wlp (run fuel (.statements acc)) (fun a st' => Split acc st.toks st.eof a st'.errs) st := by
  induction fuel with
  | zero => intro acc st _ _; simp [run, wlp_fail]
  | succ fuel ih =>
    intro acc st hg he
    obtain ⟨toks, eof, errs, k, m, b, sd⟩ := st
    simp only at he
    subst he
    cases toks with
    | nil =>
      have h0 : eof.type = .eof := hg.heof
      simp only [run, body, parseStatements, wlp_bind, wlp_peek, wlp_next, wlp_ite, wlp_pure, wlp_errAt, wlp_hasError]
      have h1 : (PState.cur ⟨[], eof, [], k, m, b, sd⟩).type = .eof := h0
      refine ⟨fun h => by simp at h, fun _ => ⟨fun _ => ?_, fun h => (h h1).elim⟩⟩
      exact ⟨[], [], [], [], rfl, .endOfFile, by simp, fun _ => ⟨rfl, rfl⟩, fun h => absurd rfl h⟩
    | cons t s =>
      have ht : t.type ≠ .eof := hg.noEof t (by simp)
      simp only [run, body, parseStatements, wlp_bind, wlp_peek, wlp_next, wlp_ite, wlp_pure, wlp_errAt, wlp_hasError,
        cur_cons, List.tail_cons]
      refine ⟨fun h => by simp at h, fun _ => ⟨fun h => absurd h ht, fun _ => ⟨fun h => ?_, fun _ => ⟨fun h => ?_, fun _ =>
        ⟨fun h => ?_, fun _ => ⟨fun h => ?_, fun hid => ?_⟩⟩⟩⟩⟩⟩
      · refine wlp_mono (ih acc _ (hg.congr (List.suffix_cons _ _) rfl) rfl) ?_
        rintro a s' ⟨pre, rest, xs, ys, h1, h2, h3, h4, h5⟩
        exact ⟨t :: pre, rest, xs, ys, by simpa using h1, .docString h h2, h3, h4, h5⟩
      · refine part hg (Later.tail1) (.inl rfl) fun a s1 h1 h2 h3 => ?_
        refine split_next ih hg h1 (by simp) h2 fun he pre rest xs h4 h5 => ?_
        have hp := (h3 he).2 (by simp)
        rw [h4] at hp
        obtain ⟨q, h6, h7⟩ := narrow (by simp) hp
        simp only at h6
        exact ⟨t :: (q ++ pre), by simp [h6], .listStatement h h7 h5⟩
      · refine part hg (Later.tail1) (.inl rfl) fun a s1 h1 h2 h3 => ?_
        refine ⟨fun h4 => ?_, fun h4 => ?_⟩
        · have := Split.stop (acc := acc) (ys := []) (s := t :: s) (eof := eof) (errs := s1.errs ++ [s1.cur]) (by simp) (by simp) (by
            rcases h2 with h2 | ⟨e, h2, h5⟩
            · exact ⟨s1.cur, by simp [h2], cur_inside h1⟩
            · exact ⟨e, head_keeps (List.prefix_append _ _) h2, h5⟩)
          simpa using this
        · simp only [ne_eq, Decidable.not_not] at h4
          have hc1 := toks_cons hg h1 (by rw [h4]; simp)
          refine part hg (h1.trans ⟨List.tail_suffix _, rfl⟩) h2 fun b s2 l2 h5 h6 => ?_
          refine split_next ih hg l2 (by simp) h5 fun he pre rest xs h7 h8 => ?_
          obtain ⟨he1, hp⟩ := h6 he
          obtain ⟨ys, e1, hv⟩ := (h3 he1).2 (by simp)
          simp only [List.nil_append] at e1
          simp only [Meaning] at hp
          rw [h7] at hp
          obtain ⟨q, h9, h10⟩ := narrow (by simp) hp
          rw [hc1, h9] at hv
          have hv' : Parses (.items .tuple .variable (.op ')')) s ((s1.cur :: (q ++ pre)) ++ rest) (.list .tuple ys) := by
            simpa [itemOf] using hv
          obtain ⟨q', h11, h12⟩ := narrow (by simp) hv'
          exact ⟨t :: (q' ++ (s1.cur :: (q ++ pre))), by simp [h11], .tupleAssign h (e1 ▸ h12) h4 h10 h8⟩
      · have := Split.stop (acc := acc) (ys := []) (s := t :: s) (eof := eof) (errs := [] ++ [t]) (by simp) (by simp)
          ⟨t, by simp, .inl (by simp)⟩
        simpa using this
      · simp only [ne_eq, Decidable.not_not] at hid
        have key : ∀ x, x ≠ .eof → (PState.cur ⟨s, eof, [], k + 1, m, b, sd⟩).type = x →
            s = PState.cur ⟨s, eof, [], k + 1, m, b, sd⟩ :: s.tail := by
          intro x hx h
          exact toks_cons hg (st := ⟨s, eof, [], k + 1, m, b, sd⟩) (by exact .tail1) (by rw [h]; exact hx)
        refine ⟨fun h => ?_, fun _ => ⟨fun h => ?_, fun _ => ⟨fun h => ?_, fun _ => ?_⟩⟩⟩
        · obtain ⟨d, s, rfl⟩ : ∃ d s', s = d :: s' := ⟨_, _, key _ (by simp) h⟩
          simp only [cur_cons, List.tail_cons] at h ⊢
          refine part hg .tail2 (.inl rfl) fun a s1 h1 h2 h3 => ?_
          refine split_next ih hg h1 (by simp) h2 fun he pre rest xs h4 h5 => ?_
          have hp := (h3 he).2
          simp only [Meaning] at hp
          rw [h4] at hp
          obtain ⟨q, h6, h7⟩ := narrow (by simp) hp
          exact ⟨t :: d :: (q ++ pre), by simp [h6], .assign hid h h7 h5⟩
        · obtain ⟨d, s, rfl⟩ : ∃ d s', s = d :: s' := ⟨_, _, key _ (by simp) h⟩
          simp only [cur_cons, List.tail_cons] at h ⊢
          refine part hg .tail2 (.inl rfl) fun a s1 h1 h2 h3 => ?_
          refine split_next ih hg h1 (by simp) h2 fun he pre rest xs h4 h5 => ?_
          obtain ⟨args, rfl, hp⟩ := (h3 he).2
          rw [h4] at hp
          obtain ⟨q, h6, h7⟩ := narrow (by simp) hp
          simp only [List.append_assoc] at h6
          exact ⟨t :: d :: (q ++ pre), by simp [h6], .rule hid h h7 h5⟩
        · obtain ⟨d, s, rfl⟩ : ∃ d s', s = d :: s' := ⟨_, _, key _ (by simp) h⟩
          simp only [cur_cons, List.tail_cons] at h ⊢
          refine part hg .tail2 (.inl rfl) fun a s1 h1 h2 h3 => ?_
          refine split_next ih hg h1 (by simp) h2 fun he pre rest xs h4 h5 => ?_
          have hp := (h3 he).2
          simp only [Meaning] at hp
          rw [h4] at hp
          obtain ⟨q, h6, h7⟩ := narrow (by simp) hp
          exact ⟨t :: d :: (q ++ pre), by simp [h6], .method hid h h7 h5⟩
        · have := Split.stop (acc := acc) (ys := []) (s := t :: s) (eof := eof)
            (errs := [] ++ [PState.cur ⟨s, eof, [], k + 1, m, b, sd⟩]) (by simp) (by simp)
            ⟨_, by simp, cur_inside (st0 := ⟨t :: s, eof, [], k, m, b, sd⟩) (st := ⟨s, eof, [], k + 1, m, b, sd⟩) .tail1⟩
          simpa [PState.cur] using this

/-! ### What follows, as if it was alone -/

/-- What was read before only stands in front. -/
theorem statements_before (fuel : Nat) : ∀ (acc0 acc : List Node) (st : PState),
    (∀ xs st', run fuel (.statements acc) st = some (.list .list xs, st') →
      run fuel (.statements (acc0 ++ acc)) st = some (.list .list (acc0 ++ xs), st')) := by
  induction fuel with
  | zero => intro _ _ _ _ _ h; cases h
  | succ n ih =>
    intro acc0 acc st xs st' h
    simp only [run, body, parseStatements] at h ⊢
    obtain ⟨b, s1, h1, h⟩ := bind_some h
    simp only [Bind.bind, h1]
    split at h
    · rename_i hb
      rw [if_pos hb]
      cases h; rfl
    rename_i hb
    rw [if_neg hb]
    obtain ⟨t, s2, h2, h⟩ := bind_some h
    simp only [h2]
    split at h
    · rename_i hb; rw [if_pos hb]; cases h; rfl
    rename_i hb; rw [if_neg hb]
    split at h
    · rename_i hb; rw [if_pos hb]; exact ih _ _ _ _ _ h
    rename_i hb; rw [if_neg hb]
    split at h
    · rename_i hb; rw [if_pos hb]
      obtain ⟨x, s3, h3, h⟩ := bind_some h
      simp only [h3]
      simpa using ih acc0 _ _ _ _ h
    rename_i hb; rw [if_neg hb]
    split at h
    · rename_i hb; rw [if_pos hb]
      obtain ⟨x, s3, h3, h⟩ := bind_some h
      obtain ⟨u, s4, h4, h⟩ := bind_some h
      simp only [h3, h4]
      split at h
      · rename_i hb; rw [if_pos hb]
        obtain ⟨u, s4, h4, h⟩ := bind_some h
        simp only [h4]
        cases h; rfl
      rename_i hb; rw [if_neg hb]
      obtain ⟨x, s3, h3, h⟩ := bind_some h
      simp only [h3]
      simpa using ih acc0 _ _ _ _ h
    rename_i hb; rw [if_neg hb]
    split at h
    · rename_i hb; rw [if_pos hb]
      obtain ⟨u, s4, h4, h⟩ := bind_some h
      simp only [h4]
      cases h; rfl
    rename_i hb; rw [if_neg hb]
    obtain ⟨u, s4, h4, h⟩ := bind_some h
    simp only [h4]
    split at h
    · rename_i hb; rw [if_pos hb]
      obtain ⟨x, s3, h3, h⟩ := bind_some h
      simp only [h3]
      simpa using ih acc0 _ _ _ _ h
    rename_i hb; rw [if_neg hb]
    split at h
    · rename_i hb; rw [if_pos hb]
      obtain ⟨x, s3, h3, h⟩ := bind_some h
      simp only [h3]
      simpa using ih acc0 _ _ _ _ h
    rename_i hb; rw [if_neg hb]
    split at h
    · rename_i hb; rw [if_pos hb]
      obtain ⟨x, s3, h3, h⟩ := bind_some h
      simp only [h3]
      simpa using ih acc0 _ _ _ _ h
    rename_i hb; rw [if_neg hb]
    obtain ⟨u, s4, h4, h⟩ := bind_some h
    simp only [h4]
    cases h; rfl

end Broken
end Bant
