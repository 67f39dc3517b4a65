import Verif.Lemmas.Query

/-! Calls in parsed files are well-formed, also if there are syntax errors. -/
namespace Bant
namespace ParserCalls
open Parser Query Rules

mutual
/-- Each call in a tree has a name and a list of arguments. -/
def callsOk : Node → Bool
  | .unary _ e => callsOk e
  | .binop _ l r => callsOk l && callsOk r
  | .list _ xs => callsOkAll xs
  | .compr _ f => callsOk f
  | .ternary c p n => callsOk c && callsOk p && callsOk n
  | .assign l r => callsOk l && callsOk r
  | .call (.ident _) (.list _ xs) => callsOkAll xs
  | .call _ _ => false
  | _ => true
def callsOkAll : List Node → Bool
  | [] => true
  | x :: xs => callsOk x && callsOkAll xs
end

theorem callsOkAll_iff {xs : List Node} : callsOkAll xs = true ↔ ∀ x ∈ xs, callsOk x = true := by
  induction xs with
  | nil => simp [callsOkAll]
  | cons x xs ih => simp [callsOkAll, ih]

/-- All results of an action. -/
def Yields {α : Type} (Q : α → Prop) (m : P α) : Prop := ∀ s a s', m s = some (a, s') → Q a

theorem Yields.bind {α β : Type} {R : α → Prop} {Q : β → Prop} {m : P α} {f : α → P β}
    (h : Yields R m) (hf : ∀ a, R a → Yields Q (f a)) : Yields Q (m >>= f) := by
  intro s b s' e
  simp only [Bind.bind] at e
  split at e
  · next a s1 h1 => exact hf a (h _ _ _ h1) _ _ _ e
  · cases e

theorem Yields.any {α : Type} {m : P α} : Yields (fun _ => True) m := fun _ _ _ _ => trivial

theorem Yields.pure {α : Type} {Q : α → Prop} {a : α} (h : Q a) : Yields Q (Pure.pure a : P α) := by
  intro s b s' e
  cases e
  exact h

theorem Yields.fail {α : Type} {Q : α → Prop} : Yields Q (Parser.fail : P α) := by
  intro s b s' e
  cases e

theorem Yields.ite {α : Type} {Q : α → Prop} {c : Prop} [Decidable c] {m1 m2 : P α}
    (h1 : c → Yields Q m1) (h2 : ¬ c → Yields Q m2) : Yields Q (if c then m1 else m2) := by
  by_cases h : c
  · rw [if_pos h]; exact h1 h
  · rw [if_neg h]; exact h2 h

/-- What is given to a call. -/
def Given : Call → Prop
  | .suffix n => callsOk n = true
  | .ifElse n => callsOk n = true
  | .tupleRest acc => callsOkAll acc = true
  | .list _ acc _ _ => callsOkAll acc = true
  | .comprFor tree target _ => callsOk tree = true ∧ callsOk target = true
  | .statements acc => callsOkAll acc = true
  | _ => True

/-- What a call returns. -/
def Returned : Call → Node → Prop
  | .list ty _ _ _, n => ∃ xs, n = .list ty xs ∧ callsOkAll xs = true
  | .statements _, n => ∃ xs, n = .list .list xs ∧ callsOkAll xs = true
  | _, n => callsOk n = true

theorem Returned.ok {c : Call} {n : Node} (h : Returned c n) : callsOk n = true := by
  cases c <;> first | exact h | (obtain ⟨xs, rfl, h⟩ := h; exact h)

theorem append_ok {acc : List Node} {n : Node} (h : callsOkAll acc = true) (hn : callsOk n = true) :
    callsOkAll (acc ++ [n]) = true := by
  rw [callsOkAll_iff] at h ⊢
  intro x hx
  rcases List.mem_append.1 hx with hx | hx
  · exact h x hx
  · rw [List.mem_singleton.1 hx]; exact hn

section
variable {call : Call → P Node} (hc : ∀ c, Given c → Yields (Returned c) (call c))

include hc in
theorem body_calls (c : Call) (hg : Given c) : Yields (Returned c) (body call c) := by
  have ok : ∀ c, Given c → Yields (fun n => callsOk n = true) (call c) :=
    fun c h s a s' e => (hc c h s a s' e).ok
  have lit : ∀ {t n}, strFromLiteral t = some n → callsOk n = true := by
    intro t n h
    unfold strFromLiteral at h
    simp only [] at h
    split at h
    · cases h; rfl
    · split at h
      · cases h; rfl
      · cases h
  have int : ∀ {t n}, intFromLiteral t = some n → callsOk n = true := by
    intro t n h
    unfold intFromLiteral at h
    split at h
    · cases h; rfl
    · cases h
  cases c
  case funCall name =>
    simp only [body, parseFunCall]
    refine Yields.bind (hc _ rfl) fun a ha => Yields.pure ?_
    obtain ⟨xs, rfl, h⟩ := ha
    exact h
  case list ty acc e endTok =>
    simp only [body, parseList]
    refine Yields.bind Yields.any fun t _ => Yields.ite (fun _ => ?_) (fun _ => ?_)
    · exact Yields.bind Yields.any fun _ _ => Yields.pure ⟨_, rfl, hg⟩
    · refine Yields.bind (ok _ trivial) fun x hx => ?_
      have ha := append_ok hg hx
      refine Yields.bind Yields.any fun t _ => Yields.ite (fun _ => ?_) (fun _ => Yields.ite (fun _ => ?_) (fun _ => ?_))
      · refine Yields.bind Yields.any fun _ _ => ?_
        exact hc (.list ty (acc ++ [x]) e endTok) ha
      · exact Yields.bind Yields.any fun _ _ => Yields.bind Yields.any fun _ _ => Yields.pure ⟨_, rfl, ha⟩
      · exact Yields.bind Yields.any fun _ _ => Yields.pure ⟨_, rfl, ha⟩
  case statements acc =>
    have stop : Yields (Returned (.statements acc)) (Pure.pure (.list .list acc) : P Node) := Yields.pure ⟨_, rfl, hg⟩
    have go : ∀ {n}, callsOk n = true → Yields (Returned (.statements acc)) (call (.statements (acc ++ [n]))) :=
      fun h => hc (.statements (acc ++ [_])) (append_ok hg h)
    simp only [body, parseStatements]
    refine Yields.bind Yields.any fun t _ => Yields.ite (fun _ => stop) (fun _ => ?_)
    refine Yields.bind Yields.any fun t _ => Yields.ite (fun _ => stop) (fun _ => ?_)
    refine Yields.ite (fun _ => hc (.statements acc) hg) (fun _ => ?_)
    refine Yields.ite (fun _ => Yields.bind (ok _ trivial) fun _ h => go h) (fun _ => ?_)
    refine Yields.ite (fun _ => ?_) (fun _ => ?_)
    · refine Yields.bind (ok _ rfl) fun _ h => Yields.bind Yields.any fun _ _ => Yields.ite (fun _ => ?_) (fun _ => ?_)
      · exact Yields.bind Yields.any fun _ _ => stop
      · exact Yields.bind (ok _ trivial) fun _ h2 => go (by simp [callsOk, h, h2])
    refine Yields.ite (fun _ => Yields.bind Yields.any fun _ _ => stop) (fun _ => ?_)
    refine Yields.bind Yields.any fun t _ => Yields.ite (fun _ => ?_) (fun _ => ?_)
    · exact Yields.bind (ok _ trivial) fun _ h2 => go (by simp [callsOk, h2])
    refine Yields.ite (fun _ => Yields.bind (ok _ trivial) fun _ h2 => go h2) (fun _ => ?_)
    refine Yields.ite (fun _ => Yields.bind (ok _ trivial) fun _ h2 => go (by simp [callsOk, h2])) (fun _ => ?_)
    exact Yields.bind Yields.any fun _ _ => stop
  case suffix n =>
    simp only [body, parseSuffix]
    refine Yields.bind Yields.any fun t _ => Yields.ite (fun _ => ok (.ifElse n) hg) (fun _ => Yields.ite (fun _ => ?_) (fun _ => Yields.ite (fun _ => ?_) (fun _ => Yields.pure hg)))
    · exact Yields.bind Yields.any fun _ _ => Yields.bind (ok _ trivial) fun _ h => Yields.pure (by
        simp only [Given] at hg; simp [Returned, callsOk, h, hg])
    · refine Yields.ite (fun _ => Yields.pure hg) (fun _ => ?_)
      exact Yields.bind Yields.any fun _ _ => Yields.bind (ok _ trivial) fun _ h => ok (.suffix _) (by
        simp only [Given] at hg; simp [Given, callsOk, h, hg])
  case comprFor tree target endTok =>
    obtain ⟨h1, h2⟩ := hg
    simp only [body, parseComprFor]
    have next : ∀ {a b : Node}, callsOk a = true → callsOk b = true → Yields (Returned (.comprFor tree target endTok))
        (call (.comprFor (.binop .kFor target (.binop .kIn a b)) (.binop .kFor target (.binop .kIn a b)) endTok)) := by
      intro a b ha hb
      exact ok (.comprFor _ _ _) (by simp [Given, callsOk, h2, ha, hb])
    refine Yields.bind Yields.any fun t _ => Yields.ite (fun _ => Yields.bind Yields.any fun _ _ =>
      Yields.bind Yields.any fun _ _ => Yields.ite (fun _ => ?_) (fun _ => ?_)) (fun _ => ?_)
    · refine Yields.bind Yields.any fun _ _ => Yields.bind (ok _ rfl) fun a ha => Yields.bind Yields.any fun _ _ => ?_
      have rest : Yields (Returned (.comprFor tree target endTok)) (do
          let values ← call (.expression false)
          let _ ← peek
          call (.comprFor (.binop .kFor target (.binop .kIn a values)) (.binop .kFor target (.binop .kIn a values)) endTok)) :=
        Yields.bind (ok _ trivial) fun _ hb => Yields.bind Yields.any fun _ _ => next ha hb
      exact Yields.ite (fun _ => Yields.bind Yields.any fun _ _ => rest) (fun _ => rest)
    · exact Yields.bind (ok _ rfl) fun _ ha => Yields.bind (ok _ trivial) fun _ hb =>
        Yields.bind Yields.any fun _ _ => next ha hb
    · exact Yields.bind Yields.any fun _ _ => Yields.ite (fun _ => Yields.bind Yields.any fun _ _ => Yields.pure rfl)
        (fun _ => Yields.pure h1)
  case elem e =>
    cases e
    · exact ok _ trivial
    · simp only [body, parseElem, expressionOrAssignment]
      refine Yields.bind (ok _ trivial) fun v hv => Yields.ite (fun _ => Yields.pure rfl) (fun _ => ?_)
      refine Yields.bind Yields.any fun _ _ => Yields.ite (fun _ => ?_) (fun _ => Yields.pure hv)
      exact Yields.bind Yields.any fun _ _ => Yields.bind (ok _ trivial) fun _ h => Yields.pure (by
        simp [Returned, callsOk, h, hv])
    · simp only [body, parseElem, parseMapTuple]
      refine Yields.bind (ok _ trivial) fun v hv => Yields.bind Yields.any fun _ _ => Yields.ite (fun _ => ?_) (fun _ => ?_)
      · exact Yields.bind Yields.any fun _ _ => Yields.pure rfl
      · exact Yields.bind (ok _ trivial) fun _ h => Yields.pure (by simp [Returned, callsOk, h, hv])
    · simp only [body, parseElem, parseOptionalIdentifier]
      exact Yields.bind Yields.any fun _ _ => Yields.ite (fun _ => Yields.bind Yields.any fun _ _ => Yields.pure rfl)
        (fun _ => Yields.pure rfl)
  case expression opt =>
    simp only [body, parseExpression]
    refine Yields.bind Yields.any fun _ _ => Yields.ite (fun _ => ?_) (fun _ => Yields.ite (fun _ => ?_) (fun _ => ?_))
    · exact Yields.bind Yields.any fun _ _ => Yields.bind (ok _ trivial) fun _ h => ok (.suffix _) h
    · exact Yields.bind (ok _ trivial) fun _ h => Yields.ite (fun _ => Yields.pure rfl) (fun _ => ok (.suffix _) h)
    · exact Yields.bind (ok _ trivial) fun _ h => Yields.ite (fun _ => Yields.pure rfl) (fun _ => ok (.suffix _) h)
  case ifElse n =>
    simp only [Given] at hg
    simp only [body, parseIfElse]
    refine Yields.bind Yields.any fun _ _ => Yields.ite (fun _ => Yields.fail) (fun _ => ?_)
    refine Yields.bind (ok _ trivial) fun _ h => Yields.bind Yields.any fun _ _ => Yields.ite (fun _ => ?_) (fun _ => ?_)
    · exact Yields.bind Yields.any fun _ _ => Yields.bind (ok _ trivial) fun _ h2 => Yields.pure (by
        simp [Returned, callsOk, h, hg, h2])
    · exact Yields.pure (by simp [Returned, callsOk, h, hg])
  case arrayAccess =>
    simp only [body, parseArrayAccess]
    refine Yields.bind (ok _ trivial) fun n hn => Yields.bind Yields.any fun _ _ => Yields.ite (fun _ => ?_) (fun _ => Yields.ite (fun _ => ?_) (fun _ => ?_))
    · exact Yields.ite (fun _ => Yields.bind Yields.any fun _ _ => Yields.pure hn) (fun _ => Yields.pure hn)
    · refine Yields.bind (ok _ trivial) fun r hr => Yields.bind Yields.any fun _ _ => Yields.ite (fun _ => ?_) (fun _ => Yields.ite (fun _ => ?_) (fun _ => ?_))
      · exact Yields.bind Yields.any fun _ _ => Yields.pure rfl
      · exact Yields.bind Yields.any fun _ _ => Yields.pure rfl
      · exact Yields.pure (by simp [Returned, callsOk, hn, hr])
    · exact Yields.bind Yields.any fun _ _ => Yields.pure rfl
  case value opt =>
    simp only [body, parseValue]
    refine Yields.bind Yields.any fun _ _ => Yields.ite (fun _ => ?_) (fun _ => Yields.ite (fun _ => ?_) (fun _ =>
      Yields.ite (fun _ => ?_) (fun _ => Yields.ite (fun _ => ?_) (fun _ => Yields.ite (fun _ => ?_) (fun _ => ?_)))))
    · refine Yields.bind Yields.any fun t _ => ?_
      cases h : strFromLiteral t.text with
      | none => exact Yields.fail
      | some n => exact Yields.pure (lit h)
    · refine Yields.bind Yields.any fun t _ => ?_
      cases h : intFromLiteral t.text with
      | none => exact Yields.bind Yields.any fun _ _ => Yields.pure rfl
      | some n => exact Yields.pure (int h)
    · exact Yields.bind Yields.any fun _ _ => Yields.bind Yields.any fun _ _ => Yields.ite
        (fun _ => Yields.bind Yields.any fun _ _ => ok _ trivial) (fun _ => Yields.pure rfl)
    · exact Yields.bind Yields.any fun _ _ => ok _ trivial
    · exact Yields.bind Yields.any fun _ _ => ok _ trivial
    · exact Yields.ite (fun _ => Yields.pure rfl) (fun _ => Yields.bind Yields.any fun _ _ => Yields.pure rfl)
  case paren =>
    simp only [body, parseParen]
    refine Yields.bind Yields.any fun _ _ => Yields.ite (fun _ => Yields.fail) (fun _ => ?_)
    refine Yields.bind (ok _ trivial) fun n hn => Yields.bind Yields.any fun _ _ => Yields.ite (fun _ => ?_) (fun _ => Yields.ite (fun _ => ?_) (fun _ => ?_))
    · exact Yields.bind Yields.any fun _ _ => Yields.pure hn
    · exact Yields.bind Yields.any fun _ _ => Yields.ite (fun _ => Yields.bind Yields.any fun _ _ => Yields.pure rfl)
        (fun _ => Yields.pure rfl)
    · exact ok (.tupleRest _) (by simp [Given, callsOkAll, hn])
  case tupleRest acc =>
    have stop : Yields (Returned (.tupleRest acc)) (Pure.pure (.list .tuple acc) : P Node) := Yields.pure hg
    simp only [body, parseTupleRest]
    refine Yields.bind Yields.any fun _ _ => Yields.ite (fun _ => stop) (fun _ => Yields.ite (fun _ => ?_) (fun _ => ?_))
    · exact Yields.bind Yields.any fun _ _ => stop
    · refine Yields.bind Yields.any fun _ _ => Yields.ite (fun _ => Yields.bind Yields.any fun _ _ => stop) (fun _ => ?_)
      exact Yields.bind (ok _ trivial) fun _ h => ok (.tupleRest _) (append_ok hg h)
  case listOrCompr ty e =>
    simp only [body, parseListOrCompr]
    refine Yields.bind Yields.any fun _ _ => Yields.ite (fun _ => ?_) (fun _ => ?_)
    · exact Yields.bind Yields.any fun _ _ => Yields.pure rfl
    · refine Yields.bind (ok _ trivial) fun n hn => Yields.ite (fun _ => Yields.pure rfl) (fun _ => ?_)
      have go := ok (.list ty [n] e (endTokenFor ty)) (by simp [Given, callsOkAll, hn])
      refine Yields.bind Yields.any fun _ _ => Yields.ite (fun _ => ?_) (fun _ => Yields.ite (fun _ => ?_) (fun _ => Yields.ite (fun _ => ?_) (fun _ => go)))
      · exact Yields.bind (ok (.comprFor _ _ _) ⟨rfl, hn⟩) fun _ h => Yields.pure h
      · exact Yields.bind Yields.any fun _ _ => go
      · exact Yields.bind Yields.any fun _ _ => Yields.bind Yields.any fun _ _ => go
end

theorem run_calls (n : Nat) (c : Call) (hg : Given c) : Yields (Returned c) (run n c) := by
  induction n generalizing c with
  | zero => exact Yields.fail
  | succ n ih => exact body_calls ih c hg

/-- Whatever the text, the result is a list of statements in which calls are well-formed. -/
theorem parseFile_calls {content : Str} {ast : Node} {st : PState} (h : parseFile content = some (ast, st)) :
    ∃ stmts, ast = .list .list stmts ∧ callsOkAll stmts = true :=
  run_calls _ (.statements []) rfl _ _ _ h

mutual
theorem callsOk_sites (n : Node) (h : callsOk n = true) : ∀ s ∈ sites n, Proper s := by
  cases n with
  | null => simp [sites]
  | str => simp [sites]
  | int => simp [sites]
  | ident => simp [sites]
  | unary op e => exact callsOk_sites e h
  | binop op a b =>
    simp only [callsOk, Bool.and_eq_true] at h
    intro s hs
    simp only [sites, List.mem_append] at hs
    exact hs.elim (callsOk_sites a h.1 s) (callsOk_sites b h.2 s)
  | list ty xs => exact callsOkAll_sites xs h
  | compr ty e => exact callsOk_sites e h
  | ternary a b c =>
    simp only [callsOk, Bool.and_eq_true] at h
    intro s hs
    simp only [sites, List.mem_append] at hs
    exact hs.elim (fun hs => hs.elim (callsOk_sites a h.1.1 s) (callsOk_sites b h.1.2 s)) (callsOk_sites c h.2 s)
  | assign => simp [sites]
  | call f args =>
    intro s hs
    simp only [sites, List.mem_singleton] at hs
    rw [hs]
    unfold callsOk at h
    split at h <;> first | (simp_all; done) | (simp_all; exact ⟨_, _, _, rfl⟩)
theorem callsOkAll_sites (xs : List Node) (h : callsOkAll xs = true) : ∀ s ∈ sitesIn xs, Proper s := by
  cases xs with
  | nil => simp [sitesIn]
  | cons x xs =>
    simp only [callsOkAll, Bool.and_eq_true] at h
    intro s hs
    simp only [sitesIn, List.mem_append] at hs
    exact hs.elim (callsOk_sites x h.1 s) (callsOkAll_sites xs h.2 s)
end

/-! ### After elaboration -/
open Elab

theorem callsOkAll_append {xs ys : List Node} (h1 : callsOkAll xs = true) (h2 : callsOkAll ys = true) :
    callsOkAll (xs ++ ys) = true := by
  rw [callsOkAll_iff] at *
  intro x hx
  exact (List.mem_append.1 hx).elim (h1 x) (h2 x)

theorem plus_calls {l r n : Node} (h : plus l r = some n) (hl : callsOk l = true) (hr : callsOk r = true) :
    callsOk n = true := by
  have hb : callsOk (.binop (.op '+') l r) = true := by simp [callsOk, hl, hr]
  unfold plus at h
  split at h
  · cases h
  · split at h
    · split at h
      · cases h; exact callsOkAll_append hl hr
      · cases h; exact hb
    · cases h; exact hl
    · cases h; exact hr
    · cases h; rfl
    · cases h; exact hb

theorem selectEntry_calls {xs : List Node} {v : Node} (h : selectEntry xs = some (some v))
    (hx : callsOkAll xs = true) : callsOk v = true := by
  induction xs with
  | nil => cases h
  | cons x xs ih =>
    simp only [callsOkAll, Bool.and_eq_true] at hx
    unfold selectEntry at h
    split at h
    · cases h
    · cases h
    · next he =>
      cases he
      simp only [callsOk, Bool.and_eq_true] at hx
      split at h
      · split at h
        · cases h
        · split at h
          · cases h; exact hx.1.2
          · exact ih h hx.2
      · exact ih h hx.2
    · next he => cases he; exact ih h hx.2

theorem selectArgs_calls {xs : List Node} {v : Node} (h : selectArgs xs = some (some v))
    (hx : callsOkAll xs = true) : callsOk v = true := by
  induction xs with
  | nil => cases h
  | cons x xs ih =>
    simp only [callsOkAll, Bool.and_eq_true] at hx
    unfold selectArgs at h
    split at h
    · cases h
    · cases h
    · next he =>
      cases he
      split at h
      · cases h
      · next hs => cases h; exact selectEntry_calls hs hx.1
      · exact ih h hx.2
    · next he => cases he; exact ih h hx.2

/-- Variables whose values are well-formed. -/
def VarsCalls (vars : Vars) : Prop := ∀ e ∈ vars, callsOk e.2 = true

theorem VarsCalls.find {vars : Vars} (h : VarsCalls vars) {i : Str} : callsOk ((vars.find i).getD (.ident i)) = true := by
  unfold Vars.find
  cases hf : vars.find? (fun v => v.1 = i) with
  | none => rfl
  | some e => exact h e (List.mem_of_find?_eq_some hf)

theorem finishCall_calls {glob : GlobFn} {fn args n : Node} (h : finishCall glob fn args = some n) {ty : ListType}
    {xs : List Node} (ha : args = .list ty xs) (hx : callsOkAll xs = true) : callsOk n = true := by
  subst ha
  unfold finishCall at h
  split at h
  · split at h
    · unfold handleGlob at h
      simp only [Option.bind_eq_bind, Option.bind_eq_some_iff, Option.some.injEq] at h
      obtain ⟨_, _, _, _, _, _, rfl⟩ := h
      simp only [callsOk, callsOkAll_iff, List.mem_map]
      rintro _ ⟨_, _, rfl⟩
      rfl
    · split at h
      · simp only [] at h
        split at h
        · cases h
        · next he => cases h; exact selectArgs_calls he hx
        · cases h; exact hx
      · cases h; exact hx
  · cases h

mutual
theorem walk_calls (glob : GlobFn) (n : Node) (nest : Nat) (vars : Vars) (r : Node × Vars)
    (hv : VarsCalls vars) (hn : callsOk n = true) (h : walk glob nest vars n = some r) :
    (callsOk r.1 = true ∧ ∀ ty xs, n = .list ty xs → ∃ ys, r.1 = .list ty ys) ∧ VarsCalls r.2 := by
  cases n with
  | null => cases h; exact ⟨⟨rfl, by simp⟩, hv⟩
  | str => cases h; exact ⟨⟨rfl, by simp⟩, hv⟩
  | int => cases h; exact ⟨⟨rfl, by simp⟩, hv⟩
  | ident i => cases h; exact ⟨⟨hv.find, by simp⟩, hv⟩
  | unary op e =>
    rw [walk] at h
    split at h
    · cases h
    · next e' vars' he =>
      cases h
      obtain ⟨⟨h1, _⟩, h2⟩ := walk_calls glob e nest vars _ hv hn he
      exact ⟨⟨h1, by simp⟩, h2⟩
  | binop op a b =>
    simp only [callsOk, Bool.and_eq_true] at hn
    rw [walk] at h
    split at h
    · cases h
    · next a' vars1 ha =>
      obtain ⟨⟨h1, _⟩, h2⟩ := walk_calls glob a nest vars _ hv hn.1 ha
      split at h
      · cases h
      · next b' vars2 hb =>
        obtain ⟨⟨h3, _⟩, h4⟩ := walk_calls glob b nest vars1 _ h2 hn.2 hb
        split at h
        · split at h
          · cases h
          · next hp =>
            cases h
            exact ⟨⟨plus_calls hp h1 h3, by simp⟩, h4⟩
        · cases h
          simp only at h1 h3
          exact ⟨⟨by simp [callsOk, h1, h3], by simp⟩, h4⟩
  | list ty xs =>
    rw [walk] at h
    split at h
    · cases h
    · next xs' vars' he =>
      cases h
      obtain ⟨h1, h2⟩ := walks_calls glob xs nest vars _ hv hn he
      exact ⟨⟨h1, fun ty xs e => by cases e; exact ⟨_, rfl⟩⟩, h2⟩
  | compr ty f =>
    rw [walk] at h
    split at h
    · cases h
    · next f' vars' he =>
      obtain ⟨⟨h1, _⟩, h2⟩ := walk_calls glob f nest vars _ hv hn he
      split at h
      · cases h
      · next n hf =>
        cases h
        refine ⟨⟨?_, by simp⟩, h2⟩
        simp only at h1
        unfold finishCompr at hf
        split at hf <;> cases hf <;> exact h1
  | ternary a b c =>
    simp only [callsOk, Bool.and_eq_true] at hn
    rw [walk] at h
    split at h
    · cases h
    · next a' vars1 ha =>
      obtain ⟨⟨h1, _⟩, h2⟩ := walk_calls glob a nest vars _ hv hn.1.1 ha
      split at h
      · cases h
      · next b' vars2 hb =>
        obtain ⟨⟨h3, _⟩, h4⟩ := walk_calls glob b nest vars1 _ h2 hn.1.2 hb
        split at h
        · cases h
        · next c' vars3 hc =>
          obtain ⟨⟨h5, _⟩, h6⟩ := walk_calls glob c nest vars2 _ h4 hn.2 hc
          cases h
          simp only at h1 h3 h5
          exact ⟨⟨by simp [callsOk, h1, h3, h5], by simp⟩, h6⟩
  | assign l r' =>
    simp only [callsOk, Bool.and_eq_true] at hn
    rw [walk] at h
    split at h
    · cases h
    · next r1 vars1 hr =>
      obtain ⟨⟨h1, _⟩, h2⟩ := walk_calls glob r' nest vars _ hv hn.2 hr
      simp only at h1 h2
      have hok : callsOk (.assign l r1) = true := by simp [callsOk, hn.1, h1]
      split at h
      · cases h
        refine ⟨⟨hok, by simp⟩, ?_⟩
        simp only []
        split
        · intro e he
          rcases List.mem_cons.1 he with rfl | he
          · exact h1
          · exact h2 e he
        · exact h2
      · cases h
        exact ⟨⟨hok, by simp⟩, h2⟩
  | call fn args =>
    have hshape : ∃ i ty xs, fn = .ident i ∧ args = .list ty xs ∧ callsOkAll xs = true := by
      unfold callsOk at hn
      split at hn <;> first | (simp_all; done) | (simp_all; exact ⟨_, _, ⟨rfl, rfl⟩, hn⟩)
    obtain ⟨i, ty, xs, rfl, rfl, hx⟩ := hshape
    rw [walk] at h
    split at h
    · cases h
    · next f' vars1 hf =>
      obtain ⟨_, h2⟩ := walk_calls glob (.ident i) (nest + 1) vars _ hv rfl hf
      split at h
      · cases h
      · next a' vars2 ha =>
        obtain ⟨⟨h3, h4⟩, h5⟩ := walk_calls glob (.list ty xs) (nest + 1) vars1 _ h2 hx ha
        obtain ⟨ys, h4⟩ := h4 ty xs rfl
        simp only at h3 h4
        split at h
        · cases h
        · next n hc =>
          cases h
          refine ⟨⟨finishCall_calls hc h4 ?_, by simp⟩, h5⟩
          rw [h4] at h3
          exact h3
theorem walks_calls (glob : GlobFn) (xs : List Node) (nest : Nat) (vars : Vars) (r : List Node × Vars)
    (hv : VarsCalls vars) (hn : callsOkAll xs = true) (h : walks glob nest vars xs = some r) :
    callsOkAll r.1 = true ∧ VarsCalls r.2 := by
  cases xs with
  | nil => cases h; exact ⟨rfl, hv⟩
  | cons x xs =>
    simp only [callsOkAll, Bool.and_eq_true] at hn
    rw [walks] at h
    split at h
    · cases h
    · next x' vars1 hx =>
      obtain ⟨⟨h1, _⟩, h2⟩ := walk_calls glob x nest vars _ hv hn.1 hx
      split at h
      · cases h
      · next xs' vars2 hxs =>
        obtain ⟨h3, h4⟩ := walks_calls glob xs nest vars1 _ h2 hn.2 hxs
        cases h
        simp only at h1 h3
        exact ⟨by simp [callsOkAll, h1, h3], h4⟩
end

theorem elabFile_calls {glob : GlobFn} {stmts : List Node} {out : Node} (hc : callsOkAll stmts = true)
    (h : elabFile glob (.list .list stmts) = some out) : ∃ xs, out = .list .list xs ∧ callsOkAll xs = true := by
  obtain ⟨r, hr, rfl⟩ := Option.map_eq_some_iff.1 h
  obtain ⟨⟨h1, h2⟩, _⟩ := walk_calls glob (.list .list stmts) 0 [] r (by simp [VarsCalls]) hc hr
  obtain ⟨xs, h3⟩ := h2 _ _ rfl
  exact ⟨xs, h3, by rw [h3] at h1; exact h1⟩

end ParserCalls
end Bant
