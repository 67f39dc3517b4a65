import Verif.Lemmas.Elab
import Verif.Lemmas.ElabMeaning
import Verif.Spec.Calls

/-! When evaluation crashes: C20. -/
namespace Bant
namespace Elab
open Grammar Parser Meaning

/-- What has the value of a variable is a name. -/
def Callable (fs : List Str) (vars : Vars) : Prop := ∀ f ∈ fs, ∀ v, vars.find f = some v → ∃ i, v = .ident i

theorem walk_callable (glob : GlobFn) {vars : Vars} (hv : VarsOk vars) {kw : Bool} {n : Node}
    (h : Expr kw n) : ∀ nest, (kw = true → nest ≠ 0) → Callable (called n) vars →
    ∃ n', walk glob nest vars n = some (n', vars) ∧ Expr kw n' ∧
      ∀ x y, n = .binop .kFor x y → ∃ x' y', n' = .binop .kFor x' y' := by
  induction h with
  | str => intro nest _ _; exact ⟨_, rfl, .str, by simp⟩
  | int => intro nest _ _; exact ⟨_, rfl, .int, by simp⟩
  | @ident kw i =>
    intro nest _ _
    refine ⟨_, rfl, ?_, by simp⟩
    cases hf : vars.find i with
    | none => exact .ident
    | some n => exact (hv i n hf).lift' kw
  | unary _ ih =>
    intro nest hn hf
    obtain ⟨e', h1, h2, _⟩ := ih nest (by simp) hf
    exact ⟨_, by simp only [walk, h1]; rfl, .unary h2, by simp⟩
  | @binop kw op a b _ _ ih1 ih2 =>
    intro nest hn hf
    obtain ⟨a', h1, h2, _⟩ := ih1 nest (by simp) (fun f hm => hf f (by simp [called, hm]))
    obtain ⟨b', h3, h4, _⟩ := ih2 nest (by simp) (fun f hm => hf f (by simp [called, hm]))
    by_cases hop : op = .op '+'
    · subst hop
      obtain ⟨n, h5, h6⟩ := plus_expr h2 h4
      exact ⟨n, by simp [walk, h1, h3, h5], h6.lift' kw, by simp⟩
    · exact ⟨.binop op a' b', by simp [walk, h1, h3, hop], .binop h2 h4, by
        intro x y he; cases he; exact ⟨_, _, rfl⟩⟩
  | @sliceFrom kw x a _ _ ih1 ih2 =>
    intro nest hn hf
    obtain ⟨a', h1, h2, _⟩ := ih1 nest (by simp) (fun f hm => hf f (by simp [called, hm]))
    obtain ⟨b', h3, h4, _⟩ := ih2 nest (by simp) (fun f hm => hf f (by simp [called, hm]))
    exact ⟨_, by simp [walk, h1, h3], .sliceFrom h2 h4, by simp⟩
  | @sliceTo kw x a _ _ ih1 ih2 =>
    intro nest hn hf
    obtain ⟨a', h1, h2, _⟩ := ih1 nest (by simp) (fun f hm => hf f (by simp [called, hm]))
    obtain ⟨b', h3, h4, _⟩ := ih2 nest (by simp) (fun f hm => hf f (by simp [called, hm]))
    exact ⟨_, by simp [walk, h1, h3], .sliceTo h2 h4, by simp⟩
  | @list kw ty xs _ ih =>
    intro nest hn hf
    obtain ⟨xs', h1, h2⟩ := walks_ok (glob := glob) (nest := nest) (vars := vars) (Q := Expr false) (xs := xs)
      (fun x hx => by
        obtain ⟨x', h1, h2, _⟩ := ih x hx nest (by simp) (fun f hm => hf f (calledIn_sub hx f hm))
        exact ⟨x', h1, h2⟩)
    exact ⟨_, by simp [walk, h1]; rfl, .list h2, by simp⟩
  | @compr kw ty x y _ ih =>
    intro nest hn hf
    obtain ⟨f', h1, h2, h3⟩ := ih nest (by simp) hf
    obtain ⟨x', y', rfl⟩ := h3 _ _ rfl
    exact ⟨_, by simp only [walk]; rw [walk] at h1; rw [h1]; rfl, .compr h2, by simp⟩
  | ternary _ _ _ ih1 ih2 ih3 =>
    intro nest hn hf
    obtain ⟨a', h1, h2, _⟩ := ih1 nest (by simp) (fun f hm => hf f (by simp [called, hm]))
    obtain ⟨b', h3, h4, _⟩ := ih2 nest (by simp) (fun f hm => hf f (by simp [called, hm]))
    obtain ⟨c', h5, h6, _⟩ := ih3 nest (by simp) (fun f hm => hf f (by simp [called, hm]))
    exact ⟨_, by simp [walk, h1, h3, h5], .ternary h2 h4 h6, by simp⟩
  | onlyIf _ _ ih1 ih2 =>
    intro nest hn hf
    obtain ⟨a', h1, h2, _⟩ := ih1 nest (by simp) (fun f hm => hf f (by simp [called, hm]))
    obtain ⟨b', h3, h4, _⟩ := ih2 nest (by simp) (fun f hm => hf f (by simp [called, hm]))
    exact ⟨_, by simp [walk, h1, h3], .onlyIf h2 h4, by simp⟩
  | @call kw f ty args _ ih =>
    intro nest hn hf
    obtain ⟨f', hfn⟩ : ∃ f', (vars.find f).getD (.ident f) = .ident f' := by
      cases hfv : vars.find f with
      | none => exact ⟨f, rfl⟩
      | some v =>
        obtain ⟨i, hi⟩ := hf f (by simp [called]) v hfv
        exact ⟨i, hi⟩
    obtain ⟨xs', h1, h2⟩ := walks_ok (glob := glob) (nest := nest + 1) (vars := vars) (Q := Expr true) (xs := args)
      (fun x hx => by
        obtain ⟨x', h1, h2, _⟩ := ih x hx (nest + 1) (by simp)
          (fun g hm => hf g (by simp [called, calledIn_sub hx g hm]))
        exact ⟨x', h1, h2⟩)
    obtain ⟨n, h3, h4⟩ := finishCall_expr glob (f := f') (ty := ty) h2
    exact ⟨n, by simp [walk, hfn, h1, h3], h4.lift' kw, by simp⟩
  | unaryHole => intro nest _ _; exact ⟨_, rfl, .unaryHole, by simp⟩
  | @forHole kw x xs vals _ _ _ ih1 ih2 ih3 =>
    intro nest hn hf
    obtain ⟨a', h1, h2, _⟩ := ih2 nest (by simp) (fun f hm => hf f (by simp [called, hm]))
    obtain ⟨b', h3, h4, _⟩ := ih3 nest (by simp) (fun f hm => hf f (by simp [called, hm]))
    obtain ⟨xs', h5, h6⟩ := walks_ok (glob := glob) (nest := nest) (vars := vars)
      (Q := fun v => v ≠ .null → Expr false v) (xs := xs)
      (fun x hx => by
        by_cases h0 : x = .null
        · subst h0; exact ⟨.null, rfl, by simp⟩
        · obtain ⟨x', h1, h2, _⟩ := ih1 x hx h0 nest (by simp)
            (fun g hm => hf g (by simp [called, calledIn_sub hx g hm]))
          exact ⟨x', h1, fun _ => h2⟩)
    exact ⟨_, by simp [walk, h1, h3, h5], .forHole h6 h2 h4, by
      intro x y he; exact ⟨_, _, rfl⟩⟩
  | @keyword i e _ ih =>
    intro nest hn hf
    obtain ⟨e', h1, h2, _⟩ := ih nest (by simp) (fun f hm => hf f (by simp [called, hm]))
    exact ⟨.assign (.ident i) e', by simp [walk, h1, hn rfl], .keyword h2, by simp⟩

theorem callable_append {a b : List Str} {vars : Vars} :
    Callable (a ++ b) vars ↔ Callable a vars ∧ Callable b vars := by
  constructor
  · intro h
    exact ⟨fun f hf => h f (by simp [hf]), fun f hf => h f (by simp [hf])⟩
  · rintro ⟨h1, h2⟩ f hf
    rcases List.mem_append.1 hf with h | h
    · exact h1 f h
    · exact h2 f h

theorem walks_crash {glob : GlobFn} {nest : Nat} {vars : Vars} :
    ∀ {xs : List Node},
    (∀ x ∈ xs, (∃ x', walk glob nest vars x = some (x', vars)) ∨ walk glob nest vars x = none) →
    (∃ x ∈ xs, walk glob nest vars x = none) → walks glob nest vars xs = none
  | [], _, h => by obtain ⟨_, h, _⟩ := h; cases h
  | x :: xs, h, hc => by
    rcases h x (by simp) with ⟨x', h1⟩ | h1
    · obtain ⟨y, hy, h2⟩ := hc
      rcases List.mem_cons.1 hy with rfl | hy
      · rw [h1] at h2; cases h2
      · simp only [walks, h1, walks_crash (xs := xs) (fun z hz => h z (by simp [hz])) ⟨y, hy, h2⟩]
    · simp only [walks, h1]

theorem not_callable_in {xs : List Node} {vars : Vars} (h : ¬ Callable (calledIn xs) vars) :
    ∃ x ∈ xs, ¬ Callable (called x) vars := by
  induction xs with
  | nil => exact absurd (fun f hf => by simp [calledIn] at hf) h
  | cons x xs ih =>
    rw [calledIn, callable_append] at h
    by_cases hx : Callable (called x) vars
    · obtain ⟨y, hy, h2⟩ := ih fun h' => h ⟨hx, h'⟩
      exact ⟨y, by simp [hy], h2⟩
    · exact ⟨x, by simp, hx⟩

theorem walk_crash (glob : GlobFn) {vars : Vars} (hv : VarsOk vars) {kw : Bool} {n : Node}
    (h : Expr kw n) : ∀ nest, (kw = true → nest ≠ 0) → ¬ Callable (called n) vars →
    walk glob nest vars n = none := by
  have nope : ¬ ¬ Callable [] vars := fun h => h fun f hf => by cases hf
  -- two parts, one after the other
  have both : ∀ {a b : Node} (nest : Nat), Expr false a →
      (¬ Callable (called a) vars → walk glob nest vars a = none) →
      (¬ Callable (called b) vars → walk glob nest vars b = none) →
      ¬ (Callable (called a) vars ∧ Callable (called b) vars) →
      walk glob nest vars a = none ∨ ∃ a', walk glob nest vars a = some (a', vars) ∧ walk glob nest vars b = none := by
    intro a b nest ha h1 h2 hc
    by_cases h : Callable (called a) vars
    · obtain ⟨a', h3, _⟩ := walk_callable glob hv ha nest (by simp) h
      exact .inr ⟨a', h3, h2 fun h' => hc ⟨h, h'⟩⟩
    · exact .inl (h1 h)
  have inList : ∀ {kw : Bool} {xs : List Node} (nest : Nat), (kw = true → nest ≠ 0) → (∀ x ∈ xs, Expr kw x) →
      (∀ x ∈ xs, ¬ Callable (called x) vars → walk glob nest vars x = none) →
      ¬ Callable (calledIn xs) vars → walks glob nest vars xs = none := by
    intro kw xs nest hn hx h1 hc
    refine walks_crash ?_ ?_
    · intro x hm
      by_cases h : Callable (called x) vars
      · obtain ⟨x', h3, _⟩ := walk_callable glob hv (hx x hm) nest hn h
        exact .inl ⟨x', h3⟩
      · exact .inr (h1 x hm h)
    · obtain ⟨x, hm, h⟩ := not_callable_in hc
      exact ⟨x, hm, h1 x hm h⟩
  induction h with
  | str => intro nest _ hf; exact absurd hf nope
  | int => intro nest _ hf; exact absurd hf nope
  | ident => intro nest _ hf; exact absurd hf nope
  | unaryHole => intro nest _ hf; exact absurd hf nope
  | unary _ ih =>
    intro nest hn hf
    simp only [walk, ih nest (by simp) hf]
  | @binop kw op a b ha _ ih1 ih2 =>
    intro nest hn hf
    rw [called, callable_append] at hf
    rcases both nest ha (ih1 nest (by simp)) (ih2 nest (by simp)) hf with h | ⟨a', h, h'⟩
    · simp only [walk, h]
    · simp only [walk, h, h']
  | @sliceFrom kw x a hx _ ih1 ih2 =>
    intro nest hn hf
    simp only [called, List.append_nil] at hf
    rw [callable_append] at hf
    rcases both nest hx (ih1 nest (by simp)) (ih2 nest (by simp)) hf with h | ⟨a', h, h'⟩
    · simp only [walk, h]
    · simp only [walk, h, h']
  | @sliceTo kw x a hx _ ih1 ih2 =>
    intro nest hn hf
    simp only [called, List.nil_append] at hf
    rw [callable_append] at hf
    rcases both nest hx (ih1 nest (by simp)) (ih2 nest (by simp)) hf with h | ⟨a', h, h'⟩
    · simp only [walk, h]
    · simp only [walk, h, h']
  | @list kw ty xs hx ih =>
    intro nest hn hf
    simp only [walk, inList nest (by simp) hx (fun x hm => ih x hm nest (by simp)) hf]
  | @compr kw ty x y _ ih =>
    intro nest hn hf
    rw [called] at hf
    have := ih nest (by simp) hf
    rw [walk, this]
  | @ternary kw c p n hc hp _ ih1 ih2 ih3 =>
    intro nest hn hf
    rw [called, callable_append, callable_append] at hf
    by_cases h : Callable (called c) vars ∧ Callable (called p) vars
    · obtain ⟨c', h1, _⟩ := walk_callable glob hv hc nest (by simp) h.1
      obtain ⟨p', h2, _⟩ := walk_callable glob hv hp nest (by simp) h.2
      simp only [walk, h1, h2, ih3 nest (by simp) fun h' => hf ⟨h, h'⟩]
    · rcases both nest hc (ih1 nest (by simp)) (ih2 nest (by simp)) h with h | ⟨a', h, h'⟩
      · simp only [walk, h]
      · simp only [walk, h, h']
  | @onlyIf kw c p hc _ ih1 ih2 =>
    intro nest hn hf
    simp only [called, List.append_nil] at hf
    rw [callable_append] at hf
    rcases both nest hc (ih1 nest (by simp)) (ih2 nest (by simp)) hf with h | ⟨a', h, h'⟩
    · simp only [walk, h]
    · simp only [walk, h, h']
  | @call kw f ty args hx ih =>
    intro nest hn hf
    by_cases ha : Callable (calledIn args) vars
    · obtain ⟨xs', h1, _⟩ := walks_ok (glob := glob) (nest := nest + 1) (vars := vars) (Q := Expr true) (xs := args)
        (fun x hm => by
          obtain ⟨x', h1, h2, _⟩ := walk_callable glob hv (hx x hm) (nest + 1) (by simp)
            (fun g hg => ha g (calledIn_sub hm g hg))
          exact ⟨x', h1, h2⟩)
      simp only [walk, h1]
      cases hfv : vars.find f with
      | none =>
        refine absurd ?_ hf
        intro g hg
        simp only [called, List.mem_cons] at hg
        rcases hg with rfl | hg
        · intro v hv'; rw [hfv] at hv'; cases hv'
        · exact ha g hg
      | some v =>
        have hni : ∀ i, v ≠ .ident i := by
          rintro i rfl
          refine hf ?_
          intro g hg
          simp only [called, List.mem_cons] at hg
          rcases hg with rfl | hg
          · intro v hv'; rw [hfv] at hv'; cases hv'; exact ⟨i, rfl⟩
          · exact ha g hg
        have : finishCall glob v (.list ty xs') = none := by
          cases v <;> first | rfl | exact absurd rfl (hni _)
        simp only [Option.getD_some, this]
    · simp only [walk, inList (nest + 1) (by simp) hx (fun x hm => ih x hm (nest + 1) (by simp)) ha]
  | @forHole kw x xs vals hxs hx hvals ih1 ih2 ih3 =>
    intro nest hn hf
    simp only [called] at hf
    rw [callable_append, callable_append] at hf
    by_cases h1 : Callable (called x) vars
    · obtain ⟨x', h2, _⟩ := walk_callable glob hv hx nest (by simp) h1
      by_cases h3 : Callable (calledIn xs) vars
      · obtain ⟨xs', h5, h6⟩ := walks_ok (glob := glob) (nest := nest) (vars := vars)
          (Q := fun _ => True) (xs := xs)
          (fun x hm => by
            by_cases h0 : x = .null
            · subst h0; exact ⟨.null, rfl, trivial⟩
            · obtain ⟨x', h1, _⟩ := walk_callable glob hv (hxs x hm h0) nest (by simp)
                (fun g hg => h3 g (calledIn_sub hm g hg))
              exact ⟨x', h1, trivial⟩)
        simp only [walk, h2, h5, ih3 nest (by simp) fun h' => hf ⟨h1, h3, h'⟩]
      · have : walks glob nest vars xs = none := by
          refine walks_crash ?_ ?_
          · intro x hm
            by_cases h0 : x = .null
            · subst h0; exact .inl ⟨.null, rfl⟩
            · by_cases h : Callable (called x) vars
              · obtain ⟨x', h3, _⟩ := walk_callable glob hv (hxs x hm h0) nest (by simp) h
                exact .inl ⟨x', h3⟩
              · exact .inr (ih1 x hm h0 nest (by simp) h)
          · obtain ⟨y, hm, h⟩ := not_callable_in h3
            refine ⟨y, hm, ih1 y hm ?_ nest (by simp) h⟩
            rintro rfl
            exact nope h
        simp only [walk, h2, this]
    · simp only [walk, ih2 nest (by simp) h1]
  | @keyword i e _ ih =>
    intro nest hn hf
    simp only [called, List.nil_append] at hf
    simp only [walk, ih nest (by simp) hf]

theorem callsOf_expr {n : Node} (h : Expr false n) : callsOf n = called n := by
  cases h <;> rfl

/-- A statement that is evaluated, and what it does to the variables. -/
theorem stmt_walk (glob : GlobFn) {vars : Vars} (hv : VarsOk vars) {s : Node} (h : Stmt s)
    (hc : Callable (callsOf s) vars) :
    ∃ s' vars', walk glob 0 vars s = some (s', vars') ∧ VarsOk vars' ∧
      ((∃ x e e', s = .assign (.ident x) e ∧ s' = .assign (.ident x) e' ∧ vars' = (x, e') :: vars) ∨
       ((∀ x e, s ≠ .assign (.ident x) e) ∧ vars' = vars)) := by
  cases h with
  | expr he =>
    rw [callsOf_expr he] at hc
    obtain ⟨n', h1, _⟩ := walk_callable glob hv he 0 (by simp) hc
    exact ⟨n', vars, h1, hv, .inr ⟨(by rintro x e rfl; cases he), rfl⟩⟩
  | @assign x e he =>
    obtain ⟨n', h1, h2, _⟩ := walk_callable glob hv he 0 (by simp) hc
    refine ⟨.assign (.ident x) n', (x, n') :: vars, by simp [walk, h1], ?_, .inl ⟨x, e, n', rfl, rfl, rfl⟩⟩
    intro y n hy
    rw [find_cons] at hy
    split at hy
    · cases hy; exact h2
    · exact hv y n hy
  | @unpack ty xs e he =>
    obtain ⟨n', h1, _⟩ := walk_callable glob hv he 0 (by simp) hc
    exact ⟨.assign (.list ty xs) n', vars, by simp [walk, h1], hv, .inr ⟨by simp, rfl⟩⟩

theorem stmt_crash (glob : GlobFn) {vars : Vars} (hv : VarsOk vars) {s : Node} (h : Stmt s)
    (hc : ¬ Callable (callsOf s) vars) : walk glob 0 vars s = none := by
  cases h with
  | expr he =>
    rw [callsOf_expr he] at hc
    exact walk_crash glob hv he 0 (by simp) hc
  | assign he => simp only [walk, walk_crash glob hv he 0 (by simp) hc]
  | unpack he => simp only [walk, walk_crash glob hv he 0 (by simp) hc]

theorem stmts_crash (glob : GlobFn) (stmts : List Node) : ∀ {vars : Vars}, VarsOk vars → (∀ s ∈ stmts, Stmt s) →
    (walks glob 0 vars stmts = none ↔
      ∃ pre s post out vars', stmts = pre ++ s :: post ∧ walks glob 0 vars pre = some (out, vars') ∧
        ¬ Callable (callsOf s) vars') := by
  induction stmts with
  | nil =>
    intro vars _ _
    simp [walks]
  | cons s stmts ih =>
    intro vars hv hs
    by_cases hc : Callable (callsOf s) vars
    · obtain ⟨s', v1, h1, h2, _⟩ := stmt_walk glob hv (hs s (by simp)) hc
      have ih := ih h2 fun x hx => hs x (by simp [hx])
      constructor
      · intro h
        have hn : walks glob 0 v1 stmts = none := by
          cases hw : walks glob 0 v1 stmts with
          | none => rfl
          | some r => simp [walks, h1, hw] at h
        obtain ⟨pre, t, post, out, v2, rfl, h3, h4⟩ := ih.1 hn
        exact ⟨s :: pre, t, post, s' :: out, v2, rfl, by simp [walks, h1, h3], h4⟩
      · rintro ⟨pre, t, post, out, v2, he, h3, h4⟩
        cases pre with
        | nil =>
          simp only [List.nil_append, List.cons.injEq] at he
          obtain ⟨rfl, rfl⟩ := he
          simp only [walks, Option.some.injEq, Prod.mk.injEq] at h3
          obtain ⟨_, rfl⟩ := h3
          exact absurd hc h4
        | cons p pre =>
          simp only [List.cons_append, List.cons.injEq] at he
          obtain ⟨rfl, rfl⟩ := he
          simp only [walks, h1] at h3
          split at h3
          · cases h3
          · rename_i hw
            cases h3
            simp only [walks, h1, ih.2 ⟨pre, t, post, _, _, rfl, hw, h4⟩]
    · refine ⟨fun _ => ⟨[], s, stmts, [], vars, rfl, rfl, hc⟩, fun _ => ?_⟩
      simp only [walks, stmt_crash glob hv (hs s (by simp)) hc]

/-- The value of a variable after some statements. -/
theorem vars_after (glob : GlobFn) (f : Str) (v : Node) (pre : List Node) : ∀ {vars vars' : Vars} {out : List Node},
    VarsOk vars → (∀ s ∈ pre, Stmt s) → walks glob 0 vars pre = some (out, vars') →
    (vars'.find f = some v ↔
      (∃ a e b, pre = a ++ .assign (.ident f) e :: b ∧ f ∉ assigned b ∧
        out[a.length]? = some (.assign (.ident f) v)) ∨
      (f ∉ assigned pre ∧ vars.find f = some v)) := by
  induction pre with
  | nil =>
    intro vars vars' out _ _ h
    simp only [walks, Option.some.injEq, Prod.mk.injEq] at h
    obtain ⟨rfl, rfl⟩ := h
    simp [assigned]
  | cons s pre ih =>
    intro vars vars' out hv hs h
    have hc : Callable (callsOf s) vars := by
      apply Classical.byContradiction
      intro hc
      simp [walks, stmt_crash glob hv (hs s (by simp)) hc] at h
    obtain ⟨s', v1, h1, h2, h3⟩ := stmt_walk glob hv (hs s (by simp)) hc
    simp only [walks, h1] at h
    split at h
    · cases h
    rename_i xs' v2 hw
    cases h
    rw [ih h2 (fun x hx => hs x (by simp [hx])) hw]
    constructor
    · rintro (⟨a, e, b, rfl, hb, hout⟩ | ⟨hn, hf⟩)
      · exact .inl ⟨s :: a, e, b, rfl, hb, by simpa using hout⟩
      · rcases h3 with ⟨x, e, e', rfl, rfl, rfl⟩ | ⟨hne, rfl⟩
        · rw [find_cons] at hf
          by_cases hx : x = f
          · subst hx
            simp only [if_true, Option.some.injEq] at hf
            subst hf
            exact .inl ⟨[], e, pre, rfl, hn, by simp⟩
          · rw [if_neg hx] at hf
            refine .inr ⟨?_, hf⟩
            simp only [assigned, List.filterMap_cons, List.mem_cons, not_or] at hn ⊢
            exact ⟨fun h => hx h.symm, hn⟩
        · refine .inr ⟨?_, hf⟩
          intro hm
          simp only [assigned, List.filterMap_cons] at hm hn
          exact hn hm
    · rintro (⟨a, e, b, he, hb, hout⟩ | ⟨hn, hf⟩)
      · cases a with
        | nil =>
          simp only [List.nil_append, List.cons.injEq] at he
          obtain ⟨rfl, rfl⟩ := he
          refine .inr ⟨hb, ?_⟩
          rcases h3 with ⟨x, e, e', h4, rfl, rfl⟩ | ⟨hne, rfl⟩
          · cases h4
            simp only [List.length_nil, List.getElem?_cons_zero, Option.some.injEq, Node.assign.injEq, true_and] at hout
            rw [find_cons, if_pos rfl, hout]
          · exact absurd rfl (hne _ _)
        | cons p a =>
          simp only [List.cons_append, List.cons.injEq] at he
          obtain ⟨rfl, rfl⟩ := he
          exact .inl ⟨a, e, b, rfl, hb, by simpa using hout⟩
      · refine .inr ?_
        rcases h3 with ⟨x, e, e', rfl, rfl, rfl⟩ | ⟨hne, rfl⟩
        · simp only [assigned, List.filterMap_cons, List.mem_cons, not_or] at hn
          refine ⟨hn.2, ?_⟩
          rw [find_cons, if_neg (Ne.symm hn.1)]
          exact hf
        · refine ⟨?_, hf⟩
          intro hm
          apply hn
          simp only [assigned, List.filterMap_cons] at hm ⊢
          exact hm

end Elab
end Bant
