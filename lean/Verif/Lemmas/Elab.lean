import Verif.Model.Elab
import Verif.Spec.Meaning
import Verif.Lemmas.ParserFile

/-! Helper lemmas: elaboration. -/
namespace Bant

mutual
theorem Node.induct {P : Node → Prop} (null : P .null) (str : ∀ t a b, P (.str t a b))
    (int : ∀ r v, P (.int r v)) (ident : ∀ i, P (.ident i))
    (unary : ∀ op e, P e → P (.unary op e))
    (binop : ∀ op l r, P l → P r → P (.binop op l r))
    (list : ∀ ty xs, (∀ x ∈ xs, P x) → P (.list ty xs))
    (compr : ∀ ty f, P f → P (.compr ty f))
    (ternary : ∀ a b c, P a → P b → P c → P (.ternary a b c))
    (assign : ∀ l r, P l → P r → P (.assign l r))
    (call : ∀ f a, P f → P a → P (.call f a)) : ∀ n, P n
  | .null => null
  | .str _ _ _ => str _ _ _
  | .int _ _ => int _ _
  | .ident _ => ident _
  | .unary _ e => unary _ _ (Node.induct null str int ident unary binop list compr ternary assign call e)
  | .binop _ l r => binop _ _ _
      (Node.induct null str int ident unary binop list compr ternary assign call l)
      (Node.induct null str int ident unary binop list compr ternary assign call r)
  | .list _ xs => list _ _
      (Node.inducts null str int ident unary binop list compr ternary assign call xs)
  | .compr _ f => compr _ _ (Node.induct null str int ident unary binop list compr ternary assign call f)
  | .ternary a b c => ternary _ _ _
      (Node.induct null str int ident unary binop list compr ternary assign call a)
      (Node.induct null str int ident unary binop list compr ternary assign call b)
      (Node.induct null str int ident unary binop list compr ternary assign call c)
  | .assign l r => assign _ _
      (Node.induct null str int ident unary binop list compr ternary assign call l)
      (Node.induct null str int ident unary binop list compr ternary assign call r)
  | .call l r => call _ _
      (Node.induct null str int ident unary binop list compr ternary assign call l)
      (Node.induct null str int ident unary binop list compr ternary assign call r)
theorem Node.inducts {P : Node → Prop} (null : P .null) (str : ∀ t a b, P (.str t a b))
    (int : ∀ r v, P (.int r v)) (ident : ∀ i, P (.ident i))
    (unary : ∀ op e, P e → P (.unary op e))
    (binop : ∀ op l r, P l → P r → P (.binop op l r))
    (list : ∀ ty xs, (∀ x ∈ xs, P x) → P (.list ty xs))
    (compr : ∀ ty f, P f → P (.compr ty f))
    (ternary : ∀ a b c, P a → P b → P c → P (.ternary a b c))
    (assign : ∀ l r, P l → P r → P (.assign l r))
    (call : ∀ f a, P f → P a → P (.call f a)) : ∀ xs : List Node, ∀ x ∈ xs, P x
  | [] => by intro x h; cases h
  | y :: ys => List.forall_mem_cons.2
      ⟨Node.induct null str int ident unary binop list compr ternary assign call y,
       Node.inducts null str int ident unary binop list compr ternary assign call ys⟩
end

namespace Elab
open Grammar Parser Meaning

/-! ### Well-formed trees -/

/-- Expression trees as the parser builds them for files without errors, and what the
elaboration makes of them. `kw`: keyword arguments are possible here. -/
inductive Expr : Bool → Node → Prop
  | str {kw t tr r} : Expr kw (.str t tr r)
  | int {kw r v} : Expr kw (.int r v)
  | ident {kw i} : Expr kw (.ident i)
  | unary {kw op e} : Expr false e → Expr kw (.unary op e)
  | binop {kw op a b} : Expr false a → Expr false b → Expr kw (.binop op a b)
  | sliceFrom {kw x a} : Expr false x → Expr false a →
      Expr kw (.binop (.op '[') x (.binop (.op ':') a .null))
  | sliceTo {kw x b} : Expr false x → Expr false b →
      Expr kw (.binop (.op '[') x (.binop (.op ':') .null b))
  | list {kw ty xs} : (∀ x ∈ xs, Expr false x) → Expr kw (.list ty xs)
  | compr {kw ty x y} : Expr false (.binop .kFor x y) → Expr kw (.compr ty (.binop .kFor x y))
  | ternary {kw c p n} : Expr false c → Expr false p → Expr false n → Expr kw (.ternary c p n)
  | onlyIf {kw c p} : Expr false c → Expr false p → Expr kw (.ternary c p .null)
  | call {kw f ty args} : (∀ a ∈ args, Expr true a) → Expr kw (.call (.ident f) (.list ty args))
  | unaryHole {kw op} : Expr kw (.unary op .null)
  | forHole {kw x xs vals} : (∀ v ∈ xs, v ≠ .null → Expr false v) → Expr false x →
      Expr false vals → Expr kw (.binop .kFor x (.binop .kIn (.list .tuple xs) vals))
  | keyword {i e} : Expr false e → Expr true (.assign (.ident i) e)

theorem Expr.lift {n : Node} (h : Expr false n) : Expr true n := by
  cases h with
  | str => exact .str
  | int => exact .int
  | ident => exact .ident
  | unary h => exact .unary h
  | binop h1 h2 => exact .binop h1 h2
  | sliceFrom h1 h2 => exact .sliceFrom h1 h2
  | sliceTo h1 h2 => exact .sliceTo h1 h2
  | list h => exact .list h
  | compr h => exact .compr h
  | ternary h1 h2 h3 => exact .ternary h1 h2 h3
  | onlyIf h1 h2 => exact .onlyIf h1 h2
  | call h => exact .call h
  | unaryHole => exact .unaryHole
  | forHole h1 h2 h3 => exact .forHole h1 h2 h3

theorem Expr.lift' {n : Node} (kw : Bool) (h : Expr false n) : Expr kw n := by
  cases kw
  · exact h
  · exact h.lift

theorem Expr.ne_null {kw : Bool} {n : Node} (h : Expr kw n) : n ≠ .null := by
  cases h <;> simp

/-! ### `+`, `select()`, `glob()` -/

theorem plus_expr {l r : Node} (hl : Expr false l) (hr : Expr false r) :
    ∃ n, plus l r = some n ∧ Expr false n := by
  have h1 := hl.ne_null
  have h2 := hr.ne_null
  have hb : Expr false (.binop (.op '+') l r) := .binop hl hr
  have hn : (l.isNull || r.isNull) = false := by
    cases l <;> cases r <;> simp_all [Node.isNull]
  simp only [plus, hn, Bool.false_eq_true, if_false]
  split
  · rename_i ty xs ty' ys
    split
    · refine ⟨_, rfl, .list ?_⟩
      cases hl with | list ha => cases hr with | list hb' =>
      intro x hx
      rcases List.mem_append.1 hx with h | h
      · exact ha x h
      · exact hb' x h
    · exact ⟨_, rfl, hb⟩
  · exact ⟨_, rfl, hl⟩
  · exact ⟨_, rfl, hr⟩
  · exact ⟨_, rfl, .str⟩
  · exact ⟨_, rfl, hb⟩

theorem selectEntry_expr : ∀ {xs : List Node}, (∀ x ∈ xs, Expr false x) →
    ∃ o, selectEntry xs = some o ∧ ∀ v, o = some v → Expr false v
  | [], _ => ⟨none, rfl, by simp⟩
  | x :: xs, h => by
    have hx := h x (by simp)
    have ih := selectEntry_expr (xs := xs) (fun y hy => h y (by simp [hy]))
    unfold selectEntry
    split
    · rename_i he; cases he
    · rename_i he; cases he; exact absurd rfl hx.ne_null
    · rename_i op key value rest he
      cases he
      split
      · rename_i hop
        subst hop
        cases hx with
        | binop hk hv =>
          rw [if_neg (by have := hk.ne_null; cases key <;> simp_all [Node.isNull])]
          split
          · exact ⟨_, rfl, by simpa using hv⟩
          · exact ih
      · exact ih
    · rename_i he; cases he; exact ih

theorem selectArgs_expr : ∀ {xs : List Node}, (∀ x ∈ xs, Expr true x) →
    ∃ o, selectArgs xs = some o ∧ ∀ v, o = some v → Expr false v
  | [], _ => ⟨none, rfl, by simp⟩
  | x :: xs, h => by
    have hx := h x (by simp)
    have ih := selectArgs_expr (xs := xs) (fun y hy => h y (by simp [hy]))
    unfold selectArgs
    split
    · rename_i he; cases he
    · rename_i he; cases he; exact absurd rfl hx.ne_null
    · rename_i entries rest he
      cases he
      cases hx with
      | list hx =>
        obtain ⟨o, h1, h2⟩ := selectEntry_expr hx
        rw [h1]
        cases o with
        | none => exact ih
        | some v => exact ⟨_, rfl, h2⟩
    · rename_i he; cases he; exact ih

theorem stringList_expr : ∀ {xs : List Node}, (∀ x ∈ xs, Expr false x) → ∃ o, stringList xs = some o
  | [], _ => ⟨_, rfl⟩
  | x :: xs, h => by
    have hx := h x (by simp)
    obtain ⟨o, ih⟩ := stringList_expr (xs := xs) (fun y hy => h y (by simp [hy]))
    have := hx.ne_null
    cases x <;> simp_all [stringList]

/-- A list argument of `glob()`. -/
def ListOk (o : Option (List Node)) : Prop := ∀ xs, o = some xs → ∀ x ∈ xs, Expr false x

theorem castList_ok {e : Node} (h : Expr false e) :
    ∃ l, castList e = some l ∧ ListOk (l.map (·.2)) := by
  cases h with
  | list h => exact ⟨_, rfl, by intro xs hx; simp only [Option.map_some, Option.some.injEq] at hx; subst hx; exact h⟩
  | _ => exact ⟨none, rfl, by intro xs hx; cases hx⟩

theorem globArgs_expr : ∀ {xs : List Node} (g : GlobArgs), (∀ x ∈ xs, Expr true x) → ListOk g.1 →
    ListOk g.2 → ∃ g', globArgs xs g = some g' ∧ ListOk g'.1 ∧ ListOk g'.2
  | [], g, _, h1, h2 => ⟨g, rfl, h1, h2⟩
  | x :: xs, g, h, h1, h2 => by
    have hx := h x (by simp)
    have ih := fun g h1 h2 => globArgs_expr (xs := xs) g (fun y hy => h y (by simp [hy])) h1 h2
    unfold globArgs
    split
    · rename_i he; cases he
    · rename_i he; cases he; exact absurd rfl hx.ne_null
    · rename_i he; cases he
      cases hx with
      | list hx => exact ih _ (by intro xs h; cases h; exact hx) h2
    · rename_i he; cases he
      cases hx with
      | keyword hx =>
        obtain ⟨l, h3, h4⟩ := castList_ok hx
        rw [h3]
        split
        · exact ih _ h4 h2
        · split
          · exact ih _ h1 h4
          · exact ih _ h1 h2
    · rename_i he; cases he; exact ih _ h1 h2

theorem extract_expr {o : Option (List Node)} (h : ListOk o) : ∃ r, extractStringList o = some r := by
  cases o with
  | none => exact ⟨_, rfl⟩
  | some xs => exact stringList_expr (h xs rfl)

theorem handleGlob_expr (glob : GlobFn) {xs : List Node} (h : ∀ x ∈ xs, Expr true x) :
    ∃ fs : List Str, handleGlob glob xs = some (.list .list (fs.map fun f => .str f false false)) := by
  obtain ⟨g, h1, h2, h3⟩ := globArgs_expr (none, none) h (by intro _ h; cases h) (by intro _ h; cases h)
  obtain ⟨a, ha⟩ := extract_expr h2
  obtain ⟨b, hb⟩ := extract_expr h3
  exact ⟨glob a b, by simp [handleGlob, h1, ha, hb]⟩

theorem finishCall_expr (glob : GlobFn) {f : Str} {ty : ListType} {xs : List Node}
    (h : ∀ x ∈ xs, Expr true x) :
    ∃ n, finishCall glob (.ident f) (.list ty xs) = some n ∧ Expr false n := by
  simp only [finishCall]
  split
  · obtain ⟨fs, h1⟩ := handleGlob_expr glob h
    exact ⟨_, h1, .list (by intro x hx; obtain ⟨_, _, rfl⟩ := List.mem_map.1 hx; exact .str)⟩
  · split
    · obtain ⟨o, h1, h2⟩ := selectArgs_expr h
      rw [h1]
      cases o with
      | none => exact ⟨_, rfl, .call h⟩
      | some v => exact ⟨_, rfl, h2 v rfl⟩
    · exact ⟨_, rfl, .call h⟩

/-! ### Elaboration of expressions is safe -/

/-- All values of variables are expressions. -/
def VarsOk (vars : Vars) : Prop := ∀ x n, vars.find x = some n → Expr false n

/-- The names are no variables. -/
def Free (fs : List Str) (vars : Vars) : Prop := ∀ f ∈ fs, vars.find f = none

theorem walks_ok {glob : GlobFn} {nest : Nat} {vars : Vars} {Q : Node → Prop} :
    ∀ {xs : List Node},
    (∀ x ∈ xs, ∃ x', walk glob nest vars x = some (x', vars) ∧ Q x') →
    ∃ xs', walks glob nest vars xs = some (xs', vars) ∧ ∀ x ∈ xs', Q x
  | [], _ => ⟨[], rfl, by simp⟩
  | x :: xs, h => by
    obtain ⟨x', h1, h2⟩ := h x (by simp)
    obtain ⟨xs', h3, h4⟩ := walks_ok (xs := xs) (fun y hy => h y (by simp [hy]))
    exact ⟨x' :: xs', by simp [walks, h1, h3], by simpa using ⟨h2, h4⟩⟩

theorem calledIn_sub {xs : List Node} {x : Node} (h : x ∈ xs) : ∀ f ∈ called x, f ∈ calledIn xs := by
  induction xs with
  | nil => cases h
  | cons y ys ih =>
    intro f hf
    simp only [calledIn, List.mem_append]
    rcases List.mem_cons.1 h with rfl | h
    · exact .inl hf
    · exact .inr (ih h f hf)

theorem walk_expr (glob : GlobFn) {vars : Vars} (hv : VarsOk vars) {kw : Bool} {n : Node}
    (h : Expr kw n) : ∀ nest, (kw = true → nest ≠ 0) → Free (called n) vars →
    ∃ n', walk glob nest vars n = some (n', vars) ∧ Expr kw n' ∧
      ∀ x y, n = .binop .kFor x y → ∃ x' y', n' = .binop .kFor x' y' := by
  induction h with
  | str => intro nest _ _; exact ⟨_, rfl, .str, by simp⟩
  | int => intro nest _ _; exact ⟨_, rfl, .int, by simp⟩
  | @ident kw i =>
    intro nest _ _
    refine ⟨_, rfl, ?_, by simp⟩
    cases hf : vars.find i with
    | none => exact .ident
    | some n => exact (hv i n hf).lift' kw
  | unary _ ih =>
    intro nest hn hf
    obtain ⟨e', h1, h2, _⟩ := ih nest (by simp) hf
    exact ⟨_, by simp only [walk, h1]; rfl, .unary h2, by simp⟩
  | @binop kw op a b _ _ ih1 ih2 =>
    intro nest hn hf
    obtain ⟨a', h1, h2, _⟩ := ih1 nest (by simp) (fun f hm => hf f (by simp [called, hm]))
    obtain ⟨b', h3, h4, _⟩ := ih2 nest (by simp) (fun f hm => hf f (by simp [called, hm]))
    by_cases hop : op = .op '+'
    · subst hop
      obtain ⟨n, h5, h6⟩ := plus_expr h2 h4
      exact ⟨n, by simp [walk, h1, h3, h5], h6.lift' kw, by simp⟩
    · exact ⟨.binop op a' b', by simp [walk, h1, h3, hop], .binop h2 h4, by
        intro x y he; cases he; exact ⟨_, _, rfl⟩⟩
  | @sliceFrom kw x a _ _ ih1 ih2 =>
    intro nest hn hf
    obtain ⟨a', h1, h2, _⟩ := ih1 nest (by simp) (fun f hm => hf f (by simp [called, hm]))
    obtain ⟨b', h3, h4, _⟩ := ih2 nest (by simp) (fun f hm => hf f (by simp [called, hm]))
    exact ⟨_, by simp [walk, h1, h3], .sliceFrom h2 h4, by simp⟩
  | @sliceTo kw x a _ _ ih1 ih2 =>
    intro nest hn hf
    obtain ⟨a', h1, h2, _⟩ := ih1 nest (by simp) (fun f hm => hf f (by simp [called, hm]))
    obtain ⟨b', h3, h4, _⟩ := ih2 nest (by simp) (fun f hm => hf f (by simp [called, hm]))
    exact ⟨_, by simp [walk, h1, h3], .sliceTo h2 h4, by simp⟩
  | @list kw ty xs _ ih =>
    intro nest hn hf
    obtain ⟨xs', h1, h2⟩ := walks_ok (glob := glob) (nest := nest) (vars := vars) (Q := Expr false) (xs := xs)
      (fun x hx => by
        obtain ⟨x', h1, h2, _⟩ := ih x hx nest (by simp) (fun f hm => hf f (calledIn_sub hx f hm))
        exact ⟨x', h1, h2⟩)
    exact ⟨_, by simp [walk, h1]; rfl, .list h2, by simp⟩
  | @compr kw ty x y _ ih =>
    intro nest hn hf
    obtain ⟨f', h1, h2, h3⟩ := ih nest (by simp) hf
    obtain ⟨x', y', rfl⟩ := h3 _ _ rfl
    exact ⟨_, by simp only [walk]; rw [walk] at h1; rw [h1]; rfl, .compr h2, by simp⟩
  | ternary _ _ _ ih1 ih2 ih3 =>
    intro nest hn hf
    obtain ⟨a', h1, h2, _⟩ := ih1 nest (by simp) (fun f hm => hf f (by simp [called, hm]))
    obtain ⟨b', h3, h4, _⟩ := ih2 nest (by simp) (fun f hm => hf f (by simp [called, hm]))
    obtain ⟨c', h5, h6, _⟩ := ih3 nest (by simp) (fun f hm => hf f (by simp [called, hm]))
    exact ⟨_, by simp [walk, h1, h3, h5], .ternary h2 h4 h6, by simp⟩
  | onlyIf _ _ ih1 ih2 =>
    intro nest hn hf
    obtain ⟨a', h1, h2, _⟩ := ih1 nest (by simp) (fun f hm => hf f (by simp [called, hm]))
    obtain ⟨b', h3, h4, _⟩ := ih2 nest (by simp) (fun f hm => hf f (by simp [called, hm]))
    exact ⟨_, by simp [walk, h1, h3], .onlyIf h2 h4, by simp⟩
  | @call kw f ty args _ ih =>
    intro nest hn hf
    have hfn : vars.find f = none := hf f (by simp [called])
    obtain ⟨xs', h1, h2⟩ := walks_ok (glob := glob) (nest := nest + 1) (vars := vars) (Q := Expr true) (xs := args)
      (fun x hx => by
        obtain ⟨x', h1, h2, _⟩ := ih x hx (nest + 1) (by simp)
          (fun g hm => hf g (by simp [called, calledIn_sub hx g hm]))
        exact ⟨x', h1, h2⟩)
    obtain ⟨n, h3, h4⟩ := finishCall_expr glob (f := f) (ty := ty) h2
    exact ⟨n, by simp [walk, hfn, h1, h3], h4.lift' kw, by simp⟩
  | unaryHole => intro nest _ _; exact ⟨_, rfl, .unaryHole, by simp⟩
  | @forHole kw x xs vals _ _ _ ih1 ih2 ih3 =>
    intro nest hn hf
    obtain ⟨a', h1, h2, _⟩ := ih2 nest (by simp) (fun f hm => hf f (by simp [called, hm]))
    obtain ⟨b', h3, h4, _⟩ := ih3 nest (by simp) (fun f hm => hf f (by simp [called, hm]))
    obtain ⟨xs', h5, h6⟩ := walks_ok (glob := glob) (nest := nest) (vars := vars)
      (Q := fun v => v ≠ .null → Expr false v) (xs := xs)
      (fun x hx => by
        by_cases h0 : x = .null
        · subst h0; exact ⟨.null, rfl, by simp⟩
        · obtain ⟨x', h1, h2, _⟩ := ih1 x hx h0 nest (by simp)
            (fun g hm => hf g (by simp [called, calledIn_sub hx g hm]))
          exact ⟨x', h1, fun _ => h2⟩)
    exact ⟨_, by simp [walk, h1, h3, h5], .forHole h6 h2 h4, by
      intro x y he; exact ⟨_, _, rfl⟩⟩
  | @keyword i e _ ih =>
    intro nest hn hf
    obtain ⟨e', h1, h2, _⟩ := ih nest (by simp) (fun f hm => hf f (by simp [called, hm]))
    exact ⟨.assign (.ident i) e', by simp [walk, h1, hn rfl], .keyword h2, by simp⟩

/-! ### Trees of files -/

/-- Toplevel statements. -/
inductive Stmt : Node → Prop
  | expr {n} : Expr false n → Stmt n
  | assign {x e} : Expr false e → Stmt (.assign (.ident x) e)
  | unpack {ty xs e} : Expr false e → Stmt (.assign (.list ty xs) e)

/-- What is known about trees, by kind of phrase. -/
def ExprOk : NT → Node → Prop
  | .expr opt, n => (opt = true ∧ n = .null) ∨ Expr false n
  | .cont m, n => Expr false m → Expr false n
  | .index, n => ∀ x, Expr false x → Expr false (.binop (.op '[') x n)
  | .items _ .variable _, n => ∃ ty xs, n = .list ty xs ∧ ∀ v ∈ xs, v ≠ .null → Expr false v
  | .item .variable, n => n ≠ .null → Expr false n
  | .bracket _ .variable, _ => True
  | .items _ .argument _, n => ∃ ty xs, n = .list ty xs ∧ ∀ v ∈ xs, Expr true v
  | .item .argument, n => Expr true n
  | .bracket _ .argument, _ => True
  | .clauses _ x, n => Expr false x → Expr false n ∧ ∃ a b, n = .binop .kFor a b
  | .moreClauses _ x, n => Expr false x → (∃ a b, x = .binop .kFor a b) →
      Expr false n ∧ ∃ a b, n = .binop .kFor a b
  | .program, n => ∃ xs, n = .list .list xs ∧ ∀ x ∈ xs, Stmt x
  | _, n => Expr false n

theorem expr_cons {ty : ListType} {x : Node} {xs : List Node} (h1 : Expr false x)
    (h2 : Expr false (.list ty xs)) : Expr false (.list ty (x :: xs)) := by
  cases h2 with
  | list h => exact .list (by simpa using ⟨h1, h⟩)

theorem expr_str {t : Str} {n : Node} (h : strFromLiteral t = some n) : Expr false n := by
  simp only [strFromLiteral] at h
  split at h
  · simp at h; rw [← h]; exact .str
  · split at h
    · simp at h; rw [← h]; exact .str
    · cases h

theorem expr_int {t : Str} {n : Node} (h : intFromLiteral t = some n) : Expr false n := by
  simp only [intFromLiteral] at h
  split at h
  · simp at h; rw [← h]; exact .int
  · cases h

theorem expr_present {opt : Bool} {n : Node} (h : ExprOk (.expr opt) n) (hn : n ≠ .null) :
    Expr false n := by
  rcases h with ⟨_, h⟩ | h
  · exact absurd h hn
  · exact h

theorem expr_req {n : Node} (h : ExprOk (.expr false) n) : Expr false n := by
  rcases h with ⟨h, _⟩ | h
  · cases h
  · exact h

theorem stmts_cons {x : Node} {xs : List Node} (h1 : Stmt x) (h2 : ExprOk .program (.list .list xs)) :
    ExprOk .program (.list .list (x :: xs)) := by
  obtain ⟨ys, h3, h4⟩ := h2
  cases h3
  exact ⟨_, rfl, by simpa using ⟨h1, h4⟩⟩

theorem expr_ok {nt : NT} {s s' : List Token} {n : Node} (h : Parses nt s s' n) : ExprOk nt n := by
  induction h with
  | missing h => exact Or.inl ⟨rfl, rfl⟩
  | unary _ _ _ ih1 ih2 =>
    refine Or.inr (ih2 ?_)
    rcases ih1 with ⟨_, rfl⟩ | ih1
    · exact .unaryHole
    · exact .unary ih1
  | parenthesis _ _ _ ih1 ih2 => exact Or.inr (ih2 ih1)
  | operand _ _ ih1 ih2 => exact Or.inr (ih2 ih1)
  | stop => exact id
  | ifOnly _ _ _ ih => exact fun h => .onlyIf (expr_req ih) h
  | ifElse _ _ _ _ ih1 ih2 => exact fun h => .ternary (expr_req ih1) h (expr_req ih2)
  | binary _ _ ih => exact fun h => .binop h (expr_req ih)
  | indexed _ _ _ _ ih1 ih2 => exact fun h => ih2 (ih1 _ h)
  | at_ _ h _ ih => exact fun x hx => .binop hx (expr_present ih h)
  | slice _ _ _ _ h ih1 ih2 =>
    intro x hx
    rcases ih1 with ⟨_, rfl⟩ | ih1 <;> rcases ih2 with ⟨_, rfl⟩ | ih2
    · exact absurd ⟨rfl, rfl⟩ h
    · exact .sliceTo hx ih2
    · exact .sliceFrom hx ih1
    · exact .binop hx (.binop ih1 ih2)
  | string _ h => exact expr_str h
  | number _ h => exact expr_int h
  | name => exact .ident
  | call _ _ _ ih =>
    obtain ⟨ty, xs, rfl, h⟩ := ih
    exact .call h
  | list _ _ ih => exact ih
  | map _ _ ih => exact ih
  | grouped _ h _ ih => exact expr_present ih h
  | emptyTuple => exact .list (by simp)
  | tuple _ h _ _ ih1 ih2 => exact expr_cons (expr_present ih1 h) ih2
  | tupleEnd => exact .list (by simp)
  | tupleComma => exact .list (by simp)
  | tupleNext _ _ _ _ ih1 ih2 => exact expr_cons (expr_req ih1) ih2
  | @emptyBracket ty i => cases i <;> first | exact Expr.list (by simp) | trivial
  | @comprehension ty i _ _ _ _ _ _ _ _ _ _ ih1 ih2 =>
    cases i <;> first
      | trivial
      | (obtain ⟨h, a, b, rfl⟩ := ih2 ih1; exact Expr.compr h)
  | @bracketOne ty i _ _ _ _ _ _ _ _ ih =>
    cases i <;> first | trivial | exact Expr.list (by intro y hy; rw [List.mem_singleton.1 hy]; exact ih)
  | @bracketMore ty i _ _ _ _ _ _ _ _ _ _ _ ih1 ih2 =>
    cases i <;> first | trivial | exact expr_cons ih1 ih2
  | @itemsEnd ty i => cases i <;> first | exact Expr.list (by simp) | exact ⟨_, _, rfl, by simp⟩
  | @itemsLast ty i _ _ _ _ _ _ _ _ ih =>
    cases i <;> first
      | exact Expr.list (by intro y hy; rw [List.mem_singleton.1 hy]; exact ih)
      | exact ⟨_, _, rfl, by intro y hy; rw [List.mem_singleton.1 hy]; exact ih⟩
  | @itemsMore ty i _ _ _ _ _ _ _ _ _ _ _ ih1 ih2 =>
    cases i
    case «variable» =>
      obtain ⟨ty', ys, h1, h2⟩ := ih2
      cases h1
      exact ⟨_, _, rfl, List.forall_mem_cons.2 ⟨ih1, h2⟩⟩
    case argument =>
      obtain ⟨ty', ys, h1, h2⟩ := ih2
      cases h1
      exact ⟨_, _, rfl, List.forall_mem_cons.2 ⟨ih1, h2⟩⟩
    all_goals exact expr_cons ih1 ih2
  | itemValue _ ih => exact expr_req ih
  | itemArgument _ _ _ ih => exact (expr_req ih).lift
  | itemKeyword _ _ _ _ ih => exact .keyword (expr_req ih)
  | itemEntry _ _ _ ih1 ih2 => exact .binop (expr_req ih1) (expr_req ih2)
  | itemVariable => exact fun _ => .ident
  | itemNothing => exact fun h => absurd rfl h
  | forTuple _ _ hv _ _ _ ih1 ih2 ih3 =>
    obtain ⟨ys, rfl⟩ := items_form hv
    obtain ⟨_, _, h1, h2⟩ := ih1
    cases h1
    exact fun hx => ih3 (.forHole h2 hx (expr_req ih2)) ⟨_, _, rfl⟩
  | forList _ _ hv _ _ ih1 ih2 ih3 =>
    obtain ⟨ys, rfl⟩ := items_form hv
    obtain ⟨_, _, h1, h2⟩ := ih1
    cases h1
    exact fun hx => ih3 (.forHole h2 hx (expr_req ih2)) ⟨_, _, rfl⟩
  | nextClause _ _ ih => exact fun h _ => ih h
  | lastClause => exact fun h h' => ⟨h, h'⟩
  | endOfFile => exact ⟨_, rfl, by simp⟩
  | docString _ _ ih => exact ih
  | listStatement _ _ _ ih1 ih2 => exact stmts_cons (.expr ih1) ih2
  | tupleAssign _ hv _ _ _ ih1 ih2 ih3 =>
    obtain ⟨ys, rfl⟩ := items_form hv
    exact stmts_cons (.unpack (expr_req ih2)) ih3
  | assign _ _ _ _ ih1 ih2 => exact stmts_cons (.assign (expr_req ih1)) ih2
  | rule _ _ _ _ ih1 ih2 =>
    obtain ⟨ty, xs, rfl, h⟩ := ih1
    exact stmts_cons (.expr (.call h)) ih2
  | method _ _ _ _ ih1 ih2 => exact stmts_cons (.expr (.binop .ident (expr_req ih1))) ih2

theorem find_cons (x y : Str) (n : Node) (vars : Vars) :
    Vars.find ((x, n) :: vars) y = if x = y then some n else vars.find y := by
  simp only [Vars.find, List.find?_cons]
  by_cases h : x = y <;> simp [h]

theorem varsOk_cons {x : Str} {n : Node} {vars : Vars} (hn : Expr false n) (h : VarsOk vars) :
    VarsOk ((x, n) :: vars) := by
  intro y m hm
  rw [find_cons] at hm
  split at hm
  · cases hm; exact hn
  · exact h y m hm

/-- One statement. -/
theorem walk_stmt (glob : GlobFn) {vars : Vars} (hv : VarsOk vars) {n : Node} (h : Stmt n)
    (hf : Free (called n) vars) :
    (∃ x e e', n = .assign (.ident x) e ∧ walk glob 0 vars e = some (e', vars) ∧ Expr false e' ∧
      walk glob 0 vars n = some (.assign (.ident x) e', (x, e') :: vars)) ∨
    ((∀ x e, n ≠ .assign (.ident x) e) ∧ ∃ n', walk glob 0 vars n = some (n', vars) ∧ Stmt n') := by
  cases h with
  | expr h =>
    obtain ⟨n', h1, h2, _⟩ := walk_expr glob hv h 0 (by simp) hf
    exact .inr ⟨(by intro x e he; subst he; cases h), n', h1, .expr h2⟩
  | assign h =>
    obtain ⟨e', h1, h2, _⟩ := walk_expr glob hv h 0 (by simp)
      (fun f hm => hf f (by simp [called, hm]))
    exact .inl ⟨_, _, e', rfl, h1, h2, by simp [walk, h1]⟩
  | unpack h =>
    obtain ⟨e', h1, h2, _⟩ := walk_expr glob hv h 0 (by simp)
      (fun f hm => hf f (by simp [called, hm]))
    exact .inr ⟨by simp, _, by simp only [walk, h1]; rfl, .unpack h2⟩

theorem walks_stmts (glob : GlobFn) : ∀ (xs : List Node) (vars : Vars), VarsOk vars →
    (∀ x ∈ xs, Stmt x) → Free (calledIn xs) vars → (∀ f ∈ calledIn xs, f ∉ assigned xs) →
    ∃ r, walks glob 0 vars xs = some r ∧ ∀ x ∈ r.1, Stmt x
  | [], vars, _, _, _, _ => ⟨_, rfl, by simp⟩
  | x :: xs, vars, hv, hs, hf, ha => by
    have hf1 : Free (called x) vars := fun f hm => hf f (by simp [calledIn, hm])
    have hf2 : Free (calledIn xs) vars := fun f hm => hf f (by simp [calledIn, hm])
    have hs' : ∀ y ∈ xs, Stmt y := fun y hy => hs y (by simp [hy])
    have ha' : ∀ f ∈ calledIn xs, f ∉ assigned xs := by
      intro f hm hm'
      refine ha f (by simp [calledIn, hm]) ?_
      simp only [assigned, List.filterMap_cons]
      split
      · exact hm'
      · exact List.mem_cons_of_mem _ hm'
    rcases walk_stmt glob hv (hs x (by simp)) hf1 with ⟨v, e, e', rfl, _, h2, h3⟩ | ⟨_, n', h1, h2⟩
    · have hf3 : Free (calledIn xs) ((v, e') :: vars) := by
        intro f hm
        rw [find_cons, if_neg]
        · exact hf2 f hm
        · rintro rfl
          exact ha v (by simp [calledIn, hm]) (by simp [assigned])
      obtain ⟨r, hr, hq⟩ := walks_stmts glob xs _ (varsOk_cons h2 hv) hs' hf3 ha'
      exact ⟨_, by simp only [walks, h3, hr]; rfl, List.forall_mem_cons.2 ⟨.assign h2, hq⟩⟩
    · obtain ⟨r, hr, hq⟩ := walks_stmts glob xs _ hv hs' hf2 ha'
      exact ⟨_, by simp only [walks, h1, hr]; rfl, List.forall_mem_cons.2 ⟨h2, hq⟩⟩

end Elab
end Bant
