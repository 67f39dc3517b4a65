import Verif.Lemmas.ElabMeaning
import Verif.Lemmas.NodeEq
import Verif.Props.Parser

/-! Properties of the elaboration of BUILD files: C19, C20, C55. -/
namespace Bant
namespace Props
open Elab Meaning Parser

/-- What `glob()` finds is not important here. -/
def someFiles : GlobFn := fun inc _ => inc

/-- Elaborated tree of a file. -/
def elaborated (content : Str) : Option Node :=
  (parseFile content).bind fun r => elabFile someFiles r.1

/-! ### C20: safety -/

/-- **C20**, full statement: no file content makes the elaboration use a missing node or a node
of the wrong kind. -/
def C20_statement : Prop :=
  ∀ (glob : GlobFn) content ast st, parseFile content = some (ast, st) → elabFile glob ast ≠ none

/-- A file that ends within an expression: the error is reported, and the missing operand is
used nevertheless. -/
theorem C20_counterexample : ¬ C20_statement := by
  intro h
  obtain ⟨r, hr⟩ : ∃ r, parseFile c!"x=[]+" = some r := by
    obtain ⟨n, st, h, _⟩ := parseFile_total c!"x=[]+"
    exact ⟨_, h⟩
  have h1 := h someFiles _ r.1 r.2 hr
  have h2 : elaborated c!"x=[]+" = none := by decide +kernel
  simp only [elaborated, hr, Option.bind_some] at h2
  exact h1 h2

/-- A file without any error: a variable with the name of a function that is called. -/
theorem C20_function_name_counterexample :
    outcome c!"f=1\nf()" = some (.list .list [.assign (.ident c!"f") (.int c!"1" 1),
      .call (.ident c!"f") (.list .tuple [])], []) ∧
    elaborated c!"f=1\nf()" = none := by
  constructor <;> decide +kernel

theorem file_stmts {content : Str} {stmts : List Node} {st : PState}
    (h : parseFile content = some (.list .list stmts, st)) (herr : st.errs = []) :
    ∀ s ∈ stmts, Stmt s := by
  obtain ⟨ts, hts, _⟩ := tokensOf_exists content
  have hp := (parseFile_iff hts _).1 ⟨st, h, herr⟩
  obtain ⟨xs, he, hs⟩ := expr_ok hp
  cases he
  exact hs

/-- **C20**, what is true: files without syntax errors in which no variable has the name of a
called function are elaborated safely, whatever `glob()` finds. -/
theorem C20_elaboration_safe_partial (glob : GlobFn) (content : Str) (stmts : List Node) (st : PState)
    (h : parseFile content = some (.list .list stmts, st)) (herr : st.errs = [])
    (hcall : ∀ f ∈ calledIn stmts, f ∉ assigned stmts) :
    ∃ out, elabFile glob (.list .list stmts) = some (.list .list out) := by
  obtain ⟨r, hr, _⟩ := walks_stmts glob stmts [] (by intro x m hm; simp [Vars.find] at hm)
    (file_stmts h herr)
    (fun _ _ => rfl) hcall
  exact ⟨r.1, by simp [elabFile, walk, hr]⟩

/-- The tree of a parsed file is always a list of statements, so the form above is general. -/
theorem C20_form (content : Str) (ast : Node) (st : PState) (h : parseFile content = some (ast, st))
    (herr : st.errs = []) : ∃ stmts, ast = .list .list stmts := by
  obtain ⟨ts, hts, _⟩ := tokensOf_exists content
  have hp := (parseFile_iff hts _).1 ⟨st, h, herr⟩
  obtain ⟨xs, he, _⟩ := expr_ok hp
  exact ⟨xs, he⟩

/-! ### C19: the evaluation that is done -/

mutual
/-- Trees without `+`, names, calls and comprehensions. -/
def inert : Node → Bool
  | .null => true
  | .str _ _ _ => true
  | .int _ _ => true
  | .ident _ => false
  | .unary _ e => inert e
  | .binop op a b => op != .op '+' && inert a && inert b
  | .list _ xs => allInert xs
  | .compr _ _ => false
  | .ternary a b c => inert a && inert b && inert c
  | .assign _ b => inert b
  | .call _ _ => false
def allInert : List Node → Bool
  | [] => true
  | x :: xs => inert x && allInert xs
end

theorem inert_walk (glob : GlobFn) (n : Node) : inert n = true → ∀ nest vars,
    ∃ vars', walk glob nest vars n = some (n, vars') := by
  induction n using Node.induct with
  | null => exact fun _ _ v => ⟨v, rfl⟩
  | str => exact fun _ _ v => ⟨v, rfl⟩
  | int => exact fun _ _ v => ⟨v, rfl⟩
  | ident => intro h; simp [inert] at h
  | unary op e ih =>
    intro h nest vars
    obtain ⟨v1, h1⟩ := ih (by simpa [inert] using h) nest vars
    exact ⟨v1, by simp [walk, h1]⟩
  | binop op l r ih1 ih2 =>
    intro h nest vars
    simp only [inert, Bool.and_eq_true, bne_iff_ne, ne_eq] at h
    obtain ⟨v1, h1⟩ := ih1 h.1.2 nest vars
    obtain ⟨v2, h2⟩ := ih2 h.2 nest v1
    exact ⟨v2, by simp [walk, h1, h2, h.1.1]⟩
  | list ty xs ih =>
    intro h nest vars
    have key : ∀ ys : List Node, (∀ y ∈ ys, y ∈ xs) → allInert ys = true → ∀ vars,
        ∃ vars', walks glob nest vars ys = some (ys, vars') := by
      intro ys
      induction ys with
      | nil => exact fun _ _ v => ⟨v, rfl⟩
      | cons y ys ih2 =>
        intro hsub hi vars
        simp only [allInert, Bool.and_eq_true] at hi
        obtain ⟨v1, h1⟩ := ih y (hsub y (by simp)) hi.1 nest vars
        obtain ⟨v2, h2⟩ := ih2 (fun z hz => hsub z (by simp [hz])) hi.2 v1
        exact ⟨v2, by simp [walks, h1, h2]⟩
    obtain ⟨v1, h1⟩ := key xs (fun _ h => h) (by simpa [inert] using h) vars
    exact ⟨v1, by simp [walk, h1]⟩
  | compr => intro h; simp [inert] at h
  | ternary a b c ih1 ih2 ih3 =>
    intro h nest vars
    simp only [inert, Bool.and_eq_true] at h
    obtain ⟨v1, h1⟩ := ih1 h.1.1 nest vars
    obtain ⟨v2, h2⟩ := ih2 h.1.2 nest v1
    obtain ⟨v3, h3⟩ := ih3 h.2 nest v2
    exact ⟨v3, by simp [walk, h1, h2, h3]⟩
  | assign l r ih1 ih2 =>
    intro h nest vars
    obtain ⟨v1, h1⟩ := ih2 (by simpa [inert] using h) nest vars
    simp only [walk, h1]
    cases l <;> exact ⟨_, rfl⟩
  | call => intro h; simp [inert] at h

/-- **C19** (a): a tree without `+`, names and calls is not changed. -/
theorem C19_unchanged (glob : GlobFn) (ast : Node) (h : inert ast = true) :
    elabFile glob ast = some ast := by
  obtain ⟨v, h1⟩ := inert_walk glob ast h 0 []
  simp [elabFile, h1]

example : inert (.list .list [.assign (.ident c!"x") (.binop (.op '*') (.int c!"1" 1) (.int c!"2" 2))])
    = true := by decide

/-- **C19** (b): `+`, given what the sides have been evaluated to: two lists of the same kind
are put together, so are two strings; one list wins against something else; all other
combinations are kept. -/
theorem C19_plus (glob : GlobFn) (nest : Nat) (vars v1 v2 : Vars) (a b a' b' : Node)
    (ha : walk glob nest vars a = some (a', v1)) (hb : walk glob nest v1 b = some (b', v2))
    (hna : a' ≠ .null) (hnb : b' ≠ .null) :
    ∃ n, walk glob nest vars (.binop (.op '+') a b) = some (n, v2) ∧
      (∀ ty xs ys, a' = .list ty xs → b' = .list ty ys → n = .list ty (xs ++ ys)) ∧
      (∀ x y t r t' r', a' = .str x t r → b' = .str y t' r' → n = .str (x ++ y) false false) ∧
      (∀ ty xs, a' = .list ty xs → (∀ ty' ys, b' ≠ .list ty' ys) → n = a') ∧
      (∀ ty xs, b' = .list ty xs → (∀ ty' ys, a' ≠ .list ty' ys) → n = b') ∧
      ((∀ ty xs, a' ≠ .list ty xs) → (∀ ty xs, b' ≠ .list ty xs) →
        ((∀ x t r, a' ≠ .str x t r) ∨ (∀ x t r, b' ≠ .str x t r)) → n = .binop (.op '+') a' b') ∧
      (∀ ty xs ty' ys, a' = .list ty xs → b' = .list ty' ys → ty ≠ ty' →
        n = .binop (.op '+') a' b') := by
  have hn : (a'.isNull || b'.isNull) = false := by
    cases a' <;> cases b' <;> simp_all [Node.isNull]
  simp only [walk, ha, hb, if_true, plus, hn, Bool.false_eq_true, if_false]
  cases a' <;> cases b' <;> simp_all
  rename_i ty xs ty' ys
  by_cases h : ty = ty' <;> simp [h]
  · intros; simp_all
  · refine ⟨fun ty1 _ _ h1 _ h2 => absurd (h1.trans h2.symm) h, ?_⟩
    intros; simp_all

/-- **C19** (c): `select()` with an entry for the default condition is the value of that entry.
`entries` are the evaluated entries of the map. -/
theorem C19_select (glob : GlobFn) (nest : Nat) (vars v1 : Vars) (args : Node) (ty : ListType)
    (pre post rest : List Node) (t r : Bool) (value : Node)
    (hs : vars.find c!"select" = none)
    (ha : walk glob (nest + 1) vars args =
      some (.list ty (.list .map (pre ++ .binop (.op ':') (.str c!"//conditions:default" t r) value :: post)
        :: rest), v1))
    (hpre : ∀ e ∈ pre, ∃ s t r v, e = .binop (.op ':') (.str s t r) v ∧ s ≠ c!"//conditions:default") :
    walk glob nest vars (.call (.ident c!"select") args) = some (value, v1) := by
  have key : ∀ pre : List Node,
      (∀ e ∈ pre, ∃ s t r v, e = .binop (.op ':') (.str s t r) v ∧ s ≠ c!"//conditions:default") →
      selectEntry (pre ++ .binop (.op ':') (.str c!"//conditions:default" t r) value :: post) =
        some (some value) := by
    intro pre
    induction pre with
    | nil => intro _; simp [selectEntry, Node.isNull, isDefaultCondition]
    | cons e pre ih =>
      intro h
      obtain ⟨s, t, r, v, rfl, hs⟩ := h e (by simp)
      simp only [List.cons_append, selectEntry, Node.isNull, isDefaultCondition, hs]
      simpa using ih (fun e he => h e (by simp [he]))
  simp only [walk, hs, Option.getD_none, ha, finishCall]
  rw [if_neg (by decide)]
  simp only [if_true, selectArgs, key pre hpre]

/-- **C19** (d): a name that has been assigned before at toplevel becomes the value of the last
assignment before; other names are kept. Here `y = x` after the statements `pre`. -/
theorem C19_variable (glob : GlobFn) (content : Str) (pre post out : List Node) (st : PState) (y x : Str)
    (hparse : parseFile content =
      some (.list .list (pre ++ .assign (.ident y) (.ident x) :: post), st)) (herr : st.errs = [])
    (hcall : ∀ f ∈ calledIn (pre ++ .assign (.ident y) (.ident x) :: post),
      f ∉ assigned (pre ++ .assign (.ident y) (.ident x) :: post))
    (h : elabFile glob (.list .list (pre ++ .assign (.ident y) (.ident x) :: post)) = some (.list .list out)) :
    (x ∉ assigned pre → out[pre.length]? = some (.assign (.ident y) (.ident x))) ∧
    (∀ a b e, pre = a ++ .assign (.ident x) e :: b → x ∉ assigned b →
      ∃ value, out[a.length]? = some (.assign (.ident x) value) ∧
        out[pre.length]? = some (.assign (.ident y) value)) := by
  have hs : ∀ s ∈ pre, Stmt s := by
    intro s hm
    exact file_stmts hparse herr s (by simp [hm])
  have hc : ∀ f ∈ calledIn pre, f ∉ assigned pre := by
    intro f hm hm'
    exact hcall f (by simp [calledIn_append, hm]) (by simp [assigned_append, hm'])
  simp only [elabFile, walk, Option.map_eq_some_iff] at h
  obtain ⟨⟨o, vs⟩, h, he⟩ := h
  split at h
  · cases h
  · rename_i xs' vars' hw
    cases h
    simp only at he
    cases he
    obtain ⟨pre', vars, s', v', h1, h2, h3⟩ := walks_split hw
    have hv0 : VarsOk ([] : Vars) := by intro x m hm; simp [Vars.find] at hm
    simp only [walk] at h2
    cases h2
    constructor
    · intro hx
      obtain ⟨_, hf⟩ := walks_vars glob pre [] _ _ hv0 hs (fun _ _ => rfl) hc h1
      rw [h3, hf x rfl hx]
      rfl
    · intro a b e hpe hb
      subst hpe
      rw [List.append_assoc, List.cons_append] at hw
      obtain ⟨a', va, s1, v1, h4, h5, h6⟩ := walks_split hw
      have hsa : ∀ s ∈ a, Stmt s := fun s hm => hs s (by simp [hm])
      have hca : ∀ f ∈ calledIn a, f ∉ assigned a := by
        intro f hm hm'
        exact hc f (by simp [calledIn_append, hm]) (by simp [assigned_append, hm'])
      obtain ⟨hva, hfa⟩ := walks_vars glob a [] _ _ hv0 hsa (fun _ _ => rfl) hca h4
      have hfe : Free (called (.assign (.ident x) e)) va := by
        intro f hm
        refine hfa f rfl ?_
        intro hm'
        exact hc f (by simp only [calledIn_append, calledIn, List.mem_append]; exact .inr (.inl hm))
          (by simp [assigned_append, hm'])
      rcases walk_stmt glob hva (hs _ (by simp)) hfe with ⟨x', e1, e', he, h7, h8, h9⟩ | ⟨hne, _⟩
      · cases he
        refine ⟨e', by rw [h6]; rw [h9] at h5; cases h5; rfl, ?_⟩
        rw [h3]
        rw [walks_append, h4] at h1
        simp only [walks, h9] at h1
        split at h1
        · cases h1
        · rename_i ys vy hy
          split at hy
          · cases hy
          · rename_i b' vb h10
            cases hy
            cases h1
            have key : ∀ (b : List Node) (vars vars' : Vars) (b' : List Node), VarsOk vars →
                (∀ s ∈ b, Stmt s) → Free (calledIn b) vars → (∀ f ∈ calledIn b, f ∉ assigned b) →
                x ∉ assigned b → walks glob 0 vars b = some (b', vars') → vars'.find x = vars.find x := by
              intro b
              induction b with
              | nil => intro vars vars' b' _ _ _ _ _ h; simp [walks] at h; rw [h.2]
              | cons s b ih =>
                intro vars vars' b' hv hs hf hc hx h
                have hsub : ∀ f, f ∈ assigned b → f ∈ assigned (s :: b) := by
                  intro f hm
                  simp only [assigned, List.filterMap_cons]
                  split
                  · exact hm
                  · exact List.mem_cons_of_mem _ hm
                simp only [walks] at h
                rcases walk_stmt glob hv (hs s (by simp)) (fun f hm => hf f (by simp [calledIn, hm])) with
                  ⟨z, ez, ez', rfl, _, g2, g3⟩ | ⟨_, n', g1, _⟩
                · rw [g3] at h
                  simp only at h
                  split at h
                  · cases h
                  · rename_i hr
                    cases h
                    have hzx : z ≠ x := by rintro rfl; exact hx (by simp [assigned])
                    rw [ih _ _ _ (varsOk_cons g2 hv) (fun s hm => hs s (by simp [hm])) ?_ ?_
                      (fun hm => hx (hsub _ hm)) hr, find_cons, if_neg hzx]
                    · intro f hm
                      rw [find_cons, if_neg]
                      · exact hf f (by simp [calledIn, hm])
                      · rintro rfl
                        exact hc z (by simp [calledIn, hm]) (by simp [assigned])
                    · exact fun f hm hm' => hc f (by simp [calledIn, hm]) (hsub f hm')
                · rw [g1] at h
                  simp only at h
                  split at h
                  · cases h
                  · rename_i hr
                    cases h
                    exact ih _ _ _ hv (fun s hm => hs s (by simp [hm]))
                      (fun f hm => hf f (by simp [calledIn, hm]))
                      (fun f hm hm' => hc f (by simp [calledIn, hm]) (hsub f hm'))
                      (fun hm => hx (hsub _ hm)) hr
            rw [key b _ _ _ (varsOk_cons h8 hva) (fun s hm => hs s (by simp [hm])) ?_ ?_ hb h10,
              find_cons, if_pos rfl]
            · rfl
            · intro f hm
              rw [find_cons, if_neg]
              · refine hfa f rfl ?_
                intro hm'
                exact hc f (by simp [calledIn_append, calledIn, hm]) (by simp [assigned_append, hm'])
              · rintro rfl
                exact hc x (by simp [calledIn_append, calledIn, hm])
                  (by simp [assigned])
            · intro f hm hm'
              refine hc f (by simp [calledIn_append, calledIn, hm]) ?_
              rw [assigned_append]
              refine List.mem_append_right _ ?_
              simp only [assigned, List.filterMap_cons]
              exact List.mem_cons_of_mem _ hm'
      · exact absurd rfl (hne _ _)

example : elaborated c!"x=[1]\ny=x+z\nx=2\nw=x" = some (.list .list
    [.assign (.ident c!"x") (.list .list [.int c!"1" 1]),
     .assign (.ident c!"y") (.list .list [.int c!"1" 1]),
     .assign (.ident c!"x") (.int c!"2" 2), .assign (.ident c!"w") (.int c!"2" 2)]) := by
  decide +kernel

/-! ### C55: elaboration keeps the meaning -/

/-- Elaborating a file keeps the meaning of what is assigned and of the arguments of rules:
whenever an expression has a value at its place in the file, the elaborated expression has this
value, without need of variables. -/
def KeepsMeaning (I : Interp) (stmts out : List Node) : Prop :=
  ∀ pre s post env, stmts = pre ++ s :: post → Reaches I pre env →
    (∀ x e v, s = .assign (.ident x) e → Means I env e v →
      ∃ e', out[pre.length]? = some (.assign (.ident x) e') ∧ Means I noVars e' v) ∧
    (∀ f ty args, s = .call (.ident f) (.list ty args) → f ∉ [c!"glob", c!"select"] →
      ∃ args', out[pre.length]? = some (.call (.ident f) (.list ty args')) ∧
        args'.length = args.length ∧
        ∀ (i : Nat) (v : Val),
          (∀ n : Node, args[i]? = some n → Means I env n v →
            ∃ n', args'[i]? = some n' ∧ Means I noVars n' v) ∧
          (∀ a e, args[i]? = some (Node.assign (.ident a) e) → Means I env e v →
            ∃ e', args'[i]? = some (Node.assign (.ident a) e') ∧ Means I noVars e' v))

/-- **C55**, full statement. -/
def C55_statement : Prop :=
  ∀ (I : Interp) (glob : GlobFn) content stmts st out,
    parseFile content = some (.list .list stmts, st) → st.errs = [] →
    elabFile glob (.list .list stmts) = some (.list .list out) → KeepsMeaning I stmts out

/-- An interpretation without operators. -/
def noOps : Interp := ⟨fun _ _ _ => none, fun _ _ => none⟩

/-- From a concrete file to the pieces of the statement. -/
theorem concrete {content : Str} {stmts out : List Node}
    (h1 : outcome content = some (.list .list stmts, []))
    (h2 : elaborated content = some (.list .list out)) (h : C55_statement) :
    KeepsMeaning noOps stmts out := by
  simp only [outcome, Option.map_eq_some_iff, Prod.mk.injEq] at h1
  obtain ⟨r, h3, h4, h5⟩ := h1
  simp only [elaborated, h3, Option.bind_some] at h2
  refine h noOps someFiles content stmts r.2 out ?_ ?_ ?_
  · rw [h3, ← h4]
  · exact h5
  · rw [← h4]; exact h2

theorem spells_newline {w : Str} (h : Spells c!"\\n" w) : w = c!"\n" := by
  generalize ht : (c!"\\n" : Str) = t at h
  cases h with
  | nil => cases ht
  | char hc => cases ht; exact absurd rfl hc
  | letter hl hs =>
    cases ht
    cases hs
    simp [letterEscapes] at hl
    rw [hl]
  | @octal ds n t s hne hd hlen hmax hn hs =>
    match ds, hne with
    | d :: ds, _ =>
      simp only [List.cons_append, List.cons.injEq, true_and] at ht
      have := hd d (by simp)
      rw [← ht.1] at this
      exact absurd this (by decide)

theorem spells_octal {w : Str} (h : Spells c!"\\12" w) : w.length = 1 := by
  generalize ht : (c!"\\12" : Str) = t at h
  cases h with
  | nil => cases ht
  | char hc => cases ht; exact absurd rfl hc
  | letter hl hs => cases ht; revert hl; simp [letterEscapes]
  | @octal ds n t s hne hd hlen hmax hn hs =>
    match ds, hne with
    | [d], _ =>
      cases ht
      simp [octalDigits] at hmax
    | [d1, d2], _ =>
      cases ht
      cases hs
      rfl
    | [d1, d2, d3], _ => cases ht
    | _ :: _ :: _ :: _ :: _, _ => simp at hlen

/-- Raw strings lose their kind when they are put together: `r"\n"+""` becomes a line break. -/
theorem C55_raw_counterexample : ¬ C55_statement := by
  intro h
  have h1 : outcome c!"x=r\"\\n\"+\"\"" = some (.list .list [.assign (.ident c!"x")
      (.binop (.op '+') (.str c!"\\n" false true) (.str [] false false))], []) := by decide +kernel
  have h2 : elaborated c!"x=r\"\\n\"+\"\"" = some (.list .list [.assign (.ident c!"x")
      (.str c!"\\n" false false)]) := by decide +kernel
  have := (concrete h1 h2 h [] _ [] _ rfl .start).1 _ _ _ rfl (.plusStr .raw (.str .nil))
  obtain ⟨e', h3, h4⟩ := this
  simp at h3
  subst h3
  cases h4 with
  | str hs => have := spells_newline hs; revert this; decide

/-- Octal escape sequences can grow: `"\1"+"2"` becomes one character. -/
theorem C55_octal_counterexample : ¬ C55_statement := by
  intro h
  have h1 : outcome c!"x=\"\\1\"+\"2\"" = some (.list .list [.assign (.ident c!"x")
      (.binop (.op '+') (.str c!"\\1" false false) (.str c!"2" false false))], []) := by decide +kernel
  have h2 : elaborated c!"x=\"\\1\"+\"2\"" = some (.list .list [.assign (.ident c!"x")
      (.str c!"\\12" false false)]) := by decide +kernel
  have := (concrete h1 h2 h [] _ [] _ rfl .start).1 _ _ _ rfl
    (.plusStr (.str (Spells.octal (ds := c!"1") (by decide) (by decide) (by decide) (by decide) rfl .nil))
      (.str (.char (by decide) .nil)))
  obtain ⟨e', h3, h4⟩ := this
  simp at h3
  subst h3
  cases h4 with
  | str hs => have := spells_octal hs; simp at this

/-- The variable of a comprehension is taken for a variable of the file. -/
theorem C55_comprehension_counterexample : ¬ C55_statement := by
  intro h
  have h1 : outcome c!"x=1\ny=[x for x in [2]]" = some (.list .list [.assign (.ident c!"x") (.int c!"1" 1),
      .assign (.ident c!"y") (.compr .list (.binop .kFor (.ident c!"x")
        (.binop .kIn (.list .tuple [.ident c!"x"]) (.list .list [.int c!"2" 2]))))], []) := by
    decide +kernel
  have h2 : elaborated c!"x=1\ny=[x for x in [2]]" = some (.list .list
      [.assign (.ident c!"x") (.int c!"1" 1),
      .assign (.ident c!"y") (.compr .list (.binop .kFor (.int c!"1" 1)
        (.binop .kIn (.list .tuple [.int c!"1" 1]) (.list .list [.int c!"2" 2]))))]) := by
    decide +kernel
  have := (concrete h1 h2 h [_] _ [] _ rfl (.step .start (.assign .int))).1 _ _ _ rfl
    (.compr (.list (.cons .int .nil)) (.cons (.ident (by simp [Env.set]; rfl)) .nil))
  obtain ⟨e', h3, h4⟩ := this
  simp at h3
  subst h3
  cases h4

/-- Several variables on the left side are ignored: the old value is used. -/
theorem C55_unpack_counterexample : ¬ C55_statement := by
  intro h
  have h1 : outcome c!"x=1\n(x,y)=(2,3)\nz=x" = some (.list .list [.assign (.ident c!"x") (.int c!"1" 1),
      .assign (.list .tuple [.ident c!"x", .ident c!"y"]) (.list .tuple [.int c!"2" 2, .int c!"3" 3]),
      .assign (.ident c!"z") (.ident c!"x")], []) := by decide +kernel
  have h2 : elaborated c!"x=1\n(x,y)=(2,3)\nz=x" = some (.list .list [.assign (.ident c!"x") (.int c!"1" 1),
      .assign (.list .tuple [.ident c!"x", .ident c!"y"]) (.list .tuple [.int c!"2" 2, .int c!"3" 3]),
      .assign (.ident c!"z") (.int c!"1" 1)]) := by decide +kernel
  have := (concrete h1 h2 h [_, _] _ [] _ rfl (.step (ss := [_]) (.step .start (.assign .int))
    (.unpack (.list (.cons .int (.cons .int .nil)))))).1 _ _ _ rfl
    (.ident (v := .int 2) (by simp [bindAll, Env.set]))
  obtain ⟨e', h3, h4⟩ := this
  simp at h3
  subst h3
  cases h4

/-- **C55**, what is true: the meaning is kept in files without comprehensions, backslashes in
raw strings, octal escapes and assignments of several variables, in which no variable has the
name of a called function. -/
theorem C55_meaning_partial (I : Interp) (glob : GlobFn) (content : Str) (stmts out : List Node)
    (st : PState) (h : parseFile content = some (.list .list stmts, st)) (herr : st.errs = [])
    (hcall : ∀ f ∈ calledIn stmts, f ∉ assigned stmts) (hplain : ∀ s ∈ stmts, plain s = true)
    (hsingle : ∀ s ∈ stmts, ∀ ty xs e, s ≠ .assign (.list ty xs) e)
    (hout : elabFile glob (.list .list stmts) = some (.list .list out)) :
    KeepsMeaning I stmts out := by
  intro pre s post env hst hr
  subst hst
  simp only [elabFile, walk, Option.map_eq_some_iff] at hout
  obtain ⟨⟨o, vs⟩, hout, he⟩ := hout
  split at hout
  · cases hout
  · rename_i xs' vars' hw
    cases hout
    simp only at he
    cases he
    obtain ⟨pre', vars, s', v', h1, h2, h3⟩ := walks_split hw
    have hs := file_stmts h herr
    have hs1 : ∀ x ∈ pre, Stmt x := fun x hx => hs x (by simp [hx])
    have ha1 : ∀ f ∈ calledIn pre, f ∉ assigned pre := by
      intro f hm hm'
      exact hcall f (by simp [calledIn_append, hm]) (by simp [assigned_append, hm'])
    have hag := walks_agrees I glob hr h1 hs1 ha1 (fun x hx => hplain x (by simp [hx]))
      (fun x hx => hsingle x (by simp [hx]))
    have hv0 : VarsOk ([] : Vars) := by intro x m hm; simp [Vars.find] at hm
    obtain ⟨hv, hfr⟩ := walks_vars glob pre [] _ _ hv0 hs1 (fun f _ => rfl) ha1 h1
    have hfn : Free (called s) vars := by
      intro f hm
      refine hfr f rfl ?_
      intro hm'
      exact hcall f (by simp only [calledIn_append, calledIn, List.mem_append]; exact .inr (.inl hm))
        (by simp [assigned_append, hm'])
    have hps := hplain s (by simp)
    constructor
    · intro x e v hse hm
      subst hse
      rcases walk_stmt glob hv (hs _ (by simp)) hfn with ⟨x', e1, e', he, h4, h5, h6⟩ | ⟨hne, _⟩
      · cases he
        rw [h6] at h2
        cases h2
        exact ⟨e', h3, ((keeps I glob e).1 _ _ _ _ _ _ h4 (by simpa [plain] using hps) hag
          (fun f hm => hfn f (by simp [called, hm])) hm).2.1⟩
      · exact absurd rfl (hne _ _)
    · intro f ty args hsc hfg
      subst hsc
      have hff : vars.find f = none := hfn f (by simp [called])
      simp only [List.mem_cons, List.not_mem_nil, or_false, not_or] at hfg
      simp only [walk, hff, Option.getD_none] at h2
      split at h2
      · cases h2
      · rename_i a' va ha'
        split at ha'
        · cases ha'
        · rename_i args' vb hargs
          cases ha'
          simp only [finishCall, hfg.1, hfg.2, if_false, Option.some.injEq, Prod.mk.injEq] at h2
          obtain ⟨rfl, rfl⟩ := h2
          refine ⟨args', h3, walks_length _ _ _ _ _ _ hargs, ?_⟩
          exact walks_args hag (by simp only [plain, Bool.and_eq_true] at hps; exact hps.2)
            (fun g hm => hfn g (by simp [called, hm])) hargs

/-- Example of the use: the names of a rule's sources, put together from a variable. -/
example : ∃ out, elaborated c!"x=[\"a\"]\nr(s=x+[\"b\"])" = some (.list .list out) ∧
    out[1]? = some (.call (.ident c!"r") (.list .tuple [.assign (.ident c!"s")
      (.list .list [.str c!"a" false false, .str c!"b" false false])])) :=
  ⟨[.assign (.ident c!"x") (.list .list [.str c!"a" false false]),
    .call (.ident c!"r") (.list .tuple [.assign (.ident c!"s")
      (.list .list [.str c!"a" false false, .str c!"b" false false])])], by decide +kernel, rfl⟩

end Props
end Bant
