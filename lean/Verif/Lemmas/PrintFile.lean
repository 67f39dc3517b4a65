import Verif.Lemmas.PrintTrees
import Verif.Lemmas.PrintParses

/-! Printed statements are parsed to the statements they have been made of. -/
namespace Bant
namespace Print
open Grammar

/-- Statements that end with a bracket. -/
inductive Bracketed : Node → Prop
  | call {f a} : Bracketed (.call f a)
  | list {xs} : Bracketed (.list .list xs)
  | compr {f} : Bracketed (.compr .list f)

theorem parses_call {f : Str} {xs : List Node} (h : Printable .expr (.call (.ident f) (.list .tuple xs)))
    (i p : Nat) (nl : Bool) (s : List Token) :
    ∃ t u ts, toks p nl i (.call (.ident f) (.list .tuple xs)) = t :: u :: ts ∧ t.type = .identifier ∧
      t.text = f ∧ u.type = .op '(' ∧
      Parses (.items .tuple .argument (.op ')')) (ts ++ s) s (.list .tuple xs) := by
  cases h with
  | call hf h =>
    obtain ⟨t, p', nl', e1, e2, _⟩ := toks_list i (p + f.length) false .tuple xs
    have e0 : toks p nl i (.call (.ident f) (.list .tuple xs))
        = ⟨.identifier, p, f, nl || decide ('\n' ∈ f)⟩ :: toks (p + f.length) false i (.list .tuple xs) := by
      simp only [toks]
      rw [parts]
      rfl
    exact ⟨_, t, _, by rw [e0, e1], rfl, rfl, e2,
      parses_items' (ty := .tuple) (fun x hx => ⟨(h x hx).ne_null, parses_parts (h x hx)⟩) p' nl' s⟩

theorem parses_square {n : Node} (h : Printable .expr n)
    (hn : (∃ xs, n = .list .list xs) ∨ (∃ f, n = .compr .list f)) (i p : Nat) (nl : Bool)
    (s : List Token) :
    ∃ t ts, toks p nl i n = t :: ts ∧ t.type = .op '[' ∧ Parses (.bracket .list .value) (ts ++ s) s n := by
  rcases hn with ⟨xs, rfl⟩ | ⟨f, rfl⟩
  · cases h with
    | list h =>
      obtain ⟨t, p', nl', e1, e2, _⟩ := toks_list i p nl .list xs
      exact ⟨t, _, e1, e2, parses_bracket (by simp)
        (fun x hx => ⟨(h x hx).ne_null, (parses_parts (h x hx)).1.value⟩) p' nl' s⟩
  · cases h with
    | listCompr h =>
      simp only [toks, parts, tokensAt, tokensAt_append]
      refine ⟨_, _, rfl, rfl, ?_⟩
      rw [List.append_assoc]
      exact parses_parts h i _ _ _ s f (Or.inr rfl) (.lastClause rfl (by simp [closing]))

/-- A statement in front of a file. -/
theorem parses_stmt {n : Node} (h : Stmt n) (hr : Reprintable n) {s : List Token} {xs : List Node}
    (hs : Parses .program s [] (.list .list xs)) (hb : s = [] ∨ Bracketed n) (i p : Nat) (nl : Bool) :
    Parses .program (toks p nl i n ++ s) [] (.list .list (n :: xs)) := by
  have stop : ∀ {m}, s = [] → Stop m s := by rintro m rfl; exact Or.inl (by simp [hd])
  cases h with
  | call h =>
    have hp := tree_printable h hr
    have hp' := hp
    cases hp with
    | call hf _ =>
      obtain ⟨t, u, ts, e, e1, e2, e3, e4⟩ := parses_call hp' i p nl s
      rw [e]
      subst e2
      exact .rule e1 e3 e4 hs
  | list h =>
    obtain ⟨t, ts, e, e1, e2⟩ := parses_square (tree_printable h hr) (Or.inl ⟨_, rfl⟩) i p nl s
    rw [e]
    exact .listStatement e1 e2 hs
  | compr h =>
    obtain ⟨t, ts, e, e1, e2⟩ := parses_square (tree_printable h hr) (Or.inr ⟨_, rfl⟩) i p nl s
    rw [e]
    exact .listStatement e1 e2 hs
  | @assign w v hw h =>
    have hs0 : s = [] := by rcases hb with h | h; exact h; cases h
    cases hr with
    | assign _ hv =>
      have hp := (parses_parts (tree_printable h hv)).1
      have e1 : ∃ u t p' nl', toks p nl i (.assign (.ident w) v) = u :: t :: toks p' nl' i v ∧
          u.type = .identifier ∧ u.text = w ∧ t.type = .op '=' :=
        ⟨_, _, _, _, by simp [toks, parts, tokensAt]; exact ⟨rfl, rfl, rfl⟩, rfl, rfl, rfl⟩
      obtain ⟨u, t, p', nl', e1, e2, e3, e4⟩ := e1
      rw [e1]
      subst e3
      exact .assign e2 e4 (hp i p' nl' false s (stop hs0)) hs
  | @tupleAssign vs v hvs h =>
    have hs0 : s = [] := by rcases hb with h | h; exact h; cases h
    cases hr with
    | assign hl hv =>
      have hp := (parses_parts (tree_printable h hv)).1
      have e1 : ∃ t p' nl', toks p nl i (.assign (.list .tuple vs) v)
          = toks p nl i (.list .tuple vs) ++ t :: toks p' nl' i v ∧ t.type = .op '=' :=
        ⟨_, _, _, by rw [toks, parts]; simp [tokensAt]; exact ⟨rfl, rfl⟩, rfl⟩
      obtain ⟨t, p', nl', e1, e2⟩ := e1
      obtain ⟨q, ts, e5, e6, e7⟩ := parses_variables (vars_printable hvs hl) p nl (i := i)
        (t :: toks p' nl' i v ++ s)
      rw [e1, e5]
      have := Parses.tupleAssign e6 e7 e2 (hp i p' nl' false s (stop hs0)) hs
      simpa using this
  | @method w e hw h =>
    have hs0 : s = [] := by rcases hb with h | h; exact h; cases h
    cases hr with
    | binop _ hv _ _ =>
      have hp := (parses_parts (tree_printable h hv)).1
      have e1 : ∃ u t p' nl', toks p nl i (.binop (.op '.') (.ident w) e) = u :: t :: toks p' nl' i e ∧
          u.type = .identifier ∧ u.text = w ∧ t.type = .op '.' :=
        ⟨_, _, _, _, by simp [toks, parts, tokensAt]; exact ⟨rfl, rfl, rfl⟩, rfl, rfl, rfl⟩
      obtain ⟨u, t, p', nl', e1, e2, e3, e4⟩ := e1
      rw [e1]
      subst e3
      exact .method e2 e4 (hp i p' nl' false s (stop hs0)) hs

theorem parts_assign (i : Nat) (l r : Node) : parts i (.assign l r) = parts i l ++
    (.gap [' '] :: .tok (.op '=') ['='] :: .gap [' '] :: parts i r) := by
  rw [parts]
  simp

theorem fits_stmt {n : Node} (h : Stmt n) (hr : Reprintable n) {ps : List Part} (hf : Fits ps)
    (hc : (render ps).head? = some '\n') (i : Nat) : Fits (parts i n ++ ps) := by
  have hfo : ∀ {m}, Follows m ps := fun {m} => follows_of hf hc (by simp)
  cases h with
  | call h => exact fits_parts (tree_printable h hr) i ps hfo
  | list h => exact fits_parts (tree_printable h hr) i ps hfo
  | compr h => exact fits_parts (tree_printable h hr) i ps hfo
  | assign hw h => exact fits_parts (tree_printable (.keyword hw h) hr) i ps hfo
  | @tupleAssign vs v hvs h =>
    cases hr with
    | assign hl hv =>
      have h1 : Puts i (.list .tuple vs) := fits_list fun v hm => by
        obtain ⟨w, rfl, hw⟩ := vars_printable hvs hl v hm
        exact ⟨by simp, fits_ident hw⟩
      have := puts_op (op := .op '=') h1 (fits_parts (tree_printable h hv) i) (by simp) (by simp)
        (ps := ps) hfo
      have e : parts i (.assign (.list .tuple vs) v) ++ ps = parts i (.list .tuple vs) ++
          (.gap [' '] :: .tok (.op '=') (opText (.op '=')) :: .gap [' '] :: (parts i v ++ ps)) := by
        rw [parts_assign]
        simp only [List.append_assoc, List.cons_append]
        rfl
      rw [e]; exact this
  | method hw h =>
    exact fits_parts (tree_printable (.binop (by simp [Grammar.binary]) (.ident hw) h) hr) i ps hfo

/-- A statement that is printed alone. -/
theorem print_stmt {n : Node} (h : Stmt n) (hr : Reprintable n) (i : Nat) :
    ∃ st, Parser.parseFile (print i n ++ ['\n']) = some (.list .list [n], st) ∧ st.errs = [] := by
  have hf := fits_stmt h hr (ps := [.gap ['\n']]) ⟨gap_newline, trivial⟩ rfl i
  have ht := tokensOf_fits hf
  have hp := parses_stmt h hr (s := []) .endOfFile (Or.inl rfl) i 0 false
  have e1 : render (parts i n ++ [.gap ['\n']]) = print i n ++ ['\n'] := by
    rw [render_append, render_parts]; rfl
  have e2 : tokensAt 0 false (parts i n ++ [.gap ['\n']]) = toks 0 false i n ++ [] := by
    rw [tokensAt_append]; rfl
  rw [e1, e2] at ht
  exact (Parser.parseFile_iff ht _).2 hp

/-- Parts of printed statements. -/
def fileParts : List (Str × Node) → List Part
  | [] => []
  | (comment, n) :: xs =>
    .gap (c!"# " ++ comment ++ ['\n']) :: (parts 0 n ++ (.gap ['\n'] :: fileParts xs))

theorem render_fileParts (xs : List (Str × Node)) : render (fileParts xs) = printStatements xs := by
  induction xs with
  | nil => rfl
  | cons x xs ih => simp [fileParts, render, Part.text, printStatements, render_parts, ih]

theorem print_stmts {xs : List (Str × Node)}
    (h : ∀ x ∈ xs, '\n' ∉ x.1 ∧ Stmt x.2 ∧ Reprintable x.2 ∧ Bracketed x.2) :
    ∃ st, Parser.parseFile (printStatements xs) = some (.list .list (xs.map (·.2)), st) ∧
      st.errs = [] := by
  have key : Fits (fileParts xs) ∧ ∀ p nl, Parses .program (tokensAt p nl (fileParts xs)) []
      (.list .list (xs.map (·.2))) := by
    induction xs with
    | nil => exact ⟨trivial, fun _ _ => .endOfFile⟩
    | cons x xs ih =>
      obtain ⟨comment, n⟩ := x
      obtain ⟨h1, h2, h3, h4⟩ := h (comment, n) (by simp)
      obtain ⟨hf, hp⟩ := ih fun y hy => h y (by simp [hy])
      refine ⟨⟨?_, fits_stmt h2 h3 (ps := .gap ['\n'] :: fileParts xs) ⟨gap_newline, hf⟩ rfl 0⟩, ?_⟩
      · have : Gap False ('#' :: ((' ' :: comment) ++ '\n' :: [])) :=
          .comment (by simp [h1]) .nil
        simpa using this
      · intro p nl
        simp only [fileParts, tokensAt, tokensAt_append]
        exact parses_stmt h2 h3 (hp _ _) (Or.inr h4) 0 _ _
  have ht := tokensOf_fits key.1
  rw [render_fileParts] at ht
  exact (Parser.parseFile_iff ht _).2 (key.2 0 false)

end Print
end Bant
