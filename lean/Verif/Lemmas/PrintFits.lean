import Verif.Lemmas.PrintParts
import Verif.Spec.Print

/-! The printed form of a tree is scanned as the tokens it has been made of. -/
namespace Bant
namespace Print
open Scanner Relex

/-! ### The parts -/

/-- opening bracket -/
def openType : ListType → TokenType
  | .list => .op '['
  | .map => .op '{'
  | .tuple => .op '('

mutual
/-- The parts of the printed form. -/
def parts (i : Nat) : Node → List Part
  | .null => []
  | .str text triple raw =>
    [.tok .stringLiteral
      ((if raw then ['r'] else []) ++ quotes text triple ++ text ++ quotes text triple)]
  | .int rep v => [.tok .numberLiteral (if rep = [] then intText v else rep)]
  | .ident id => [.tok .identifier id]
  | .unary op e => .tok op (opText op) :: ((if op = .op '!' then [.gap [' ']] else []) ++ parts i e)
  | .binop op l r =>
    parts i l
      ++ (if op = .op '.' ∨ op = .op '[' then [.tok op (opText op)]
          else [.gap [' '], .tok op (opText op), .gap [' ']])
      ++ parts i r ++ (if op = .op '[' then [.tok (.op ']') [']']] else [])
  | .list ty xs =>
    .tok (openType ty) (openText ty) :: ((if 1 < xs.length then [.gap ['\n']] else [])
      ++ (partsElems (i + 4) (decide (1 < xs.length)) true xs
      ++ ((if ty = .tuple ∧ xs.length = 1 then [.tok (.op ',') [',']] else [])
      ++ ((if 1 < xs.length then [.gap ('\n' :: spaces i)] else [])
      ++ [.tok (Grammar.closing ty) (closeText ty)]))))
  | .compr ty f => .tok (openType ty) (openText ty) :: (parts i f
      ++ [.tok (Grammar.closing ty) (closeText ty)])
  | .ternary c p n =>
    parts i p ++ [.gap [' '], .tok .kIf c!"if", .gap [' ']] ++ parts i c
      ++ (if n.isNull then [] else [.gap [' '], .tok .kElse c!"else", .gap [' ']] ++ parts i n)
  | .assign l r => parts i l ++ [.gap [' '], .tok (.op '=') ['='], .gap [' ']] ++ parts i r
  | .call fn args => .tok .identifier (fn.asIdent.getD []) :: parts i args

def partsElems (i : Nat) (multi : Bool) : Bool → List Node → List Part
  | _, [] => []
  | first, x :: xs =>
    (if first then [] else [.tok (.op ',') [','], .gap ['\n']])
      ++ (if multi then [.gap (spaces i)] else [])
      ++ (if x.isNull then [.tok .identifier c!"NIL"] else parts i x)
      ++ partsElems i multi false xs
end

mutual
theorem render_parts (i : Nat) (n : Node) : render (parts i n) = print i n := by
  cases n with
  | null => rfl
  | str => simp [parts, print, printWith, render, Part.text]
  | int => simp [parts, print, printWith, render, Part.text]
  | ident => simp [parts, print, printWith, render, Part.text]
  | unary op e =>
    have := render_parts i e
    rw [print] at this
    by_cases h : op = .op '!' <;> simp [parts, print, printWith, render, Part.text, h, this]
  | binop op l r =>
    have h1 := render_parts i l
    have h2 := render_parts i r
    rw [print] at h1 h2
    by_cases h : op = .op '['
    · simp [parts, print, printWith, render, Part.text, h, h1, h2]
    · by_cases h' : op = .op '.' <;> simp [parts, print, printWith, render, Part.text, h, h', h1, h2]
  | list ty xs =>
    have h := render_partsElems (i + 4) (decide (1 < xs.length)) true xs
    by_cases h1 : 1 < xs.length
    · simp only [h1, decide_true] at h
      simp [parts, print, printWith, render, Part.text, h, h1, show xs.length ≠ 1 by omega]
    · simp only [h1, decide_false] at h
      by_cases h2 : ty = .tuple ∧ xs.length = 1 <;>
        simp [parts, print, printWith, render, Part.text, h, h1, h2]
  | compr ty f =>
    have h1 := render_parts i f
    rw [print] at h1
    simp [parts, print, printWith, render, Part.text, h1]
  | ternary c p n =>
    have h1 := render_parts i c
    have h2 := render_parts i p
    have h3 := render_parts i n
    rw [print] at h1 h2 h3
    by_cases h : n.isNull = true <;> simp [parts, print, printWith, render, Part.text, h, h1, h2, h3]
  | assign l r =>
    have h1 := render_parts i l
    have h2 := render_parts i r
    rw [print] at h1 h2
    simp [parts, print, printWith, render, Part.text, colored, h1, h2]
  | call fn args =>
    have h1 := render_parts i args
    rw [print] at h1
    simp [parts, print, printWith, render, Part.text, colored, h1]

theorem render_partsElems (i : Nat) (multi first : Bool) (xs : List Node) :
    render (partsElems i multi first xs) = printElems id false i multi first xs := by
  cases xs with
  | nil => rfl
  | cons x xs =>
    have h1 := render_parts i x
    have h2 := render_partsElems i multi false xs
    rw [print] at h1
    cases first <;> cases multi <;> by_cases h : x.isNull = true <;>
      simp [partsElems, printElems, render, Part.text, h, h1, h2]
end

/-! ### The trees -/

/-- Kinds of printed trees: expression, key and value, argument, index, comprehension with
this kind of element, variable -/
inductive Kind where
  | expr
  | entry
  | argument
  | index
  | clauses (k : Kind)

/-- Text of an identifier token. -/
def IdentText (w : Str) : Prop :=
  ∃ c cs, w = c :: cs ∧ isDigit c = false ∧ (∀ d ∈ c :: cs, isIdentifierChar d = true) ∧
    c :: cs ≠ c!"not" ∧ ∀ ty, (c :: cs, ty) ∉ keywords

/-- Strings that can be printed. -/
def StrOk (text : Str) (triple : Bool) : Prop :=
  (∃ units : List Str, text = units.flatten ∧ ∀ u ∈ units, StringUnit u) ∧
    ('"' ∈ text → triple = false ∧ NoBareQuote text)

/-- Trees with a printed form that means the same, together with what the grammar and the
scanner guarantee. -/
inductive Printable : Kind → Node → Prop
  | str {text triple raw} : StrOk text triple → Printable .expr (.str text triple raw)
  | int {d rep v} : NumberText d rep → intFromLiteral rep = some (.int rep v) →
      Printable .expr (.int rep v)
  | ident {i} : IdentText i → Printable .expr (.ident i)
  | unary {op e} : op ∈ [TokenType.op '-', .op '!'] → Printable .expr e →
      (op = .op '!' → ∀ i, ¬ c!"in" <+: print i e) → Printable .expr (.unary op e)
  | binop {op l r} : op ∈ Grammar.binary → Printable .expr l → Simple l →
      (op = .op '.' → ∀ rep v, l ≠ .int rep v) → Printable .expr r →
      Printable .expr (.binop op l r)
  | index {l x} : Printable .expr l → Simple l → Printable .index x →
      Printable .expr (.binop (.op '[') l x)
  | ternary {c p n} : Printable .expr c → Printable .expr p → Simple p → ¬ OpenIf c →
      Printable .expr n → Printable .expr (.ternary c p n)
  | onlyIf {c p} : Printable .expr c → Printable .expr p → Simple p →
      Printable .expr (.ternary c p .null)
  | list {xs} : (∀ x ∈ xs, Printable .expr x) → Printable .expr (.list .list xs)
  | tuple {xs} : (∀ x ∈ xs, Printable .expr x) → Printable .expr (.list .tuple xs)
  | map {xs} : (∀ x ∈ xs, Printable .entry x) → Printable .expr (.list .map xs)
  | call {f xs} : IdentText f → (∀ x ∈ xs, Printable .argument x) →
      Printable .expr (.call (.ident f) (.list .tuple xs))
  | listCompr {f} : Printable (.clauses .expr) f → Printable .expr (.compr .list f)
  | mapCompr {f} : Printable (.clauses .entry) f → Printable .expr (.compr .map f)
  | entry {k v} : Printable .expr k → Printable .expr v →
      Printable .entry (.binop (.op ':') k v)
  | value {e} : Printable .expr e → Printable .argument e
  | keyword {i v} : IdentText i → Printable .expr v → Printable .argument (.assign (.ident i) v)
  | at_ {e} : Printable .expr e → Printable .index e
  | slice {a b} : Printable .expr a → Printable .expr b →
      Printable .index (.binop (.op ':') a b)
  | sliceFrom {a} : Printable .expr a → Printable .index (.binop (.op ':') a .null)
  | sliceTo {b} : Printable .expr b → Printable .index (.binop (.op ':') .null b)
  | one {k x vs vals} : Printable k x → (∀ v ∈ vs, ∃ i, v = .ident i ∧ IdentText i) →
      Printable .expr vals →
      Printable (.clauses k) (.binop .kFor x (.binop .kIn (.list .tuple vs) vals))
  | more {k x vs vals} : Printable (.clauses k) x → (∀ v ∈ vs, ∃ i, v = .ident i ∧ IdentText i) →
      Printable .expr vals →
      Printable (.clauses k) (.binop .kFor x (.binop .kIn (.list .tuple vs) vals))

theorem Printable.ne_null {k : Kind} {n : Node} (h : Printable k n) : n ≠ .null := by
  induction h <;> first | (intro e; cases e; done) | assumption

theorem isNull_eq_false {n : Node} (h : n ≠ .null) : n.isNull = false := by
  cases n <;> first | rfl | exact absurd rfl h

/-! ### Scanning -/

/-- What can follow a printed expression: nothing, or one of these characters. -/
def Bound (rest : Str) : Prop := ∀ c, rest.head? = some c → c ∈ c!" \n,.:[]()}"

theorem Bound.noWord {rest : Str} (h : Bound rest) : ¬ startsWithWordChar rest := by
  rintro ⟨c, cs, rfl, hc⟩
  have := h c rfl
  simp only [List.mem_cons, List.not_mem_nil, or_false] at this
  rcases this with rfl | rfl | rfl | rfl | rfl | rfl | rfl | rfl | rfl | rfl <;> revert hc <;> decide

theorem Bound.noQuote {rest : Str} (h : Bound rest) :
    ∀ q, rest.head? = some q → q ≠ '"' ∧ q ≠ '\'' := by
  intro q hq
  have := h q hq
  simp only [List.mem_cons, List.not_mem_nil, or_false] at this
  rcases this with rfl | rfl | rfl | rfl | rfl | rfl | rfl | rfl | rfl | rfl <;> decide

theorem Bound.noDigit {rest : Str} (h : Bound rest) (hd : rest.head? ≠ some '.') :
    ∀ c cs, rest = c :: cs → isXDigit c = false ∧ c ≠ '.' ∧ c ≠ 'x' ∧ c ≠ 'o' := by
  rintro c cs rfl
  have := h c rfl
  simp only [List.mem_cons, List.not_mem_nil, or_false] at this
  rcases this with rfl | rfl | rfl | rfl | rfl | rfl | rfl | rfl | rfl | rfl <;>
    first | decide | exact absurd rfl hd

theorem bound_of {rest : Str} {c : Char} (h : rest.head? = some c) (hc : c ∈ c!" \n,.:[]()}") :
    Bound rest := by
  intro d hd; rw [h] at hd; cases hd; exact hc

theorem lexes_ident {w rest : Str} (h : IdentText w) (hr : Bound rest) :
    Lexes .identifier w rest := by
  obtain ⟨c, cs, rfl, h1, h2, h3, h4⟩ := h
  exact lexes_identifier h1 h2 h4 hr.noWord hr.noQuote h3

theorem quote_mem_units {q : Char} {units : List Str} (h : [q] ∈ units) : q ∈ units.flatten := by
  simp only [List.mem_flatten]
  exact ⟨[q], h, by simp⟩

theorem lexes_str {text rest : Str} {triple raw : Bool} (h : StrOk text triple) (hr : Bound rest) :
    Lexes .stringLiteral
      ((if raw then ['r'] else []) ++ quotes text triple ++ text ++ quotes text triple) rest := by
  obtain ⟨⟨units, rfl, hu⟩, hq⟩ := h
  have hpre : (if raw = true then ['r'] else []) ∈ [[], ['r']] := by cases raw <;> simp
  by_cases hm : '"' ∈ units.flatten
  · obtain ⟨rfl, us, he, hus, hn⟩ := hq hm
    have := lexes_single (rest := rest) hpre (by simp) hus hn
      (fun _ e => (hr.noQuote _ e).2 rfl)
    simp only [quotes, quoteChar, hm, if_true, Bool.false_eq_true, if_false]
    rw [he]
    exact this
  · cases triple with
    | false =>
      have := lexes_single (rest := rest) hpre (q := '"') (by simp) hu
        (fun h => hm (quote_mem_units h)) (fun _ e => (hr.noQuote _ e).1 rfl)
      simpa only [quotes, quoteChar, hm, if_false, Bool.false_eq_true] using this
    | true =>
      have := lexes_triple (rest := rest) hpre (q := '"') (by simp) hu hm
      simpa only [quotes, quoteChar, hm, if_false, if_true] using this

theorem gap_spaces (n : Nat) : Gap False (spaces n) := by
  induction n with
  | zero => exact .nil
  | succ n ih => exact .blank (by simp) ih

theorem gap_space : Gap False [' '] := .blank (by simp) .nil
theorem gap_newline : Gap False ['\n'] := .blank (by simp) .nil

/-- Operators between blanks. -/
theorem lexes_op {op : TokenType} {rest : Str}
    (h : op ∈ Grammar.binary ∨ op ∈ [TokenType.kFor, .kIn, .op ':', .kIf, .kElse, .op '=']) :
    Lexes op (opText op) (' ' :: rest) := by
  simp only [Grammar.binary, List.mem_cons, List.not_mem_nil, or_false] at h
  rcases h with (rfl | rfl | rfl | rfl | rfl | rfl | rfl | rfl | rfl | rfl | rfl | rfl | rfl | rfl |
    rfl | rfl | rfl) | rfl | rfl | rfl | rfl | rfl | rfl <;> first
    | exact lexes_punct (by decide)
    | exact lexes_rel (by decide) (by simp)
    | exact lexes_relEq (by decide)
    | exact lexes_notIn
    | exact lexes_keyword (by simp [keywords, opText])

theorem lexes_open (ty : ListType) (rest : Str) : Lexes (openType ty) (openText ty) rest := by
  cases ty <;> exact lexes_punct (by simp)

theorem lexes_close (ty : ListType) (rest : Str) :
    Lexes (Grammar.closing ty) (closeText ty) rest := by
  cases ty <;> exact lexes_punct (by simp)

theorem open_ne (ty : ListType) : openType ty ≠ .eof := by cases ty <;> simp [openType]
theorem close_ne (ty : ListType) : Grammar.closing ty ≠ .eof := by
  cases ty <;> simp [Grammar.closing]

/-- A binary operator is not one of the special ones. -/
theorem binary_ne {op : TokenType} (h : op ∈ Grammar.binary) :
    op ≠ .op '[' ∧ op ≠ .op ':' ∧ op ≠ .eof ∧ op ≠ .kFor := by
  simp only [Grammar.binary, List.mem_cons, List.not_mem_nil, or_false] at h
  rcases h with rfl | rfl | rfl | rfl | rfl | rfl | rfl | rfl | rfl | rfl | rfl | rfl | rfl | rfl |
    rfl | rfl | rfl <;> simp

/-- The printed form can be followed by these parts. -/
def Follows (n : Node) (ps : List Part) : Prop :=
  Fits ps ∧ Bound (render ps) ∧
    ((render ps).head? = some '.' → Simple n ∧ ∀ rep v, n ≠ .int rep v)

theorem follows_of {n : Node} {ps : List Part} {c : Char} (h : Fits ps)
    (hc : (render ps).head? = some c) (hm : c ∈ c!" \n,:[]()}") : Follows n ps := by
  refine ⟨h, bound_of hc (by grind), ?_⟩
  intro e
  rw [hc] at e
  cases e
  simp at hm

/-- First character of the printed form. -/
theorem print_head {k : Kind} {n : Node} (h : Printable k n) (i : Nat) :
    k = .expr → ∃ c cs, print i n = c :: cs ∧ isSpace c = false := by
  induction h with
  | @str text triple raw _ =>
    intro _
    by_cases hq : '"' ∈ text <;> cases triple <;> cases raw <;>
      simp [print, printWith, quotes, quoteChar, hq] <;> decide
  | @int d rep v h _ =>
    intro _
    have hdig : ∀ c, isDigit c = true → isSpace c = false := by
      intro c hc
      have := (digit_start hc [] 0 [] 0).2
      simp only [skipped, Bool.or_eq_false_iff] at this
      exact this.1.1
    cases h with
    | dec hc _ => exact ⟨_, _, by simp [print, printWith]; rfl, hdig _ hc⟩
    | hex _ => exact ⟨_, _, by simp [print, printWith]; exact ⟨rfl, rfl⟩, by decide⟩
    | oct _ => exact ⟨_, _, by simp [print, printWith]; exact ⟨rfl, rfl⟩, by decide⟩
  | @ident w h =>
    intro _
    obtain ⟨c, cs, rfl, h1, h2, _⟩ := h
    have := (word_start (h2 c (by simp)) h1 [] 0 [] 0).2
    simp only [skipped, Bool.or_eq_false_iff] at this
    exact ⟨c, cs, by simp [print, printWith], this.1.1⟩
  | unary hop _ _ _ =>
    intro _
    simp only [List.mem_cons, List.not_mem_nil, or_false] at hop
    rcases hop with rfl | rfl <;> simp [print, printWith, opText] <;> decide
  | binop _ _ _ _ _ ih _ =>
    intro _
    obtain ⟨c, cs, h, hs⟩ := ih rfl
    simp only [print] at h
    exact ⟨c, _, by simp only [print, printWith, h, List.cons_append]; rfl, hs⟩
  | index _ _ _ ih =>
    intro _
    obtain ⟨c, cs, h, hs⟩ := ih rfl
    simp only [print] at h
    exact ⟨c, _, by simp only [print, printWith, h, List.cons_append]; rfl, hs⟩
  | ternary _ _ _ _ _ _ ih _ =>
    intro _
    obtain ⟨c, cs, h, hs⟩ := ih rfl
    simp only [print] at h
    exact ⟨c, _, by simp only [print, printWith, h, List.cons_append]; rfl, hs⟩
  | onlyIf _ _ _ _ ih =>
    intro _
    obtain ⟨c, cs, h, hs⟩ := ih rfl
    simp only [print] at h
    exact ⟨c, _, by simp only [print, printWith, h, List.cons_append]; rfl, hs⟩
  | list => intro _; exact ⟨_, _, by simp [print, printWith, openText]; exact ⟨rfl, rfl⟩, by decide⟩
  | tuple => intro _; exact ⟨_, _, by simp [print, printWith, openText]; exact ⟨rfl, rfl⟩, by decide⟩
  | map => intro _; exact ⟨_, _, by simp [print, printWith, openText]; exact ⟨rfl, rfl⟩, by decide⟩
  | call h _ =>
    intro _
    obtain ⟨c, cs, rfl, h1, h2, _⟩ := h
    have := (word_start (h2 c (by simp)) h1 [] 0 [] 0).2
    simp only [skipped, Bool.or_eq_false_iff] at this
    exact ⟨c, _, by simp [print, printWith, colored, Node.asIdent]; rfl, this.1.1⟩
  | listCompr =>
    intro _; exact ⟨_, _, by simp [print, printWith, openText]; exact ⟨rfl, rfl⟩, by decide⟩
  | mapCompr =>
    intro _; exact ⟨_, _, by simp [print, printWith, openText]; exact ⟨rfl, rfl⟩, by decide⟩
  | _ => intro h; cases h

/-- The parts of `n` can be put in front. -/
def Puts (i : Nat) (n : Node) : Prop := ∀ ps, Follows n ps → Fits (parts i n ++ ps)

theorem fits_ident {i : Nat} {w : Str} (h : IdentText w) : Puts i (.ident w) := by
  intro ps hf
  exact ⟨lexes_ident h hf.2.1, by simp, hf.1⟩

/-- What can follow the elements of a list. -/
def Ends (ps : List Part) : Prop := Fits ps ∧ ∃ c, (render ps).head? = some c ∧ c ∈ c!"\n,])}"

theorem fits_elems {i : Nat} {multi first : Bool} {xs : List Node}
    (h : ∀ x ∈ xs, x ≠ .null ∧ Puts i x) {ps : List Part} (hf : Ends ps) :
    Fits (partsElems i multi first xs ++ ps) := by
  induction xs generalizing first with
  | nil => exact hf.1
  | cons x xs ih =>
    have hrest : Fits (partsElems i multi false xs ++ ps) := ih fun y hy => h y (by simp [hy])
    obtain ⟨hx, hp⟩ := h x (by simp)
    have hfol : Follows x (partsElems i multi false xs ++ ps) := by
      cases xs with
      | nil =>
        obtain ⟨h1, c, h2, h3⟩ := hf
        exact follows_of (c := c) h1 h2 (by grind)
      | cons y ys =>
        exact follows_of (c := ',') hrest
          (by simp [partsElems, render, Part.text]) (by simp)
    have hput := hp _ hfol
    have hn := isNull_eq_false hx
    cases first <;> cases multi <;>
      simp [partsElems, hn, Fits, gap_newline, gap_spaces, hput, List.append_assoc] <;>
      exact lexes_punct (by simp)

theorem fits_list {i : Nat} {ty : ListType} {xs : List Node}
    (h : ∀ x ∈ xs, x ≠ .null ∧ Puts (i + 4) x) : Puts i (.list ty xs) := by
  intro ps hf
  have hclose : Fits (.tok (Grammar.closing ty) (closeText ty) :: ps) :=
    ⟨lexes_close ty _, close_ne ty, hf.1⟩
  have hgap : Gap False ('\n' :: spaces i) := .blank (by simp) (gap_spaces i)
  have hend : Ends ((if ty = .tuple ∧ xs.length = 1 then [.tok (.op ',') [',']] else [])
      ++ ((if 1 < xs.length then [.gap ('\n' :: spaces i)] else [])
      ++ (.tok (Grammar.closing ty) (closeText ty) :: ps))) := by
    have h2 : Ends ((if 1 < xs.length then [.gap ('\n' :: spaces i)] else [])
      ++ (.tok (Grammar.closing ty) (closeText ty) :: ps)) := by
      by_cases hm : 1 < xs.length
      · rw [if_pos hm]
        exact ⟨⟨hgap, hclose⟩, '\n', by simp [render, Part.text], by simp⟩
      · rw [if_neg hm]
        refine ⟨hclose, ?_⟩
        cases ty <;> simp [render, Part.text, closeText]
    by_cases ht : ty = .tuple ∧ xs.length = 1
    · rw [if_pos ht]
      exact ⟨⟨lexes_punct (by simp), by simp, h2.1⟩, ',', by simp [render, Part.text], by simp⟩
    · rw [if_neg ht]; exact h2
  have hel := fits_elems (multi := decide (1 < xs.length)) (first := true) h hend
  simp only [parts, List.cons_append, List.append_assoc, List.nil_append]
  refine ⟨lexes_open ty _, open_ne ty, ?_⟩
  by_cases hm : 1 < xs.length
  · simp only [hm, if_true, List.cons_append, List.nil_append] at hel ⊢
    exact ⟨gap_newline, hel⟩
  · simpa only [hm, if_false, List.nil_append] using hel

theorem puts_op {i : Nat} {op : TokenType} {l r : Node} (hl : Puts i l) (hr : Puts i r)
    (hop : op ∈ Grammar.binary ∨ op ∈ [TokenType.kFor, .kIn, .op ':', .kIf, .kElse, .op '='])
    (h1 : op ≠ .op '.') {ps : List Part} (hf : Follows r ps) :
    Fits (parts i l ++ (.gap [' '] :: .tok op (opText op) :: .gap [' '] :: (parts i r ++ ps))) := by
  have hne : op ≠ .eof := by
    rintro rfl
    simp [Grammar.binary] at hop
  have h2 := hr ps hf
  have h3 : Fits (.gap [' '] :: .tok op (opText op) :: .gap [' '] :: (parts i r ++ ps)) := by
    refine ⟨gap_space, ?_, hne, gap_space, h2⟩
    simp only [render, Part.text, List.cons_append, List.nil_append]
    exact lexes_op hop
  exact hl _ (follows_of (c := ' ') h3 (by simp [render, Part.text]) (by simp))

theorem puts_null (i : Nat) : Puts i .null := fun ps h => by simpa [parts] using h.1

theorem fits_for {i : Nat} {x vals : Node} {vs : List Node}
    (hvs : ∀ v ∈ vs, ∃ i, v = .ident i ∧ IdentText i) (hx : Puts i x) (hv : Puts i vals)
    {ps : List Part} (hf : Follows (.binop .kFor x (.binop .kIn (.list .tuple vs) vals)) ps) :
    Fits (parts i (.binop .kFor x (.binop .kIn (.list .tuple vs) vals)) ++ ps) := by
  have hfv : Follows vals ps := by
    refine ⟨hf.1, hf.2.1, fun hd => ?_⟩
    have := (hf.2.2 hd).1
    cases this
  have hl : Puts i (.list .tuple vs) := fits_list fun v hm => by
    obtain ⟨w, rfl, hw⟩ := hvs v hm
    exact ⟨by simp, fits_ident hw⟩
  have hin : Puts i (.binop .kIn (.list .tuple vs) vals) := by
    intro qs hq
    have hfq : Follows vals qs := by
      refine ⟨hq.1, hq.2.1, fun hd => ?_⟩
      have := (hq.2.2 hd).1
      cases this
    have h2 := puts_op (op := .kIn) hl hv (by simp) (by simp) hfq
    have e : parts i (.binop .kIn (.list .tuple vs) vals) ++ qs = parts i (.list .tuple vs) ++
        (.gap [' '] :: .tok .kIn (opText .kIn) :: .gap [' '] :: (parts i vals ++ qs)) := by
      rw [parts.eq_def]; simp
    rw [e]; exact h2
  have hfin : Follows (.binop .kIn (.list .tuple vs) vals) ps := by
    refine ⟨hf.1, hf.2.1, fun hd => ?_⟩
    have := (hf.2.2 hd).1
    cases this
  have h2 := puts_op (op := .kFor) hx hin (by simp) (by simp) hfin
  have e : parts i (.binop .kFor x (.binop .kIn (.list .tuple vs) vals)) ++ ps = parts i x ++
      (.gap [' '] :: .tok .kFor (opText .kFor) :: .gap [' '] ::
        (parts i (.binop .kIn (.list .tuple vs) vals) ++ ps)) := by
    rw [parts.eq_def]; simp
  rw [e]; exact h2

theorem fits_parts {k : Kind} {n : Node} (h : Printable k n) : ∀ i, Puts i n := by
  induction h with
  | str h => exact fun i ps hf => ⟨lexes_str h hf.2.1, by simp, hf.1⟩
  | @int d rep v h _ =>
    intro i ps hf
    have hne : rep ≠ [] := by cases h <;> simp
    simp only [parts, hne, if_false]
    refine ⟨lexes_number h (hf.2.1.noDigit ?_), by simp, hf.1⟩
    intro e
    exact (hf.2.2 e).2 rep v rfl
  | ident h => exact fun i => fits_ident h
  | @unary op e hop he hin ih =>
    intro i ps hf
    have hfe : Follows e ps := by
      refine ⟨hf.1, hf.2.1, fun hd => ?_⟩
      have := (hf.2.2 hd).1
      cases this
    have hfit := ih i ps hfe
    simp only [List.mem_cons, List.not_mem_nil, or_false] at hop
    rcases hop with rfl | rfl
    · exact ⟨lexes_punct (by simp), by simp, by simpa using hfit⟩
    · have e1 : parts i (.unary (.op '!') e) ++ ps
          = .tok (.op '!') c!"not" :: .gap [' '] :: (parts i e ++ ps) := by simp [parts, opText]
      rw [e1]
      refine ⟨?_, by simp, gap_space, hfit⟩
      · obtain ⟨c, cs, h1, h2⟩ := print_head he i rfl
        have hnot := hin rfl i
        simp only [List.cons_append, List.nil_append, render,
          Part.text, render_append, render_parts]
        refine lexes_not ?_ ?_
        · rw [h1]; intro d hd; cases hd; exact h2
        · rw [h1] at hnot ⊢
          cases cs with
          | cons d ds =>
            intro hp
            simp at hp
            exact hnot (by simpa using hp)
          | nil =>
            intro hp
            have hb := hf.2.1
            cases hx : render ps with
            | nil => simp [hx] at hp
            | cons d ds =>
              rw [hx] at hb hp
              have := hb d rfl
              simp at hp
              obtain ⟨_, rfl⟩ := hp
              simp at this
  | @binop op l r hop hl hs hdot hr ihl ihr =>
    intro i ps hf
    have hfr : Follows r ps := by
      refine ⟨hf.1, hf.2.1, fun hd => ?_⟩
      have := (hf.2.2 hd).1
      cases this
      exact absurd rfl (binary_ne hop).1
    by_cases hd : op = .op '.'
    · subst hd
      have h2 : Fits (.tok (.op '.') (opText (.op '.')) :: (parts i r ++ ps)) :=
        ⟨lexes_punct (by decide), by simp, ihr i ps hfr⟩
      have := ihl i _ ⟨h2, bound_of (c := '.') (by simp [render, Part.text, opText]) (by simp),
        fun _ => ⟨hs, hdot rfl⟩⟩
      simpa [parts] using this
    · have := puts_op (ihl i) (ihr i) (Or.inl hop) hd hfr
      simpa [parts, hd, (binary_ne hop).1] using this
  | @index l x hl hs hx ihl ihx =>
    intro i ps hf
    have h1 : Fits (.tok (.op ']') [']'] :: ps) := ⟨lexes_punct (by simp), by simp, hf.1⟩
    have h2 := ihx i _ (follows_of (c := ']') h1 (by simp [render, Part.text]) (by simp))
    have h3 : Fits (.tok (.op '[') (opText (.op '[')) :: (parts i x ++ (.tok (.op ']') [']'] :: ps))) :=
      ⟨lexes_punct (by decide), by simp, h2⟩
    have h4 := ihl i _ (follows_of (c := '[') h3 (by simp [render, Part.text, opText]) (by simp))
    simpa [parts] using h4
  | @ternary c p n hc hp hs ho hn ihc ihp ihn =>
    intro i ps hf
    have hfn : Follows n ps := by
      refine ⟨hf.1, hf.2.1, fun hd => ?_⟩
      have := (hf.2.2 hd).1
      cases this
    have h0 := ihn i ps hfn
    have h1 : Fits (.gap [' '] :: .tok .kElse c!"else" :: .gap [' '] :: (parts i n ++ ps)) := by
      refine ⟨gap_space, ?_, by simp, gap_space, h0⟩
      simp only [render, Part.text, List.cons_append, List.nil_append]
      exact lexes_keyword (by simp [keywords])
    have hfc : Follows c (.gap [' '] :: .tok .kElse c!"else" :: .gap [' '] :: (parts i n ++ ps)) :=
      follows_of (c := ' ') h1 (by simp [render, Part.text]) (by simp)
    have h2 := puts_op (op := .kIf) (ihp i) (ihc i) (by simp) (by simp) hfc
    simpa [parts, isNull_eq_false hn.ne_null, opText] using h2
  | @onlyIf c p hc hp hs ihc ihp =>
    intro i ps hf
    have hfc : Follows c ps := by
      refine ⟨hf.1, hf.2.1, fun hd => ?_⟩
      have := (hf.2.2 hd).1
      cases this
    have h2 := puts_op (op := .kIf) (ihp i) (ihc i) (by simp) (by simp) hfc
    simpa [parts, Node.isNull, opText] using h2
  | list h ih => exact fun i => fits_list fun x hx => ⟨(h x hx).ne_null, ih x hx _⟩
  | tuple h ih => exact fun i => fits_list fun x hx => ⟨(h x hx).ne_null, ih x hx _⟩
  | map h ih => exact fun i => fits_list fun x hx => ⟨(h x hx).ne_null, ih x hx _⟩
  | @call f xs hfn h ih =>
    intro i ps hf
    have h1 := fits_list (i := i) (ty := .tuple) (xs := xs)
      (fun x hx => ⟨(h x hx).ne_null, ih x hx _⟩) ps ⟨hf.1, hf.2.1, fun hd => ⟨.list, by simp⟩⟩
    simp only [parts, List.cons_append]
    simp only [parts, List.cons_append] at h1
    refine ⟨lexes_ident hfn ?_, by simp, h1⟩
    exact bound_of (c := '(') (by simp [render, Part.text, openText]) (by simp)
  | listCompr h ih =>
    intro i ps hf
    have h1 : Fits (.tok (.op ']') (closeText .list) :: ps) :=
      ⟨lexes_punct (by decide), by simp, hf.1⟩
    have h2 := ih i _ (follows_of (c := ']') h1 (by simp [render, Part.text, closeText]) (by simp))
    simp only [parts, List.cons_append, List.append_assoc, List.nil_append]
    exact ⟨lexes_open _ _, open_ne _, h2⟩
  | mapCompr h ih =>
    intro i ps hf
    have h1 : Fits (.tok (.op '}') (closeText .map) :: ps) :=
      ⟨lexes_punct (by decide), by simp, hf.1⟩
    have h2 := ih i _ (follows_of (c := '}') h1 (by simp [render, Part.text, closeText]) (by simp))
    simp only [parts, List.cons_append, List.append_assoc, List.nil_append]
    exact ⟨lexes_open _ _, open_ne _, h2⟩
  | @entry k v hk hv ihk ihv =>
    intro i ps hf
    have hfv : Follows v ps := by
      refine ⟨hf.1, hf.2.1, fun hd => ?_⟩
      have := (hf.2.2 hd).1
      cases this
    have h2 := puts_op (op := .op ':') (ihk i) (ihv i) (by simp) (by simp) hfv
    simpa [parts] using h2
  | value _ ih => exact ih
  | @keyword w v hw hv ih =>
    intro i ps hf
    have hfv : Follows v ps := by
      refine ⟨hf.1, hf.2.1, fun hd => ?_⟩
      have := (hf.2.2 hd).1
      cases this
    have h2 := puts_op (op := .op '=') (fits_ident hw) (ih i) (by simp) (by simp) hfv
    simpa [parts, opText] using h2
  | at_ _ ih => exact ih
  | @slice a b _ _ iha ihb =>
    intro i ps hf
    have hfb : Follows b ps := by
      refine ⟨hf.1, hf.2.1, fun hd => ?_⟩
      have := (hf.2.2 hd).1
      cases this
    have h2 := puts_op (op := .op ':') (iha i) (ihb i) (by simp) (by simp) hfb
    simpa [parts] using h2
  | @sliceFrom a _ iha =>
    intro i ps hf
    have hfb : Follows .null ps := by
      refine ⟨hf.1, hf.2.1, fun hd => ?_⟩
      have := (hf.2.2 hd).1
      cases this
    have h2 := puts_op (op := .op ':') (iha i) (puts_null i) (by simp) (by simp) hfb
    simpa [parts] using h2
  | @sliceTo b _ ihb =>
    intro i ps hf
    have hfb : Follows b ps := by
      refine ⟨hf.1, hf.2.1, fun hd => ?_⟩
      have := (hf.2.2 hd).1
      cases this
    have h2 := puts_op (op := .op ':') (puts_null i) (ihb i) (by simp) (by simp) hfb
    simpa [parts] using h2
  | @one k x vs vals hx hvs hvals ihx ihv =>
    intro i ps hf
    exact fits_for hvs (ihx i) (ihv i) hf
  | @more k x vs vals hx hvs hvals ihx ihv =>
    intro i ps hf
    exact fits_for hvs (ihx i) (ihv i) hf

end Print
end Bant
