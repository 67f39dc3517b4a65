import Verif.Lemmas.PrintFits
import Verif.Lemmas.ParserFile
import Verif.Spec.Rules

/-! Trees made by the parser can be printed if they are `Reprintable`. -/
namespace Bant
namespace Print
open Grammar

/-- Trees the grammar and the scanner can make. -/
inductive Tree : Kind → Node → Prop
  | str {text triple raw} : (∃ units : List Str, text = units.flatten ∧ ∀ u ∈ units, StringUnit u) →
      Tree .expr (.str text triple raw)
  | int {d rep v} : NumberText d rep → intFromLiteral rep = some (.int rep v) →
      Tree .expr (.int rep v)
  | ident {i} : IdentText i → Tree .expr (.ident i)
  | unary {op e} : op ∈ [TokenType.op '-', .op '!'] → Tree .expr e → Tree .expr (.unary op e)
  | unaryHole {op} : op ∈ [TokenType.op '-', .op '!'] → Tree .expr (.unary op .null)
  | binop {op l r} : op ∈ Grammar.binary → Tree .expr l → Tree .expr r → Tree .expr (.binop op l r)
  | index {l x} : Tree .expr l → Tree .index x → Tree .expr (.binop (.op '[') l x)
  | ternary {c p n} : Tree .expr c → Tree .expr p → Tree .expr n → Tree .expr (.ternary c p n)
  | onlyIf {c p} : Tree .expr c → Tree .expr p → Tree .expr (.ternary c p .null)
  | list {xs} : (∀ x ∈ xs, Tree .expr x) → Tree .expr (.list .list xs)
  | tuple {xs} : (∀ x ∈ xs, Tree .expr x) → Tree .expr (.list .tuple xs)
  | map {xs} : (∀ x ∈ xs, Tree .entry x) → Tree .expr (.list .map xs)
  | call {f xs} : IdentText f → (∀ x ∈ xs, Tree .argument x) →
      Tree .expr (.call (.ident f) (.list .tuple xs))
  | listCompr {f} : Tree (.clauses .expr) f → Tree .expr (.compr .list f)
  | mapCompr {f} : Tree (.clauses .entry) f → Tree .expr (.compr .map f)
  | entry {k v} : Tree .expr k → Tree .expr v → Tree .entry (.binop (.op ':') k v)
  | value {e} : Tree .expr e → Tree .argument e
  | keyword {i v} : IdentText i → Tree .expr v → Tree .argument (.assign (.ident i) v)
  | at_ {e} : Tree .expr e → Tree .index e
  | slice {a b} : Tree .expr a → Tree .expr b → Tree .index (.binop (.op ':') a b)
  | sliceFrom {a} : Tree .expr a → Tree .index (.binop (.op ':') a .null)
  | sliceTo {b} : Tree .expr b → Tree .index (.binop (.op ':') .null b)
  | one {k x vs vals} : Tree k x → (∀ v ∈ vs, v = .null ∨ ∃ i, v = .ident i ∧ IdentText i) →
      Tree .expr vals → Tree (.clauses k) (.binop .kFor x (.binop .kIn (.list .tuple vs) vals))
  | more {k x vs vals} : Tree (.clauses k) x →
      (∀ v ∈ vs, v = .null ∨ ∃ i, v = .ident i ∧ IdentText i) →
      Tree .expr vals → Tree (.clauses k) (.binop .kFor x (.binop .kIn (.list .tuple vs) vals))

/-- Statements. -/
inductive Stmt : Node → Prop
  | call {f a} : Tree .expr (.call f a) → Stmt (.call f a)
  | list {xs} : Tree .expr (.list .list xs) → Stmt (.list .list xs)
  | compr {f} : Tree .expr (.compr .list f) → Stmt (.compr .list f)
  | assign {i r} : IdentText i → Tree .expr r → Stmt (.assign (.ident i) r)
  | tupleAssign {vs r} : (∀ v ∈ vs, v = .null ∨ ∃ i, v = .ident i ∧ IdentText i) → Tree .expr r →
      Stmt (.assign (.list .tuple vs) r)
  | method {i e} : IdentText i → Tree .expr e → Stmt (.binop (.op '.') (.ident i) e)

/-! ### Reprintable trees -/

theorem vars_printable {vs : List Node} (h : ∀ v ∈ vs, v = .null ∨ ∃ i, v = .ident i ∧ IdentText i)
    (hr : Reprintable (.list .tuple vs)) : ∀ v ∈ vs, ∃ i, v = .ident i ∧ IdentText i := by
  cases hr with
  | list _ hn =>
    intro v hv
    rcases h v hv with rfl | h
    · exact absurd hv hn
    · exact h

theorem tree_printable {k : Kind} {n : Node} (h : Tree k n) (hr : Reprintable n) : Printable k n := by
  induction h with
  | str h => cases hr with | str hq => exact .str ⟨h, hq⟩
  | int h1 h2 => exact .int h1 h2
  | ident h => exact .ident h
  | unary hop _ ih => cases hr with | unary h1 _ h3 => exact .unary hop (ih h1) h3
  | unaryHole => cases hr with | unary _ h2 _ => exact absurd rfl h2
  | @binop op l r hop _ _ ih1 ih2 =>
    cases hr with
    | binop h1 h2 h3 h4 =>
      refine .binop hop (ih1 h1) (h3 ?_) h4 (ih2 h2)
      intro hm
      simp only [List.mem_cons, List.not_mem_nil, or_false] at hm
      rcases hm with rfl | rfl <;> simp [Grammar.binary] at hop
  | index _ _ ih1 ih2 =>
    cases hr with | binop h1 h2 h3 _ => exact .index (ih1 h1) (h3 (by simp)) (ih2 h2)
  | ternary _ _ hn ih1 ih2 ih3 =>
    cases hr with
    | ternary h1 h2 h3 h4 h5 =>
      have := ih3 h3
      exact .ternary (ih1 h1) (ih2 h2) h4 (h5 this.ne_null) this
  | onlyIf _ _ ih1 ih2 => cases hr with | ternary h1 h2 h3 h4 h5 => exact .onlyIf (ih1 h1) (ih2 h2) h4
  | list _ ih => cases hr with | list h _ => exact .list fun x hx => ih x hx (h x hx)
  | tuple _ ih => cases hr with | list h _ => exact .tuple fun x hx => ih x hx (h x hx)
  | map _ ih => cases hr with | list h _ => exact .map fun x hx => ih x hx (h x hx)
  | call hf _ ih =>
    cases hr with
    | call _ h => cases h with | list h _ => exact .call hf fun x hx => ih x hx (h x hx)
  | listCompr _ ih => cases hr with | compr h => exact .listCompr (ih h)
  | mapCompr _ ih => cases hr with | compr h => exact .mapCompr (ih h)
  | entry _ _ ih1 ih2 => cases hr with | binop h1 h2 _ _ => exact .entry (ih1 h1) (ih2 h2)
  | value _ ih => exact .value (ih hr)
  | keyword hi _ ih => cases hr with | assign _ h => exact .keyword hi (ih h)
  | at_ _ ih => exact .at_ (ih hr)
  | slice _ _ ih1 ih2 => cases hr with | binop h1 h2 _ _ => exact .slice (ih1 h1) (ih2 h2)
  | sliceFrom _ ih1 => cases hr with | binop h1 h2 _ _ => exact .sliceFrom (ih1 h1)
  | sliceTo _ ih1 => cases hr with | binop h1 h2 _ _ => exact .sliceTo (ih1 h2)
  | one _ hv _ ih1 ih2 =>
    cases hr with
    | binop h1 h2 _ _ =>
      cases h2 with | binop h3 h4 _ _ => exact .one (ih1 h1) (vars_printable hv h3) (ih2 h4)
  | more _ hv _ ih1 ih2 =>
    cases hr with
    | binop h1 h2 _ _ =>
      cases h2 with | binop h3 h4 _ _ => exact .more (ih1 h1) (vars_printable hv h3) (ih2 h4)

/-! ### Trees of the parser -/

/-- What the scanner guarantees about a token. -/
structure Lex (t : Token) : Prop where
  identifier : t.type = .identifier → IdentText t.text
  string : t.type = .stringLiteral → ∀ n, strFromLiteral t.text = some n → Tree .expr n
  number : t.type = .numberLiteral → ∃ d, NumberText d t.text

theorem unit_single {q : Char} (h : q ∈ ['"', '\'']) : StringUnit [q] := by
  left
  simp only [List.mem_cons, List.not_mem_nil, or_false] at h
  rcases h with rfl | rfl <;> exact ⟨_, rfl, by decide⟩

theorem string_tree {s rest : Str} (h : StringText s rest) {n : Node}
    (hn : strFromLiteral s = some n) : Tree .expr n := by
  have strip : ∀ {pre : Str} {q : Char} (b : Str), StringStart pre q →
      stripRaw (pre ++ q :: b) = (decide (pre ≠ []), q :: b) := by
    intro pre q b hs
    obtain ⟨h1, h2⟩ := hs
    simp only [List.mem_cons, List.not_mem_nil, or_false] at h1 h2
    rcases h1 with rfl | rfl | rfl <;> rcases h2 with rfl | rfl <;> simp [stripRaw]
  have body : ∀ {pre : Str} {q : Char} (b : Str), StringStart pre q →
      strFromLiteral (pre ++ q :: b) = some n →
      (6 ≤ (q :: b).length ∧ (q :: b).take 3 = c!"\"\"\"" ∧
        n = .str (((q :: b).drop 3).take ((q :: b).length - 6)) true (decide (pre ≠ []))) ∨
      (¬ (6 ≤ (q :: b).length ∧ (q :: b).take 3 = c!"\"\"\"") ∧
        n = .str (((q :: b).drop 1).take ((q :: b).length - 2)) false (decide (pre ≠ []))) := by
    intro pre q b hs he
    simp only [strFromLiteral, strip b hs] at he
    split at he
    · left; rename_i hc; simp only [Option.some.injEq] at he; exact ⟨hc.1, hc.2, he.symm⟩
    · split at he
      · right; rename_i hc _; simp only [Option.some.injEq] at he; exact ⟨hc, he.symm⟩
      · cases he
  cases h with
  | @single pre rest q units hs hu hq _ =>
    have e : pre ++ [q] ++ units.flatten ++ [q] = pre ++ q :: (units.flatten ++ [q]) := by simp
    rw [e] at hn
    rcases body _ hs hn with ⟨h1, h2, h3⟩ | ⟨_, h3⟩
    · exfalso
      simp only [List.take_succ_cons, List.cons.injEq] at h2
      obtain ⟨rfl, h2⟩ := h2
      have h1' : 4 ≤ units.flatten.length := by simp [-List.length_flatten] at h1; omega
      cases units with
      | nil => simp at h1'
      | cons u us =>
        rcases hu u (by simp) with ⟨c, rfl, hc⟩ | ⟨c, rfl⟩
        · simp at h2
          rw [h2.1] at hq
          exact hq (by simp)
        · simp at h2
    · rw [h3]
      refine .str ⟨units, ?_, hu⟩
      have : (q :: (units.flatten ++ [q])).length - 2 = units.flatten.length := by simp
      rw [this]
      simp
  | @triple pre rest q units hs hu _ _ =>
    have e : pre ++ [q, q, q] ++ units.flatten ++ [q, q, q]
        = pre ++ q :: (q :: q :: (units.flatten ++ [q, q, q])) := by simp
    rw [e] at hn
    rcases body _ hs hn with ⟨h1, h2, h3⟩ | ⟨_, h3⟩
    · rw [h3]
      refine .str ⟨units, ?_, hu⟩
      have : (q :: q :: q :: (units.flatten ++ [q, q, q])).length - 6 = units.flatten.length := by
        simp
      rw [this]
      simp
    · rw [h3]
      refine .str ⟨[q] :: [q] :: units ++ [[q], [q]], ?_, ?_⟩
      · have : (q :: q :: q :: (units.flatten ++ [q, q, q])).length - 2
            = ([q, q] ++ units.flatten ++ [q, q]).length := by
          simp
        rw [this]
        have e2 : (q :: q :: q :: (units.flatten ++ [q, q, q])).drop 1
            = ([q, q] ++ units.flatten ++ [q, q]) ++ [q] := by simp
        rw [e2, List.take_left]
        simp
      · intro u hm
        simp only [List.cons_append, List.mem_cons, List.mem_append, List.not_mem_nil, or_false] at hm
        rcases hm with rfl | rfl | h | rfl | rfl
        · exact unit_single hs.2
        · exact unit_single hs.2
        · exact hu u h
        · exact unit_single hs.2
        · exact unit_single hs.2

theorem lex_of {ty : TokenType} {w rest : Str} {p : Nat} {nl : Bool} (h : TokenOk ty w rest) :
    Lex ⟨ty, p, w, nl⟩ := by
  refine ⟨?_, ?_, ?_⟩
  · rintro rfl
    simp only
    cases h with
    | identifier h1 h2 h3 h4 _ => exact ⟨_, _, rfl, h1, h2, h3, h4⟩
    | keyword h _ => simp [keywords] at h
  · rintro rfl n hn
    cases h with
    | string h => exact string_tree h hn
    | keyword h _ => simp [keywords] at h
  · rintro rfl
    cases h with
    | number h _ => exact ⟨_, h⟩
    | keyword h _ => simp [keywords] at h

theorem lex_tokens {content : Str} {ts : List Token} (h : Parser.TokensOf content ts) :
    ∀ t ∈ ts, Lex t := by
  obtain ⟨e, h1, h2, h3⟩ := h
  intro t ht
  have hc := Props.C52_token_class content (ts.length + 1) t (by rw [h1]; simp [ht])
  exact lex_of hc

/-- Elements by kind. -/
def ItemTree : Item → Node → Prop
  | .value, x => Tree .expr x
  | .argument, x => Tree .argument x
  | .entry, x => Tree .entry x
  | .variable, x => x = .null ∨ ∃ i, x = .ident i ∧ IdentText i

/-- Comprehensions by kind of the element. -/
def ClausesTree : Item → Node → Prop
  | .value, x => Tree (.clauses .expr) x
  | .argument, x => Tree (.clauses .argument) x
  | .entry, x => Tree (.clauses .entry) x
  | .variable, _ => True

/-- What is known about trees, by kind of phrase. -/
def TreeOf : NT → Node → Prop
  | .expr opt, n => (opt = true ∧ n = .null) ∨ Tree .expr n
  | .cont m, n => Tree .expr m → Tree .expr n
  | .atom, n => Tree .expr n
  | .paren, n => Tree .expr n
  | .tupleTail, n => ∃ xs, n = .list .tuple xs ∧ ∀ x ∈ xs, Tree .expr x
  | .index, n => Tree .index n
  | .bracket ty it, n => (∃ xs, n = .list ty xs ∧ ∀ x ∈ xs, ItemTree it x) ∨
      (∃ f, n = .compr ty f ∧ ClausesTree it f)
  | .items ty it _, n => ∃ xs, n = .list ty xs ∧ ∀ x ∈ xs, ItemTree it x
  | .item it, n => ItemTree it n
  | .clauses _ x, n => ∀ k, (Tree k x ∨ Tree (.clauses k) x) → Tree (.clauses k) n
  | .moreClauses _ x, n => ∀ k, Tree (.clauses k) x → Tree (.clauses k) n
  | .program, n => ∃ xs, n = .list .list xs ∧ ∀ x ∈ xs, Stmt x

theorem TreeOf.filled {opt : Bool} {n : Node} (h : TreeOf (.expr opt) n) (hn : n ≠ .null) :
    Tree .expr n := by
  rcases h with ⟨_, h⟩ | h
  · exact absurd h hn
  · exact h

theorem TreeOf.required {n : Node} (h : TreeOf (.expr false) n) : Tree .expr n := by
  rcases h with ⟨h, _⟩ | h
  · cases h
  · exact h

def Lexed (s : List Token) : Prop := ∀ t ∈ s, Lex t

theorem Lexed.head {t : Token} {s : List Token} (h : Lexed (t :: s)) : Lex t := h t (by simp)
theorem Lexed.tail {t : Token} {s : List Token} (h : Lexed (t :: s)) : Lexed s :=
  fun u hu => h u (by simp [hu])

theorem cons_items {P : Node → Prop} {x : Node} {xs : List Node} (hx : P x) (h : ∀ y ∈ xs, P y) :
    ∀ y ∈ x :: xs, P y := by
  intro y hy
  rcases List.mem_cons.1 hy with rfl | hy
  · exact hx
  · exact h y hy

theorem tree_of {nt : NT} {s s' : List Token} {n : Node} (h : Parses nt s s' n) :
    Lexed s → Lexed s' ∧ TreeOf nt n := by
  induction h with
  | missing => exact fun hl => ⟨hl, Or.inl ⟨rfl, rfl⟩⟩
  | @unary opt t s s1 s2 e n hop _ _ ih1 ih2 =>
    intro hl
    obtain ⟨l1, h1⟩ := ih1 hl.tail
    obtain ⟨l2, h2⟩ := ih2 l1
    refine ⟨l2, Or.inr (h2 ?_)⟩
    rcases h1 with ⟨_, rfl⟩ | h1
    · exact .unaryHole hop
    · exact .unary hop h1
  | parenthesis _ _ _ ih1 ih2 =>
    intro hl
    obtain ⟨l1, h1⟩ := ih1 hl.tail
    obtain ⟨l2, h2⟩ := ih2 l1
    exact ⟨l2, Or.inr (h2 h1)⟩
  | operand _ _ ih1 ih2 =>
    intro hl
    obtain ⟨l1, h1⟩ := ih1 hl
    obtain ⟨l2, h2⟩ := ih2 l1
    exact ⟨l2, Or.inr (h2 h1)⟩
  | stop => exact fun hl => ⟨hl, id⟩
  | ifOnly _ _ _ ih =>
    intro hl
    obtain ⟨l1, h1⟩ := ih hl.tail
    exact ⟨l1, fun h => .onlyIf h1.required h⟩
  | ifElse _ _ _ _ ih1 ih2 =>
    intro hl
    obtain ⟨l1, h1⟩ := ih1 hl.tail
    obtain ⟨l2, h2⟩ := ih2 l1.tail
    exact ⟨l2, fun h => .ternary h1.required h h2.required⟩
  | binary hop _ ih =>
    intro hl
    obtain ⟨l1, h1⟩ := ih hl.tail
    exact ⟨l1, fun h => .binop hop h h1.required⟩
  | indexed _ _ _ _ ih1 ih2 =>
    intro hl
    obtain ⟨l1, h1⟩ := ih1 hl.tail
    obtain ⟨l2, h2⟩ := ih2 l1
    exact ⟨l2, fun h => h2 (.index h h1)⟩
  | at_ _ h _ ih =>
    intro hl
    obtain ⟨l1, h1⟩ := ih hl
    exact ⟨l1.tail, .at_ (h1.filled h)⟩
  | slice _ _ _ _ h ih1 ih2 =>
    intro hl
    obtain ⟨l1, h1⟩ := ih1 hl
    obtain ⟨l2, h2⟩ := ih2 l1.tail
    refine ⟨l2.tail, ?_⟩
    rcases h1 with ⟨_, rfl⟩ | h1 <;> rcases h2 with ⟨_, rfl⟩ | h2
    · exact absurd ⟨rfl, rfl⟩ h
    · exact .sliceTo h2
    · exact .sliceFrom h1
    · exact .slice h1 h2
  | string h1 h2 => exact fun hl => ⟨hl.tail, hl.head.string h1 _ h2⟩
  | @number t s n h1 h2 =>
    intro hl
    obtain ⟨d, hd⟩ := hl.head.number h1
    refine ⟨hl.tail, ?_⟩
    have h3 := h2
    simp only [intFromLiteral] at h3
    split at h3
    · simp only [Option.some.injEq] at h3
      rw [← h3] at h2 ⊢
      exact .int hd h2
    · cases h3
  | name h1 _ => exact fun hl => ⟨hl.tail, .ident (hl.head.identifier h1)⟩
  | call h1 _ _ ih =>
    intro hl
    obtain ⟨l1, xs, rfl, hx⟩ := ih hl.tail.tail
    exact ⟨l1, .call (hl.head.identifier h1) hx⟩
  | list _ _ ih =>
    intro hl
    obtain ⟨l1, h1⟩ := ih hl.tail
    rcases h1 with ⟨xs, rfl, hx⟩ | ⟨f, rfl, hf⟩
    · exact ⟨l1, .list hx⟩
    · exact ⟨l1, .listCompr hf⟩
  | map _ _ ih =>
    intro hl
    obtain ⟨l1, h1⟩ := ih hl.tail
    rcases h1 with ⟨xs, rfl, hx⟩ | ⟨f, rfl, hf⟩
    · exact ⟨l1, .map hx⟩
    · exact ⟨l1, .mapCompr hf⟩
  | grouped _ h _ ih =>
    intro hl
    obtain ⟨l1, h1⟩ := ih hl
    exact ⟨l1.tail, h1.filled h⟩
  | emptyTuple _ _ ih =>
    intro hl
    obtain ⟨l1, _⟩ := ih hl
    exact ⟨l1.tail, .tuple (by simp)⟩
  | tuple _ h _ _ ih1 ih2 =>
    intro hl
    obtain ⟨l1, h1⟩ := ih1 hl
    obtain ⟨l2, xs, he, hx⟩ := ih2 l1
    cases he
    exact ⟨l2, .tuple (cons_items (h1.filled h) hx)⟩
  | tupleEnd => exact fun hl => ⟨hl.tail, _, rfl, by simp⟩
  | tupleComma => exact fun hl => ⟨hl.tail.tail, _, rfl, by simp⟩
  | tupleNext _ _ _ _ ih1 ih2 =>
    intro hl
    obtain ⟨l1, h1⟩ := ih1 hl.tail
    obtain ⟨l2, xs, he, hx⟩ := ih2 l1
    cases he
    exact ⟨l2, _, rfl, cons_items h1.required hx⟩
  | emptyBracket => exact fun hl => ⟨hl.tail, Or.inl ⟨_, rfl, by simp⟩⟩
  | @comprehension ty it _ _ _ _ _ _ _ _ _ _ ih1 ih2 =>
    intro hl
    obtain ⟨l1, h1⟩ := ih1 hl
    obtain ⟨l2, h2⟩ := ih2 l1
    refine ⟨l2, Or.inr ⟨_, rfl, ?_⟩⟩
    cases it
    · exact h2 .expr (Or.inl h1)
    · exact h2 .argument (Or.inl h1)
    · exact h2 .entry (Or.inl h1)
    · trivial
  | bracketOne _ _ _ _ ih =>
    intro hl
    obtain ⟨l1, h1⟩ := ih hl
    exact ⟨l1.tail, Or.inl ⟨_, rfl, cons_items h1 (by simp)⟩⟩
  | bracketMore _ _ _ _ _ ih1 ih2 =>
    intro hl
    obtain ⟨l1, h1⟩ := ih1 hl
    obtain ⟨l2, xs, he, hx⟩ := ih2 l1.tail
    cases he
    exact ⟨l2, Or.inl ⟨_, rfl, cons_items h1 hx⟩⟩
  | itemsEnd => exact fun hl => ⟨hl.tail, _, rfl, by simp⟩
  | itemsLast _ _ _ ih =>
    intro hl
    obtain ⟨l1, h1⟩ := ih hl
    exact ⟨l1.tail, _, rfl, cons_items h1 (by simp)⟩
  | itemsMore _ _ _ _ ih1 ih2 =>
    intro hl
    obtain ⟨l1, h1⟩ := ih1 hl
    obtain ⟨l2, xs, he, hx⟩ := ih2 l1.tail
    cases he
    exact ⟨l2, _, rfl, cons_items h1 hx⟩
  | itemValue _ ih =>
    intro hl
    obtain ⟨l1, h1⟩ := ih hl
    exact ⟨l1, h1.required⟩
  | itemArgument _ _ _ ih =>
    intro hl
    obtain ⟨l1, h1⟩ := ih hl
    exact ⟨l1, .value h1.required⟩
  | itemKeyword _ _ _ ih1 ih2 =>
    intro hl
    obtain ⟨l1, h1⟩ := ih1 hl
    obtain ⟨l2, h2⟩ := ih2 l1.tail
    refine ⟨l2, ?_⟩
    cases h1.required with
    | ident h => exact .keyword h h2.required
  | itemEntry _ _ _ ih1 ih2 =>
    intro hl
    obtain ⟨l1, h1⟩ := ih1 hl
    obtain ⟨l2, h2⟩ := ih2 l1.tail
    exact ⟨l2, .entry h1.required h2.required⟩
  | itemVariable h => exact fun hl => ⟨hl.tail, Or.inr ⟨_, rfl, hl.head.identifier h⟩⟩
  | itemNothing => exact fun hl => ⟨hl, Or.inl rfl⟩
  | forTuple _ _ _ _ _ _ ih1 ih2 ih3 =>
    intro hl
    obtain ⟨l1, vs, rfl, hv⟩ := ih1 hl.tail.tail
    obtain ⟨l2, h2⟩ := ih2 l1.tail
    obtain ⟨l3, h3⟩ := ih3 l2
    refine ⟨l3, fun k hk => h3 k ?_⟩
    rcases hk with hk | hk
    · exact .one hk hv h2.required
    · exact .more hk hv h2.required
  | forList _ _ _ _ _ ih1 ih2 ih3 =>
    intro hl
    obtain ⟨l1, vs, rfl, hv⟩ := ih1 hl.tail
    obtain ⟨l2, h2⟩ := ih2 l1
    obtain ⟨l3, h3⟩ := ih3 l2
    refine ⟨l3, fun k hk => h3 k ?_⟩
    rcases hk with hk | hk
    · exact .one hk hv h2.required
    · exact .more hk hv h2.required
  | nextClause _ _ ih =>
    intro hl
    obtain ⟨l1, h1⟩ := ih hl
    exact ⟨l1, fun k hk => h1 k (Or.inr hk)⟩
  | lastClause => exact fun hl => ⟨hl.tail, fun _ => id⟩
  | endOfFile => exact fun hl => ⟨hl, _, rfl, by simp⟩
  | docString _ _ ih => exact fun hl => ih hl.tail
  | listStatement _ _ _ ih1 ih2 =>
    intro hl
    obtain ⟨l1, h1⟩ := ih1 hl.tail
    obtain ⟨l2, xs, he, hx⟩ := ih2 l1
    cases he
    refine ⟨l2, _, rfl, cons_items ?_ hx⟩
    rcases h1 with ⟨xs, rfl, hx⟩ | ⟨f, rfl, hf⟩
    · exact .list (.list hx)
    · exact .compr (.listCompr hf)
  | tupleAssign _ _ _ _ _ ih1 ih2 ih3 =>
    intro hl
    obtain ⟨l1, vs, rfl, hv⟩ := ih1 hl.tail
    obtain ⟨l2, h2⟩ := ih2 l1.tail
    obtain ⟨l3, xs, he, hx⟩ := ih3 l2
    cases he
    exact ⟨l3, _, rfl, cons_items (.tupleAssign hv h2.required) hx⟩
  | assign h _ _ _ ih1 ih2 =>
    intro hl
    obtain ⟨l1, h1⟩ := ih1 hl.tail.tail
    obtain ⟨l2, xs, he, hx⟩ := ih2 l1
    cases he
    exact ⟨l2, _, rfl, cons_items (.assign (hl.head.identifier h) h1.required) hx⟩
  | rule h _ _ _ ih1 ih2 =>
    intro hl
    obtain ⟨l1, as, rfl, ha⟩ := ih1 hl.tail.tail
    obtain ⟨l2, xs, he, hx⟩ := ih2 l1
    cases he
    exact ⟨l2, _, rfl, cons_items (.call (.call (hl.head.identifier h) ha)) hx⟩
  | method h _ _ _ ih1 ih2 =>
    intro hl
    obtain ⟨l1, h1⟩ := ih1 hl.tail.tail
    obtain ⟨l2, xs, he, hx⟩ := ih2 l1
    cases he
    exact ⟨l2, _, rfl, cons_items (.method (hl.head.identifier h) h1.required) hx⟩

theorem parsed_stmts {content : Str} {n : Node} {st : Parser.PState}
    (h : Parser.parseFile content = some (n, st)) (he : st.errs = []) :
    ∃ xs, n = .list .list xs ∧ ∀ x ∈ xs, Stmt x := by
  obtain ⟨ts, hts, _⟩ := Parser.tokensOf_exists content
  have hp := (Parser.parseFile_iff hts n).1 ⟨st, h, he⟩
  exact (tree_of hp (lex_tokens hts)).2

/-! ### Calls -/

open Rules (calls callsIn)

theorem callsIn_mem {c : Node × Node} {xs : List Node} (h : c ∈ callsIn xs) : ∃ x ∈ xs, c ∈ calls x := by
  induction xs with
  | nil => simp [callsIn] at h
  | cons x xs ih =>
    simp only [callsIn, List.mem_append] at h
    rcases h with h | h
    · exact ⟨x, by simp, h⟩
    · obtain ⟨y, hy, h⟩ := ih h
      exact ⟨y, by simp [hy], h⟩

theorem calls_vars {vs : List Node} (h : ∀ v ∈ vs, v = .null ∨ ∃ i, v = .ident i ∧ IdentText i) :
    callsIn vs = [] := by
  cases hc : callsIn vs with
  | nil => rfl
  | cons c cs =>
    exfalso
    obtain ⟨v, hv, hm⟩ := callsIn_mem (c := c) (xs := vs) (by rw [hc]; simp)
    rcases h v hv with rfl | ⟨i, rfl, _⟩ <;> simp [calls] at hm

theorem tree_calls {k : Kind} {n : Node} (h : Tree k n) : ∀ c ∈ calls n, Tree .expr (.call c.1 c.2) := by
  have elems : ∀ {xs : List Node}, (∀ x ∈ xs, ∀ c ∈ calls x, Tree .expr (.call c.1 c.2)) →
      ∀ c ∈ callsIn xs, Tree .expr (.call c.1 c.2) := by
    intro xs h c hc
    obtain ⟨x, hx, hc⟩ := callsIn_mem hc
    exact h x hx c hc
  induction h with
  | str => simp [calls]
  | int => simp [calls]
  | ident => simp [calls]
  | unary _ _ ih => simpa [calls] using ih
  | unaryHole => simp [calls]
  | binop _ _ _ ih1 ih2 => 
    intro c hc; simp only [calls, List.mem_append] at hc; exact hc.elim (ih1 c) (ih2 c)
  | index _ _ ih1 ih2 =>
    intro c hc; simp only [calls, List.mem_append] at hc; exact hc.elim (ih1 c) (ih2 c)
  | ternary _ _ _ ih1 ih2 ih3 =>
    intro c hc; simp only [calls, List.mem_append] at hc
    exact hc.elim (fun h => h.elim (ih1 c) (ih2 c)) (ih3 c)
  | onlyIf _ _ ih1 ih2 =>
    intro c hc; simp only [calls, List.append_nil, List.mem_append] at hc
    exact hc.elim (ih1 c) (ih2 c)
  | list _ ih => exact elems ih
  | tuple _ ih => exact elems ih
  | map _ ih => exact elems ih
  | call hf h ih =>
    intro c hc
    simp only [calls, List.mem_cons] at hc
    rcases hc with rfl | hc
    · exact .call hf h
    · exact elems ih c hc
  | listCompr _ ih => simpa [calls] using ih
  | mapCompr _ ih => simpa [calls] using ih
  | entry _ _ ih1 ih2 =>
    intro c hc; simp only [calls, List.mem_append] at hc; exact hc.elim (ih1 c) (ih2 c)
  | value _ ih => exact ih
  | keyword _ _ ih => simpa [calls] using ih
  | at_ _ ih => exact ih
  | slice _ _ ih1 ih2 =>
    intro c hc; simp only [calls, List.mem_append] at hc; exact hc.elim (ih1 c) (ih2 c)
  | sliceFrom _ ih => simpa [calls] using ih
  | sliceTo _ ih => simpa [calls] using ih
  | one _ hv _ ih1 ih2 =>
    intro c hc
    simp only [calls, calls_vars hv, List.nil_append, List.mem_append] at hc
    exact hc.elim (ih1 c) (ih2 c)
  | more _ hv _ ih1 ih2 =>
    intro c hc
    simp only [calls, calls_vars hv, List.nil_append, List.mem_append] at hc
    exact hc.elim (ih1 c) (ih2 c)

theorem stmt_calls {n : Node} (h : Stmt n) : ∀ c ∈ calls n, Tree .expr (.call c.1 c.2) := by
  cases h with
  | call h => exact tree_calls h
  | list h => exact tree_calls h
  | compr h => exact tree_calls h
  | assign _ h => simpa [calls] using tree_calls h
  | tupleAssign hv h => simpa [calls, calls_vars hv] using tree_calls h
  | method _ h => simpa [calls] using tree_calls h

end Print
end Bant
