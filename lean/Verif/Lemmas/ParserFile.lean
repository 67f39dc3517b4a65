import Verif.Lemmas.ParserComplete
import Verif.Spec.Syntax
import Verif.Props.Scanner

/-! Helper lemmas: the tokens of a file; trees of the grammar; literals. -/
namespace Bant
namespace Parser
open Grammar Scanner

/-! ### Tokens of a file -/

/-- `ts` are the tokens of the file: what the scanner delivers before end-of-file. -/
def TokensOf (content : Str) (ts : List Token) : Prop :=
  ∃ e, (deliver (ts.length + 1) (Scanner.init content)).1 = ts ++ [e] ∧ e.type = .eof ∧
    ∀ t ∈ ts, t.type ≠ .eof

theorem scanAll_of_deliver {s : Scanner} {ts : List Token} {e : Token}
    (h : (deliver (ts.length + 1) s).1 = ts ++ [e]) (he : e.type = .eof)
    (ht : ∀ t ∈ ts, t.type ≠ .eof) (n : Nat) (hn : ts.length < n) : scanAll n s = ts := by
  induction ts generalizing s n with
  | nil =>
    simp only [deliver, List.length_nil, List.nil_append, List.cons.injEq] at h
    cases n with
    | zero => simp at hn
    | succ n => simp [scanAll, h.1, he]
  | cons t ts ih =>
    simp only [List.length_cons] at h hn
    rw [deliver] at h
    simp only [List.cons_append, List.cons.injEq] at h
    cases n with
    | zero => omega
    | succ n =>
      simp only [scanAll]
      rw [h.1, if_neg (ht t (by simp)), ih h.2 (fun u hu => ht u (by simp [hu])) n (by omega)]

theorem tokensOf_exists (content : Str) :
    ∃ ts, TokensOf content ts ∧ ts.length ≤ content.length := by
  obtain ⟨i, hi, heof⟩ := Props.C11_terminates content
  have key : ∀ (i : Nat) (s : Scanner), (Props.nth s i).type = .eof →
      ∃ (ts : List Token) (e : Token), ts.length ≤ i ∧ (deliver (ts.length + 1) s).1 = ts ++ [e] ∧
        e.type = .eof ∧ ∀ t ∈ ts, t.type ≠ .eof := by
    intro i
    induction i with
    | zero => intro s h; exact ⟨[], (Scanner.next s).1, by simp, by simp [deliver], h, by simp⟩
    | succ i ih =>
      intro s h
      by_cases h0 : (Scanner.next s).1.type = .eof
      · exact ⟨[], (Scanner.next s).1, by simp, by simp [deliver], h0, by simp⟩
      · obtain ⟨ts, e, h1, h2, h3, h4⟩ := ih (Scanner.next s).2 h
        refine ⟨(Scanner.next s).1 :: ts, e, by simp; omega, ?_, h3, ?_⟩
        · rw [List.length_cons, deliver]
          simp [h2]
        · intro t ht
          rcases List.mem_cons.1 ht with rfl | ht
          · exact h0
          · exact h4 t ht
  obtain ⟨ts, e, h1, h2, h3, h4⟩ := key i _ heof
  exact ⟨ts, ⟨e, h2, h3, h4⟩, by omega⟩

theorem deliver_unique {s : Scanner} {ts us : List Token} {e f : Token}
    (h1 : (deliver (ts.length + 1) s).1 = ts ++ [e]) (he : e.type = .eof)
    (ht : ∀ t ∈ ts, t.type ≠ .eof)
    (h2 : (deliver (us.length + 1) s).1 = us ++ [f]) (hf : f.type = .eof)
    (hu : ∀ t ∈ us, t.type ≠ .eof) : ts = us := by
  have a := scanAll_of_deliver h1 he ht (ts.length + us.length + 1) (by omega)
  have b := scanAll_of_deliver h2 hf hu (ts.length + us.length + 1) (by omega)
  exact a.symm.trans b

theorem initState_toks {content : Str} {ts : List Token} (h : TokensOf content ts) :
    (initState content).toks = ts := by
  obtain ⟨e, h1, h2, h3⟩ := h
  obtain ⟨us, ⟨f, h4, h5, h6⟩, h7⟩ := tokensOf_exists content
  rw [deliver_unique h1 h2 h3 h4 h5 h6]
  exact scanAll_of_deliver h4 h5 h6 _ (by omega)

theorem strFromLiteral_of_text {s rest : Str} (h : StringText s rest) : strFromLiteral s ≠ none := by
  have key : ∀ (pre : Str) (q : Char) (b : Str), StringStart pre q → 1 ≤ b.length →
      strFromLiteral (pre ++ q :: b) ≠ none := by
    intro pre q b hs hb
    have hbody : (stripRaw (pre ++ q :: b)).2 = q :: b := by
      obtain ⟨h1, h2⟩ := hs
      simp only [List.mem_cons, List.not_mem_nil, or_false] at h1 h2
      rcases h1 with rfl | rfl | rfl <;> rcases h2 with rfl | rfl <;> simp [stripRaw]
    simp only [strFromLiteral, hbody]
    split
    · simp
    · rw [if_pos (by simp; omega)]; simp
  cases h with
  | single hs _ _ _ =>
    rename_i pre q units _ _ _
    have := key pre q (units.flatten ++ [q]) hs (by simp)
    simpa using this
  | triple hs _ _ _ =>
    rename_i pre q units _ _ _
    have := key pre q ([q, q] ++ units.flatten ++ [q, q, q]) hs (by simp)
    simpa using this

theorem initState_good (content : Str) : Good (initState content) := by
  obtain ⟨ts, ⟨e, h1, h2, h3⟩, _⟩ := tokensOf_exists content
  have ht := initState_toks ⟨e, h1, h2, h3⟩
  refine ⟨rfl, ?_, ?_⟩
  · rw [ht]; exact h3
  · rw [ht]
    intro t hmem hty
    have hc := Props.C52_token_class content (ts.length + 1) t (by rw [h1]; simp [hmem])
    rw [hty] at hc
    generalize content.drop (t.start + t.text.length) = r at hc
    generalize t.text = w at hc
    cases hc with
    | string h => exact strFromLiteral_of_text h
    | keyword h _ => simp [keywords] at h

/-! ### The parser as a function of the tokens -/

theorem parseFile_total (content : Str) : ∃ n st, parseFile content = some (n, st) ∧
    st.requests ≤ 16 * (initState content).toks.length + 1 := by
  have h := run_total (enoughFuel (initState content).toks.length) (.statements [])
    (initState content) (initState_good content) trivial (by simp [rank, enoughFuel])
  obtain ⟨a, s', h1, h2, h3⟩ := h
  refine ⟨a, s', h1, ?_⟩
  simp only [work] at h3
  have : (initState content).requests = 0 := rfl
  omega

theorem parseFile_iff {content : Str} {ts : List Token} (hts : TokensOf content ts) (n : Node) :
    (∃ st, parseFile content = some (n, st) ∧ st.errs = []) ↔ Parses .program ts [] n := by
  have htoks := initState_toks hts
  have hg := initState_good content
  constructor
  · rintro ⟨st, h1, h2⟩
    have hs := run_sound (enoughFuel (initState content).toks.length) (.statements [])
      (initState content) hg
    have := hs n st h1
    obtain ⟨_, h3⟩ := this
    obtain ⟨_, xs, hx, _, hp⟩ := h3 h2
    rw [htoks] at hp
    simp only [List.nil_append] at hx
    rw [hx]
    exact hp
  · intro hp
    have hform : ∃ xs, n = .list .list xs := by cases hp <;> exact ⟨_, rfl⟩
    obtain ⟨xs, rfl⟩ := hform
    obtain ⟨a, st, h1, _⟩ := parseFile_total content
    have := agree hp xs [] rfl (enoughFuel (initState content).toks.length) (initState content) hg
      htoks rfl a st h1
    obtain ⟨_, h2, _, h3⟩ := this
    simp only [List.nil_append] at h2
    subst h2
    exact ⟨st, h1, h3⟩

/-! ### Trees of the grammar -/

/-- What is known about trees, by kind of phrase. -/
def TreeOk : NT → Node → Prop
  | .expr opt, n => (opt = true ∧ n = .null) ∨ Filled true n
  | .cont m, n => Filled true m → Filled true n
  | .index, n => ∀ x, Filled true x → Filled true (.binop (.op '[') x n)
  | .items _ .variable _, n => ∃ ty xs, n = .list ty xs ∧ ∀ v ∈ xs, v = .null ∨ ∃ i, v = .ident i
  | .item .variable, n => n = .null ∨ ∃ i, n = .ident i
  | .bracket _ .variable, _ => True
  | .clauses _ x, n => Filled true x → Filled true n
  | .moreClauses _ x, n => Filled true x → Filled true n
  | _, n => Filled true n

theorem filled_cons {ty : ListType} {x : Node} {xs : List Node} (h1 : Filled true x)
    (h2 : Filled true (.list ty xs)) : Filled true (.list ty (x :: xs)) := by
  cases h2 with
  | list h => exact .list (by simpa using ⟨h1, h⟩)

theorem filled_str {t : Str} {n : Node} (h : strFromLiteral t = some n) : Filled true n := by
  simp only [strFromLiteral] at h
  split at h
  · simp at h; rw [← h]; exact .str
  · split at h
    · simp at h; rw [← h]; exact .str
    · cases h

theorem filled_int {t : Str} {n : Node} (h : intFromLiteral t = some n) : Filled true n := by
  simp only [intFromLiteral] at h
  split at h
  · simp at h; rw [← h]; exact .int
  · cases h

theorem expr_filled {opt : Bool} {n : Node} (h : TreeOk (.expr opt) n) (hn : n ≠ .null) :
    Filled true n := by
  rcases h with ⟨_, h⟩ | h
  · exact absurd h hn
  · exact h

theorem expr_false {n : Node} (h : TreeOk (.expr false) n) : Filled true n := by
  rcases h with ⟨h, _⟩ | h
  · cases h
  · exact h

theorem tree_ok {nt : NT} {s s' : List Token} {n : Node} (h : Parses nt s s' n) : TreeOk nt n := by
  induction h with
  | missing h => exact Or.inl ⟨rfl, rfl⟩
  | unary _ _ _ ih1 ih2 =>
    refine Or.inr (ih2 ?_)
    rcases ih1 with ⟨_, rfl⟩ | ih1
    · exact .unaryHole rfl
    · exact .unary ih1
  | parenthesis _ _ _ ih1 ih2 => exact Or.inr (ih2 ih1)
  | operand _ _ ih1 ih2 => exact Or.inr (ih2 ih1)
  | stop => exact id
  | ifOnly _ _ _ ih => exact fun h => .onlyIf (expr_false ih) h
  | ifElse _ _ _ _ ih1 ih2 => exact fun h => .ternary (expr_false ih1) h (expr_false ih2)
  | binary _ _ ih => exact fun h => .binop h (expr_false ih)
  | indexed _ _ _ _ ih1 ih2 => exact fun h => ih2 (ih1 _ h)
  | at_ _ h _ ih => exact fun x hx => .binop hx (expr_filled ih h)
  | slice _ _ _ _ h ih1 ih2 =>
    intro x hx
    rcases ih1 with ⟨_, rfl⟩ | ih1 <;> rcases ih2 with ⟨_, rfl⟩ | ih2
    · exact absurd ⟨rfl, rfl⟩ h
    · exact .sliceTo hx ih2
    · exact .sliceFrom hx ih1
    · exact .binop hx (.binop ih1 ih2)
  | string _ h => exact filled_str h
  | number _ h => exact filled_int h
  | name => exact .ident
  | call _ _ _ ih => exact .call .ident ih
  | list _ _ ih => exact ih
  | map _ _ ih => exact ih
  | grouped _ h _ ih => exact expr_filled ih h
  | emptyTuple => exact .list (by simp)
  | tuple _ h _ _ ih1 ih2 => exact filled_cons (expr_filled ih1 h) ih2
  | tupleEnd => exact .list (by simp)
  | tupleComma => exact .list (by simp)
  | tupleNext _ _ _ _ ih1 ih2 => exact filled_cons (expr_false ih1) ih2
  | @emptyBracket ty i => cases i <;> first | exact Filled.list (by simp) | trivial
  | @comprehension ty i _ _ _ _ _ _ _ _ _ _ ih1 ih2 =>
    cases i <;> first | trivial | exact Filled.compr (ih2 ih1)
  | @bracketOne ty i _ _ _ _ _ _ _ _ ih =>
    cases i <;> first | trivial | exact Filled.list (by intro y hy; rw [List.mem_singleton.1 hy]; exact ih)
  | @bracketMore ty i _ _ _ _ _ _ _ _ _ _ _ ih1 ih2 =>
    cases i <;> first | trivial | exact filled_cons ih1 ih2
  | @itemsEnd ty i => cases i <;> first | exact Filled.list (by simp) | exact ⟨_, _, rfl, by simp⟩
  | @itemsLast ty i _ _ _ _ _ _ _ _ ih =>
    cases i <;> first
      | exact Filled.list (by intro y hy; rw [List.mem_singleton.1 hy]; exact ih)
      | exact ⟨_, _, rfl, by intro y hy; rw [List.mem_singleton.1 hy]; exact ih⟩
  | @itemsMore ty i _ _ _ _ _ _ _ _ _ _ _ ih1 ih2 =>
    cases i
    case «variable» =>
      obtain ⟨ty', ys, h1, h2⟩ := ih2
      cases h1
      refine ⟨_, _, rfl, ?_⟩
      intro v hv
      rcases List.mem_cons.1 hv with rfl | hv
      · exact ih1
      · exact h2 v hv
    all_goals exact filled_cons ih1 ih2
  | itemValue _ ih => exact expr_false ih
  | itemArgument _ _ _ ih => exact expr_false ih
  | itemKeyword _ _ _ _ ih => exact .assign .ident (expr_false ih)
  | itemEntry _ _ _ ih1 ih2 => exact .binop (expr_false ih1) (expr_false ih2)
  | itemVariable => exact Or.inr ⟨_, rfl⟩
  | itemNothing => exact Or.inl rfl
  | forTuple _ _ hv _ _ _ ih1 ih2 ih3 =>
    obtain ⟨ys, rfl⟩ := items_form hv
    obtain ⟨_, _, h1, h2⟩ := ih1
    cases h1
    exact fun hx => ih3 (.forHole rfl h2 hx (expr_false ih2))
  | forList _ _ hv _ _ ih1 ih2 ih3 =>
    obtain ⟨ys, rfl⟩ := items_form hv
    obtain ⟨_, _, h1, h2⟩ := ih1
    cases h1
    exact fun hx => ih3 (.forHole rfl h2 hx (expr_false ih2))
  | nextClause _ _ ih => exact ih
  | lastClause => exact id
  | endOfFile => exact .list (by simp)
  | docString _ _ ih => exact ih
  | listStatement _ _ _ ih1 ih2 => exact filled_cons ih1 ih2
  | tupleAssign _ hv _ _ _ ih1 ih2 ih3 =>
    obtain ⟨ys, rfl⟩ := items_form hv
    obtain ⟨_, _, h1, h2⟩ := ih1
    cases h1
    exact filled_cons (.assignHole rfl h2 (expr_false ih2)) ih3
  | assign _ _ _ _ ih1 ih2 => exact filled_cons (.assign .ident (expr_false ih1)) ih2
  | rule _ _ _ _ ih1 ih2 => exact filled_cons (.call .ident ih1) ih2
  | method _ _ _ _ ih1 ih2 => exact filled_cons (.binop .ident (expr_false ih1)) ih2

/-! ### Consumed tokens -/

/-- A token that can be part of a sentence. -/
def Sound (t : Token) : Prop :=
  t.type ≠ .error ∧ (t.type = .numberLiteral → intFromLiteral t.text ≠ none)

/-- All tokens up to `s'` are sound. -/
def Eaten (s s' : List Token) : Prop := ∃ pre, s = pre ++ s' ∧ ∀ t ∈ pre, Sound t

theorem Eaten.refl (s : List Token) : Eaten s s := ⟨[], rfl, by simp⟩
theorem Eaten.trans {a b c : List Token} (h1 : Eaten a b) (h2 : Eaten b c) : Eaten a c := by
  obtain ⟨p, rfl, hp⟩ := h1
  obtain ⟨q, rfl, hq⟩ := h2
  refine ⟨p ++ q, by simp, ?_⟩
  intro t ht
  rcases List.mem_append.1 ht with h | h
  · exact hp t h
  · exact hq t h
theorem Eaten.cons {t : Token} {a b : List Token} (h1 : Sound t) (h2 : Eaten a b) :
    Eaten (t :: a) b := Eaten.trans ⟨[t], rfl, by simpa using h1⟩ h2
theorem Eaten.tail {t : Token} {a b : List Token} (h1 : Eaten a (t :: b)) (h2 : Sound t) :
    Eaten a b := h1.trans ⟨[t], rfl, by simpa using h2⟩

theorem sound_of {t : Token} {ty : TokenType} (h : t.type = ty) (h1 : ty ≠ .error)
    (h2 : ty ≠ .numberLiteral) : Sound t := ⟨by rw [h]; exact h1, fun h' => absurd (h ▸ h') h2⟩

/-- Kinds of tokens that can be expected as closing token. -/
def ProperClose (c : TokenType) : Prop := c ≠ .error ∧ c ≠ .numberLiteral

set_option hygiene false in
local macro "snd" : tactic => `(tactic|
  (first
   | exact sound_of (by assumption) (hcl _).1 (hcl _).2
   | exact sound_of (by assumption) (by simp) (by simp)))

/-- The phrase consumes sound tokens only. -/
def EatenOk : NT → List Token → List Token → Prop
  | .items _ _ c, s, s' => ProperClose c → Eaten s s'
  | .clauses c _, s, s' => ProperClose c → Eaten s s'
  | .moreClauses c _, s, s' => ProperClose c → Eaten s s'
  | _, s, s' => Eaten s s'

theorem eaten_ok {nt : NT} {s s' : List Token} {n : Node} (h : Parses nt s s' n) :
    EatenOk nt s s' := by
  have hcl : ∀ ty, ProperClose (closing ty) := by intro ty; cases ty <;> simp [ProperClose, closing]
  induction h with
  | missing h => exact .refl _
  | unary h _ _ ih1 ih2 =>
    refine Eaten.cons ?_ (ih1.trans ih2)
    simp only [List.mem_cons, List.not_mem_nil, or_false] at h
    rcases h with h | h <;> snd
  | parenthesis h _ _ ih1 ih2 => exact .cons (by snd) (ih1.trans ih2)
  | operand _ _ ih1 ih2 => exact ih1.trans ih2
  | stop => exact .refl _
  | ifOnly _ _ _ ih => exact .cons (by snd) ih
  | ifElse _ _ _ _ ih1 ih2 => exact .cons (by snd) ((ih1.tail (by snd)).trans ih2)
  | binary h _ ih =>
    refine Eaten.cons ?_ ih
    constructor
    · intro he; simp [he, Grammar.binary] at h
    · intro he; simp [he, Grammar.binary] at h
  | indexed _ _ _ _ ih1 ih2 => exact .cons (by snd) (ih1.trans ih2)
  | at_ _ h _ ih => exact ih.tail (by snd)
  | slice _ _ _ _ h ih1 ih2 => exact (ih1.tail (by snd)).trans (ih2.tail (by snd))
  | string _ h => exact .cons (by snd) (.refl _)
  | number h1 h2 => exact .cons ⟨by simp [h1], fun _ => by simp [h2]⟩ (.refl _)
  | name => exact .cons (by snd) (.refl _)
  | call _ _ _ ih => exact .cons (by snd) (.cons (by snd) (ih (by simp [ProperClose])))
  | list _ _ ih => exact .cons (by snd) ih
  | map _ _ ih => exact .cons (by snd) ih
  | grouped _ h _ ih => exact ih.tail (by snd)
  | emptyTuple _ _ ih => exact ih.tail (by snd)
  | tuple _ h _ _ ih1 ih2 => exact ih1.trans ih2
  | tupleEnd => exact .cons (by snd) (.refl _)
  | tupleComma => exact .cons (by snd) (.cons (by snd) (.refl _))
  | tupleNext _ _ _ _ ih1 ih2 => exact .cons (by snd) (ih1.trans ih2)
  | emptyBracket => exact .cons (by snd) (.refl _)
  | comprehension _ _ _ _ _ ih1 ih2 => exact Eaten.trans ih1 (ih2 (hcl _))
  | bracketOne _ _ _ _ ih => exact Eaten.tail ih (by snd)
  | bracketMore _ _ _ _ _ ih1 ih2 => exact (Eaten.tail ih1 (by snd)).trans (ih2 (hcl _))
  | itemsEnd h => exact fun hc => .cons (sound_of h hc.1 hc.2) (.refl _)
  | itemsLast _ _ h ih => exact fun hc => Eaten.tail ih (sound_of h hc.1 hc.2)
  | itemsMore _ _ h _ ih1 ih2 => exact fun hc => (Eaten.tail ih1 (by snd)).trans (ih2 hc)
  | itemValue _ ih => exact ih
  | itemArgument _ _ _ ih => exact ih
  | itemKeyword _ _ _ ih1 ih2 => exact (Eaten.tail ih1 (by snd)).trans ih2
  | itemEntry _ _ _ ih1 ih2 => exact (Eaten.tail ih1 (by snd)).trans ih2
  | itemVariable => exact .cons (by snd) (.refl _)
  | itemNothing => exact .refl _
  | forTuple _ _ hv _ _ _ ih1 ih2 ih3 =>
    exact fun hc => .cons (by snd) (.cons (by snd)
      (((ih1 (by simp [ProperClose])).tail (by snd)).trans (Eaten.trans ih2 (ih3 hc))))
  | forList _ _ hv _ _ ih1 ih2 ih3 =>
    exact fun hc => .cons (by snd) ((ih1 (by simp [ProperClose])).trans (Eaten.trans ih2 (ih3 hc)))
  | nextClause _ _ ih => exact ih
  | lastClause h => exact fun hc => .cons (sound_of h hc.1 hc.2) (.refl _)
  | endOfFile => exact .refl _
  | docString _ _ ih => exact .cons (by snd) ih
  | listStatement _ _ _ ih1 ih2 => exact .cons (by snd) (Eaten.trans ih1 ih2)
  | tupleAssign _ hv _ _ _ ih1 ih2 ih3 =>
    exact .cons (by snd) (((ih1 (by simp [ProperClose])).tail (by snd)).trans (Eaten.trans ih2 ih3))
  | assign _ _ _ _ ih1 ih2 => exact .cons (by snd) (.cons (by snd) (Eaten.trans ih1 ih2))
  | rule _ _ _ _ ih1 ih2 =>
    exact .cons (by snd) (.cons (by snd) (Eaten.trans (ih1 (by simp [ProperClose])) ih2))
  | method _ _ _ _ ih1 ih2 => exact .cons (by snd) (.cons (by snd) (Eaten.trans ih1 ih2))

end Parser
end Bant
