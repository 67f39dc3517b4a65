import Verif.Lemmas.PrintFits

/-! The tokens of the printed form are parsed to the tree they have been made of. -/
namespace Bant
namespace Print
open Grammar

/-- What can follow an item of a list. -/
def StopItem (s : List Token) : Prop := hd s ∈ [TokenType.op ',', .op ')', .op ']', .op '}', .kFor]

/-- What can follow an expression. -/
def Stop (n : Node) (s : List Token) : Prop :=
  hd s ∈ [TokenType.op ',', .op ')', .op ']', .op '}', .kFor, .op ':', .op '=', .kIn, .eof] ∧
    hd s ≠ .kIn ∨ (hd s = .kElse ∧ ¬ OpenIf n)

theorem StopItem.stop {n : Node} {s : List Token} (h : StopItem s) : Stop n s := by
  simp only [StopItem, List.mem_cons, List.not_mem_nil, or_false] at h
  left
  rcases h with h | h | h | h | h <;> simp [h]

theorem not_continues {s : List Token} (h1 : hd s ≠ .kIf) (h2 : hd s ∉ Grammar.binary)
    (h3 : hd s ≠ .op '[') : ¬ continues s := by
  rintro ⟨t, r, rfl, h⟩
  rcases h with h | h | h
  · exact h1 h
  · exact h2 h
  · exact h3 h.1

theorem Stop.facts {n : Node} {s : List Token} (h : Stop n s) :
    ¬ continues s ∧ hd s ≠ .op '(' ∧ (OpenIf n → hd s ≠ .kElse) := by
  rcases h with ⟨h, hk⟩ | ⟨h, ho⟩
  · simp only [List.mem_cons, List.not_mem_nil, or_false] at h
    rcases h with h | h | h | h | h | h | h | h | h <;>
      first
      | exact absurd h hk
      | exact ⟨not_continues (by simp [h]) (by simp [h, Grammar.binary]) (by simp [h]),
          by simp [h], fun _ => by simp [h]⟩
  · exact ⟨not_continues (by simp [h]) (by simp [h, Grammar.binary]) (by simp [h]),
      by simp [h], fun h' => absurd h' ho⟩

theorem Stop.of_not_open {m n : Node} {s : List Token} (h : Stop n s) (hm : OpenIf m → OpenIf n) :
    Stop m s := by
  rcases h with h | ⟨h, ho⟩
  · exact Or.inl h
  · exact Or.inr ⟨h, fun h' => ho (hm h')⟩

theorem starts_of {opt : Bool} {s s' : List Token} {n : Node} (h : Parses (.expr opt) s s' n)
    (hn : n ≠ .null ∨ opt = false) : startsExpr (hd s) := by
  cases h with
  | missing => simp at hn
  | unary h _ _ =>
    simp only [List.mem_cons, List.not_mem_nil, or_false] at h
    rcases h with h | h <;> simp [hd, h, startsExpr]
  | parenthesis h _ _ => simp [hd, h, startsExpr]
  | operand h _ =>
    cases h with
    | string h _ => simp [hd, h, startsExpr]
    | number h _ => simp [hd, h, startsExpr]
    | name h _ => simp [hd, h, startsExpr]
    | call h _ _ => simp [hd, h, startsExpr]
    | list h _ => simp [hd, h, startsExpr]
    | map h _ => simp [hd, h, startsExpr]

/-- Closing tokens. -/
def Closes (c : TokenType) : Prop := c ∈ [TokenType.op ')', .op ']', .op '}']

theorem starts_ne {t c : TokenType} (h : startsExpr t) (hc : Closes c) : t ≠ c := by
  rintro rfl
  simp only [Closes, List.mem_cons, List.not_mem_nil, or_false] at hc
  rcases hc with rfl | rfl | rfl <;> simp [startsExpr] at h

theorem closes_closing (ty : ListType) : Closes (closing ty) := by
  cases ty <;> simp [Closes, closing]

/-- The tokens of the printed form. -/
abbrev toks (p : Nat) (nl : Bool) (i : Nat) (n : Node) : List Token := tokensAt p nl (parts i n)

/-- The printed form is an expression. -/
def PF (n : Node) : Prop := ∀ i p nl opt s, Stop n s → Parses (.expr opt) (toks p nl i n ++ s) s n

/-- The printed form is an operand. -/
def PS (n : Node) : Prop := ∀ i p nl opt s s' r, hd s ≠ .op '(' → Parses (.cont n) s s' r →
  Parses (.expr opt) (toks p nl i n ++ s) s' r

/-- The printed form is an item of a list. -/
def PI (it : Item) (n : Node) : Prop := ∀ i p nl s, StopItem s →
  Parses (.item it) (toks p nl i n ++ s) s n ∧ ∀ c, Closes c → hd (toks p nl i n ++ s) ≠ c

theorem PS.pf {n : Node} (h : PS n) : PF n :=
  fun i p nl opt s hs => h i p nl opt s s n hs.facts.2.1 (.stop hs.facts.1)

theorem ps_of_atom {n : Node} (h : ∀ i p nl s, hd s ≠ .op '(' → Parses .atom (toks p nl i n ++ s) s n) :
    PS n := fun i p nl _ s _ _ hs hc => .operand (h i p nl s hs) hc

theorem PF.value {n : Node} (h : PF n) : PI .value n := fun i p nl s hs =>
  have := h i p nl false s hs.stop
  ⟨.itemValue this, fun _ hc => starts_ne (starts_of this (Or.inr rfl)) hc⟩

/-! ### Lists -/

/-- The tokens after the elements of a list. -/
def Tail (one : Prop) (close : TokenType) (ps : List Part) : Prop := ∀ p nl,
  (∃ t, tokensAt p nl ps = [t] ∧ t.type = close) ∨
  (one ∧ ∃ c t, tokensAt p nl ps = [c, t] ∧ c.type = .op ',' ∧ t.type = close)

/-- The end of a list, after the elements. -/
def listEnd (i : Nat) (ty : ListType) (k : Nat) : List Part :=
  (if ty = .tuple ∧ k = 1 then [.tok (.op ',') [',']] else [])
    ++ ((if 1 < k then [.gap ('\n' :: spaces i)] else [])
    ++ [.tok (Grammar.closing ty) (closeText ty)])

theorem listEnd_tail (i : Nat) (ty : ListType) (k : Nat) : Tail (k = 1) (closing ty) (listEnd i ty k) := by
  intro p nl
  by_cases h : ty = .tuple ∧ k = 1
  · right
    refine ⟨h.2, ?_⟩
    rw [listEnd, if_pos h, h.2]
    exact ⟨_, _, by simp [tokensAt]; exact ⟨rfl, rfl⟩, rfl, rfl⟩
  · left
    rw [listEnd, if_neg h]
    by_cases h1 : 1 < k
    · exact ⟨_, by simp [h1, tokensAt]; rfl, rfl⟩
    · exact ⟨_, by simp [h1, tokensAt]; rfl, rfl⟩

theorem toks_list (i p : Nat) (nl : Bool) (ty : ListType) (xs : List Node) :
    ∃ t p' nl', toks p nl i (.list ty xs)
      = t :: tokensAt p' nl' (partsElems (i + 4) (decide (1 < xs.length)) true xs
          ++ listEnd i ty xs.length) ∧ t.type = openType ty ∧
      t.newlineSinceLast = nl := by
  have ho : ('\n' ∈ openText ty) = False := by cases ty <;> simp [openText]
  by_cases h1 : 1 < xs.length
  · refine ⟨⟨openType ty, p, openText ty, nl⟩, p + (openText ty).length + 1, true, ?_, rfl, rfl⟩
    simp only [toks, parts, h1, if_true, tokensAt, List.cons_append, List.nil_append, listEnd]
    simp [ho]
  · refine ⟨⟨openType ty, p, openText ty, nl⟩, p + (openText ty).length, false, ?_, rfl, rfl⟩
    simp only [toks, parts, h1, if_false, tokensAt, List.nil_append, listEnd]
    simp [ho]

/-- Elements after the first one: a comma, and then as the first one. -/
theorem elems_next (i p : Nat) (multi nl : Bool) (y : Node) (ys : List Node) (ps : List Part) :
    ∃ c p' nl', tokensAt p nl (partsElems i multi false (y :: ys) ++ ps)
      = c :: tokensAt p' nl' (partsElems i multi true (y :: ys) ++ ps) ∧ c.type = .op ',' := by
  refine ⟨⟨.op ',', p, [','], nl⟩, p + 1 + 1, true, ?_, rfl⟩
  simp only [partsElems, Bool.false_eq_true, if_false, if_true, List.cons_append, List.nil_append,
    tokensAt, List.length_singleton]
  simp

theorem elems_first (i p : Nat) (multi nl : Bool) (y : Node) (hy : y ≠ .null) (ys : List Node)
    (ps : List Part) :
    ∃ p1 nl1 p2 nl2, tokensAt p nl (partsElems i multi true (y :: ys) ++ ps)
      = toks p1 nl1 i y ++ tokensAt p2 nl2 (partsElems i multi false ys ++ ps) := by
  have hn := isNull_eq_false hy
  cases multi with
  | true =>
    refine ⟨p + (spaces i).length, (nl || decide ('\n' ∈ spaces i)),
      p + (spaces i).length + (render (parts i y)).length,
      nlAfter (nl || decide ('\n' ∈ spaces i)) (parts i y), ?_⟩
    simp only [partsElems, if_true, hn, Bool.false_eq_true, if_false, List.nil_append,
      List.append_assoc, List.cons_append, tokensAt]
    rw [tokensAt_append]
  | false =>
    refine ⟨p, nl, p + (render (parts i y)).length, nlAfter nl (parts i y), ?_⟩
    simp only [partsElems, if_true, hn, Bool.false_eq_true, if_false, List.nil_append,
      List.append_assoc]
    rw [tokensAt_append]

theorem parses_items {it : Item} {ty : ListType} {close : TokenType} (hc : Closes close) {i : Nat}
    {xs : List Node} (h : ∀ x ∈ xs, x ≠ .null ∧ PI it x) (hx : xs ≠ []) {one : Prop} {ps : List Part}
    (ht : Tail one close ps) (p : Nat) (multi nl : Bool) (s : List Token) :
    Parses (.items ty it close) (tokensAt p nl (partsElems i multi true xs ++ ps) ++ s) s
      (.list ty xs) := by
  have hcs : ∀ t s', Token.type t = close → StopItem (t :: s') := by
    intro t s' e
    simp only [Closes, List.mem_cons, List.not_mem_nil, or_false] at hc
    rcases hc with rfl | rfl | rfl <;> simp [StopItem, hd, e]
  induction xs generalizing p nl with
  | nil => exact absurd rfl hx
  | cons x xs ih =>
    obtain ⟨hxn, hxi⟩ := h x (by simp)
    obtain ⟨p1, nl1, p2, nl2, e⟩ := elems_first i p multi nl x hxn xs ps
    rw [e, List.append_assoc]
    cases xs with
    | nil =>
      simp only [partsElems, List.nil_append]
      rcases ht p2 nl2 with ⟨t, e1, e2⟩ | ⟨_, c, t, e1, e2, e3⟩
      · rw [e1]
        have := hxi i p1 nl1 ([t] ++ s) (hcs t s e2)
        exact .itemsLast (this.2 _ hc) this.1 e2
      · rw [e1]
        have := hxi i p1 nl1 ([c, t] ++ s) (by simp [StopItem, hd, e2])
        exact .itemsMore (this.2 _ hc) this.1 e2 (.itemsEnd e3)
    | cons y ys =>
      obtain ⟨c, p3, nl3, e1, e2⟩ := elems_next i p2 multi nl2 y ys ps
      rw [e1]
      have := hxi i p1 nl1 (c :: tokensAt p3 nl3 (partsElems i multi true (y :: ys) ++ ps) ++ s)
        (by simp [StopItem, hd, e2])
      exact .itemsMore (this.2 _ hc) this.1 e2 (ih (fun z hz => h z (by simp [hz])) (by simp) p3 nl3)

theorem parses_items' {it : Item} {ty : ListType} {i : Nat}
    {xs : List Node} (h : ∀ x ∈ xs, x ≠ .null ∧ PI it x) (p : Nat) (nl : Bool) (s : List Token) :
    Parses (.items ty it (closing ty)) (tokensAt p nl (partsElems (i + 4) (decide (1 < xs.length))
      true xs ++ listEnd i ty xs.length) ++ s) s (.list ty xs) := by
  by_cases hx : xs = []
  · subst hx
    rcases listEnd_tail i ty 0 p nl with ⟨t, e1, e2⟩ | ⟨h0, _⟩
    · simp only [partsElems, List.nil_append, List.length_nil, e1]
      exact .itemsEnd e2
    · cases h0
  · exact parses_items (closes_closing ty) h hx (listEnd_tail i ty _) p _ nl s

theorem parses_bracket {it : Item} {ty : ListType} (hty : ty ≠ .tuple) {i : Nat}
    {xs : List Node} (h : ∀ x ∈ xs, x ≠ .null ∧ PI it x) (p : Nat) (nl : Bool) (s : List Token) :
    Parses (.bracket ty it) (tokensAt p nl (partsElems (i + 4) (decide (1 < xs.length))
      true xs ++ listEnd i ty xs.length) ++ s) s (.list ty xs) := by
  cases xs with
  | nil =>
    rcases listEnd_tail i ty 0 p nl with ⟨t, e1, e2⟩ | ⟨h0, _⟩
    · simp only [partsElems, List.nil_append, List.length_nil, e1]
      exact .emptyBracket e2
    · cases h0
  | cons x xs =>
    obtain ⟨hxn, hxi⟩ := h x (by simp)
    obtain ⟨p1, nl1, p2, nl2, e⟩ := elems_first (i + 4) p (decide (1 < (x :: xs).length)) nl x hxn xs
      (listEnd i ty (x :: xs).length)
    rw [e, List.append_assoc]
    have hc := closes_closing ty
    cases xs with
    | nil =>
      simp only [partsElems, List.nil_append]
      have hend : ∃ t, tokensAt p2 nl2 (listEnd i ty [x].length) = [t] ∧ t.type = closing ty :=
        ⟨_, by simp [listEnd, hty, tokensAt]; rfl, rfl⟩
      obtain ⟨t, e1, e2⟩ := hend
      rw [e1]
      have hcs : StopItem (t :: s) := by
        cases ty <;> simp [closing] at e2 <;> simp [StopItem, hd, e2]
      have := hxi (i + 4) p1 nl1 ([t] ++ s) hcs
      exact .bracketOne (this.2 _ hc) this.1 hxn e2
    | cons y ys =>
      obtain ⟨c, p3, nl3, e1, e2⟩ := elems_next (i + 4) p2 _ nl2 y ys (listEnd i ty (x :: y :: ys).length)
      rw [e1]
      have := hxi (i + 4) p1 nl1 (c :: tokensAt p3 nl3 (partsElems (i + 4)
        (decide (1 < (x :: y :: ys).length)) true (y :: ys)
        ++ listEnd i ty (x :: y :: ys).length) ++ s) (by simp [StopItem, hd, e2])
      exact .bracketMore (this.2 _ hc) this.1 hxn e2
        (parses_items hc (fun z hz => h z (by simp [hz])) (by simp) (listEnd_tail i ty _) p3 _ nl3 s)

theorem parses_tupleTail {i : Nat} {xs : List Node} (h : ∀ x ∈ xs, x ≠ .null ∧ PF x) (hx : xs ≠ [])
    {ps : List Part} (ht : Tail False (.op ')') ps) (p : Nat) (multi nl : Bool) (s : List Token) :
    Parses .tupleTail (tokensAt p nl (partsElems i multi false xs ++ ps) ++ s) s (.list .tuple xs) := by
  induction xs generalizing p nl with
  | nil => exact absurd rfl hx
  | cons x xs ih =>
    obtain ⟨hxn, hxf⟩ := h x (by simp)
    obtain ⟨c, p3, nl3, e1, e2⟩ := elems_next i p multi nl x xs ps
    obtain ⟨p1, nl1, p2, nl2, e⟩ := elems_first i p3 multi nl3 x hxn xs ps
    rw [e1, e, List.cons_append, List.append_assoc]
    have hstop : StopItem (tokensAt p2 nl2 (partsElems i multi false xs ++ ps) ++ s) := by
      cases xs with
      | nil =>
        rcases ht p2 nl2 with ⟨t, e3, e4⟩ | ⟨h0, _⟩
        · simp only [partsElems, List.nil_append, e3]
          simp [StopItem, hd, e4]
        · exact h0.elim
      | cons y ys =>
        obtain ⟨c', p4, nl4, e3, e4⟩ := elems_next i p2 multi nl2 y ys ps
        rw [e3]
        simp [StopItem, hd, e4]
    have hp := hxf i p1 nl1 false _ (hstop.stop (n := x))
    refine .tupleNext e2 (starts_ne (starts_of hp (Or.inr rfl)) (by simp [Closes])) hp ?_
    cases xs with
    | nil =>
      rcases ht p2 nl2 with ⟨t, e3, e4⟩ | ⟨h0, _⟩
      · simp only [partsElems, List.nil_append, e3]
        exact .tupleEnd e4
      · exact h0.elim
    | cons y ys => exact ih (fun z hz => h z (by simp [hz])) (by simp) p2 nl2

theorem parses_paren {i : Nat} {xs : List Node} (h : ∀ x ∈ xs, x ≠ .null ∧ PF x) (p : Nat)
    (nl : Bool) (s : List Token) :
    Parses .paren (tokensAt p nl (partsElems (i + 4) (decide (1 < xs.length)) true xs
      ++ listEnd i .tuple xs.length) ++ s) s (.list .tuple xs) := by
  cases xs with
  | nil =>
    rcases listEnd_tail i .tuple 0 p nl with ⟨t, e1, e2⟩ | ⟨h0, _⟩
    · simp only [partsElems, List.nil_append, List.length_nil, e1]
      refine .emptyTuple (.missing ?_) e2
      simp [hd, e2, closing, startsExpr]
    · cases h0
  | cons x xs =>
    obtain ⟨hxn, hxf⟩ := h x (by simp)
    obtain ⟨p1, nl1, p2, nl2, e⟩ := elems_first (i + 4) p (decide (1 < (x :: xs).length)) nl x hxn xs
      (listEnd i .tuple (x :: xs).length)
    rw [e, List.append_assoc]
    cases xs with
    | nil =>
      simp only [partsElems, List.nil_append]
      have hend : ∃ c t, tokensAt p2 nl2 (listEnd i .tuple [x].length) = [c, t] ∧
          c.type = .op ',' ∧ t.type = .op ')' :=
        ⟨_, _, by simp [listEnd, tokensAt]; exact ⟨rfl, rfl⟩, rfl, rfl⟩
      obtain ⟨c, t, e1, e2, e3⟩ := hend
      rw [e1]
      have hst : Stop x ([c, t] ++ s) := StopItem.stop (by simp [StopItem, hd, e2])
      exact .tuple (hxf _ p1 nl1 true _ hst) hxn (by simp [hd, e2]) (.tupleComma e2 e3)
    | cons y ys =>
      have hlen : ¬ (x :: y :: ys).length = 1 := by simp
      have htail : Tail False (.op ')') (listEnd i .tuple (x :: y :: ys).length) := by
        intro p nl
        rcases listEnd_tail i .tuple (x :: y :: ys).length p nl with h | h
        · exact Or.inl h
        · exact absurd h.1 hlen
      obtain ⟨c, p3, nl3, e1, e2⟩ := elems_next (i + 4) p2 (decide (1 < (x :: y :: ys).length)) nl2 y ys
        (listEnd i .tuple (x :: y :: ys).length)
      have hst : Stop x (tokensAt p2 nl2 (partsElems (i + 4) (decide (1 < (x :: y :: ys).length)) false
          (y :: ys) ++ listEnd i .tuple (x :: y :: ys).length) ++ s) := by
        rw [e1]; exact StopItem.stop (by simp [StopItem, hd, e2])
      refine .tuple (hxf _ p1 nl1 true _ hst) hxn ?_
        (parses_tupleTail (fun z hz => h z (by simp [hz])) (by simp) htail p2 _ nl2 s)
      rw [e1]; simp [hd, e2]

/-! ### Literals -/

theorem take_middle (a b c : Str) : ((a ++ b ++ c).drop a.length).take ((a ++ b ++ c).length
    - (a.length + c.length)) = b := by
  rw [List.append_assoc, List.drop_left]
  have : (a ++ (b ++ c)).length - (a.length + c.length) = b.length := by simp; omega
  rw [this, List.take_left]

theorem strFromLiteral_print {text : Str} {triple raw : Bool} (h : StrOk text triple) :
    strFromLiteral ((if raw then ['r'] else []) ++ quotes text triple ++ text ++ quotes text triple)
      = some (.str text triple raw) := by
  have hstrip : stripRaw ((if raw then ['r'] else []) ++ quotes text triple ++ text
      ++ quotes text triple) = (raw, quotes text triple ++ text ++ quotes text triple) := by
    by_cases hq : '"' ∈ text <;> cases triple <;> cases raw <;>
      simp [quotes, quoteChar, hq, stripRaw]
  simp only [strFromLiteral, hstrip]
  by_cases hq : '"' ∈ text
  · obtain ⟨rfl, _⟩ := h.2 hq
    have e : quotes text false = ['\''] := by simp [quotes, quoteChar, hq]
    rw [e]
    rw [if_neg (by simp), if_pos (by simp)]
    have := take_middle ['\''] text ['\'']
    simp only [List.length_singleton] at this
    rw [this]
  · cases triple with
    | true =>
      have e : quotes text true = ['"', '"', '"'] := by simp [quotes, quoteChar, hq]
      rw [e, if_pos (by simp)]
      have := take_middle ['"', '"', '"'] text ['"', '"', '"']
      simp only [List.length_cons, List.length_nil] at this
      rw [this]
    | false =>
      have e : quotes text false = ['"'] := by simp [quotes, quoteChar, hq]
      rw [e, if_neg, if_pos (by simp)]
      · have := take_middle ['"'] text ['"']
        simp only [List.length_singleton] at this
        rw [this]
      · rintro ⟨h1, h2⟩
        cases text with
        | nil => simp at h1
        | cons c cs =>
          simp at h2
          exact hq (by simp [h2.1])

/-! ### Operators -/

theorem toks_op (i p : Nat) (nl : Bool) {op : TokenType} (l r : Node) (h : op ≠ .op '[') :
    ∃ t p' nl', toks p nl i (.binop op l r) = toks p nl i l ++ t :: toks p' nl' i r ∧ t.type = op := by
  by_cases hd : op = .op '.'
  · exact ⟨_, _, _, by simp [toks, parts, hd, tokensAt]; exact ⟨rfl, rfl⟩, hd.symm⟩
  · exact ⟨_, _, _, by simp [toks, parts, hd, h, tokensAt]; exact ⟨rfl, rfl⟩, rfl⟩

theorem toks_index (i p : Nat) (nl : Bool) (l x : Node) :
    ∃ t p' nl' u, toks p nl i (.binop (.op '[') l x) = toks p nl i l ++ t :: (toks p' nl' i x ++ [u]) ∧
      t.type = .op '[' ∧ t.newlineSinceLast = nlAfter nl (parts i l) ∧ u.type = .op ']' :=
  ⟨⟨.op '[', p + (render (parts i l)).length, ['['], nlAfter nl (parts i l)⟩, _, _, _,
    by simp [toks, parts, tokensAt, opText]; exact ⟨rfl, rfl⟩, rfl, rfl, rfl⟩

theorem toks_if (i p : Nat) (nl : Bool) (c q : Node) :
    ∃ t p' nl', toks p nl i (.ternary c q .null) = toks p nl i q ++ t :: toks p' nl' i c ∧
      t.type = .kIf :=
  ⟨⟨.kIf, _, _, _⟩, _, _, by simp [toks, parts, tokensAt, Node.isNull]; exact ⟨⟨rfl, rfl, rfl⟩, rfl⟩, rfl⟩

theorem toks_ifElse (i p : Nat) (nl : Bool) (c q n : Node) (h : n ≠ .null) :
    ∃ t p1 nl1 u p2 nl2, toks p nl i (.ternary c q n)
      = toks p nl i q ++ t :: (toks p1 nl1 i c ++ u :: toks p2 nl2 i n) ∧
      t.type = .kIf ∧ u.type = .kElse :=
  ⟨⟨.kIf, _, _, _⟩, _, _, ⟨.kElse, _, _, _⟩, _, _,
    by simp [toks, parts, tokensAt, isNull_eq_false h]
       exact ⟨⟨rfl, rfl, rfl⟩, rfl⟩, rfl, rfl⟩

/-! ### All trees -/

/-- The printed form starts a comprehension. -/
def PC (ty : ListType) (it : Item) (n : Node) : Prop := ∀ i p nl s s' f,
  (hd s = .kFor ∨ hd s = closing ty) → Parses (.moreClauses (closing ty) n) s s' f →
  Parses (.bracket ty it) (toks p nl i n ++ s) s' (.compr ty f)

/-- What the tokens of the printed form are parsed to. -/
def Meaning : Kind → Node → Prop
  | .expr, n => PF n ∧ (Simple n → PS n)
  | .entry, n => PI .entry n
  | .argument, n => PI .argument n
  | .index, n => ∀ i p nl t s, t.type = .op ']' → Parses .index (toks p nl i n ++ t :: s) s n
  | .clauses .expr, n => PC .list .value n
  | .clauses .entry, n => PC .map .entry n
  | .clauses _, _ => True

theorem simple_nl {n : Node} (hp : Printable .expr n) (hs : Simple n) (i : Nat) (nl : Bool) :
    nlAfter nl (parts i n) = false := by
  cases hs with
  | str => rfl
  | int => rfl
  | ident => rfl
  | call =>
    cases hp with
    | call _ _ => simp [parts, nlAfter]
  | list => simp [parts, nlAfter]
  | compr => simp [parts, nlAfter]
  | index _ => simp [parts, nlAfter]

theorem parses_variables {i : Nat} {vs : List Node} (h : ∀ v ∈ vs, ∃ i, v = .ident i ∧ IdentText i)
    (p : Nat) (nl : Bool) (s : List Token) :
    ∃ t ts, toks p nl i (.list .tuple vs) = t :: ts ∧ t.type = .op '(' ∧
      Parses (.items .tuple .variable (.op ')')) (ts ++ s) s (.list .tuple vs) := by
  obtain ⟨t, p', nl', e, e1, _⟩ := toks_list i p nl .tuple vs
  refine ⟨t, _, e, e1, ?_⟩
  refine parses_items' (ty := .tuple) ?_ p' nl' s
  intro v hv
  obtain ⟨w, rfl, hw⟩ := h v hv
  refine ⟨by simp, ?_⟩
  intro i p nl s hs
  refine ⟨.itemVariable rfl, ?_⟩
  intro c hc
  simp only [Closes, List.mem_cons, List.not_mem_nil, or_false] at hc
  rcases hc with rfl | rfl | rfl <;> simp [toks, parts, tokensAt, hd]

/-- One `for` clause. -/
theorem parses_for {ty : ListType} {x vals : Node} {vs : List Node} {i : Nat}
    (hv : ∀ v ∈ vs, ∃ i, v = .ident i ∧ IdentText i) (hx : PF vals) (p : Nat) (nl : Bool)
    {s s' : List Token} {f : Node} (hs : hd s = .kFor ∨ hd s = closing ty)
    (h : Parses (.moreClauses (closing ty) (.binop .kFor x (.binop .kIn (.list .tuple vs) vals))) s s' f) :
    ∃ t ts, toks p nl i (.binop .kFor x (.binop .kIn (.list .tuple vs) vals)) = toks p nl i x ++ t :: ts ∧
      t.type = .kFor ∧ Parses (.clauses (closing ty) x) (t :: ts ++ s) s' f := by
  obtain ⟨t, p1, nl1, e1, e2⟩ := toks_op i p nl (op := .kFor) x (.binop .kIn (.list .tuple vs) vals)
    (by simp)
  obtain ⟨u, p2, nl2, e3, e4⟩ := toks_op i p1 nl1 (op := .kIn) (.list .tuple vs) vals (by simp)
  obtain ⟨q, ts, e5, e6, e7⟩ := parses_variables hv p1 nl1 (i := i) (u :: toks p2 nl2 i vals ++ s)
  refine ⟨t, _, e1, e2, ?_⟩
  rw [e3, e5]
  have hst : Stop vals s := by
    apply StopItem.stop
    rcases hs with hs | hs
    · simp [StopItem, hs]
    · cases ty <;> simp [StopItem, hs, closing]
  have := Parses.forTuple e2 e6 e7 e4 (hx i p2 nl2 false s hst) h
  simpa using this

theorem parses_clause_one {ty : ListType} {it : Item} {x vals : Node} {vs : List Node}
    (hxn : x ≠ .null) (hxi : PI it x)
    (hv : ∀ v ∈ vs, ∃ i, v = .ident i ∧ IdentText i) (hx : PF vals) :
    PC ty it (.binop .kFor x (.binop .kIn (.list .tuple vs) vals)) := by
  intro i p nl s s' f hs h
  obtain ⟨t, ts, e1, e2, e3⟩ := parses_for (i := i) hv hx p nl hs h
  rw [e1, List.append_assoc]
  have := hxi i p nl (t :: ts ++ s) (by simp [StopItem, hd, e2])
  exact .comprehension (this.2 _ (closes_closing ty)) this.1 hxn (by simp [hd, e2]) e3

theorem parses_clause_more {ty : ListType} {it : Item} {x vals : Node} {vs : List Node}
    (hc : PC ty it x) (hv : ∀ v ∈ vs, ∃ i, v = .ident i ∧ IdentText i) (hx : PF vals) :
    PC ty it (.binop .kFor x (.binop .kIn (.list .tuple vs) vals)) := by
  intro i p nl s s' f hs h
  obtain ⟨t, ts, e1, e2, e3⟩ := parses_for (i := i) hv hx p nl hs h
  rw [e1, List.append_assoc]
  exact hc i p nl (t :: ts ++ s) s' f (Or.inl (by simp [hd, e2])) (.nextClause (by simp [hd, e2]) e3)

theorem parses_parts {k : Kind} {n : Node} (h : Printable k n) : Meaning k n := by
  have simple : ∀ {n}, PS n → Meaning .expr n := fun h => ⟨h.pf, fun _ => h⟩
  induction h with
  | @str text triple raw h =>
    apply simple
    apply ps_of_atom
    intro i p nl s _
    exact .string rfl (strFromLiteral_print h)
  | @int d rep v h1 h2 =>
    apply simple
    apply ps_of_atom
    intro i p nl s _
    have hne : rep ≠ [] := by cases h1 <;> simp
    simp only [toks, parts, hne, if_false, tokensAt]
    exact .number rfl h2
  | ident h =>
    apply simple
    apply ps_of_atom
    intro i p nl s hs
    exact .name rfl hs
  | @unary op e hop he hin ih =>
    refine ⟨?_, fun hs => by cases hs⟩
    intro i p nl opt s hs
    have hse : Stop e s := hs.of_not_open .unary
    have e1 : ∃ t p' nl', toks p nl i (.unary op e) = t :: toks p' nl' i e ∧ t.type = op := by
      by_cases ho : op = .op '!'
      · exact ⟨_, _, _, by simp [toks, parts, ho, tokensAt]; exact ⟨rfl, rfl⟩, ho.symm⟩
      · exact ⟨_, _, _, by simp [toks, parts, ho, tokensAt]; exact ⟨rfl, rfl⟩, rfl⟩
    obtain ⟨t, p', nl', e1, e2⟩ := e1
    rw [e1, List.cons_append]
    subst e2
    exact .unary hop (ih.1 i p' nl' opt s hse) (.stop hs.facts.1)
  | @binop op l r hop hl hs _ hr ihl ihr =>
    refine ⟨?_, fun hs => by cases hs; exact absurd rfl (binary_ne hop).1⟩
    intro i p nl opt s hst
    obtain ⟨t, p', nl', e1, e2⟩ := toks_op i p nl l r (binary_ne hop).1
    rw [e1, List.append_assoc]
    subst e2
    refine ihl.2 hs i p nl opt _ s _ ?_ (.binary hop (ihr.1 i p' nl' false s
      (hst.of_not_open (.right (binary_ne hop).1))))
    simp only [List.cons_append, hd]
    intro e
    rw [e] at hop
    simp [Grammar.binary] at hop
  | @index l x hl hs hx ihl ihx =>
    apply simple
    intro i p nl opt s s' r hst hc
    obtain ⟨t, p', nl', u, e1, e2, e3, e4⟩ := toks_index i p nl l x
    rw [e1, List.append_assoc]
    refine ihl.2 hs i p nl opt _ s' r (by simp [hd, e2]) ?_
    have := ihx i p' nl' u s e4
    rw [List.cons_append, List.append_assoc]
    exact .indexed e2 (by rw [e3, simple_nl hl hs]) this hc
  | @ternary c q n hc hq hs ho hn ihc ihq ihn =>
    refine ⟨?_, fun hs => by cases hs⟩
    intro i p nl opt s hst
    obtain ⟨t, p1, nl1, u, p2, nl2, e1, e2, e3⟩ := toks_ifElse i p nl c q n hn.ne_null
    rw [e1]
    have h1 := ihn.1 i p2 nl2 false s (hst.of_not_open .negative)
    have h2 := ihc.1 i p1 nl1 false (u :: toks p2 nl2 i n ++ s) (Or.inr ⟨by simp [hd, e3], ho⟩)
    have h3 := ihq.2 hs i p nl opt _ s _ (by simp [hd, e2]) (.ifElse (n := q) e2 h2 e3 h1)
    simpa using h3
  | @onlyIf c q hc hq hs ihc ihq =>
    refine ⟨?_, fun hs => by cases hs⟩
    intro i p nl opt s hst
    obtain ⟨t, p1, nl1, e1, e2⟩ := toks_if i p nl c q
    rw [e1]
    have hne : hd s ≠ .kElse := hst.facts.2.2 .here
    have hst' : Stop c s := by
      rcases hst with h | ⟨h, _⟩
      · exact Or.inl h
      · exact absurd h hne
    have h3 := ihq.2 hs i p nl opt _ s _ (by simp [hd, e2])
      (.ifOnly (n := q) e2 (ihc.1 i p1 nl1 false s hst') hne)
    simpa using h3
  | @list xs h ih =>
    apply simple
    apply ps_of_atom
    intro i p nl s _
    obtain ⟨t, p', nl', e1, e2, _⟩ := toks_list i p nl .list xs
    rw [e1, List.cons_append]
    exact .list e2 (parses_bracket (by simp)
      (fun x hx => ⟨(h x hx).ne_null, (ih x hx).1.value⟩) p' nl' s)
  | @tuple xs h ih =>
    apply simple
    intro i p nl opt s s' r _ hc
    obtain ⟨t, p', nl', e1, e2, _⟩ := toks_list i p nl .tuple xs
    rw [e1, List.cons_append]
    exact .parenthesis e2 (parses_paren (fun x hx => ⟨(h x hx).ne_null, (ih x hx).1⟩) p' nl' s) hc
  | @map xs h ih =>
    apply simple
    apply ps_of_atom
    intro i p nl s _
    obtain ⟨t, p', nl', e1, e2, _⟩ := toks_list i p nl .map xs
    rw [e1, List.cons_append]
    exact .map e2 (parses_bracket (by simp) (fun x hx => ⟨(h x hx).ne_null, ih x hx⟩) p' nl' s)
  | @call f xs hf h ih =>
    apply simple
    apply ps_of_atom
    intro i p nl s _
    obtain ⟨t, p', nl', e1, e2, _⟩ := toks_list i (p + f.length) false .tuple xs
    have e0 : toks p nl i (.call (.ident f) (.list .tuple xs))
        = ⟨.identifier, p, f, nl || decide ('\n' ∈ f)⟩ :: toks (p + f.length) false i (.list .tuple xs) := by
      simp only [toks]
      rw [parts]
      rfl
    rw [e0, e1]
    exact .call rfl e2 (parses_items' (ty := .tuple) (fun x hx => ⟨(h x hx).ne_null, ih x hx⟩) p' nl' s)
  | @listCompr f hf ih =>
    apply simple
    apply ps_of_atom
    intro i p nl s _
    simp only [toks, parts, tokensAt, tokensAt_append, List.cons_append, List.append_assoc]
    refine .list rfl (ih i _ _ _ s f (Or.inr rfl) (.lastClause rfl (by simp [closing])))
  | @mapCompr f hf ih =>
    apply simple
    apply ps_of_atom
    intro i p nl s _
    simp only [toks, parts, tokensAt, tokensAt_append, List.cons_append, List.append_assoc]
    refine .map rfl (ih i _ _ _ s f (Or.inr rfl) (.lastClause rfl (by simp [closing])))
  | @entry k v hk hv ihk ihv =>
    intro i p nl s hs
    obtain ⟨t, p', nl', e1, e2⟩ := toks_op i p nl (op := .op ':') k v (by simp)
    rw [e1, List.append_assoc]
    have h1 := ihk.1 i p nl false (t :: toks p' nl' i v ++ s) (Or.inl (by simp [hd, e2]))
    exact ⟨.itemEntry h1 e2 (ihv.1 i p' nl' false s hs.stop),
      fun _ hc => starts_ne (starts_of h1 (Or.inr rfl)) hc⟩
  | @value e he ih =>
    intro i p nl s hs
    have h1 := ih.1 i p nl false s hs.stop
    refine ⟨.itemArgument h1 he.ne_null ?_, fun _ hc => starts_ne (starts_of h1 (Or.inr rfl)) hc⟩
    rintro ⟨_, h⟩
    simp [StopItem, h] at hs
  | @keyword w v hw hv ih =>
    intro i p nl s hs
    have e1 : ∃ u t p' nl', toks p nl i (.assign (.ident w) v) = u :: t :: toks p' nl' i v ∧
        u.type = .identifier ∧ u.text = w ∧ t.type = .op '=' :=
      ⟨_, _, _, _, by simp [toks, parts, tokensAt]; exact ⟨rfl, rfl, rfl⟩, rfl, rfl, rfl⟩
    obtain ⟨u, t, p', nl', e1, e2, e3, e4⟩ := e1
    rw [e1]
    subst e3
    refine ⟨?_, ?_⟩
    · refine .itemKeyword (.operand (.name e2 (by simp [hd, e4])) (.stop ?_)) e4
        (ih.1 i p' nl' false s hs.stop)
      exact not_continues (by simp [hd, e4]) (by simp [hd, e4, Grammar.binary]) (by simp [hd, e4])
    · intro c hc
      refine starts_ne ?_ hc
      simp [hd, e2, startsExpr]
  | @at_ e he ih =>
    intro i p nl t s ht
    exact .at_ (ih.1 i p nl true (t :: s) (Or.inl (by simp [hd, ht]))) he.ne_null ht
  | @slice a b ha hb iha ihb =>
    intro i p nl t s ht
    obtain ⟨u, p', nl', e1, e2⟩ := toks_op i p nl (op := .op ':') a b (by simp)
    rw [e1, List.append_assoc]
    have h1 := iha.1 i p nl true (u :: toks p' nl' i b ++ t :: s) (Or.inl (by simp [hd, e2]))
    exact .slice h1 e2 (ihb.1 i p' nl' true (t :: s) (Or.inl (by simp [hd, ht]))) ht
      (fun h => ha.ne_null h.1)
  | @sliceFrom a ha iha =>
    intro i p nl t s ht
    obtain ⟨u, p', nl', e1, e2⟩ := toks_op i p nl (op := .op ':') a .null (by simp)
    rw [e1, List.append_assoc]
    have h1 := iha.1 i p nl true (u :: toks p' nl' i .null ++ t :: s) (Or.inl (by simp [hd, e2]))
    have e0 : toks p' nl' i .null = [] := rfl
    rw [e0] at h1 ⊢
    refine .slice h1 e2 (.missing ?_) ht (fun h => ha.ne_null h.1)
    simp [hd, ht, startsExpr]
  | @sliceTo b hb ihb =>
    intro i p nl t s ht
    obtain ⟨u, p', nl', e1, e2⟩ := toks_op i p nl (op := .op ':') .null b (by simp)
    rw [e1]
    have e0 : toks p nl i .null = [] := rfl
    rw [e0, List.nil_append, List.cons_append]
    refine .slice (.missing ?_) e2 (ihb.1 i p' nl' true (t :: s) (Or.inl (by simp [hd, ht]))) ht
      (fun h => hb.ne_null h.2)
    simp [hd, e2, startsExpr]
  | @one k x vs vals hx hvs hvals ihx ihv =>
    cases k with
    | expr => exact parses_clause_one hx.ne_null ihx.1.value hvs ihv.1
    | entry => exact parses_clause_one hx.ne_null ihx hvs ihv.1
    | _ => trivial
  | @more k x vs vals hx hvs hvals ihx ihv =>
    cases k with
    | expr => exact parses_clause_more ihx hvs ihv.1
    | entry => exact parses_clause_more ihx hvs ihv.1
    | _ => trivial

end Print
end Bant
