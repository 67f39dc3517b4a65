import Verif.Spec.Words
import Verif.Lemmas.ParserFile
import Verif.Props.Scanner

/-! The parser with places is the parser, and its texts are in the file. -/
namespace Bant
namespace Located
open Parser (P PState initState peek next errAt hasError fail Elem isBinOp endTokenFor)

theorem allOf_iff {p i : View → Prop} {q : TokenType → Nat × Nat → Prop} {xs : List Tree} :
    AllOf p q i xs ↔ ∀ x ∈ xs, x.All p q i := by
  induction xs with
  | nil => simp [AllOf]
  | cons x xs ih => simp [AllOf, ih]

@[simp] theorem allOf_append {p i : View → Prop} {q : TokenType → Nat × Nat → Prop} {xs ys : List Tree} :
    AllOf p q i (xs ++ ys) ↔ AllOf p q i xs ∧ AllOf p q i ys := by
  simp only [allOf_iff, List.mem_append]
  exact ⟨fun h => ⟨fun x hx => h x (.inl hx), fun x hx => h x (.inr hx)⟩, fun h x hx => hx.elim (h.1 x) (h.2 x)⟩

theorem plains_eq (xs : List Tree) : plains xs = xs.map Tree.plain := by
  induction xs with
  | nil => rfl
  | cons x xs ih => simp [plains, ih]

@[simp] theorem plains_append (xs ys : List Tree) : plains (xs ++ ys) = plains xs ++ plains ys := by
  simp [plains_eq]

@[simp] theorem plain_isNull (n : Tree) : n.plain.isNull = n.isNull := by
  cases n <;> simp [Tree.plain, Tree.isNull, Node.isNull]

theorem plain_ident (n : Tree) : n.plain.asIdent ≠ none ↔ n.isIdent = true := by
  cases n <;> simp [Tree.plain, Tree.isIdent, Node.asIdent]

/-! ### Actions that do the same -/

section
variable (content : Str)

/-- The token is in the file, where its start says. -/
def Piece (t : Token) : Prop :=
  t.start + t.text.length ≤ content.length ∧ t.text = (content.drop t.start).take t.text.length ∧
    (t.type = .op '+' → t.text = c!"+")

/-- All tokens are in the file. -/
def Pieces (s : PState) : Prop := (∀ t ∈ s.toks, Piece content t) ∧ Piece content s.eof

/-- The two actions do the same, with related results. -/
def Rel {α β : Type} (r : α → β → Prop) (m : P α) (m' : P β) : Prop :=
  ∀ s, Pieces content s →
    (m s = none ∧ m' s = none) ∨
      ∃ a b t, m s = some (a, t) ∧ m' s = some (b, t) ∧ Pieces content t ∧ r a b

variable {content}

theorem Rel.bind {α β γ δ : Type} {r : α → β → Prop} {q : γ → δ → Prop} {m : P α} {m' : P β} {f : α → P γ}
    {f' : β → P δ} (h : Rel content r m m') (hf : ∀ a b, r a b → Rel content q (f a) (f' b)) :
    Rel content q (m >>= f) (m' >>= f') := by
  intro s hs
  simp only [Bind.bind]
  rcases h s hs with ⟨h1, h2⟩ | ⟨a, b, t, h1, h2, h3, h4⟩
  · left; simp [h1, h2]
  · rw [h1, h2]
    exact hf a b h4 t h3

theorem Rel.pure {α β : Type} {r : α → β → Prop} {a : α} {b : β} (h : r a b) :
    Rel content r (pure a) (pure b) := fun s hs => .inr ⟨a, b, s, rfl, rfl, hs, h⟩

theorem Rel.fail {α β : Type} {r : α → β → Prop} : Rel content r (fail : P α) (fail : P β) :=
  fun _ _ => .inl ⟨rfl, rfl⟩

theorem Rel.ite {α β : Type} {r : α → β → Prop} {c : Prop} [Decidable c] {m n : P α} {m' n' : P β}
    (h : c → Rel content r m m') (h' : ¬ c → Rel content r n n') :
    Rel content r (if c then m else n) (if c then m' else n') := by
  by_cases hc : c
  · simp only [if_pos hc]; exact h hc
  · simp only [if_neg hc]; exact h' hc

/-- Equal tokens in the file. -/
def SameToken (content : Str) (t u : Token) : Prop := t = u ∧ Piece content t

theorem cur_piece {s : PState} (h : Pieces content s) : Piece content s.cur := by
  unfold PState.cur
  cases ht : s.toks with
  | nil => exact h.2
  | cons t ts => exact h.1 t (by simp [ht])

theorem Rel.peek : Rel content (SameToken content) peek peek :=
  fun s hs => .inr ⟨s.cur, s.cur, _, rfl, rfl, hs, rfl, cur_piece hs⟩

theorem Rel.next : Rel content (SameToken content) next next :=
  fun s hs => .inr ⟨s.cur, s.cur, _, rfl, rfl, ⟨fun t ht => hs.1 t (List.mem_of_mem_tail ht), hs.2⟩, rfl, cur_piece hs⟩

theorem Rel.errAt {t : Token} {m : Parser.Complaint} :
    Rel content (fun _ _ => True) (errAt t m) (errAt t m) :=
  fun _ hs => .inr ⟨(), (), _, rfl, rfl, hs, trivial⟩

theorem Rel.hasError : Rel content (fun a b => b = a) hasError hasError :=
  fun s hs => .inr ⟨_, _, s, rfl, rfl, hs, rfl⟩

/-- The tree is the other one with places, all in the file. -/
def Same (content : Str) (n : Tree) (m : Node) : Prop :=
  m = n.plain ∧ n.All (InFile content) (RangeIn content) (InFile content)

/-- The call is the other one with places, all in the file. -/
def SameCall (content : Str) : Call → Parser.Call → Prop
  | .expression o, .expression o' => o' = o
  | .suffix n, .suffix n' => Same content n n'
  | .ifElse n, .ifElse n' => Same content n n'
  | .arrayAccess, .arrayAccess => True
  | .value o, .value o' => o' = o
  | .paren, .paren => True
  | .tupleRest xs, .tupleRest xs' => xs' = plains xs ∧ AllOf (InFile content) (RangeIn content) (InFile content) xs
  | .listOrCompr ty e, .listOrCompr ty' e' => ty' = ty ∧ e' = e
  | .list ty xs e t, .list ty' xs' e' t' =>
    ty' = ty ∧ e' = e ∧ t' = t ∧ xs' = plains xs ∧ AllOf (InFile content) (RangeIn content) (InFile content) xs
  | .elem e, .elem e' => e' = e
  | .funCall v, .funCall n => n = v.text ∧ InFile content v
  | .comprFor a b t, .comprFor a' b' t' => t' = t ∧ Same content a a' ∧ Same content b b'
  | .statements xs, .statements xs' => xs' = plains xs ∧ AllOf (InFile content) (RangeIn content) (InFile content) xs
  | _, _ => False

theorem viewOf_in {t : Token} (h : Piece content t) : InFile content (viewOf t) := ⟨t.start, rfl, h.1, h.2.1⟩

theorem span_in {t : Token} (h : Piece content t) : RangeIn content t.type (span t) := by
  intro hp
  refine ⟨Nat.le_add_right _ _, h.1, ?_⟩
  show (content.drop t.start).take (t.start + t.text.length - t.start) = _
  rw [Nat.add_sub_cancel_left, ← h.2.1, h.2.2 hp]

theorem no_sum {op : TokenType} {r : Nat × Nat} (h : op ≠ .op '+') : RangeIn content op r := fun hp => absurd hp h

/-- A piece of a piece is a piece. -/
theorem within {t : Token} (h : Piece content t) {k l : Nat} (hk : k + l ≤ t.text.length) :
    InFile content ⟨(t.text.drop k).take l, .file (t.start + k)⟩ := by
  have hl : ((t.text.drop k).take l).length = l := by simp; omega
  refine ⟨t.start + k, rfl, ?_, ?_⟩
  · have := h.1; simp only [hl]; omega
  · show (t.text.drop k).take l = _
    simp only [hl]
    rw [h.2.1, List.drop_take, List.take_take, List.drop_drop]
    congr 1
    omega

theorem intOf_same {t : Token} (h : Piece content t) :
    (intOf t = none ∧ intFromLiteral t.text = none) ∨
      ∃ n m, intOf t = some n ∧ intFromLiteral t.text = some m ∧ Same content n m := by
  unfold intOf intFromLiteral
  cases fromChars (literalBase t.text).1 (literalBase t.text).2 with
  | none => exact .inl ⟨rfl, rfl⟩
  | some v => exact .inr ⟨_, _, rfl, rfl, rfl, ⟨t.start, rfl, h.1, h.2.1⟩⟩

theorem strOf_same {t : Token} (h : Piece content t) :
    (strOf t = none ∧ strFromLiteral t.text = none) ∨
      ∃ n m, strOf t = some n ∧ strFromLiteral t.text = some m ∧ Same content n m := by
  have hraw : (stripRaw t.text).2 = t.text.drop (if (stripRaw t.text).1 then 1 else 0) := by
    unfold stripRaw
    cases t.text with
    | nil => rfl
    | cons c cs =>
      simp only
      split <;> simp
  unfold strOf
  by_cases h6 : 6 ≤ (stripRaw t.text).2.length ∧ (stripRaw t.text).2.take 3 = ['"', '"', '"']
  · have e : strFromLiteral t.text = some (.str (((stripRaw t.text).2.drop 3).take ((stripRaw t.text).2.length - 6))
        true (stripRaw t.text).1) := by
      unfold strFromLiteral; simp only [if_pos h6]
    rw [e]
    refine .inr ⟨_, _, rfl, rfl, rfl, ?_⟩
    simp only [Tree.All, if_true]
    have hl := h6.1
    rw [hraw, List.length_drop] at hl
    rw [hraw, List.drop_drop, List.length_drop, Nat.add_assoc]
    exact within h (by omega)
  · by_cases h2 : 2 ≤ (stripRaw t.text).2.length
    · have e : strFromLiteral t.text = some (.str (((stripRaw t.text).2.drop 1).take ((stripRaw t.text).2.length - 2))
          false (stripRaw t.text).1) := by
        unfold strFromLiteral; simp only [if_neg h6, if_pos h2]
      rw [e]
      refine .inr ⟨_, _, rfl, rfl, rfl, ?_⟩
      simp only [Tree.All]
      rw [hraw, List.length_drop] at h2
      rw [hraw, List.drop_drop, List.length_drop, Nat.add_assoc]
      exact within h (by omega)
    · have e : strFromLiteral t.text = none := by
        unfold strFromLiteral; simp only [if_neg h6, if_neg h2]
      rw [e]
      exact .inl ⟨rfl, rfl⟩

/-! ### The functions -/

variable {call : Call → P Tree} {call' : Parser.Call → P Node}
variable (hcall : ∀ c c', SameCall content c c' → Rel content (Same content) (call c) (call' c'))
include hcall

theorem expression_same (opt : Bool) :
    Rel content (Same content) (parseExpression call opt) (Parser.parseExpression call' opt) := by
  unfold parseExpression Parser.parseExpression
  refine .bind .peek ?_
  rintro t _ ⟨rfl, ht⟩
  refine .ite (fun _ => .bind .next ?_) (fun _ => .ite (fun _ => .bind (hcall _ _ trivial) ?_) (fun _ => .bind (hcall _ _ rfl) ?_))
  · rintro u _ ⟨rfl, hu⟩
    refine .bind (hcall _ _ rfl) ?_
    rintro e _ ⟨rfl, he⟩
    exact hcall _ _ ⟨rfl, he⟩
  · rintro n _ ⟨rfl, hn⟩
    rw [plain_isNull]
    exact .ite (fun _ => .pure ⟨rfl, trivial⟩) (fun _ => hcall _ _ ⟨rfl, hn⟩)
  · rintro n _ ⟨rfl, hn⟩
    rw [plain_isNull]
    exact .ite (fun _ => .pure ⟨rfl, trivial⟩) (fun _ => hcall _ _ ⟨rfl, hn⟩)

theorem suffix_same {n : Tree} {m : Node} (h : Same content n m) :
    Rel content (Same content) (parseSuffix call n) (Parser.parseSuffix call' m) := by
  obtain ⟨rfl, h⟩ := h
  unfold parseSuffix Parser.parseSuffix
  refine .bind .peek ?_
  rintro t _ ⟨rfl, ht⟩
  refine .ite (fun _ => hcall _ _ ⟨rfl, h⟩) (fun _ => .ite (fun _ => .bind .next ?_) (fun _ => .ite (fun _ => .ite
    (fun _ => .pure ⟨rfl, h⟩) (fun _ => .bind .next ?_)) (fun _ => .pure ⟨rfl, h⟩)))
  · rintro u _ ⟨rfl, hu⟩
    refine .bind (hcall _ _ rfl) ?_
    rintro e _ ⟨rfl, he⟩
    exact .pure ⟨rfl, span_in hu, h, he⟩
  · rintro u _ ⟨rfl, hu⟩
    refine .bind (hcall _ _ trivial) ?_
    rintro e _ ⟨rfl, he⟩
    exact hcall _ _ ⟨rfl, span_in hu, h, he⟩

theorem ifElse_same {n : Tree} {m : Node} (h : Same content n m) :
    Rel content (Same content) (parseIfElse call n) (Parser.parseIfElse call' m) := by
  obtain ⟨rfl, h⟩ := h
  unfold parseIfElse Parser.parseIfElse
  refine .bind .next ?_
  rintro t _ ⟨rfl, ht⟩
  refine .ite (fun _ => .fail) (fun _ => .bind (hcall _ _ rfl) ?_)
  rintro c _ ⟨rfl, hc⟩
  refine .bind .peek ?_
  rintro u _ ⟨rfl, hu⟩
  refine .ite (fun _ => .bind .next ?_) (fun _ => .pure ⟨rfl, hc, h, trivial⟩)
  rintro u _ ⟨rfl, hu⟩
  refine .bind (hcall _ _ rfl) ?_
  rintro e _ ⟨rfl, he⟩
  exact .pure ⟨rfl, hc, h, he⟩

theorem arrayAccess_same :
    Rel content (Same content) (parseArrayAccess call) (Parser.parseArrayAccess call') := by
  unfold parseArrayAccess Parser.parseArrayAccess
  refine .bind (hcall _ _ rfl) ?_
  rintro n _ ⟨rfl, hn⟩
  refine .bind .next ?_
  rintro sep _ ⟨rfl, hsep⟩
  simp only [plain_isNull]
  refine .ite (fun _ => .ite (fun _ => .bind .errAt fun _ _ _ => .pure ⟨rfl, hn⟩) (fun _ => .pure ⟨rfl, hn⟩))
    (fun _ => .ite (fun _ => .bind (hcall _ _ rfl) ?_) (fun _ => .bind .errAt fun _ _ _ => .pure ⟨rfl, trivial⟩))
  rintro r _ ⟨rfl, hr⟩
  refine .bind .next ?_
  rintro e _ ⟨rfl, he⟩
  simp only [plain_isNull]
  exact .ite (fun _ => .bind .errAt fun _ _ _ => .pure ⟨rfl, trivial⟩) (fun _ => .ite
    (fun _ => .bind .errAt fun _ _ _ => .pure ⟨rfl, trivial⟩) (fun _ => .pure ⟨rfl, no_sum (by simp), hn, hr⟩))

theorem value_same (opt : Bool) :
    Rel content (Same content) (parseValue call opt) (Parser.parseValue call' opt) := by
  unfold parseValue Parser.parseValue
  refine .bind .peek ?_
  rintro t _ ⟨rfl, ht⟩
  refine .ite (fun _ => .bind .next ?_) (fun _ => .ite (fun _ => .bind .next ?_) (fun _ => .ite (fun _ => .bind .next ?_)
    (fun _ => .ite (fun _ => .bind .next ?_) (fun _ => .ite (fun _ => .bind .next ?_) (fun _ => .ite
      (fun _ => .pure ⟨rfl, trivial⟩) (fun _ => .bind .errAt fun _ _ _ => .pure ⟨rfl, trivial⟩))))))
  · rintro u _ ⟨rfl, hu⟩
    rcases strOf_same hu with ⟨h1, h2⟩ | ⟨n, m, h1, h2, h3⟩
    · rw [h1, h2]; exact .fail
    · rw [h1, h2]; exact .pure h3
  · rintro u _ ⟨rfl, hu⟩
    rcases intOf_same hu with ⟨h1, h2⟩ | ⟨n, m, h1, h2, h3⟩
    · rw [h1, h2]; exact .bind .errAt fun _ _ _ => .pure ⟨rfl, trivial⟩
    · rw [h1, h2]; exact .pure h3
  · rintro u _ ⟨rfl, hu⟩
    refine .bind .peek ?_
    rintro p _ ⟨rfl, hp⟩
    refine .ite (fun _ => .bind .next ?_) (fun _ => .pure ⟨rfl, viewOf_in ht⟩)
    rintro _ _ _
    exact hcall _ _ ⟨rfl, viewOf_in ht⟩
  · rintro _ _ _
    exact hcall _ _ ⟨rfl, rfl⟩
  · rintro _ _ _
    exact hcall _ _ ⟨rfl, rfl⟩

theorem paren_same : Rel content (Same content) (parseParen call) (Parser.parseParen call') := by
  unfold parseParen Parser.parseParen
  refine .bind .next ?_
  rintro t _ ⟨rfl, ht⟩
  refine .ite (fun _ => .fail) (fun _ => .bind (hcall _ _ rfl) ?_)
  rintro n _ ⟨rfl, hn⟩
  refine .bind .peek ?_
  rintro p _ ⟨rfl, hp⟩
  simp only [plain_isNull]
  refine .ite (fun _ => .bind .next fun _ _ _ => .pure ⟨rfl, hn⟩) (fun _ => .ite (fun _ => .bind .next ?_)
    (fun _ => hcall _ _ ⟨rfl, hn, trivial⟩))
  rintro p _ ⟨rfl, hp⟩
  exact .ite (fun _ => .bind .errAt fun _ _ _ => .pure ⟨rfl, trivial⟩) (fun _ => .pure ⟨rfl, trivial⟩)

theorem tupleRest_same {xs : List Tree} (h : AllOf (InFile content) (RangeIn content) (InFile content) xs) :
    Rel content (Same content) (parseTupleRest call xs) (Parser.parseTupleRest call' (plains xs)) := by
  unfold parseTupleRest Parser.parseTupleRest
  refine .bind .next ?_
  rintro t _ ⟨rfl, ht⟩
  refine .ite (fun _ => .pure ⟨rfl, h⟩) (fun _ => .ite (fun _ => .bind .errAt fun _ _ _ => .pure ⟨rfl, h⟩)
    (fun _ => .bind .peek ?_))
  rintro t _ ⟨rfl, ht⟩
  refine .ite (fun _ => .bind .next fun _ _ _ => .pure ⟨rfl, h⟩) (fun _ => .bind (hcall _ _ rfl) ?_)
  rintro e _ ⟨rfl, he⟩
  exact hcall _ _ ⟨by simp [plains], by simp [AllOf, h, he]⟩

theorem listOrCompr_same (ty : ListType) (e : Elem) :
    Rel content (Same content) (parseListOrCompr call ty e) (Parser.parseListOrCompr call' ty e) := by
  unfold parseListOrCompr Parser.parseListOrCompr
  refine .bind .peek ?_
  rintro t _ ⟨rfl, ht⟩
  refine .ite (fun _ => .bind .next fun _ _ _ => .pure ⟨rfl, trivial⟩) (fun _ => .bind (hcall _ _ rfl) ?_)
  rintro n _ ⟨rfl, hn⟩
  rw [plain_isNull]
  refine .ite (fun _ => .pure ⟨rfl, trivial⟩) (fun _ => .bind .peek ?_)
  rintro t _ ⟨rfl, ht⟩
  have hl : Rel content (Same content) (call (.list ty [n] e (endTokenFor ty)))
      (call' (.list ty [n.plain] e (endTokenFor ty))) := hcall _ _ ⟨rfl, rfl, rfl, rfl, hn, trivial⟩
  refine .ite (fun _ => .bind (hcall _ _ ⟨rfl, ⟨rfl, trivial⟩, ⟨rfl, hn⟩⟩) ?_) (fun _ => .ite (fun _ => .bind .next fun _ _ _ => hl)
    (fun _ => .ite (fun _ => .bind .peek ?_) (fun _ => hl)))
  · rintro f _ ⟨rfl, hf⟩
    exact .pure ⟨rfl, hf⟩
  · rintro t _ ⟨rfl, ht⟩
    exact .bind .errAt fun _ _ _ => hl

theorem list_same (ty : ListType) {xs : List Tree} (e : Elem) (endTok : TokenType)
    (h : AllOf (InFile content) (RangeIn content) (InFile content) xs) :
    Rel content (Same content) (parseList call ty xs e endTok) (Parser.parseList call' ty (plains xs) e endTok) := by
  unfold parseList Parser.parseList
  refine .bind .peek ?_
  rintro t _ ⟨rfl, ht⟩
  refine .ite (fun _ => .bind .next fun _ _ _ => .pure ⟨rfl, h⟩) (fun _ => .bind (hcall _ _ rfl) ?_)
  rintro n _ ⟨rfl, hn⟩
  refine .bind .peek ?_
  rintro t _ ⟨rfl, ht⟩
  have hp : plains xs ++ [n.plain] = plains (xs ++ [n]) := by simp [plains]
  have ha : AllOf (InFile content) (RangeIn content) (InFile content) (xs ++ [n]) := by simp [AllOf, h, hn]
  rw [hp]
  refine .ite (fun _ => .bind .next fun _ _ _ => hcall _ _ ⟨rfl, rfl, rfl, rfl, ha⟩) (fun _ => .ite (fun _ => .bind .next ?_)
    (fun _ => .bind .next fun _ _ _ => .pure ⟨rfl, ha⟩))
  rintro t _ ⟨rfl, ht⟩
  exact .bind .errAt fun _ _ _ => .pure ⟨rfl, ha⟩

theorem elem_same (e : Elem) : Rel content (Same content) (parseElem call e) (Parser.parseElem call' e) := by
  cases e with
  | expression => exact hcall _ _ rfl
  | expressionOrAssignment =>
    show Rel content _ (expressionOrAssignment call) (Parser.expressionOrAssignment call')
    unfold expressionOrAssignment Parser.expressionOrAssignment
    refine .bind (hcall _ _ rfl) ?_
    rintro n _ ⟨rfl, hn⟩
    rw [plain_isNull]
    refine .ite (fun _ => .pure ⟨rfl, trivial⟩) (fun _ => .bind .peek ?_)
    rintro t _ ⟨rfl, ht⟩
    simp only [plain_ident]
    refine .ite (fun _ => .bind .next fun _ _ _ => .bind (hcall _ _ rfl) ?_) (fun _ => .pure ⟨rfl, hn⟩)
    rintro r _ ⟨rfl, hr⟩
    exact .pure ⟨rfl, hn, hr⟩
  | mapTuple =>
    show Rel content _ (parseMapTuple call) (Parser.parseMapTuple call')
    unfold parseMapTuple Parser.parseMapTuple
    refine .bind (hcall _ _ rfl) ?_
    rintro n _ ⟨rfl, hn⟩
    refine .bind .next ?_
    rintro t _ ⟨rfl, ht⟩
    refine .ite (fun _ => .bind .errAt fun _ _ _ => .pure ⟨rfl, trivial⟩) (fun _ => .bind (hcall _ _ rfl) ?_)
    rintro r _ ⟨rfl, hr⟩
    exact .pure ⟨rfl, no_sum (by simp), hn, hr⟩
  | optionalIdentifier =>
    show Rel content _ parseOptionalIdentifier Parser.parseOptionalIdentifier
    unfold parseOptionalIdentifier Parser.parseOptionalIdentifier
    refine .bind .peek ?_
    rintro t _ ⟨rfl, ht⟩
    refine .ite (fun _ => .bind .next ?_) (fun _ => .pure ⟨rfl, trivial⟩)
    rintro t _ ⟨rfl, ht⟩
    exact .pure ⟨rfl, viewOf_in ht⟩

theorem funCall_same {v : View} (h : InFile content v) :
    Rel content (Same content) (parseFunCall call v) (Parser.parseFunCall call' v.text) := by
  unfold parseFunCall Parser.parseFunCall
  refine .bind (hcall _ _ ⟨rfl, rfl, rfl, rfl, trivial⟩) ?_
  rintro n _ ⟨rfl, hn⟩
  exact .pure ⟨rfl, h, hn⟩

theorem comprFor_same {a b : Tree} {a' b' : Node} (endTok : TokenType) (ha : Same content a a') (hb : Same content b b') :
    Rel content (Same content) (parseComprFor call a b endTok) (Parser.parseComprFor call' a' b' endTok) := by
  obtain ⟨rfl, hb⟩ := hb
  unfold parseComprFor Parser.parseComprFor
  refine .bind .peek ?_
  rintro t _ ⟨rfl, ht⟩
  refine .ite (fun _ => .bind .next ?_) (fun _ => .bind .next ?_)
  · rintro start _ ⟨rfl, hstart⟩
    refine .bind .peek ?_
    rintro p _ ⟨rfl, hp⟩
    refine .ite (fun _ => .bind .next fun _ _ _ => .bind (hcall _ _ ⟨rfl, rfl, rfl, rfl, trivial⟩) ?_)
      (fun _ => .bind (hcall _ _ ⟨rfl, rfl, rfl, rfl, trivial⟩) ?_)
    · rintro vars _ ⟨rfl, hv⟩
      refine .bind .next ?_
      rintro i _ ⟨rfl, hi⟩
      suffices H : Rel content (Same content) (do
            let values ← call (.expression false)
            let after ← peek
            let f := Tree.binop .kFor (span start) b
              (.binop .kIn (start.start + start.text.length, after.start) vars values)
            call (.comprFor f f endTok)) (do
            let values ← call' (.expression false)
            let _ ← peek
            let f := Node.binop .kFor b.plain (.binop .kIn vars.plain values)
            call' (.comprFor f f endTok)) from .ite (fun _ => .bind .errAt fun _ _ _ => H) (fun _ => H)
      refine .bind (hcall _ _ rfl) ?_
      rintro values _ ⟨rfl, hvs⟩
      refine .bind .peek ?_
      rintro after _ ⟨rfl, haf⟩
      have : Same content (.binop .kFor (span start) b
          (.binop .kIn (start.start + start.text.length, after.start) vars values))
          (.binop .kFor b.plain (.binop .kIn vars.plain values.plain)) :=
        ⟨rfl, no_sum (by simp), hb, no_sum (by simp), hv, hvs⟩
      exact hcall _ _ ⟨rfl, this, this⟩
    · rintro vars _ ⟨rfl, hv⟩
      refine .bind (hcall _ _ rfl) ?_
      rintro values _ ⟨rfl, hvs⟩
      refine .bind .peek ?_
      rintro after _ ⟨rfl, haf⟩
      have : Same content (.binop .kFor (span start) b
          (.binop .kIn (start.start + start.text.length, after.start) vars values))
          (.binop .kFor b.plain (.binop .kIn vars.plain values.plain)) :=
        ⟨rfl, no_sum (by simp), hb, no_sum (by simp), hv, hvs⟩
      exact hcall _ _ ⟨rfl, this, this⟩
  · rintro e _ ⟨rfl, he⟩
    exact .ite (fun _ => .bind .errAt fun _ _ _ => .pure ⟨rfl, trivial⟩) (fun _ => .pure ha)

theorem statements_same {xs : List Tree} (h : AllOf (InFile content) (RangeIn content) (InFile content) xs) :
    Rel content (Same content) (parseStatements call xs) (Parser.parseStatements call' (plains xs)) := by
  have more : ∀ n : Tree, n.All (InFile content) (RangeIn content) (InFile content) →
      Rel content (Same content) (call (.statements (xs ++ [n]))) (call' (.statements (plains xs ++ [n.plain]))) :=
    fun n hn => hcall _ _ ⟨by simp [plains], by simp [AllOf, h, hn]⟩
  have here : Rel content (Same content) (pure (.list .list xs)) (pure (.list .list (plains xs))) := .pure ⟨rfl, h⟩
  unfold parseStatements Parser.parseStatements
  refine .bind .hasError ?_
  rintro err _ rfl
  refine .ite (fun _ => here) (fun _ => .bind .next ?_)
  rintro t _ ⟨rfl, ht⟩
  refine .ite (fun _ => here) (fun _ => .ite (fun _ => hcall _ _ ⟨rfl, h⟩) (fun _ => .ite (fun _ => .bind (hcall _ _ ⟨rfl, rfl⟩) ?_)
    (fun _ => .ite (fun _ => .bind (hcall _ _ ⟨rfl, rfl, rfl, rfl, trivial⟩) ?_) (fun _ => .ite
      (fun _ => .bind .errAt fun _ _ _ => here) (fun _ => .bind .next ?_)))))
  · rintro n _ ⟨rfl, hn⟩
    exact more n hn
  · rintro l _ ⟨rfl, hl⟩
    refine .bind .next ?_
    rintro u _ ⟨rfl, hu⟩
    refine .ite (fun _ => .bind .errAt fun _ _ _ => here) (fun _ => .bind (hcall _ _ rfl) ?_)
    rintro r _ ⟨rfl, hr⟩
    exact more (.assign l r) ⟨hl, hr⟩
  · rintro u _ ⟨rfl, hu⟩
    refine .ite (fun _ => .bind (hcall _ _ rfl) ?_) (fun _ => .ite (fun _ => .bind (hcall _ _ ⟨rfl, viewOf_in ht⟩) ?_)
      (fun _ => .ite (fun _ => .bind (hcall _ _ rfl) ?_) (fun _ => .bind .errAt fun _ _ _ => here)))
    · rintro r _ ⟨rfl, hr⟩
      exact more (.assign (.ident (viewOf t)) r) ⟨viewOf_in ht, hr⟩
    · rintro r _ ⟨rfl, hr⟩
      exact more r hr
    · rintro r _ ⟨rfl, hr⟩
      exact more (.binop (.op '.') (span u) (.ident (viewOf t)) r) ⟨no_sum (by decide), viewOf_in ht, hr⟩

theorem body_same {c : Call} {c' : Parser.Call} (h : SameCall content c c') :
    Rel content (Same content) (body call c) (Parser.body call' c') := by
  cases c <;> cases c' <;> first | exact h.elim | skip
  case expression.expression => cases h; exact expression_same hcall _
  case suffix.suffix => exact suffix_same hcall h
  case ifElse.ifElse => exact ifElse_same hcall h
  case arrayAccess.arrayAccess => exact arrayAccess_same hcall
  case value.value => cases h; exact value_same hcall _
  case paren.paren => exact paren_same hcall
  case tupleRest.tupleRest => obtain ⟨rfl, h⟩ := h; exact tupleRest_same hcall h
  case listOrCompr.listOrCompr => obtain ⟨rfl, rfl⟩ := h; exact listOrCompr_same hcall _ _
  case list.list => obtain ⟨rfl, rfl, rfl, rfl, h⟩ := h; exact list_same hcall _ _ _ h
  case elem.elem => cases h; exact elem_same hcall _
  case funCall.funCall => obtain ⟨rfl, h⟩ := h; exact funCall_same hcall h
  case comprFor.comprFor => obtain ⟨rfl, ha, hb⟩ := h; exact comprFor_same hcall _ ha hb
  case statements.statements => obtain ⟨rfl, h⟩ := h; exact statements_same hcall h
omit hcall

theorem run_same (fuel : Nat) : ∀ c c', SameCall content c c' →
    Rel content (Same content) (run fuel c) (Parser.run fuel c') := by
  induction fuel with
  | zero => exact fun _ _ _ => .fail
  | succ n ih => exact fun c c' h => body_same ih h

end

open Scanner (deliver next_ok) in
theorem deliver_inside (L : Nat) (n : Nat) : ∀ s : Scanner, s.upcoming = none → s.pos + s.rest.length = L →
    ∀ t ∈ (deliver n s).1, t.start + t.text.length ≤ L := by
  induction n with
  | zero => simp [deliver]
  | succ n ih =>
    intro s hup hL t ht
    obtain ⟨⟨g, hg⟩, hup'⟩ := next_ok hup
    have hlen := congrArg List.length hg.text
    simp only [List.length_append] at hlen
    have h1 := hg.start
    have h2 := hg.hpos
    simp only [deliver, List.mem_cons] at ht
    rcases ht with rfl | ht
    · omega
    · exact ih (Scanner.next s).2 hup' (by omega) t ht

theorem initState_pieces (content : Str) : Pieces content (initState content) := by
  obtain ⟨ts, ⟨e, h1, h2, h3⟩, _⟩ := Parser.tokensOf_exists content
  refine ⟨?_, ?_, ?_⟩
  · rw [Parser.initState_toks ⟨e, h1, h2, h3⟩]
    intro t ht
    have hmem : t ∈ (Scanner.deliver (ts.length + 1) (Scanner.init content)).1 := by rw [h1]; simp [ht]
    refine ⟨deliver_inside content.length _ _ rfl (by simp [Scanner.init]) t hmem, Props.C10_tokens_are_pieces content _ t hmem, ?_⟩
    intro hp
    have := Props.C52_token_class content _ t hmem
    rw [hp] at this
    generalize t.text = w at this
    generalize content.drop (t.start + w.length) = r at this
    cases this <;> first | rfl | simp_all | skip
    rename_i hk _
    simp [keywords] at hk
  · simp [initState]
  · simp [initState]

/-- The parser with places gives the tree of the parser, and all of its texts are in the file. -/
theorem parseFile_same {content : Str} {ast : Node} {st : PState} (h : Parser.parseFile content = some (ast, st)) :
    ∃ t, parseFile content = some (t, st) ∧ t.plain = ast ∧ t.All (InFile content) (RangeIn content) (InFile content) := by
  rcases run_same (content := content) (Parser.enoughFuel (initState content).toks.length) (.statements [])
    (.statements []) ⟨rfl, trivial⟩ (initState content) (initState_pieces content) with ⟨_, h2⟩ | ⟨a, b, t, h1, h2, _, h3, h4⟩
  · unfold Parser.parseFile at h; rw [h2] at h; cases h
  · unfold Parser.parseFile at h
    rw [h2] at h
    cases h
    exact ⟨a, h1, h3.symm, h4⟩

end Located
end Bant
