import Verif.Lemmas.ParserRest
import Verif.Lemmas.ParserLocal

/-! What the parser has consumed up to its first error can be completed. -/
namespace Bant
namespace Parser
open Grammar
set_option linter.unusedSimpArgs false

/-- Type and text of tokens that are a value. -/
def values : List (TokenType × Str) :=
  [(.numberLiteral, c!"0"), (.identifier, c!"x"), (.stringLiteral, c!"\"\"")]

/-- Type and text of the tokens used to complete a file. -/
def simple : List (TokenType × Str) := values ++
  [(.op ')', c!")"), (.op ']', c!"]"), (.op '}', c!"}"), (.op ':', c!":"),
   (.op '=', c!"="), (.kIn, c!"in"), (.op ',', c!","), (.op '(', c!"("), (.kFor, c!"for")]

def Spells (ws : List (TokenType × Str)) (us : List Token) : Prop := us.map (fun t => (t.type, t.text)) = ws

theorem spells_nil {us : List Token} (h : Spells [] us) : us = [] := by simpa [Spells] using h
theorem spells_cons {a : TokenType} {b : Str} {ws : List (TokenType × Str)} {us : List Token}
    (h : Spells ((a, b) :: ws) us) : ∃ u us', us = u :: us' ∧ u.type = a ∧ u.text = b ∧ Spells ws us' := by
  cases us with
  | nil => simp [Spells] at h
  | cons u us => simp [Spells] at h; exact ⟨u, us, rfl, h.1.1, h.1.2, h.2⟩
theorem spells_app {ws ws' : List (TokenType × Str)} {us : List Token} (h : Spells (ws ++ ws') us) :
    ∃ u u', us = u ++ u' ∧ Spells ws u ∧ Spells ws' u' := by
  obtain ⟨l1, l2, h1, h2, h3⟩ := List.map_eq_append_iff.1 h
  exact ⟨l1, l2, h1, h2, h3⟩

/-- What may follow a completed phrase. -/
def Ends (c : Call) (r : List Token) : Prop :=
  match c with
  | .expression _ | .suffix _ | .ifElse _ | .value _ | .elem _ => Stops (hd r)
  | .statements _ => r = []
  | _ => True

/-- The tokens can be completed to a phrase, with this word next. -/
def Viable (c : Call) (w : TokenType × Str) (pre : List Token) : Prop :=
  ∃ ws, (∀ w ∈ ws, w ∈ simple) ∧ ∀ us, Spells (w :: ws) us → ∀ r, Ends c r →
    ∃ n, n ≠ .null ∧ Meaning c (pre ++ (us ++ r)) r n

/-- What a word can be that replaces the very first token (of type `h`) of a phrase. -/
def Begins (c : Call) (h w : TokenType) : Prop :=
  match c with
  | .expression _ | .value _ | .elem _ | .listOrCompr _ _ | .funCall _ => w ∈ values.map (·.1)
  | .suffix _ | .ifElse _ | .paren => False
  | .arrayAccess => True
  | .tupleRest _ => w = .op ','
  | .list _ _ e close => h ≠ close ∧ if e = .optionalIdentifier then w = .op ',' ∨ w = close else w ∈ values.map (·.1)
  | .comprFor _ _ close => h ≠ .kFor ∧ w = close
  | .statements _ => w = .identifier

/-- With this word next, the tokens can be completed. -/
structure Hope (c : Call) (h : TokenType) (w : TokenType × Str) (pre : List Token) : Prop where
  viable : Viable c w pre
  begins : pre = [] → Begins c h w.1

theorem mk {P : Node → Prop} {n : Node} (h : P n) (hn : n ≠ .null) : ∃ n, n ≠ .null ∧ P n := ⟨n, hn, h⟩

theorem Viable.close {c : Call} {w : TokenType × Str} {pre : List Token} (ws : List (TokenType × Str))
    (hw : ∀ w ∈ ws, w ∈ simple)
    (k : ∀ u us r, u.type = w.1 → u.text = w.2 → Spells ws us → Ends c r →
      ∃ n, n ≠ .null ∧ Meaning c (pre ++ (u :: (us ++ r))) r n) : Viable c w pre := by
  refine ⟨ws, hw, fun us hs r hr => ?_⟩
  obtain ⟨u, us, rfl, h1, h2, hs⟩ := spells_cons hs
  exact k u us r h1 h2 hs hr

theorem Viable.extend {c c1 : Call} {w : TokenType × Str} {pre pre1 : List Token} (h : Viable c1 w pre1)
    (ws : List (TokenType × Str)) (hw : ∀ w ∈ ws, w ∈ simple)
    (k : ∀ us1 us r, Spells ws us → Ends c r →
      (∀ r1, Ends c1 r1 → ∃ n, n ≠ .null ∧ Meaning c1 (pre1 ++ (us1 ++ r1)) r1 n) →
      (∀ x, hd (us1 ++ x) = w.1) →
      ∃ n, n ≠ .null ∧ Meaning c (pre ++ (us1 ++ (us ++ r))) r n) : Viable c w pre := by
  obtain ⟨ws1, h1, h2⟩ := h
  refine ⟨ws1 ++ ws, by intro w hw'; rcases List.mem_append.1 hw' with h | h; exact h1 w h; exact hw w h, ?_⟩
  intro us hs r hr
  obtain ⟨u1, u2, rfl, g1, g2⟩ := spells_app (ws := w :: ws1) hs
  have := k u1 u2 r g2 hr (h2 u1 g1) (fun x => by
    obtain ⟨u, us, rfl, e1, -, -⟩ := spells_cons g1
    simpa [hd] using e1)
  simpa using this

/-- The first token of what is completed. -/
theorem hd_next {pre rest us x s : List Token} {w : TokenType} {P : TokenType → Prop} (hs : s = pre ++ rest)
    (hh : P (hd s)) (hw : ∀ x, hd (us ++ x) = w) (h : pre = [] → P w) : P (hd (pre ++ (us ++ x))) := by
  cases pre with
  | nil => simpa [hw] using h rfl
  | cons t pre => rw [hs] at hh; simpa [hd] using hh

variable {w : TokenType × Str}

theorem values_atom {u : Token} (hw : w ∈ values) (h1 : u.type = w.1) (h2 : u.text = w.2)
    {r : List Token} (hr : hd r ≠ .op '(') : ∃ n, n ≠ .null ∧ Parses .atom (u :: r) r n := by
  simp only [values, List.mem_cons, List.not_mem_nil, or_false] at hw
  rcases hw with rfl | rfl | rfl
  · have : intFromLiteral c!"0" ≠ none := by decide
    obtain ⟨n, hn⟩ := Option.ne_none_iff_exists'.1 this
    exact ⟨n, intFromLiteral_ne_null hn, .number h1 (by rw [h2]; exact hn)⟩
  · exact ⟨.ident u.text, by simp, .name h1 hr⟩
  · have : strFromLiteral c!"\"\"" ≠ none := by decide
    obtain ⟨n, hn⟩ := Option.ne_none_iff_exists'.1 this
    exact ⟨n, strFromLiteral_ne_null hn, .string h1 (by rw [h2]; exact hn)⟩

theorem values_expr {u : Token} (hw : w ∈ values) (h1 : u.type = w.1) (h2 : u.text = w.2) (opt : Bool)
    {r : List Token} (hr : Stops (hd r)) : ∃ n, n ≠ .null ∧ Parses (.expr opt) (u :: r) r n := by
  obtain ⟨n, hn, g⟩ := values_atom hw h1 h2 (r := r) (stops_ne hr (by simp [Stops]))
  exact ⟨n, hn, .operand g (.stop (stops_not_continues hr))⟩

/-- A value is none of these. -/
theorem values_ne {t u : TokenType} (h : t ∈ values.map (·.1)) (hu : Stops u ∨ u = .kIn) : t ≠ u := by
  rintro rfl
  simp only [values, List.map_cons, List.map_nil, List.mem_cons, List.not_mem_nil, or_false] at h
  rcases h with h | h | h <;> simp [h, Stops] at hu

theorem zero_expr {u : Token} (h1 : u.type = .numberLiteral) (h2 : u.text = c!"0") (opt : Bool)
    {r : List Token} (hr : Stops (hd r)) : ∃ n, n ≠ .null ∧ Parses (.expr opt) (u :: r) r n := by
  have : intFromLiteral c!"0" ≠ none := by decide
  obtain ⟨n, hn⟩ := Option.ne_none_iff_exists'.1 this
  exact ⟨n, intFromLiteral_ne_null hn, .operand (.number h1 (by rw [h2]; exact hn)) (.stop (stops_not_continues hr))⟩

theorem stops_op {u : Token} {r : List Token} {t : TokenType} (h : u.type = t) (ht : Stops t) :
    Stops (hd (u :: r)) := by simpa [hd, h] using ht

/-- Closing brackets. -/
def Closer (t : TokenType) : Prop := t ∈ [TokenType.op ')', .op ']', .op '}']

theorem Closer.stops {t : TokenType} (h : Closer t) : Stops t := by
  simp only [Closer, List.mem_cons, List.not_mem_nil, or_false] at h
  rcases h with h | h | h <;> simp [h, Stops]

theorem Closer.ne_eof {t : TokenType} (h : Closer t) : t ≠ .eof := by
  rintro rfl; simp [Closer] at h
theorem Closer.ne_for {t : TokenType} (h : Closer t) : t ≠ .kFor := by
  rintro rfl; simp [Closer] at h

/-- Text of a closing token. -/
def closeText : TokenType → Str
  | .op c => [c]
  | _ => c!"in"

theorem Closer.simple {t : TokenType} (h : Closer t) : (t, closeText t) ∈ simple := by
  simp only [Closer, List.mem_cons, List.not_mem_nil, or_false] at h
  rcases h with h | h | h <;> subst h <;> decide

theorem closer_closing (ty : ListType) : Closer (closing ty) := by cases ty <;> simp [Closer, closing]

/-- What is assumed about the arguments of a call. -/
def Fine : Call → Prop
  | .suffix n | .ifElse n => n ≠ .null
  | .listOrCompr _ e => e ≠ .optionalIdentifier
  | .list _ _ e close => Closer close ∨ (close = .kIn ∧ e = .optionalIdentifier)
  | .comprFor _ target close => Closer close ∧ target ≠ .null
  | _ => True

theorem fine_ne_eof {ty : ListType} {acc : List Node} {e : Elem} {close : TokenType}
    (h : Fine (.list ty acc e close)) : close ≠ .eof := by
  rcases h with h | h
  · exact h.ne_eof
  · simp [h.1]

theorem fine_simple {ty : ListType} {acc : List Node} {e : Elem} {close : TokenType}
    (h : Fine (.list ty acc e close)) : (close, closeText close) ∈ simple := by
  rcases h with h | h
  · exact h.simple
  · rw [h.1]; decide

/-! ### Expressions -/

local macro "simp!!" : tactic => `(tactic| simp only [List.cons_append, List.nil_append, List.append_assoc, List.append_nil] at *)

theorem v_unary {opt : Bool} {t : Token} {pre : List Token} (ht : t.type = .op '-' ∨ t.type = .op '!')
    (h : Viable (.expression opt) w pre) : Viable (.expression opt) w (t :: pre) := by
  refine h.extend [] (by simp) fun us1 us r hs hr k _ => ?_
  obtain rfl := spells_nil hs
  obtain ⟨n, hn, m⟩ := k r hr
  exact ⟨.unary t.type n, by simp, by
    simpa [Meaning] using Parses.unary (t := t) (by simpa using ht) m (.stop (stops_not_continues hr))⟩

/-- An operand that is followed by something unfinished. -/
theorem v_suffix {c : Call} {h0 : TokenType} {pre1 pre2 : List Token} {m : Node} (hc : ∀ r, Ends c r → Stops (hd r))
    (h : Hope (.suffix m) h0 w pre2)
    (k : ∀ q r n, pre2 ≠ [] → Ends c r → Parses (.cont m) (pre2 ++ (q ++ r)) r n → n ≠ .null →
      Meaning c (pre1 ++ (pre2 ++ (q ++ r))) r n) :
    Viable c w (pre1 ++ pre2) := by
  refine h.viable.extend [] (by simp) fun us1 us r hs hr kk _ => ?_
  obtain rfl := spells_nil hs
  obtain ⟨n, hn, g⟩ := kk r (hc r hr)
  refine ⟨n, hn, ?_⟩
  have := k us1 r n h.begins hr g hn
  simpa using this

/-- The tokens before an unfinished part keep their meaning. -/
theorem fits_pre {nt : NT} {pre rest x : List Token} (h : pre = [] → Stops (hd x)) :
    Fits nt (pre ++ rest) (pre ++ x) := by
  cases pre with
  | nil => exact .inr (.inr (.inl (h rfl)))
  | cons t pre => exact .inl rfl

/-- The same, the first word of what follows is known. -/
theorem fits_word {nt : NT} {pre rest us x s : List Token} (hs : s = pre ++ rest) (h0 : ∀ x, hd (us ++ x) = w.1)
    (h : pre = [] → Stops w.1) : Fits nt s (pre ++ (us ++ x)) := by
  rw [hs]
  exact fits_pre fun he => by rw [h0]; exact h he

theorem v_unary_suffix {opt : Bool} {t : Token} {s1 pre2 rest : List Token} {e : Node} {p1 : List Token}
    (ht : t.type = .op '-' ∨ t.type = .op '!') (hp : s1 = pre2 ++ rest)
    (k1 : ∀ r2, Fits (.expr opt) s1 r2 → Parses (.expr opt) (p1 ++ r2) r2 e)
    {h0 : TokenType} (h : Hope (.suffix (.unary t.type e)) h0 w pre2) : Viable (.expression opt) w (t :: (p1 ++ pre2)) := by
  refine v_suffix (pre1 := t :: p1) (fun r h => h) h fun q r n hq hr g hn => ?_
  simpa [Meaning] using Parses.unary (t := t) (by simpa using ht) (k1 _ (hp ▸ fits_mid _ _ hq _ _)) g

theorem v_paren_expr {opt : Bool} {pre : List Token} (h : Viable .paren w pre) : Viable (.expression opt) w pre := by
  refine h.extend [] (by simp) fun us1 us r hs hr k _ => ?_
  obtain rfl := spells_nil hs
  obtain ⟨n, hn, t, s1, g1, g2, g3⟩ := k r trivial
  refine ⟨n, hn, ?_⟩
  simp only [List.nil_append, g1]
  exact .parenthesis g2 g3 (.stop (stops_not_continues hr))

theorem v_paren_suffix {opt : Bool} {t : Token} {s1 pre2 rest : List Token} {e : Node} {p1 : List Token}
    (ht : t.type = .op '(') (hp : s1 = pre2 ++ rest)
    (k1 : ∀ r2, Fits .paren s1 r2 → Parses .paren (p1 ++ r2) r2 e)
    {h0 : TokenType} (h : Hope (.suffix e) h0 w pre2) : Viable (.expression opt) w (t :: (p1 ++ pre2)) := by
  refine v_suffix (pre1 := t :: p1) (fun r h => h) h fun q r n hq hr g hn => ?_
  simpa [Meaning] using Parses.parenthesis ht (k1 _ (hp ▸ fits_mid _ _ hq _ _)) g

theorem v_value_expr {opt : Bool} {pre : List Token} (h : Viable (.value opt) w pre) :
    Viable (.expression opt) w pre := by
  refine h.extend [] (by simp) fun us1 us r hs hr k _ => ?_
  obtain rfl := spells_nil hs
  obtain ⟨n, hn, g⟩ := k r hr
  refine ⟨n, hn, ?_⟩
  rcases g with g | g
  · exact absurd g.1 hn
  · exact .operand g (.stop (stops_not_continues hr))

theorem v_value_suffix {opt : Bool} {s1 pre2 rest : List Token} {e : Node} {p1 : List Token}
    (hp : s1 = pre2 ++ rest)
    (k1 : ∀ r2, Fits .atom s1 r2 → Parses .atom (p1 ++ r2) r2 e)
    {h0 : TokenType} (h : Hope (.suffix e) h0 w pre2) : Viable (.expression opt) w (p1 ++ pre2) := by
  refine v_suffix (pre1 := p1) (fun r h => h) h fun q r n hq hr g hn => ?_
  simpa [Meaning] using Parses.operand (k1 _ (hp ▸ fits_mid _ _ hq _ _)) g

/-! ### After an operand -/

theorem v_ifElse {n : Node} {pre : List Token} (h : Viable (.ifElse n) w pre) : Viable (.suffix n) w pre := h

theorem v_binary {n : Node} {t : Token} {pre : List Token} (ht : t.type ∈ binary)
    (h : Viable (.expression false) w pre) : Viable (.suffix n) w (t :: pre) := by
  refine h.extend [] (by simp) fun us1 us r hs hr k _ => ?_
  obtain rfl := spells_nil hs
  obtain ⟨m, hm, g⟩ := k r hr
  exact mk (by simpa [Meaning] using Parses.binary (n := n) ht g) (by simp)

theorem v_index {n : Node} {t : Token} {pre : List Token} (ht : t.type = .op '[')
    (hl : t.newlineSinceLast = false) (h : Viable .arrayAccess w pre) : Viable (.suffix n) w (t :: pre) := by
  refine h.extend [] (by simp) fun us1 us r hs hr k _ => ?_
  obtain rfl := spells_nil hs
  obtain ⟨m, hm, g⟩ := k r trivial
  exact ⟨.binop (.op '[') n m, by simp, by
    simpa [Meaning] using Parses.indexed (n := n) ht hl g (.stop (stops_not_continues hr))⟩

theorem v_index_suffix {n : Node} {t : Token} {s1 pre2 rest p1 : List Token} {a : Node} (ht : t.type = .op '[')
    (hl : t.newlineSinceLast = false) (hp : s1 = pre2 ++ rest)
    (k1 : ∀ r2, Fits .index s1 r2 → Parses .index (p1 ++ r2) r2 a)
    {h0 : TokenType} (h : Hope (.suffix (.binop (.op '[') n a)) h0 w pre2) : Viable (.suffix n) w (t :: (p1 ++ pre2)) := by
  refine v_suffix (pre1 := t :: p1) (fun r h => h) h fun q r m hq hr g hn => ?_
  simpa [Meaning] using Parses.indexed (n := n) ht hl (k1 _ (hp ▸ fits_mid _ _ hq _ _)) g

theorem v_if {n : Node} {t : Token} {pre : List Token} (ht : t.type = .kIf)
    (h : Viable (.expression false) w pre) : Viable (.ifElse n) w (t :: pre) := by
  refine h.extend [] (by simp) fun us1 us r hs hr k _ => ?_
  obtain rfl := spells_nil hs
  obtain ⟨m, hm, g⟩ := k r hr
  exact mk (by simpa [Meaning] using Parses.ifOnly (n := n) ht g (stops_ne hr (by simp [Stops]))) (by simp)

theorem v_else {n : Node} {t u : Token} {s1 pre p1 : List Token} {c : Node} (ht : t.type = .kIf)
    (hu : u.type = .kElse) (k1 : ∀ r2, Fits (.expr false) (u :: s1) r2 → Parses (.expr false) (p1 ++ r2) r2 c)
    (h : Viable (.expression false) w pre) : Viable (.ifElse n) w (t :: (p1 ++ u :: pre)) := by
  refine h.extend [] (by simp) fun us1 us r hs hr k _ => ?_
  obtain rfl := spells_nil hs
  obtain ⟨m, hm, g⟩ := k r hr
  exact mk (by simpa [Meaning] using Parses.ifElse (n := n) ht (k1 _ (fits_cons _ _ _ _)) hu g) (by simp)

/-! ### Index and slice -/

theorem v_at {pre : List Token} (h : Viable (.expression true) w pre) : Viable .arrayAccess w pre := by
  refine h.extend [(.op ']', c!"]")] (by decide) fun us1 us r hs hr k _ => ?_
  obtain ⟨u, us, rfl, h1, h2, hs⟩ := spells_cons hs
  obtain rfl := spells_nil hs
  obtain ⟨m, hm, g⟩ := k (u :: r) (stops_op h1 (by simp [Stops]))
  exact ⟨m, hm, by simpa [Meaning] using Parses.at_ g hm h1⟩

theorem v_at_empty (hw : w ∈ values) : Viable .arrayAccess w [] := by
  refine Viable.close [(.op ']', c!"]")] (by decide) fun z us r z1 z2 hs hr => ?_
  obtain ⟨u, us, rfl, h1, h2, hs⟩ := spells_cons hs
  obtain rfl := spells_nil hs
  obtain ⟨m, hm, g⟩ := values_expr hw z1 z2 true (r := u :: r) (stops_op h1 (by simp [Stops]))
  exact ⟨m, hm, by simpa [Meaning] using Parses.at_ g hm h1⟩

theorem v_at_done {s1 p1 : List Token} {a : Node} (hw : w.1 = .op ']') (ha : a ≠ .null)
    (k1 : ∀ r2, Fits (.expr true) s1 r2 → Parses (.expr true) (p1 ++ r2) r2 a) : Viable .arrayAccess w p1 := by
  refine Viable.close [] (by simp) fun u us r h1 h2 hs hr => ?_
  obtain rfl := spells_nil hs
  rw [hw] at h1
  exact ⟨a, ha, by simpa [Meaning] using Parses.at_ (k1 _ (.inr (.inr (.inl (stops_op h1 (by simp [Stops])))))) ha h1⟩

theorem v_at_colon {s1 p1 : List Token} {a : Node} (hw : w.1 = .op ':')
    (k1 : ∀ r2, Fits (.expr true) s1 r2 → Parses (.expr true) (p1 ++ r2) r2 a) : Viable .arrayAccess w p1 := by
  refine Viable.close [(.numberLiteral, c!"0"), (.op ']', c!"]")] (by decide) fun t us r h1 h2 hs hr => ?_
  obtain ⟨z, us, rfl, z1, z2, hs⟩ := spells_cons hs
  obtain ⟨u, us, rfl, g1, g2, hs⟩ := spells_cons hs
  obtain rfl := spells_nil hs
  rw [hw] at h1
  obtain ⟨m, hm, g⟩ := zero_expr z1 z2 true (r := u :: r) (stops_op g1 (by simp [Stops]))
  exact mk (by simpa [Meaning] using Parses.slice (k1 (t :: z :: u :: r)
    (.inr (.inr (.inl (stops_op h1 (by simp [Stops])))))) h1 g g1 (fun h => hm h.2)) (by simp)

theorem v_slice {t : Token} {s1 p1 pre : List Token} {a : Node} (ht : t.type = .op ':')
    (k1 : ∀ r2, Fits (.expr true) (t :: s1) r2 → Parses (.expr true) (p1 ++ r2) r2 a)
    (h : Viable (.expression true) w pre) : Viable .arrayAccess w (p1 ++ t :: pre) := by
  refine h.extend [(.op ']', c!"]")] (by decide) fun us1 us r hs hr k _ => ?_
  obtain ⟨u, us, rfl, h1, h2, hs⟩ := spells_cons hs
  obtain rfl := spells_nil hs
  obtain ⟨m, hm, g⟩ := k (u :: r) (stops_op h1 (by simp [Stops]))
  exact mk (by simpa [Meaning] using Parses.slice (k1 _ (fits_cons _ _ _ _)) ht g h1 (fun h => hm h.2)) (by simp)

theorem v_slice_value {t : Token} {s1 p1 : List Token} {a : Node} (ht : t.type = .op ':') (hw : w ∈ values)
    (k1 : ∀ r2, Fits (.expr true) (t :: s1) r2 → Parses (.expr true) (p1 ++ r2) r2 a) :
    Viable .arrayAccess w (p1 ++ [t]) := by
  refine Viable.close [(.op ']', c!"]")] (by decide) fun z us r z1 z2 hs hr => ?_
  obtain ⟨u, us, rfl, h1, h2, hs⟩ := spells_cons hs
  obtain rfl := spells_nil hs
  obtain ⟨m, hm, g⟩ := values_expr hw z1 z2 true (r := u :: r) (stops_op h1 (by simp [Stops]))
  exact mk (by simpa [Meaning] using Parses.slice (k1 _ (fits_cons _ _ _ _)) ht g h1 (fun h => hm h.2)) (by simp)

theorem v_slice_done {t : Token} {s1 p1 s2 p2 : List Token} {a b : Node} (ht : t.type = .op ':') (hw : w.1 = .op ']')
    (k1 : ∀ r2, Fits (.expr true) (t :: s1) r2 → Parses (.expr true) (p1 ++ r2) r2 a)
    (hn : ¬ (a = .null ∧ b = .null))
    (k2 : ∀ r2, Fits (.expr true) s2 r2 → Parses (.expr true) (p2 ++ r2) r2 b) :
    Viable .arrayAccess w (p1 ++ t :: p2) := by
  refine Viable.close [] (by simp) fun u us r h1 h2 hs hr => ?_
  obtain rfl := spells_nil hs
  rw [hw] at h1
  have k2 := k2 (u :: r) (.inr (.inr (.inl (stops_op h1 (by simp [Stops])))))
  exact mk (by simpa [Meaning] using Parses.slice (k1 _ (fits_cons _ _ _ _)) ht k2 h1 hn) (by simp)

/-! ### Values -/

theorem v_value {opt : Bool} (hw : w ∈ values) : Viable (.value opt) w [] := by
  refine Viable.close [] (by simp) fun z us r z1 z2 hs hr => ?_
  obtain rfl := spells_nil hs
  obtain ⟨n, hn, g⟩ := values_atom hw z1 z2 (r := r) (stops_ne hr (by simp [Stops]))
  exact ⟨n, hn, .inr g⟩

theorem v_call {opt : Bool} {t u : Token} {pre : List Token} (ht : t.type = .identifier) (hu : u.type = .op '(')
    (h : Viable (.funCall t.text) w pre) : Viable (.value opt) w (t :: u :: pre) := by
  refine h.extend [] (by simp) fun us1 us r hs hr k _ => ?_
  obtain rfl := spells_nil hs
  obtain ⟨m, hm, args, rfl, g⟩ := k r trivial
  exact ⟨_, hm, .inr (by simpa [Meaning] using Parses.call ht hu g)⟩

theorem v_list {opt : Bool} {t : Token} {pre : List Token} (ht : t.type = .op '[')
    (h : Viable (.listOrCompr .list .expression) w pre) : Viable (.value opt) w (t :: pre) := by
  refine h.extend [] (by simp) fun us1 us r hs hr k _ => ?_
  obtain rfl := spells_nil hs
  obtain ⟨m, hm, g⟩ := k r trivial
  exact ⟨_, hm, .inr (by simpa [Meaning] using Parses.list ht (g (by simp)))⟩

theorem v_map {opt : Bool} {t : Token} {pre : List Token} (ht : t.type = .op '{')
    (h : Viable (.listOrCompr .map .mapTuple) w pre) : Viable (.value opt) w (t :: pre) := by
  refine h.extend [] (by simp) fun us1 us r hs hr k _ => ?_
  obtain rfl := spells_nil hs
  obtain ⟨m, hm, g⟩ := k r trivial
  exact ⟨_, hm, .inr (by simpa [Meaning] using Parses.map ht (g (by simp)))⟩

/-! ### Parentheses -/

theorem v_paren {t : Token} {pre : List Token} (ht : t.type = .op '(') (h : Viable (.expression true) w pre) :
    Viable .paren w (t :: pre) := by
  refine h.extend [(.op ')', c!")")] (by decide) fun us1 us r hs hr k _ => ?_
  obtain ⟨u, us, rfl, h1, h2, hs⟩ := spells_cons hs
  obtain rfl := spells_nil hs
  obtain ⟨m, hm, g⟩ := k (u :: r) (stops_op h1 (by simp [Stops]))
  exact ⟨m, hm, t, _, by simp, ht, .grouped g hm h1⟩

theorem v_paren_empty {t : Token} (ht : t.type = .op '(') (hw : w.1 = .op ')') : Viable .paren w [t] := by
  refine Viable.close [] (by simp) fun u us r h1 h2 hs hr => ?_
  obtain rfl := spells_nil hs
  rw [hw] at h1
  refine ⟨_, by simp, t, _, by simp, ht, .emptyTuple (.missing ?_) h1⟩
  exact stops_not_starts (stops_op h1 (by simp [Stops]))

theorem v_paren_tuple {t : Token} {s1 p1 pre2 rest : List Token} {e : Node} (ht : t.type = .op '(') (he : e ≠ .null)
    (hp : s1 = pre2 ++ rest) (hs1 : hd s1 ≠ .op ')')
    (k1 : ∀ r2, Fits (.expr true) s1 r2 → Parses (.expr true) (p1 ++ r2) r2 e) {h0 : TokenType}
    (h : Hope (.tupleRest [e]) h0 w pre2) : Viable .paren w (t :: (p1 ++ pre2)) := by
  refine h.viable.extend [] (by simp) fun us1 us r hs hr k hw => ?_
  obtain rfl := spells_nil hs
  obtain ⟨m, hm, xs, rfl, g⟩ := k r trivial
  refine ⟨_, hm, t, p1 ++ (pre2 ++ (us1 ++ r)), by simp, ht, ?_⟩
  refine .tuple (k1 _ (fits_word hp hw fun h' => by rw [show w.1 = .op ',' from h.begins h']; simp [Stops])) he ?_ g
  have hh : hd (pre2 ++ (us1 ++ r)) ≠ .op ')' := hd_next (P := (· ≠ .op ')')) hp hs1 hw fun h' => by
    rw [show w.1 = .op ',' from h.begins h']; simp
  generalize pre2 ++ (us1 ++ r) = x at g hh
  cases g with
  | tupleEnd ht => exact absurd ht (by simpa [hd] using hh)
  | tupleComma ht hu => simpa [hd] using ht
  | tupleNext ht => simpa [hd] using ht

theorem v_tuple {acc : List Node} (hw : w.1 = .op ',') : Viable (.tupleRest acc) w [] := by
  refine Viable.close [(.op ')', c!")")] (by decide) fun t us r ht h2 hs hr => ?_
  obtain ⟨u, us, rfl, h1, h2, hs⟩ := spells_cons hs
  obtain rfl := spells_nil hs
  exact ⟨.list .tuple (acc ++ []), by simp, [], rfl, by simpa [Meaning] using Parses.tupleComma (ht.trans hw) h1⟩

theorem v_tuple_expr {acc : List Node} {t : Token} {s pre rest : List Token} (ht : t.type = .op ',')
    (hs : s = pre ++ rest) (hh : hd s ≠ .op ')') {h0 : TokenType} (h : Hope (.expression false) h0 w pre) :
    Viable (.tupleRest acc) w (t :: pre) := by
  refine h.viable.extend [(.op ')', c!")")] (by decide) fun us1 us r hs' hr k hw => ?_
  obtain ⟨u, us, rfl, h1, h2, hs'⟩ := spells_cons hs'
  obtain rfl := spells_nil hs'
  obtain ⟨m, hm, g⟩ := k (u :: r) (stops_op h1 (by simp [Stops]))
  refine ⟨.list .tuple (acc ++ [m]), by simp, [m], rfl, ?_⟩
  simpa [Meaning] using Parses.tupleNext ht
    (hd_next (P := (· ≠ .op ')')) hs hh hw fun h' => values_ne (h.begins h') (by simp [Stops])) g (.tupleEnd h1)

theorem v_tuple_next {acc : List Node} {t : Token} {s1 p1 pre2 rest : List Token} {e : Node} (ht : t.type = .op ',')
    (hs : s1 = pre2 ++ rest) (hh : hd (p1 ++ s1) ≠ .op ')') (hp1 : p1 ≠ [])
    (k1 : ∀ r2, Fits (.expr false) s1 r2 → Parses (.expr false) (p1 ++ r2) r2 e) {h0 : TokenType}
    (h : Hope (.tupleRest (acc ++ [e])) h0 w pre2) : Viable (.tupleRest acc) w (t :: (p1 ++ pre2)) := by
  refine h.viable.extend [] (by simp) fun us1 us r hs' hr k hw => ?_
  obtain rfl := spells_nil hs'
  obtain ⟨m, hm, xs, rfl, g⟩ := k r trivial
  refine ⟨_, hm, e :: xs, by simp, ?_⟩
  simpa [Meaning] using Parses.tupleNext ht (by rw [hd_app hp1 _ s1]; exact hh)
    (k1 _ (fits_word hs hw fun h' => by rw [show w.1 = .op ',' from h.begins h']; simp [Stops])) g

/-- What completes a comprehension after the variables: `in 0` and the bracket. -/
def inZero (close : TokenType) : List (TokenType × Str) :=
  [(.kIn, c!"in"), (.numberLiteral, c!"0"), (close, closeText close)]

theorem inZero_simple {close : TokenType} (h : Closer close) : ∀ w ∈ inZero close, w ∈ simple := by
  intro w hw
  simp only [inZero, List.mem_cons, List.not_mem_nil, or_false] at hw
  rcases hw with rfl | rfl | rfl
  · decide
  · decide
  · exact h.simple

theorem zero_clause {close : TokenType} (hc : Closer close) {z u : Token} {r : List Token} (z1 : z.type = .numberLiteral)
    (z2 : z.text = c!"0") (h1 : u.type = close) (x vars : Node) :
    ∃ v, Parses (.expr false) (z :: u :: r) (u :: r) v ∧
      Parses (.moreClauses close (.binop .kFor x (.binop .kIn vars v))) (u :: r) r
        (.binop .kFor x (.binop .kIn vars v)) := by
  obtain ⟨v, hv, g2⟩ := zero_expr z1 z2 false (r := u :: r) (stops_op h1 hc.stops)
  exact ⟨v, g2, .lastClause h1 hc.ne_for⟩

/-! ### Lists -/

theorem v_items {ty : ListType} {acc : List Node} {e : Elem} {close : TokenType} (hw : w.1 = close) :
    Viable (.list ty acc e close) w [] := by
  refine Viable.close [] (by simp) fun u us r h1 h2 hs hr => ?_
  obtain rfl := spells_nil hs
  exact ⟨.list ty (acc ++ []), by simp, fun _ => ⟨[], rfl, .itemsEnd (h1.trans hw)⟩⟩

theorem ends_elem {ty : ListType} {acc : List Node} {e : Elem} {close : TokenType} {u : Token} {r : List Token}
    (hf : Fine (.list ty acc e close)) (hu : u.type = close) (he : e ≠ .optionalIdentifier) :
    Stops (hd (u :: r)) := by
  rcases hf with hf | hf
  · exact stops_op hu hf.stops
  · exact absurd hf.2 he

theorem fine_stops {ty : ListType} {acc : List Node} {e : Elem} {close : TokenType}
    (hf : Fine (.list ty acc e close)) : Stops close ∨ close = .kIn := by
  rcases hf with hf | hf
  · exact .inl hf.stops
  · exact .inr hf.1

theorem v_items_elem {ty : ListType} {acc : List Node} {e : Elem} {close : TokenType} {s pre rest : List Token}
    (hf : Fine (.list ty acc e close)) (he : e ≠ .optionalIdentifier) (hs : s = pre ++ rest) (hh : hd s ≠ close)
    {h0 : TokenType} (h : Hope (.elem e) h0 w pre) : Viable (.list ty acc e close) w pre := by
  refine h.viable.extend [(close, closeText close)] (by simpa using fine_simple hf) fun us1 us r hs' hr k hw => ?_
  obtain ⟨u, us, rfl, h1, h2, hs'⟩ := spells_cons hs'
  obtain rfl := spells_nil hs'
  obtain ⟨m, hm, g⟩ := k (u :: r) (ends_elem hf h1 he)
  exact ⟨.list ty (acc ++ [m]), by simp, fun _ => ⟨[m], rfl,
    .itemsLast (hd_next (P := (· ≠ close)) hs hh hw fun h' => values_ne (h.begins h') (fine_stops hf)) g h1⟩⟩

theorem fits_item {e : Elem} {close : TokenType} {ty : ListType} {acc : List Node} {s1 r : List Token}
    (hf : Fine (.list ty acc e close)) (h : hd r = .op ',' ∨ hd r = close) : Fits (.item (itemOf e)) s1 r := by
  by_cases he : e = .optionalIdentifier
  · refine .inr (.inr (.inr (.inl ⟨by simp [he, itemOf], ?_⟩)))
    rcases h with h | h
    · simp [h]
    · rw [h]
      rcases hf with hf | hf
      · exact stops_ne hf.stops (by simp [Stops])
      · simp [hf.1]
  · refine .inr (.inr (.inl ?_))
    rcases h with h | h
    · simp [h, Stops]
    · rw [h]
      rcases hf with hf | hf
      · exact hf.stops
      · exact absurd hf.2 he

theorem comma_ne {e : Elem} {close : TokenType} {ty : ListType} {acc : List Node}
    (hf : Fine (.list ty acc e close)) : TokenType.op ',' ≠ close := by
  rintro rfl
  rcases hf with hf | hf
  · simp [Closer] at hf
  · simp at hf

theorem v_items_done {ty : ListType} {acc : List Node} {e : Elem} {close : TokenType} {s1 p1 : List Token} {x : Node}
    (hf : Fine (.list ty acc e close)) (hh : hd (p1 ++ s1) ≠ close) (hw : w.1 = close)
    (k1 : ∀ r2, Fits (.item (itemOf e)) s1 r2 → Parses (.item (itemOf e)) (p1 ++ r2) r2 x) :
    Viable (.list ty acc e close) w p1 := by
  by_cases hn : p1 = []
  · subst hn; exact v_items hw
  · refine Viable.close [] (by simp) fun u us r h1 h2 hs hr => ?_
    obtain rfl := spells_nil hs
    rw [hw] at h1
    exact ⟨.list ty (acc ++ [x]), by simp, fun _ => ⟨[x], rfl,
      .itemsLast (by simpa [hd_app hn _ s1] using hh) (k1 _ (fits_item hf (.inr (by simpa [hd] using h1)))) h1⟩⟩

theorem v_items_comma {ty : ListType} {acc : List Node} {e : Elem} {close : TokenType} {s1 p1 : List Token} {x : Node}
    (hf : Fine (.list ty acc e close)) (hh : hd (p1 ++ s1) ≠ close) (hw : w.1 = .op ',')
    (k1 : ∀ r2, Fits (.item (itemOf e)) s1 r2 → Parses (.item (itemOf e)) (p1 ++ r2) r2 x) :
    Viable (.list ty acc e close) w p1 := by
  refine Viable.close [(close, closeText close)] (by simpa using fine_simple hf) fun t us r ht h2 hs hr => ?_
  obtain ⟨u, us, rfl, h1, h2, hs⟩ := spells_cons hs
  obtain rfl := spells_nil hs
  rw [hw] at ht
  refine ⟨.list ty (acc ++ [x]), by simp, fun _ => ⟨[x], rfl,
    .itemsMore ?_ (k1 _ (fits_item hf (.inl (by simpa [hd] using ht)))) ht (.itemsEnd h1)⟩⟩
  by_cases hn : p1 = []
  · subst hn; simpa [hd, ht] using comma_ne hf
  · simpa [hd_app hn _ s1] using hh

theorem v_items_next {ty : ListType} {acc : List Node} {e : Elem} {close : TokenType} {t : Token}
    {s1 p1 pre : List Token} {x : Node}
    (hf : Fine (.list ty acc e close)) (hh : hd (p1 ++ t :: s1) ≠ close) (ht : t.type = .op ',')
    (k1 : ∀ r2, Fits (.item (itemOf e)) (t :: s1) r2 → Parses (.item (itemOf e)) (p1 ++ r2) r2 x)
    (h : Viable (.list ty (acc ++ [x]) e close) w pre) : Viable (.list ty acc e close) w (p1 ++ t :: pre) := by
  refine h.extend [] (by simp) fun us1 us r hs' hr k h0 => ?_
  obtain rfl := spells_nil hs'
  obtain ⟨m, hm, g0⟩ := k r trivial
  obtain ⟨xs, rfl, g⟩ := g0 (fine_ne_eof hf)
  refine ⟨_, hm, fun _ => ⟨x :: xs, by simp, ?_⟩⟩
  simpa [Meaning] using Parses.itemsMore (by rw [hd_mid p1 t _ s1]; exact hh) (k1 _ (fits_cons _ _ _ _)) ht g

theorem v_bracket_elem {ty : ListType} {e : Elem} {s pre rest : List Token}
    (hs : s = pre ++ rest) (hh : hd s ≠ closing ty) {h0 : TokenType}
    (h : Hope (.elem e) h0 w pre) : Viable (.listOrCompr ty e) w pre := by
  refine h.viable.extend [(closing ty, closeText (closing ty))] (by simpa using (closer_closing ty).simple)
    fun us1 us r hs' hr k hw => ?_
  obtain ⟨u, us, rfl, h1, h2, hs'⟩ := spells_cons hs'
  obtain rfl := spells_nil hs'
  obtain ⟨m, hm, g⟩ := k (u :: r) (stops_op h1 (closer_closing ty).stops)
  exact ⟨.list ty [m], by simp, fun _ => .bracketOne (hd_next (P := (· ≠ closing ty)) hs hh hw fun h' =>
    values_ne (h.begins h') (.inl (closer_closing ty).stops)) g hm h1⟩

theorem v_bracket_done {ty : ListType} {e : Elem} {s1 p1 : List Token} {x : Node}
    (hh : hd (p1 ++ s1) ≠ closing ty) (hn : p1 ≠ []) (hx : x ≠ .null) (hw : w.1 = closing ty)
    (k1 : ∀ r2, Fits (.item (itemOf e)) s1 r2 → Parses (.item (itemOf e)) (p1 ++ r2) r2 x) :
    Viable (.listOrCompr ty e) w p1 := by
  refine Viable.close [] (by simp) fun u us r h1 h2 hs hr => ?_
  obtain rfl := spells_nil hs
  rw [hw] at h1
  exact ⟨.list ty [x], by simp, fun _ => .bracketOne (by simpa [hd_app hn _ s1] using hh)
    (k1 _ (.inr (.inr (.inl (stops_op h1 (closer_closing ty).stops))))) hx h1⟩

theorem v_bracket_comma {ty : ListType} {e : Elem} {s1 p1 : List Token} {x : Node}
    (hh : hd (p1 ++ s1) ≠ closing ty) (hn : p1 ≠ []) (hx : x ≠ .null) (hw : w.1 = .op ',')
    (k1 : ∀ r2, Fits (.item (itemOf e)) s1 r2 → Parses (.item (itemOf e)) (p1 ++ r2) r2 x) :
    Viable (.listOrCompr ty e) w p1 := by
  refine Viable.close [(closing ty, closeText (closing ty))] (by simpa using (closer_closing ty).simple)
    fun t us r ht h2 hs hr => ?_
  obtain ⟨u, us, rfl, h1, h2, hs⟩ := spells_cons hs
  obtain rfl := spells_nil hs
  rw [hw] at ht
  exact ⟨.list ty [x], by simp, fun _ => .bracketMore (by simpa [hd_app hn _ s1] using hh)
    (k1 _ (.inr (.inr (.inl (stops_op ht (by simp [Stops])))))) hx ht (.itemsEnd h1)⟩

theorem v_bracket_for {ty : ListType} {e : Elem} {s1 p1 : List Token} {x : Node}
    (hh : hd (p1 ++ s1) ≠ closing ty) (hn : p1 ≠ []) (hx : x ≠ .null) (hw : w.1 = .kFor)
    (k1 : ∀ r2, Fits (.item (itemOf e)) s1 r2 → Parses (.item (itemOf e)) (p1 ++ r2) r2 x) :
    Viable (.listOrCompr ty e) w p1 := by
  refine Viable.close (inZero (closing ty)) (inZero_simple (closer_closing ty)) fun t us r ht h2 hs hr => ?_
  obtain ⟨i, us, rfl, i1, i2, hs⟩ := spells_cons hs
  obtain ⟨z, us, rfl, z1, z2, hs⟩ := spells_cons hs
  obtain ⟨u, us, rfl, h1, h2, hs⟩ := spells_cons hs
  obtain rfl := spells_nil hs
  rw [hw] at ht
  obtain ⟨v, g2, g3⟩ := zero_clause (closer_closing ty) (r := r) z1 z2 h1 x (.list .tuple [])
  refine ⟨.compr ty (.binop .kFor x (.binop .kIn (.list .tuple []) v)), by simp, fun _ => .comprehension (by simpa [hd_app hn _ s1] using hh)
    (k1 _ (.inr (.inr (.inl (stops_op ht (by simp [Stops])))))) hx (by simpa [hd] using ht) ?_⟩
  exact Parses.forList ht (by simp [hd, i1]) (.itemsEnd i1) g2 g3

theorem v_bracket_compr {ty : ListType} {e : Elem} {s1 p1 pre2 rest : List Token} {x : Node}
    (hh : hd (p1 ++ s1) ≠ closing ty) (hn : p1 ≠ []) (hx : x ≠ .null) (hs : s1 = pre2 ++ rest) (hfor : hd s1 = .kFor)
    (k1 : ∀ r2, Fits (.item (itemOf e)) s1 r2 → Parses (.item (itemOf e)) (p1 ++ r2) r2 x)
    (h : Hope (.comprFor .null x (closing ty)) (hd s1) w pre2) : Viable (.listOrCompr ty e) w (p1 ++ pre2) := by
  have h2 : pre2 ≠ [] := fun h' => (h.begins h').1 hfor
  refine h.viable.extend [] (by simp) fun us1 us r hs' hr k _ => ?_
  obtain rfl := spells_nil hs'
  obtain ⟨m, hm, g⟩ := k r trivial
  have hf : hd (pre2 ++ (us1 ++ r)) = .kFor := by rw [hd_app h2 _ rest, ← hs]; exact hfor
  have g := (g (closer_closing ty).ne_eof (closer_closing ty).ne_for).1 hf
  refine ⟨.compr ty m, by simp, fun _ => ?_⟩
  simpa [Meaning] using Parses.comprehension (by rw [hd_app hn _ s1]; exact hh) (k1 _ (hs ▸ fits_mid _ _ h2 _ _)) hx hf g

theorem v_bracket_more {ty : ListType} {e : Elem} {t : Token} {s1 p1 pre : List Token} {x : Node}
    (hh : hd (p1 ++ t :: s1) ≠ closing ty) (hx : x ≠ .null) (ht : t.type = .op ',')
    (k1 : ∀ r2, Fits (.item (itemOf e)) (t :: s1) r2 → Parses (.item (itemOf e)) (p1 ++ r2) r2 x)
    (h : Viable (.list ty [x] e (closing ty)) w pre) : Viable (.listOrCompr ty e) w (p1 ++ t :: pre) := by
  refine h.extend [] (by simp) fun us1 us r hs' hr k h0 => ?_
  obtain rfl := spells_nil hs'
  obtain ⟨m, hm, g0⟩ := k r trivial
  obtain ⟨xs, rfl, g⟩ := g0 (closing_ne_eof ty)
  refine ⟨_, hm, fun _ => ?_⟩
  simpa [Meaning] using Parses.bracketMore (by rw [hd_mid p1 t _ s1]; exact hh) (k1 _ (fits_cons _ _ _ _)) hx ht g

theorem v_bracket_end {ty : ListType} {e : Elem} {s1 p1 pre2 rest : List Token} {x : Node}
    (hh : hd (p1 ++ s1) ≠ closing ty) (hn : p1 ≠ []) (hx : x ≠ .null) (hs : s1 = pre2 ++ rest)
    (hc : hd s1 = closing ty)
    (k1 : ∀ r2, Fits (.item (itemOf e)) s1 r2 → Parses (.item (itemOf e)) (p1 ++ r2) r2 x)
    (h : Hope (.list ty [x] e (closing ty)) (hd s1) w pre2) : Viable (.listOrCompr ty e) w (p1 ++ pre2) := by
  have h2 : pre2 ≠ [] := fun h' => (h.begins h').1 hc
  refine h.viable.extend [] (by simp) fun us1 us r hs' hr k _ => ?_
  obtain rfl := spells_nil hs'
  obtain ⟨m, hm, g0⟩ := k r trivial
  obtain ⟨xs, rfl, g⟩ := g0 (closing_ne_eof ty)
  have hf : hd (pre2 ++ (us1 ++ r)) = closing ty := by rw [hd_app h2 _ rest, ← hs]; exact hc
  have k1 := k1 (pre2 ++ (us1 ++ r)) (hs ▸ fits_mid _ _ h2 _ _)
  refine ⟨_, hm, fun _ => ?_⟩
  simp only [List.nil_append, List.append_assoc] at g ⊢
  generalize pre2 ++ (us1 ++ r) = y at g hf k1
  cases g with
  | itemsEnd ht => exact .bracketOne (by simpa [hd_app hn _ s1] using hh) k1 hx ht
  | itemsLast hne => exact absurd hf hne
  | itemsMore hne => exact absurd hf hne

/-! ### Elements -/

theorem v_elem {pre : List Token} (h : Viable (.expression false) w pre) : Viable (.elem .expression) w pre := by
  refine h.extend [] (by simp) fun us1 us r hs hr k _ => ?_
  obtain rfl := spells_nil hs
  obtain ⟨m, hm, g⟩ := k r hr
  exact ⟨m, hm, .itemValue g⟩

theorem v_argument {pre : List Token} (h : Viable (.expression false) w pre) :
    Viable (.elem .expressionOrAssignment) w pre := by
  refine h.extend [] (by simp) fun us1 us r hs hr k _ => ?_
  obtain rfl := spells_nil hs
  obtain ⟨m, hm, g⟩ := k r hr
  exact ⟨m, hm, .itemArgument g hm (fun h => stops_ne hr (by simp [Stops]) h.2)⟩

theorem v_keyword {t : Token} {s1 p1 pre : List Token} {i : Str} (ht : t.type = .op '=')
    (k1 : ∀ r2, Fits (.expr false) (t :: s1) r2 → Parses (.expr false) (p1 ++ r2) r2 (.ident i))
    (h : Viable (.expression false) w pre) : Viable (.elem .expressionOrAssignment) w (p1 ++ t :: pre) := by
  refine h.extend [] (by simp) fun us1 us r hs hr k _ => ?_
  obtain rfl := spells_nil hs
  obtain ⟨m, hm, g⟩ := k r hr
  exact mk (by simpa [Meaning, itemOf] using Parses.itemKeyword (k1 _ (fits_cons _ _ _ _)) ht g) (by simp)

theorem v_entry {pre : List Token} (h : Viable (.expression false) w pre) : Viable (.elem .mapTuple) w pre := by
  refine h.extend [(.op ':', c!":"), (.numberLiteral, c!"0")] (by decide) fun us1 us r hs hr k _ => ?_
  obtain ⟨u, us, rfl, h1, h2, hs⟩ := spells_cons hs
  obtain ⟨z, us, rfl, z1, z2, hs⟩ := spells_cons hs
  obtain rfl := spells_nil hs
  obtain ⟨m, hm, g⟩ := k (u :: z :: r) (stops_op h1 (by simp [Stops]))
  obtain ⟨v, hv, g2⟩ := zero_expr z1 z2 false (r := r) hr
  exact ⟨.binop (.op ':') m v, by simp, .itemEntry g h1 g2⟩

theorem v_entry_done {s1 p1 : List Token} {x : Node} (hw : w.1 = .op ':')
    (k1 : ∀ r2, Fits (.expr false) s1 r2 → Parses (.expr false) (p1 ++ r2) r2 x) : Viable (.elem .mapTuple) w p1 := by
  refine Viable.close [(.numberLiteral, c!"0")] (by decide) fun u us r h1 h2 hs hr => ?_
  obtain ⟨z, us, rfl, z1, z2, hs⟩ := spells_cons hs
  obtain rfl := spells_nil hs
  rw [hw] at h1
  obtain ⟨v, hv, g2⟩ := zero_expr z1 z2 false (r := r) hr
  exact ⟨.binop (.op ':') x v, by simp, .itemEntry (k1 _ (.inr (.inr (.inl (stops_op h1 (by simp [Stops])))))) h1 g2⟩

theorem v_entry_value {t : Token} {s1 p1 pre : List Token} {x : Node} (ht : t.type = .op ':')
    (k1 : ∀ r2, Fits (.expr false) (t :: s1) r2 → Parses (.expr false) (p1 ++ r2) r2 x)
    (h : Viable (.expression false) w pre) : Viable (.elem .mapTuple) w (p1 ++ t :: pre) := by
  refine h.extend [] (by simp) fun us1 us r hs hr k _ => ?_
  obtain rfl := spells_nil hs
  obtain ⟨m, hm, g⟩ := k r hr
  exact mk (by simpa [Meaning, itemOf] using Parses.itemEntry (k1 _ (fits_cons _ _ _ _)) ht g) (by simp)

theorem v_funCall {name : Str} {pre : List Token}
    (h : Viable (.list .tuple [] .expressionOrAssignment (.op ')')) w pre) : Viable (.funCall name) w pre := by
  refine h.extend [] (by simp) fun us1 us r hs hr k _ => ?_
  obtain rfl := spells_nil hs
  obtain ⟨m, hm, g0⟩ := k r trivial
  obtain ⟨xs, rfl, g⟩ := g0 (by simp)
  exact ⟨_, by simp, _, rfl, by simpa [itemOf] using g⟩

/-! ### Comprehensions -/

/-- A clause that is started by `for` has both meanings. -/
theorem compr_both {tree x : Node} {close : TokenType} {s s' : List Token} {n : Node} (hh : hd s = .kFor)
    (h : Parses (.clauses close x) s s' n) : Meaning (.comprFor tree x close) s s' n :=
  fun _ _ => ⟨fun _ => h, fun _ => .nextClause hh h⟩

theorem v_for {tree x : Node} {close : TokenType} (hc : Closer close) (hx : x ≠ .null) (hw : w.1 = close) :
    Viable (.comprFor tree x close) w [] := by
  refine Viable.close [] (by simp) fun u us r h1 h2 hs hr => ?_
  obtain rfl := spells_nil hs
  rw [hw] at h1
  refine ⟨x, hx, fun _ _ => ⟨fun h => ?_, fun _ => .lastClause h1 hc.ne_for⟩⟩
  simp only [List.nil_append, List.cons_append, hd, h1] at h
  exact absurd h hc.ne_for

theorem v_for_tuple {tree x : Node} {close : TokenType} {t p : Token} {pre : List Token} (hc : Closer close)
    (ht : t.type = .kFor) (hp : p.type = .op '(')
    (h : Viable (.list .tuple [] .optionalIdentifier (.op ')')) w pre) :
    Viable (.comprFor tree x close) w (t :: p :: pre) := by
  refine h.extend (inZero close) (inZero_simple hc) fun us1 us r hs hr k _ => ?_
  obtain ⟨i, us, rfl, i1, i2, hs⟩ := spells_cons hs
  obtain ⟨z, us, rfl, z1, z2, hs⟩ := spells_cons hs
  obtain ⟨u, us, rfl, h1, h2, hs⟩ := spells_cons hs
  obtain rfl := spells_nil hs
  obtain ⟨m, hm, g0⟩ := k (i :: z :: u :: r) trivial
  obtain ⟨xs, rfl, g⟩ := g0 (by simp)
  obtain ⟨v, g2, g3⟩ := zero_clause hc (r := r) z1 z2 h1 x (.list .tuple xs)
  refine ⟨_, by simp, compr_both (by simp [hd, ht]) (n := .binop .kFor x (.binop .kIn (.list .tuple xs) v)) ?_⟩
  simpa [Meaning] using Parses.forTuple ht hp g i1 g2 g3

theorem v_for_tuple_in {tree x : Node} {close : TokenType} {t p : Token} {s1 p1 : List Token} {vars : Node}
    (hc : Closer close) (ht : t.type = .kFor) (hp : p.type = .op '(') (hw : w.1 = .kIn)
    (k1 : ∀ r2, Fits (.items .tuple .variable (.op ')')) s1 r2 →
      Parses (.items .tuple .variable (.op ')')) (p1 ++ r2) r2 vars) :
    Viable (.comprFor tree x close) w (t :: p :: p1) := by
  refine Viable.close [(.numberLiteral, c!"0"), (close, closeText close)] ?_ fun i us r i1 i2 hs hr => ?_
  · intro w hw
    exact inZero_simple hc w (by simp [inZero] at hw ⊢; exact .inr hw)
  obtain ⟨z, us, rfl, z1, z2, hs⟩ := spells_cons hs
  obtain ⟨u, us, rfl, h1, h2, hs⟩ := spells_cons hs
  obtain rfl := spells_nil hs
  rw [hw] at i1
  obtain ⟨v, g2, g3⟩ := zero_clause hc (r := r) z1 z2 h1 x vars
  refine ⟨_, by simp, compr_both (by simp [hd, ht]) (n := .binop .kFor x (.binop .kIn vars v)) ?_⟩
  simpa [Meaning] using Parses.forTuple ht hp (k1 _ (.inr (.inl trivial))) i1 g2 g3

theorem v_for_tuple_values {tree x : Node} {close : TokenType} {t p i : Token} {s1 p1 pre : List Token} {vars : Node}
    (hc : Closer close) (ht : t.type = .kFor) (hp : p.type = .op '(') (hi : i.type = .kIn)
    (k1 : ∀ r2, Fits (.items .tuple .variable (.op ')')) s1 r2 →
      Parses (.items .tuple .variable (.op ')')) (p1 ++ r2) r2 vars)
    (h : Viable (.expression false) w pre) :
    Viable (.comprFor tree x close) w (t :: p :: (p1 ++ i :: pre)) := by
  refine h.extend [(close, closeText close)] (by simpa using hc.simple) fun us1 us r hs hr k _ => ?_
  obtain ⟨u, us, rfl, h1, h2, hs⟩ := spells_cons hs
  obtain rfl := spells_nil hs
  obtain ⟨v, hv, g⟩ := k (u :: r) (stops_op h1 hc.stops)
  refine ⟨_, by simp, compr_both (by simp [hd, ht]) (n := .binop .kFor x (.binop .kIn vars v)) ?_⟩
  simpa [Meaning] using Parses.forTuple ht hp (k1 _ (.inr (.inl trivial))) hi g (.lastClause h1 hc.ne_for)

theorem v_for_tuple_more {tree x : Node} {close : TokenType} {t p i : Token} {s1 p1 s2 p2 pre rest : List Token}
    {vars vals : Node}
    (hc : Closer close) (ht : t.type = .kFor) (hp : p.type = .op '(') (hi : i.type = .kIn)
    (k1 : ∀ r2, Fits (.items .tuple .variable (.op ')')) s1 r2 →
      Parses (.items .tuple .variable (.op ')')) (p1 ++ r2) r2 vars)
    (k2 : ∀ r2, Fits (.expr false) s2 r2 → Parses (.expr false) (p2 ++ r2) r2 vals) (hs2 : s2 = pre ++ rest)
    {h0 : TokenType}
    (h : Hope (.comprFor (.binop .kFor x (.binop .kIn vars vals)) (.binop .kFor x (.binop .kIn vars vals)) close) h0 w pre) :
    Viable (.comprFor tree x close) w (t :: p :: (p1 ++ i :: (p2 ++ pre))) := by
  refine h.viable.extend [] (by simp) fun us1 us r hs hr k hw => ?_
  obtain rfl := spells_nil hs
  obtain ⟨m, hm, g⟩ := k r trivial
  have g := (g hc.ne_eof hc.ne_for).2 rfl
  refine ⟨m, hm, compr_both (by simp [hd, ht]) ?_⟩
  simpa [Meaning] using Parses.forTuple ht hp (k1 _ (.inr (.inl trivial))) hi
    (k2 _ (fits_word hs2 hw fun h' => by rw [(h.begins h').2]; exact hc.stops)) g

theorem v_for_list {tree x : Node} {close : TokenType} {t : Token} {s pre rest : List Token} (hc : Closer close)
    (ht : t.type = .kFor) (hs0 : s = pre ++ rest) (hh : hd s ≠ .op '(') {h0 : TokenType}
    (h : Hope (.list .tuple [] .optionalIdentifier .kIn) h0 w pre) :
    Viable (.comprFor tree x close) w (t :: pre) := by
  refine h.viable.extend [(.numberLiteral, c!"0"), (close, closeText close)] ?_ fun us1 us r hs hr k hw => ?_
  · intro w hw
    exact inZero_simple hc w (by simp [inZero] at hw ⊢; exact .inr hw)
  obtain ⟨z, us, rfl, z1, z2, hs⟩ := spells_cons hs
  obtain ⟨u, us, rfl, h1, h2, hs⟩ := spells_cons hs
  obtain rfl := spells_nil hs
  obtain ⟨m, hm, g0⟩ := k (z :: u :: r) trivial
  obtain ⟨xs, rfl, g⟩ := g0 (by simp)
  obtain ⟨v, g2, g3⟩ := zero_clause hc (r := r) z1 z2 h1 x (.list .tuple xs)
  refine ⟨_, by simp, compr_both (by simp [hd, ht]) (n := .binop .kFor x (.binop .kIn (.list .tuple xs) v)) ?_⟩
  have hp : hd (pre ++ (us1 ++ (z :: u :: r))) ≠ .op '(' := hd_next (P := (· ≠ .op '(')) hs0 hh hw fun h' => by
    have := (h.begins h').2
    rw [if_pos rfl] at this
    rcases this with h | h <;> simp [h]
  simpa [Meaning] using Parses.forList ht hp g g2 g3

theorem v_for_list_values {tree x : Node} {close : TokenType} {t : Token} {s1 p1 pre : List Token} {vars : Node}
    (hc : Closer close) (ht : t.type = .kFor) (hn : p1 ≠ []) (hh : hd (p1 ++ s1) ≠ .op '(')
    (k1 : ∀ r2, Fits (.items .tuple .variable .kIn) s1 r2 →
      Parses (.items .tuple .variable .kIn) (p1 ++ r2) r2 vars)
    (h : Viable (.expression false) w pre) :
    Viable (.comprFor tree x close) w (t :: (p1 ++ pre)) := by
  refine h.extend [(close, closeText close)] (by simpa using hc.simple) fun us1 us r hs hr k _ => ?_
  obtain ⟨u, us, rfl, h1, h2, hs⟩ := spells_cons hs
  obtain rfl := spells_nil hs
  obtain ⟨v, hv, g⟩ := k (u :: r) (stops_op h1 hc.stops)
  refine ⟨_, by simp, compr_both (by simp [hd, ht]) (n := .binop .kFor x (.binop .kIn vars v)) ?_⟩
  simpa [Meaning] using Parses.forList ht (by rw [hd_app hn _ s1]; exact hh) (k1 _ (.inr (.inl trivial))) g
    (.lastClause h1 hc.ne_for)

theorem v_for_list_more {tree x : Node} {close : TokenType} {t : Token} {s1 p1 s2 p2 pre rest : List Token}
    {vars vals : Node}
    (hc : Closer close) (ht : t.type = .kFor) (hn1 : p1 ≠ []) (hh : hd (p1 ++ s1) ≠ .op '(')
    (k1 : ∀ r2, Fits (.items .tuple .variable .kIn) s1 r2 →
      Parses (.items .tuple .variable .kIn) (p1 ++ r2) r2 vars)
    (k2 : ∀ r2, Fits (.expr false) s2 r2 → Parses (.expr false) (p2 ++ r2) r2 vals) (hs2 : s2 = pre ++ rest)
    {h0 : TokenType}
    (h : Hope (.comprFor (.binop .kFor x (.binop .kIn vars vals)) (.binop .kFor x (.binop .kIn vars vals)) close) h0 w pre) :
    Viable (.comprFor tree x close) w (t :: (p1 ++ (p2 ++ pre))) := by
  refine h.viable.extend [] (by simp) fun us1 us r hs hr k hw => ?_
  obtain rfl := spells_nil hs
  obtain ⟨m, hm, g⟩ := k r trivial
  have g := (g hc.ne_eof hc.ne_for).2 rfl
  refine ⟨m, hm, compr_both (by simp [hd, ht]) ?_⟩
  simpa [Meaning] using Parses.forList ht (by rw [hd_app hn1 _ s1]; exact hh) (k1 _ (.inr (.inl trivial)))
    (k2 _ (fits_word hs2 hw fun h' => by rw [(h.begins h').2]; exact hc.stops)) g

/-! ### Statements -/

theorem v_statements {acc : List Node} (hw : w.1 = .identifier) : Viable (.statements acc) w [] := by
  refine Viable.close [(.op '=', c!"="), (.numberLiteral, c!"0")] (by decide) fun t us r ht h2 hs hr => ?_
  obtain ⟨u, us, rfl, h1, h2, hs⟩ := spells_cons hs
  obtain ⟨z, us, rfl, z1, z2, hs⟩ := spells_cons hs
  obtain rfl := spells_nil hs
  obtain rfl : r = [] := hr
  obtain ⟨v, hv, g2⟩ := zero_expr z1 z2 false (r := []) (by simp [hd, Stops])
  exact ⟨.list .list (acc ++ [_]), by simp, [_], rfl, rfl, by
    simpa [Meaning] using Parses.assign (ht.trans hw) h1 g2 .endOfFile⟩

theorem v_doc {acc : List Node} {t : Token} {pre : List Token} (ht : t.type = .stringLiteral)
    (h : Viable (.statements acc) w pre) : Viable (.statements acc) w (t :: pre) := by
  refine h.extend [] (by simp) fun us1 us r hs hr k _ => ?_
  obtain rfl := spells_nil hs
  obtain rfl : r = [] := hr
  obtain ⟨m, hm, xs, rfl, _, g⟩ := k [] rfl
  exact ⟨_, hm, xs, rfl, rfl, by simpa [Meaning] using Parses.docString ht g⟩

/-- After a statement. -/
theorem v_next {acc : List Node} {st : Node} {p1 pre : List Token} {h0 : TokenType}
    (k : ∀ r xs, (pre = [] → hd r = .identifier) → (∀ t ps, pre = t :: ps → r.head? = some t) →
      Parses .program r [] (.list .list xs) → Parses .program (p1 ++ r) [] (.list .list (st :: xs)))
    (h : Hope (.statements (acc ++ [st])) h0 w pre) : Viable (.statements acc) w (p1 ++ pre) := by
  refine h.viable.extend [] (by simp) fun us1 us r hs hr kk hw => ?_
  obtain rfl := spells_nil hs
  obtain rfl : r = [] := hr
  obtain ⟨m, hm, xs, rfl, _, g⟩ := kk [] rfl
  refine ⟨_, hm, st :: xs, by simp, rfl, ?_⟩
  have := k (pre ++ (us1 ++ [])) xs (fun h' => by subst h'; rw [List.nil_append, hw]; exact h.begins rfl)
    (by rintro t ps rfl; simp) g
  simpa using this

theorem fits_next {nt : NT} {s1 pre rest r : List Token} (hs : s1 = pre ++ rest) (h1 : pre = [] → hd r = .identifier)
    (h2 : ∀ t ps, pre = t :: ps → r.head? = some t)
    (hl : Loose nt ∨ SelfClosed nt := by simp [Loose, SelfClosed]) : Fits nt s1 r := by
  cases pre with
  | nil =>
    rcases hl with hl | hl
    · exact .inr (.inr (.inr (.inr ⟨hl, .inl (h1 rfl)⟩)))
    · exact .inr (.inl hl)
  | cons t ps => exact .inl (by rw [hs, h2 t ps rfl]; rfl)

theorem v_list_statement {acc : List Node} {t : Token} {pre : List Token} (ht : t.type = .op '[')
    (h : Viable (.listOrCompr .list .expression) w pre) : Viable (.statements acc) w (t :: pre) := by
  refine h.extend [] (by simp) fun us1 us r hs hr k _ => ?_
  obtain rfl := spells_nil hs
  obtain rfl : r = [] := hr
  obtain ⟨m, hm, g⟩ := k [] trivial
  exact ⟨.list .list (acc ++ [m]), by simp, [m], rfl, rfl, by
    simpa [Meaning] using Parses.listStatement ht (g (by simp)) .endOfFile⟩

theorem v_tuple_list {acc : List Node} {t : Token} {pre : List Token} (ht : t.type = .op '(')
    (h : Viable (.list .tuple [] .optionalIdentifier (.op ')')) w pre) : Viable (.statements acc) w (t :: pre) := by
  refine h.extend [(.op '=', c!"="), (.numberLiteral, c!"0")] (by decide) fun us1 us r hs hr k _ => ?_
  obtain ⟨u, us, rfl, h1, h2, hs⟩ := spells_cons hs
  obtain ⟨z, us, rfl, z1, z2, hs⟩ := spells_cons hs
  obtain rfl := spells_nil hs
  obtain rfl : r = [] := hr
  obtain ⟨m, hm, g0⟩ := k [u, z] trivial
  obtain ⟨xs, rfl, g⟩ := g0 (by simp)
  obtain ⟨v, hv, g2⟩ := zero_expr z1 z2 false (r := []) (by simp [hd, Stops])
  exact ⟨.list .list (acc ++ [_]), by simp, [_], rfl, rfl, by
    simpa [Meaning] using Parses.tupleAssign ht g h1 g2 .endOfFile⟩

theorem v_tuple_assign {acc : List Node} {t : Token} {s1 p1 : List Token} {lhs : Node} (ht : t.type = .op '(')
    (hw : w.1 = .op '=')
    (k1 : ∀ r2, Fits (.items .tuple .variable (.op ')')) s1 r2 →
      Parses (.items .tuple .variable (.op ')')) (p1 ++ r2) r2 lhs) : Viable (.statements acc) w (t :: p1) := by
  refine Viable.close [(.numberLiteral, c!"0")] (by decide) fun u us r h1 h2 hs hr => ?_
  obtain ⟨z, us, rfl, z1, z2, hs⟩ := spells_cons hs
  obtain rfl := spells_nil hs
  obtain rfl : r = [] := hr
  rw [hw] at h1
  obtain ⟨v, hv, g2⟩ := zero_expr z1 z2 false (r := []) (by simp [hd, Stops])
  exact ⟨.list .list (acc ++ [_]), by simp, [_], rfl, rfl, by
    simpa [Meaning] using Parses.tupleAssign ht (k1 _ (.inr (.inl trivial))) h1 g2 .endOfFile⟩

theorem v_tuple_rhs {acc : List Node} {t e : Token} {s1 p1 pre : List Token} {lhs : Node} (ht : t.type = .op '(')
    (he : e.type = .op '=')
    (k1 : ∀ r2, Fits (.items .tuple .variable (.op ')')) s1 r2 →
      Parses (.items .tuple .variable (.op ')')) (p1 ++ r2) r2 lhs)
    (h : Viable (.expression false) w pre) : Viable (.statements acc) w (t :: (p1 ++ e :: pre)) := by
  refine h.extend [] (by simp) fun us1 us r hs hr k _ => ?_
  obtain rfl := spells_nil hs
  obtain rfl : r = [] := hr
  obtain ⟨m, hm, g⟩ := k [] (by simp [Ends, hd, Stops])
  exact ⟨.list .list (acc ++ [_]), by simp, [_], rfl, rfl, by
    simpa [Meaning] using Parses.tupleAssign ht (k1 _ (.inr (.inl trivial))) he g .endOfFile⟩

theorem v_ident {acc : List Node} {t : Token} (ht : t.type = .identifier) (hw : w.1 = .op '=') :
    Viable (.statements acc) w [t] := by
  refine Viable.close [(.numberLiteral, c!"0")] (by decide) fun u us r h1 h2 hs hr => ?_
  obtain ⟨z, us, rfl, z1, z2, hs⟩ := spells_cons hs
  obtain rfl := spells_nil hs
  obtain rfl : r = [] := hr
  rw [hw] at h1
  obtain ⟨v, hv, g2⟩ := zero_expr z1 z2 false (r := []) (by simp [hd, Stops])
  exact ⟨.list .list (acc ++ [_]), by simp, [_], rfl, rfl, by simpa [Meaning] using Parses.assign ht h1 g2 .endOfFile⟩

theorem v_ident_paren {acc : List Node} {t : Token} (ht : t.type = .identifier) (hw : w.1 = .op '(') :
    Viable (.statements acc) w [t] := by
  refine Viable.close [(.op ')', c!")")] (by decide) fun u us r h1 h2 hs hr => ?_
  obtain ⟨z, us, rfl, z1, z2, hs⟩ := spells_cons hs
  obtain rfl := spells_nil hs
  obtain rfl : r = [] := hr
  rw [hw] at h1
  exact ⟨.list .list (acc ++ [_]), by simp, [_], rfl, rfl, by
    simpa [Meaning] using Parses.rule ht h1 (.itemsEnd z1) .endOfFile⟩

theorem v_assign {acc : List Node} {t e : Token} {pre : List Token} (ht : t.type = .identifier)
    (he : e.type = .op '=') (h : Viable (.expression false) w pre) : Viable (.statements acc) w (t :: e :: pre) := by
  refine h.extend [] (by simp) fun us1 us r hs hr k _ => ?_
  obtain rfl := spells_nil hs
  obtain rfl : r = [] := hr
  obtain ⟨m, hm, g⟩ := k [] (by simp [Ends, hd, Stops])
  exact ⟨.list .list (acc ++ [_]), by simp, [_], rfl, rfl, by simpa [Meaning] using Parses.assign ht he g .endOfFile⟩

theorem v_rule {acc : List Node} {t e : Token} {pre : List Token} (ht : t.type = .identifier)
    (he : e.type = .op '(') (h : Viable (.funCall t.text) w pre) : Viable (.statements acc) w (t :: e :: pre) := by
  refine h.extend [] (by simp) fun us1 us r hs hr k _ => ?_
  obtain rfl := spells_nil hs
  obtain rfl : r = [] := hr
  obtain ⟨m, hm, args, rfl, g⟩ := k [] trivial
  exact ⟨.list .list (acc ++ [_]), by simp, [_], rfl, rfl, by simpa [Meaning] using Parses.rule ht he g .endOfFile⟩

theorem v_method {acc : List Node} {t e : Token} {pre : List Token} (ht : t.type = .identifier)
    (he : e.type = .op '.') (h : Viable (.expression false) w pre) : Viable (.statements acc) w (t :: e :: pre) := by
  refine h.extend [] (by simp) fun us1 us r hs hr k _ => ?_
  obtain rfl := spells_nil hs
  obtain rfl : r = [] := hr
  obtain ⟨m, hm, g⟩ := k [] (by simp [Ends, hd, Stops])
  exact ⟨.list .list (acc ++ [_]), by simp, [_], rfl, rfl, by simpa [Meaning] using Parses.method ht he g .endOfFile⟩

end Parser
end Bant
