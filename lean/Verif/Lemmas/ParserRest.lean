import Verif.Lemmas.ParserFile

/-! What follows a phrase can be replaced. -/
namespace Bant
namespace Parser
open Grammar

/-- Tokens that end an expression. -/
def Stops (t : TokenType) : Prop := t ∈ [.eof, .op ')', .op ']', .op '}', .op ',', .op ':', .kFor]

/-- Phrases with an end token of their own. -/
def SelfClosed : NT → Prop
  | .paren | .tupleTail | .index | .bracket .. | .items .. | .clauses .. | .moreClauses .. => True
  | _ => False

/-- What begins a new statement if it follows a phrase. -/
def Anew (t : TokenType) : Prop := t = .identifier ∨ t = .stringLiteral

/-- Phrases that are also ended by an identifier or a string. -/
def Loose : NT → Prop
  | .expr opt => opt = false
  | .cont _ | .atom => True
  | .item i => i ≠ .variable
  | _ => False

/-- `r2` can be put in place of what follows a phrase. -/
def Fits (nt : NT) (r1 r2 : List Token) : Prop :=
  r1.head? = r2.head? ∨ SelfClosed nt ∨ Stops (hd r2) ∨ (nt = .item .variable ∧ hd r2 ≠ .identifier) ∨
    (Loose nt ∧ Anew (hd r2))

/-- Phrases that are not empty. -/
def Filled (nt : NT) (n : Node) : Prop :=
  match nt with
  | .expr opt => opt = false ∨ n ≠ .null
  | .cont _ => False
  | .item .variable => n ≠ .null
  | _ => True

theorem hd_of_head {r1 r2 : List Token} (h : r1.head? = r2.head?) : hd r1 = hd r2 := by
  cases r1 <;> cases r2 <;> simp_all [hd]

theorem continues_of_head {r1 r2 : List Token} (h : r1.head? = r2.head?) (hc : continues r2) :
    continues r1 := by
  obtain ⟨t, r, rfl, ht⟩ := hc
  cases r1 with
  | nil => simp at h
  | cons u r1 => simp at h; subst h; exact ⟨u, r1, rfl, ht⟩

theorem stops_not_continues {r : List Token} (h : Stops (hd r)) : ¬ continues r := by
  rintro ⟨t, r, rfl, ht⟩
  simp only [Stops, hd, List.mem_cons, List.not_mem_nil, or_false] at h
  rcases h with h | h | h | h | h | h | h <;> simp [h, binary] at ht

theorem anew_not_continues {r : List Token} (h : Anew (hd r)) : ¬ continues r := by
  rintro ⟨t, r, rfl, ht⟩
  rcases h with h | h <;> simp only [hd] at h <;> simp [h, binary] at ht

theorem stops_not_starts {t : TokenType} (h : Stops t) : ¬ startsExpr t := by
  simp only [Stops, List.mem_cons, List.not_mem_nil, or_false] at h
  rcases h with h | h | h | h | h | h | h <;> simp [h, startsExpr]

theorem stops_ne {t u : TokenType} (h : Stops t) (hu : ¬ Stops u) : t ≠ u := fun e => hu (e ▸ h)

theorem hd_mid (p : List Token) (t : Token) (x y : List Token) : hd (p ++ t :: x) = hd (p ++ t :: y) := by
  cases p <;> simp [hd]

theorem hd_app {p : List Token} (h : p ≠ []) (x y : List Token) : hd (p ++ x) = hd (p ++ y) := by
  cases p with
  | nil => exact absurd rfl h
  | cons t p => simp [hd]

theorem fits_mid (nt : NT) (q : List Token) (hq : q ≠ []) (x y : List Token) : Fits nt (q ++ x) (q ++ y) := by
  cases q with
  | nil => exact absurd rfl hq
  | cons t q => exact .inl rfl

theorem fits_cons (nt : NT) (t : Token) (x y : List Token) : Fits nt (t :: x) (t :: y) := .inl rfl

/-- Fits for phrases that are neither closed nor variables; `b`: also with what begins a statement. -/
def Fits0 (b : Bool) (r1 r2 : List Token) : Prop :=
  r1.head? = r2.head? ∨ Stops (hd r2) ∨ (b = true ∧ Anew (hd r2))

theorem Fits0.fits {nt : NT} {b : Bool} {r1 r2 : List Token} (h : Fits0 b r1 r2)
    (hb : b = true → Loose nt ∨ SelfClosed nt := by simp [Loose, SelfClosed]) : Fits nt r1 r2 := by
  rcases h with h | h | h
  · exact .inl h
  · exact .inr (.inr (.inl h))
  · rcases hb h.1 with h' | h'
    · exact .inr (.inr (.inr (.inr ⟨h', h.2⟩)))
    · exact .inr (.inl h')

theorem Fits0.app {b : Bool} {r1 r2 : List Token} (h : Fits0 b r1 r2) (q : List Token) :
    Fits0 b (q ++ r1) (q ++ r2) := by
  cases q with
  | nil => exact h
  | cons t q => exact .inl rfl

theorem fits0_expr {opt : Bool} {r1 r2 : List Token} (h : Fits (.expr opt) r1 r2) : Fits0 (!opt) r1 r2 := by
  rcases h with h | h | h | h | h
  · exact .inl h
  · cases h
  · exact .inr (.inl h)
  · cases h.1
  · exact .inr (.inr ⟨by simpa [Loose] using h.1, h.2⟩)
theorem fits0_cont {n : Node} {r1 r2 : List Token} (h : Fits (.cont n) r1 r2) : Fits0 true r1 r2 := by
  rcases h with h | h | h | h | h
  · exact .inl h
  · cases h
  · exact .inr (.inl h)
  · cases h.1
  · exact .inr (.inr ⟨by simpa [Loose] using h.1, h.2⟩)
theorem fits0_atom {r1 r2 : List Token} (h : Fits (.atom) r1 r2) : Fits0 true r1 r2 := by
  rcases h with h | h | h | h | h
  · exact .inl h
  · cases h
  · exact .inr (.inl h)
  · cases h.1
  · exact .inr (.inr ⟨by simpa [Loose] using h.1, h.2⟩)
theorem fits0_item {i : Item} (hi : i ≠ .variable) {r1 r2 : List Token} (h : Fits (.item i) r1 r2) : Fits0 true r1 r2 := by
  rcases h with h | h | h | h | h
  · exact .inl h
  · cases h
  · exact .inr (.inl h)
  · cases h.1; exact absurd rfl hi
  · exact .inr (.inr ⟨by simpa [Loose] using h.1, h.2⟩)

theorem Fits0.ne {b : Bool} {r1 r2 : List Token} (h : Fits0 b r1 r2) {u : TokenType}
    (hu : ¬ Stops u ∧ ¬ Anew u) (h1 : hd r1 ≠ u) : hd r2 ≠ u := by
  rcases h with h | h | h
  · rwa [← hd_of_head h]
  · exact stops_ne h hu.1
  · exact fun e => hu.2 (e ▸ h.2)

/-- The phrase and what can follow it. -/
def Replace (nt : NT) (s s' : List Token) (n : Node) : Prop :=
  ∃ p, s = p ++ s' ∧ (Filled nt n → p ≠ []) ∧ ∀ r2, Fits nt s' r2 → Parses nt (p ++ r2) r2 n

local macro "nst" : tactic => `(tactic| simp [Stops, Anew])

theorem replace {nt : NT} {s s' : List Token} {n : Node} (h : Parses nt s s' n) (hp : nt ≠ .program) :
    Replace nt s s' n := by
  induction h with
  | missing h =>
    refine ⟨[], rfl, by simp [Filled], fun r2 hf => .missing ?_⟩
    rcases fits0_expr hf with hf | hf | hf
    · simpa [← hd_of_head hf] using h
    · exact stops_not_starts hf
    · simp at hf
  | @unary opt t s s1 s2 e n ht h1 h2 ih1 ih2 =>
    obtain ⟨p1, rfl, c1, k1⟩ := ih1 (by simp)
    obtain ⟨p2, rfl, c2, k2⟩ := ih2 (by simp)
    refine ⟨t :: (p1 ++ p2), by simp, by simp, fun r2 hf => ?_⟩
    have hf := fits0_expr hf
    simpa using Parses.unary ht (k1 _ (hf.app p2).fits) (k2 _ hf.fits)
  | @parenthesis opt t s s1 s2 e n ht h1 h2 ih1 ih2 =>
    obtain ⟨p1, rfl, c1, k1⟩ := ih1 (by simp)
    obtain ⟨p2, rfl, c2, k2⟩ := ih2 (by simp)
    refine ⟨t :: (p1 ++ p2), by simp, by simp, fun r2 hf => ?_⟩
    have hf := fits0_expr hf
    simpa using Parses.parenthesis ht (k1 _ (hf.app p2).fits) (k2 _ hf.fits)
  | @operand opt s s1 s2 e n h1 h2 ih1 ih2 =>
    obtain ⟨p1, rfl, c1, k1⟩ := ih1 (by simp)
    obtain ⟨p2, rfl, c2, k2⟩ := ih2 (by simp)
    refine ⟨p1 ++ p2, by simp, fun _ => by simp [c1 trivial], fun r2 hf => ?_⟩
    have hf := fits0_expr hf
    simpa using Parses.operand (k1 _ (hf.app p2).fits) (k2 _ hf.fits)
  | stop h =>
    refine ⟨[], rfl, by simp [Filled], fun r2 hf => .stop ?_⟩
    rcases fits0_cont hf with hf | hf | hf
    · exact fun hc => h (continues_of_head hf hc)
    · exact stops_not_continues hf
    · exact anew_not_continues hf.2
  | @ifOnly n t s s1 c ht h1 he ih1 =>
    obtain ⟨p1, rfl, c1, k1⟩ := ih1 (by simp)
    refine ⟨t :: p1, by simp, by simp, fun r2 hf => ?_⟩
    have hf := fits0_cont hf
    simpa using Parses.ifOnly ht (k1 _ hf.fits) (hf.ne (by nst) he)
  | @ifElse n t u s s1 s2 c e ht h1 hu h2 ih1 ih2 =>
    obtain ⟨p1, rfl, c1, k1⟩ := ih1 (by simp)
    obtain ⟨p2, rfl, c2, k2⟩ := ih2 (by simp)
    refine ⟨t :: (p1 ++ u :: p2), by simp, by simp, fun r2 hf => ?_⟩
    have hf := fits0_cont hf
    simpa using Parses.ifElse ht (k1 _ (fits_cons _ _ _ _)) hu (k2 _ hf.fits)
  | @binary n t s s1 r ht h1 ih1 =>
    obtain ⟨p1, rfl, c1, k1⟩ := ih1 (by simp)
    refine ⟨t :: p1, by simp, by simp, fun r2 hf => ?_⟩
    have hf := fits0_cont hf
    simpa using Parses.binary ht (k1 _ hf.fits)
  | @indexed n t s s1 s2 i r ht hn h1 h2 ih1 ih2 =>
    obtain ⟨p1, rfl, c1, k1⟩ := ih1 (by simp)
    obtain ⟨p2, rfl, c2, k2⟩ := ih2 (by simp)
    refine ⟨t :: (p1 ++ p2), by simp, by simp, fun r2 hf => ?_⟩
    have hf := fits0_cont hf
    simpa using Parses.indexed ht hn (k1 _ (hf.app p2).fits) (k2 _ hf.fits)
  | @at_ t s s1 i h1 hi ht ih1 =>
    obtain ⟨p1, rfl, c1, k1⟩ := ih1 (by simp)
    refine ⟨p1 ++ [t], by simp, by simp, fun r2 hf => ?_⟩
    simpa using Parses.at_ (k1 _ (fits_cons _ _ _ _)) hi ht
  | @slice t u s s1 s2 a b h1 ht h2 hu hab ih1 ih2 =>
    obtain ⟨p1, rfl, c1, k1⟩ := ih1 (by simp)
    obtain ⟨p2, rfl, c2, k2⟩ := ih2 (by simp)
    refine ⟨p1 ++ t :: (p2 ++ [u]), by simp, by simp, fun r2 hf => ?_⟩
    simpa using Parses.slice (k1 _ (fits_cons _ _ _ _)) ht (k2 _ (fits_cons _ u _ _)) hu hab
  | @string t s n ht hn => exact ⟨[t], by simp, by simp, fun r2 hf => .string ht hn⟩
  | @number t s n ht hn => exact ⟨[t], by simp, by simp, fun r2 hf => .number ht hn⟩
  | @name t s ht hn =>
    exact ⟨[t], by simp, by simp, fun r2 hf => .name ht ((fits0_atom hf).ne (by nst) hn)⟩
  | @call t u s s1 args ht hu h1 ih1 =>
    obtain ⟨p1, rfl, c1, k1⟩ := ih1 (by simp)
    exact ⟨t :: u :: p1, by simp, by simp, fun r2 hf => .call ht hu (k1 _ (.inr (.inl trivial)))⟩
  | @list t s s1 n ht h1 ih1 =>
    obtain ⟨p1, rfl, c1, k1⟩ := ih1 (by simp)
    exact ⟨t :: p1, by simp, by simp, fun r2 hf => .list ht (k1 _ (.inr (.inl trivial)))⟩
  | @map t s s1 n ht h1 ih1 =>
    obtain ⟨p1, rfl, c1, k1⟩ := ih1 (by simp)
    exact ⟨t :: p1, by simp, by simp, fun r2 hf => .map ht (k1 _ (.inr (.inl trivial)))⟩
  | @grouped t s s1 e h1 he ht ih1 =>
    obtain ⟨p1, rfl, c1, k1⟩ := ih1 (by simp)
    refine ⟨p1 ++ [t], by simp, by simp, fun r2 hf => ?_⟩
    simpa using Parses.grouped (k1 _ (fits_cons _ _ _ _)) he ht
  | @emptyTuple t s s1 h1 ht ih1 =>
    obtain ⟨p1, rfl, c1, k1⟩ := ih1 (by simp)
    refine ⟨p1 ++ [t], by simp, by simp, fun r2 hf => ?_⟩
    simpa using Parses.emptyTuple (k1 _ (fits_cons _ _ _ _)) ht
  | @tuple s s1 s2 e xs h1 he hd1 h2 ih1 ih2 =>
    obtain ⟨p1, rfl, c1, k1⟩ := ih1 (by simp)
    obtain ⟨p2, rfl, c2, k2⟩ := ih2 (by simp)
    have c2 := c2 trivial
    refine ⟨p1 ++ p2, by simp, by simp [c2], fun r2 hf => ?_⟩
    simpa using Parses.tuple (k1 _ (fits_mid _ _ c2 _ _)) he (by rw [hd_app c2 _ s2]; exact hd1)
      (k2 _ (.inr (.inl trivial)))
  | @tupleEnd t s ht => exact ⟨[t], by simp, by simp, fun r2 hf => .tupleEnd ht⟩
  | @tupleComma t u s ht hu => exact ⟨[t, u], by simp, by simp, fun r2 hf => .tupleComma ht hu⟩
  | @tupleNext t s s1 s2 e xs ht hn h1 h2 ih1 ih2 =>
    obtain ⟨p1, rfl, c1, k1⟩ := ih1 (by simp)
    obtain ⟨p2, rfl, c2, k2⟩ := ih2 (by simp)
    have c1 := c1 (.inl rfl)
    have c2 := c2 trivial
    refine ⟨t :: (p1 ++ p2), by simp, by simp, fun r2 hf => ?_⟩
    simpa using Parses.tupleNext ht (by rwa [hd_app c1 _ (p2 ++ s2)]) (k1 _ (fits_mid _ _ c2 _ _))
      (k2 _ (.inr (.inl trivial)))
  | @emptyBracket ty i t s ht => exact ⟨[t], by simp, by simp, fun r2 hf => .emptyBracket ht⟩
  | @comprehension ty i s s1 s2 x f hc h1 hx hd1 h2 ih1 ih2 =>
    obtain ⟨p1, rfl, c1, k1⟩ := ih1 (by simp)
    obtain ⟨p2, rfl, c2, k2⟩ := ih2 (by simp)
    have c2 := c2 trivial
    refine ⟨p1 ++ p2, by simp, by simp [c2], fun r2 hf => ?_⟩
    obtain ⟨u, p2, rfl⟩ := List.exists_cons_of_ne_nil c2
    simpa using Parses.comprehension (by simpa [hd_mid p1 u _ (p2 ++ s2)] using hc)
      (k1 _ (fits_mid _ _ c2 _ _)) hx (by simpa [hd] using hd1) (k2 r2 (.inr (.inl trivial)))
  | @bracketOne ty i t s s1 x hc h1 hx ht ih1 =>
    obtain ⟨p1, rfl, c1, k1⟩ := ih1 (by simp)
    refine ⟨p1 ++ [t], by simp, by simp, fun r2 hf => ?_⟩
    simpa using Parses.bracketOne (by simpa [hd_mid p1 t _ s1] using hc) (k1 _ (fits_cons _ t _ _)) hx ht
  | @bracketMore ty i t s s1 s2 x xs hc h1 hx ht h2 ih1 ih2 =>
    obtain ⟨p1, rfl, c1, k1⟩ := ih1 (by simp)
    obtain ⟨p2, rfl, c2, k2⟩ := ih2 (by simp)
    refine ⟨p1 ++ t :: p2, by simp, by simp, fun r2 hf => ?_⟩
    simpa using Parses.bracketMore (by simpa [hd_mid p1 t _ (p2 ++ s2)] using hc) (k1 _ (fits_cons _ t _ _))
      hx ht (k2 r2 (.inr (.inl trivial)))
  | @itemsEnd ty i close t s ht => exact ⟨[t], by simp, by simp, fun r2 hf => .itemsEnd ht⟩
  | @itemsLast ty i close t s s1 x hc h1 ht ih1 =>
    obtain ⟨p1, rfl, c1, k1⟩ := ih1 (by simp)
    refine ⟨p1 ++ [t], by simp, by simp, fun r2 hf => ?_⟩
    simpa using Parses.itemsLast (by simpa [hd_mid p1 t _ s1] using hc) (k1 _ (fits_cons _ t _ _)) ht
  | @itemsMore ty i close t s s1 s2 x xs hc h1 ht h2 ih1 ih2 =>
    obtain ⟨p1, rfl, c1, k1⟩ := ih1 (by simp)
    obtain ⟨p2, rfl, c2, k2⟩ := ih2 (by simp)
    refine ⟨p1 ++ t :: p2, by simp, by simp, fun r2 hf => ?_⟩
    simpa using Parses.itemsMore (by simpa [hd_mid p1 t _ (p2 ++ s2)] using hc) (k1 _ (fits_cons _ t _ _))
      ht (k2 r2 (.inr (.inl trivial)))
  | @itemValue s s1 n h1 ih1 =>
    obtain ⟨p1, rfl, c1, k1⟩ := ih1 (by simp)
    exact ⟨p1, rfl, fun _ => c1 (.inl rfl), fun r2 hf => .itemValue (k1 _ (fits0_item (by simp) hf).fits)⟩
  | @itemArgument s s1 n h1 hn hk ih1 =>
    obtain ⟨p1, rfl, c1, k1⟩ := ih1 (by simp)
    refine ⟨p1, rfl, fun _ => c1 (.inl rfl), fun r2 hf => .itemArgument (k1 _ (fits0_item (by simp) hf).fits) hn ?_⟩
    intro hx
    exact (fits0_item (by simp) hf).ne (by nst) (fun he => hk ⟨hx.1, he⟩) hx.2
  | @itemKeyword s t s1 s2 i n h1 ht h2 ih1 ih2 =>
    obtain ⟨p1, rfl, c1, k1⟩ := ih1 (by simp)
    obtain ⟨p2, rfl, c2, k2⟩ := ih2 (by simp)
    refine ⟨p1 ++ t :: p2, by simp, by simp, fun r2 hf => ?_⟩
    simpa using Parses.itemKeyword (k1 _ (fits_cons _ _ _ _)) ht (k2 _ (fits0_item (by simp) hf).fits)
  | @itemEntry s t s1 s2 k v h1 ht h2 ih1 ih2 =>
    obtain ⟨p1, rfl, c1, k1⟩ := ih1 (by simp)
    obtain ⟨p2, rfl, c2, k2⟩ := ih2 (by simp)
    refine ⟨p1 ++ t :: p2, by simp, by simp, fun r2 hf => ?_⟩
    simpa using Parses.itemEntry (k1 _ (fits_cons _ _ _ _)) ht (k2 _ (fits0_item (by simp) hf).fits)
  | @itemVariable t s ht => exact ⟨[t], by simp, by simp, fun r2 hf => .itemVariable ht⟩
  | @itemNothing s h =>
    refine ⟨[], rfl, by simp [Filled], fun r2 hf => .itemNothing ?_⟩
    rcases hf with hf | hf | hf | hf | hf
    · simpa [← hd_of_head hf] using h
    · cases hf
    · exact stops_ne hf (by nst)
    · exact hf.2
    · simp [Loose] at hf
  | @forTuple close x t p i s s1 s2 s3 vars vals f ht hpp h1 hi h2 h3 ih1 ih2 ih3 =>
    obtain ⟨p1, rfl, c1, k1⟩ := ih1 (by simp)
    obtain ⟨p2, rfl, c2, k2⟩ := ih2 (by simp)
    obtain ⟨p3, rfl, c3, k3⟩ := ih3 (by simp)
    have c3 := c3 trivial
    refine ⟨t :: p :: (p1 ++ i :: (p2 ++ p3)), by simp, by simp, fun r2 hf => ?_⟩
    simpa using Parses.forTuple ht hpp (k1 _ (fits_cons _ _ _ _)) hi (k2 _ (fits_mid _ _ c3 _ _))
      (k3 r2 (.inr (.inl trivial)))
  | @forList close x t s s1 s2 s3 vars vals f ht hh h1 h2 h3 ih1 ih2 ih3 =>
    obtain ⟨p1, rfl, c1, k1⟩ := ih1 (by simp)
    obtain ⟨p2, rfl, c2, k2⟩ := ih2 (by simp)
    obtain ⟨p3, rfl, c3, k3⟩ := ih3 (by simp)
    have c1 := c1 trivial
    have c3 := c3 trivial
    refine ⟨t :: (p1 ++ (p2 ++ p3)), by simp, by simp, fun r2 hf => ?_⟩
    simpa using Parses.forList ht (by rwa [hd_app c1 _ (p2 ++ (p3 ++ s3))]) (k1 _ (.inr (.inl trivial)))
      (k2 _ (fits_mid _ _ c3 _ _)) (k3 r2 (.inr (.inl trivial)))
  | @nextClause close tree s s1 f hh h1 ih1 =>
    obtain ⟨p1, rfl, c1, k1⟩ := ih1 (by simp)
    have c1 := c1 trivial
    exact ⟨p1, rfl, fun _ => c1, fun r2 hf => .nextClause (by rwa [hd_app c1 _ s1]) (k1 _ (.inr (.inl trivial)))⟩
  | @lastClause close tree t s ht hc => exact ⟨[t], by simp, by simp, fun r2 hf => .lastClause ht hc⟩
  | endOfFile => exact absurd rfl hp
  | docString => exact absurd rfl hp
  | listStatement => exact absurd rfl hp
  | tupleAssign => exact absurd rfl hp
  | assign => exact absurd rfl hp
  | rule => exact absurd rfl hp
  | method => exact absurd rfl hp

end Parser
end Bant
