import Verif.Lemmas.ScannerShape
import Verif.Props.LineCol

/-!
C10 (nothing lost), C11 (termination, end of file, peeking), C12 (line numbers), C13 (word
boundaries), C52 (token classes).
-/
namespace Bant.Props
open Scanner

/-! ## C10 -/

/-- C10 and C11 (termination): every content is tiled by the tokens that are delivered, and
the end of the file is reached after at most one request per byte plus one. -/
theorem C10_lossless (content : Str) :
    ∃ n, n ≤ content.length + 1 ∧
      Tiled 0 content (deliver n (Scanner.init content)).1 := by
  obtain ⟨m, ts, h1, h2, h3⟩ := deliver_tiled (content.length + 1) (Scanner.init content) rfl
    (by simp [Scanner.init])
  exact ⟨m, h1, by rw [h2]; exact h3⟩

/-- C10: a tiling determines the text from gaps and tokens, and the tokens are found at the
place they claim. -/
theorem C10_tokens_are_pieces (content : Str) (n : Nat) :
    ∀ t ∈ (deliver n (Scanner.init content)).1,
      t.text = (content.drop t.start).take t.text.length := by
  suffices H : ∀ (n : Nat) (s : Scanner) (c : Str), s.upcoming = none → content = c ++ s.rest →
      s.pos = c.length → ∀ t ∈ (deliver n s).1, t.text = (content.drop t.start).take t.text.length by
    exact H n (Scanner.init content) [] rfl (by simp [Scanner.init]) (by simp [Scanner.init])
  intro n
  induction n with
  | zero => simp [deliver]
  | succ n ih =>
    intro s c hup hc hp t ht
    obtain ⟨⟨g, hg⟩, hup'⟩ := next_ok hup
    simp only [deliver, List.mem_cons] at ht
    rcases ht with rfl | ht
    · rw [hg.start, hp, hc, hg.text, ← List.append_assoc, ← List.length_append, List.drop_left,
        List.take_left]
    · refine ih (next s).2 (c ++ (g ++ (next s).1.text)) hup' ?_ ?_ t ht
      · rw [hc, hg.text]; simp
      · rw [hg.hpos, hg.start, hp]; simp; omega

/-- A non-trivial tiling: a comment, a string with an escaped quote, a number. -/
example : (deliver 6 (Scanner.init c!"# c\nx = \"a\\\"\" +1")).1.map (fun t => (t.type, t.text)) =
    [(.identifier, c!"x"), (.op '=', c!"="), (.stringLiteral, c!"\"a\\\"\""), (.op '+', c!"+"),
     (.numberLiteral, c!"1"), (.eof, c!"")] := by decide +kernel

/-! ## C11 -/

/-- The `i`-th token of the stream. -/
def nth (s : Scanner) : Nat → Token
  | 0 => (next s).1
  | i + 1 => nth (next s).2 i

/-- What a history of requests should answer: both kinds of requests show the current token
of the stream, only `next` advances. -/
def serveSpec (stream : Nat → Token) : List Request → Nat → List Token
  | [], _ => []
  | .peek :: rs, i => stream i :: serveSpec stream rs i
  | .next :: rs, i => stream i :: serveSpec stream rs (i + 1)

theorem serveSpec_shift (f : Nat → Token) (rs : List Request) (i k : Nat) :
    serveSpec (fun j => f (j + k)) rs i = serveSpec f rs (i + k) := by
  induction rs generalizing i with
  | nil => rfl
  | cons r rs ih =>
    cases r
    · simp [serveSpec, ih]
    · simp only [serveSpec, ih]
      rw [show i + 1 + k = i + k + 1 by omega]

/-- C11: for every interleaving of requests, peeking shows what the following `next` answers
and does not change the sequence. -/
theorem C11_peek_is_free (content : Str) (rs : List Request) :
    serve rs (Scanner.init content) = serveSpec (nth (Scanner.init content)) rs 0 := by
  suffices H : ∀ (rs : List Request) (s : Scanner),
      serve rs s = serveSpec (nth s) rs 0 from H rs _
  -- a scanner that already peeked behaves as the one before
  have key : ∀ s : Scanner, nth (peek s).2 = nth s := by
    intro s
    funext i
    have h1 : next (peek s).2 = next s ∨ (s.upcoming ≠ none ∧ (peek s).2 = s) := by
      cases hu : s.upcoming with
      | some t => right; simp [peek, hu]
      | none =>
        left
        have h0 : (next s).2.upcoming = none := (next_ok hu).2
        simp only [peek, hu]
        simp only [next]
        rw [← next_eq hu]
        simp only [hu]
        ext
        · simp_all [next_eq]
        · rw [next_eq hu] at h0 ⊢
          generalize nextRaw s = r at h0 ⊢
          obtain ⟨t, s'⟩ := r
          cases s'
          simp_all
    rcases h1 with h1 | ⟨_, h1⟩
    · cases i <;> simp [nth, h1]
    · rw [h1]
  intro rs
  induction rs with
  | nil => intro s; rfl
  | cons r rs ih =>
    intro s
    cases r
    · simp only [serve, serveSpec]
      rw [ih, key]
      congr 1
      cases hu : s.upcoming with
      | some t => simp [peek, nth, next, hu]
      | none => simp [peek, nth, hu]
    · simp only [serve, serveSpec]
      rw [ih]
      have : nth (next s).2 = fun j => nth s (j + 1) := by funext j; rfl
      rw [this, serveSpec_shift]
      rfl

/-- C11: end-of-file is sticky. -/
theorem C11_eof_sticky (content : Str) (i j : Nat) (hij : i ≤ j)
    (h : (nth (Scanner.init content) i).type = .eof) :
    nth (Scanner.init content) j = ⟨.eof, content.length, [], false⟩ := by
  suffices H : ∀ (i j : Nat) (s : Scanner) (c : Str), i ≤ j → s.upcoming = none →
      content = c ++ s.rest → s.pos = c.length → (nth s i).type = .eof →
      nth s j = ⟨.eof, content.length, [], false⟩ by
    exact H i j _ [] hij rfl (by simp [Scanner.init]) (by simp [Scanner.init]) h
  have atEnd : ∀ (j : Nat) (s : Scanner), s.upcoming = none → s.rest = [] →
      nth s j = ⟨.eof, s.pos, [], false⟩ := by
    intro j
    induction j with
    | zero => intro s hu hr; simp only [nth, next_eq hu]; exact (nextRaw_eof hr).1
    | succ j ih =>
      intro s hu hr
      simp only [nth, next_eq hu, (nextRaw_eof hr).2]
      exact ih s hu hr
  intro i
  induction i with
  | zero =>
    intro j s c _ hu hc hp h
    obtain ⟨⟨g, hg⟩, hu'⟩ := next_ok hu
    simp only [nth] at h
    have hrest := hg.eofRest h
    have htext := hg.eofIff.1 h
    have hlen : (next s).2.pos = content.length := by
      rw [hg.hpos, hg.start, hc, hg.text, htext, hrest, hp]; simp
    cases j with
    | zero =>
      simp only [nth]
      rw [next_eq hu]
      unfold nextRaw
      have hn : (nextRaw s).1.type = .eof := by rw [← next_eq hu]; exact h
      have hpos : (nextRaw s).2.pos = content.length := by rw [← next_eq hu]; exact hlen
      unfold nextRaw at hn hpos
      simp only at hn hpos ⊢
      split at hn
      · rename_i hk
        simp only [hk] at hpos ⊢
        rw [hpos]
      · rename_i hk
        exfalso
        obtain ⟨g', hg'⟩ := skipSpace_ok false s.rest s.pos s.lines s.newlineCount
        rename_i cc ccs
        have hcc : cc ≠ '\n' := by
          intro e
          have := (hg'.stop _ _ hk).1
          rw [e] at this
          revert this; decide
        exact (dispatch_ok cc ccs _ _ _ hcc).htype hn
    | succ j =>
      simp only [nth]
      rw [atEnd j _ hu' hrest, hlen]
  | succ i ih =>
    intro j s c hij hu hc hp h
    cases j with
    | zero => omega
    | succ j =>
      obtain ⟨⟨g, hg⟩, hu'⟩ := next_ok hu
      simp only [nth] at h ⊢
      refine ih j (next s).2 (c ++ (g ++ (next s).1.text)) (by omega) hu' ?_ ?_ h
      · rw [hc, hg.text]; simp
      · rw [hg.hpos, hg.start, hp]; simp; omega

/-- C11: end-of-file is reached within one request per byte plus one. -/
theorem C11_terminates (content : Str) :
    ∃ i, i ≤ content.length ∧ (nth (Scanner.init content) i).type = .eof := by
  suffices H : ∀ (n : Nat) (s : Scanner), s.upcoming = none → s.rest.length ≤ n →
      ∃ i, i ≤ n ∧ (nth s i).type = .eof by
    exact H content.length (Scanner.init content) rfl (by simp [Scanner.init])
  intro n
  induction n with
  | zero =>
    intro s hu hl
    refine ⟨0, by omega, ?_⟩
    simp only [nth, next_eq hu]
    rw [(nextRaw_eof (List.eq_nil_of_length_eq_zero (by omega))).1]
  | succ n ih =>
    intro s hu hl
    obtain ⟨⟨g, hg⟩, hu'⟩ := next_ok hu
    by_cases he : (next s).1.type = .eof
    · exact ⟨0, by omega, he⟩
    · have hne : (next s).1.text ≠ [] := fun h => he (hg.eofIff.2 h)
      have hlen : (next s).2.rest.length < s.rest.length := by
        rw [hg.text]
        have := List.length_pos_iff.2 hne
        simp
        omega
      obtain ⟨i, hi, h⟩ := ih (next s).2 hu' (by omega)
      exact ⟨i + 1, by omega, h⟩

example : serve [.peek, .peek, .next, .peek, .next, .next, .next] (Scanner.init c!"a b") =
    [⟨.identifier, 0, c!"a", false⟩, ⟨.identifier, 0, c!"a", false⟩, ⟨.identifier, 0, c!"a", false⟩,
     ⟨.identifier, 2, c!"b", false⟩, ⟨.identifier, 2, c!"b", false⟩, ⟨.eof, 3, [], false⟩,
     ⟨.eof, 3, [], false⟩] := by decide +kernel

/-! ## C12 -/

/-- The true location of the piece of `content` that a token refers to. -/
def trueRange (content : Str) (t : Token) : LineColumnRange :=
  ⟨⟨lineOf content t.start, colOf content t.start⟩,
   ⟨lineOf content (t.start + t.text.length), colOf content (t.start + t.text.length)⟩⟩

/-- C12, full statement: after any number of requests, the lookup for every delivered token
gives its true location. -/
def C12_statement : Prop :=
  ∀ (content : Str) (n : Nat), ∀ t ∈ (deliver n (Scanner.init content)).1,
    getLocation content (deliver n (Scanner.init content)).2.lines t.start
      (t.start + t.text.length) = some (trueRange content t)

/-- C12 is false as stated: the newline between `not` and `in` is not recorded, all locations
after that are off by one line. -/
theorem C12_counterexample : ¬ C12_statement := by
  intro h
  have := h c!"not\nin x" 2 ⟨.identifier, 7, c!"x", false⟩ (by decide +kernel)
  revert this
  decide +kernel

/-- C12 (partial: as long as no `not in` before the token has a newline between its words;
the location of a token that is such a `not in` itself is right in its start, see
`C12_start_partial`). The lookup can be made at any later time. -/
theorem C12_token_location_partial (content : Str) (n i : Nat) (t : Token)
    (ht : (deliver n (Scanner.init content)).1[i]? = some t)
    (hgood : ∀ u ∈ (deliver n (Scanner.init content)).1.take (i + 1),
      u.type = .kNotIn → '\n' ∉ u.text) :
    getLocation content (deliver n (Scanner.init content)).2.lines t.start
      (t.start + t.text.length) = some (trueRange content t) := by
  suffices H : ∀ (n i : Nat) (s : Scanner), LinesInv content s s.pos →
      (deliver n s).1[i]? = some t →
      (∀ u ∈ (deliver n s).1.take (i + 1), u.type = .kNotIn → '\n' ∉ u.text) →
      LinesInv content (deliver n s).2 (t.start + t.text.length) by
    have hinv := H n i _ (linesInv_init content) ht hgood
    have h1 := linesInv_getPos hinv (p := t.start) (by omega)
    have h2 := linesInv_getPos hinv (p := t.start + t.text.length) (by omega)
    have h3 : t.start + t.text.length ≤ content.length := by
      obtain ⟨c, hc, hp⟩ := hinv.consumed
      have := hinv.okLe
      rw [hc]; simp; omega
    simp [getLocation, h3, LineMap.getRange, h1, h2, trueRange, lineOf, colOf]
  intro n
  induction n with
  | zero => intro i s _ h; simp [deliver] at h
  | succ n ih =>
    intro i s hinv h hg
    simp only [deliver] at h hg ⊢
    have hb : ¬ BadNotIn (next s).1 := fun hb => hg _ (by simp) hb.1 hb.2
    have hc := linesInv_next_complete hinv hb
    cases i with
    | zero =>
      simp at h
      subst h
      rw [(next_bounds hinv.up).2]
      exact linesInv_deliver n hc
    | succ i =>
      refine ih i _ hc (by simpa using h) ?_
      intro u hu
      exact hg u (by simp at hu ⊢; exact Or.inr hu)

/-- C12 (partial): the start of a token is located correctly if no `not in` *before* it
spans lines. -/
theorem C12_start_partial (content : Str) (n i : Nat) (t : Token)
    (ht : (deliver n (Scanner.init content)).1[i]? = some t)
    (hgood : ∀ u ∈ (deliver n (Scanner.init content)).1.take i,
      u.type = .kNotIn → '\n' ∉ u.text) :
    (deliver n (Scanner.init content)).2.lines.getPos t.start
      = some ⟨lineOf content t.start, colOf content t.start⟩ := by
  suffices H : ∀ (n i : Nat) (s : Scanner), LinesInv content s s.pos →
      (deliver n s).1[i]? = some t →
      (∀ u ∈ (deliver n s).1.take i, u.type = .kNotIn → '\n' ∉ u.text) →
      LinesInv content (deliver n s).2 t.start by
    exact linesInv_getPos (H n i _ (linesInv_init content) ht hgood) (Nat.le_refl _)
  intro n
  induction n with
  | zero => intro i s _ h; simp [deliver] at h
  | succ n ih =>
    intro i s hinv h hg
    simp only [deliver] at h hg ⊢
    cases i with
    | zero =>
      simp at h
      subst h
      exact linesInv_deliver n (linesInv_next_start hinv)
    | succ i =>
      have hb : ¬ BadNotIn (next s).1 := fun hb => hg _ (by simp) hb.1 hb.2
      refine ih i _ (linesInv_next_complete hinv hb) (by simpa using h) ?_
      intro u hu
      exact hg u (by simp at hu ⊢; exact Or.inr hu)

/-- C12: the `CHECK` in `PushNewline` never fails: the recorded line starts are strictly
increasing (each is appended at the end), whatever the content. -/
theorem C12_line_starts_increase (content : Str) (n : Nat) :
    (deliver n (Scanner.init content)).2.lines.Pairwise (· < ·) := by
  obtain ⟨l, h1, h2, h3⟩ := (linesInv_deliver n (linesInv_init content)).table
  rw [h1]
  simp only [List.take_zero, nlPositions, List.cons_append, List.nil_append]
  exact List.pairwise_cons.2 ⟨fun x hx => (h2 x hx).1, h3⟩

/-- The hypotheses are met by a file with several kinds of newlines. -/
example : (deliver 5 (Scanner.init c!"# a\n\"\"\"x\ny\"\"\" \\\n not in b")).1[2]?
      = some ⟨.identifier, 24, c!"b", false⟩ ∧
    ∀ u ∈ ((deliver 5 (Scanner.init c!"# a\n\"\"\"x\ny\"\"\" \\\n not in b")).1.take 3),
      u.type = .kNotIn → '\n' ∉ u.text := by decide +kernel

/-! ## C52 and C13 -/

/-! The vocabulary of C52: which characters are meant. -/

private theorem ascii_ext {p q : Char → Prop} (hs : ∀ n : Fin 128, p (Char.ofNat n) ↔ q (Char.ofNat n))
    (hp : ∀ c, p c → c.toNat < 128) (hq : ∀ c, q c → c.toNat < 128) (c : Char) : p c ↔ q c := by
  have key : c.toNat < 128 → (p c ↔ q c) := by
    intro h
    have := hs ⟨c.toNat, h⟩
    simpa [Char.ofNat_toNat] using this
  exact ⟨fun h => (key (hp c h)).mp h, fun h => (key (hq c h)).mpr h⟩

private theorem le_toNat {a b : Char} : a ≤ b ↔ a.toNat ≤ b.toNat := Iff.rfl

/-- C52: the characters of words, of numbers (decimal and octal; hexadecimal), and between `not` and
`in`. -/
theorem C52_characters (c : Char) :
    (isIdentifierChar c = true ↔
      c ∈ c!"abcdefghijklmnopqrstuvwxyzABCDEFGHIJKLMNOPQRSTUVWXYZ0123456789_") ∧
    (isDigit c = true ↔ c ∈ c!"0123456789") ∧
    (isXDigit c = true ↔ c ∈ c!"0123456789abcdefABCDEF") ∧
    (isSpace c = true ↔ c ∈ c!" \t\n\x0b\x0c\r") := by
  have h1 : ('z' : Char).toNat = 122 := rfl
  have h2 : ('Z' : Char).toNat = 90 := rfl
  have h3 : ('9' : Char).toNat = 57 := rfl
  have h4 : ('f' : Char).toNat = 102 := rfl
  have h5 : ('F' : Char).toNat = 70 := rfl
  refine ⟨ascii_ext (p := fun c => isIdentifierChar c = true) (q := fun c => c ∈ _) (by decide) ?_
      (by decide) c,
    ascii_ext (p := fun c => isDigit c = true) (q := fun c => c ∈ _) (by decide) ?_ (by decide) c,
    ascii_ext (p := fun c => isXDigit c = true) (q := fun c => c ∈ _) (by decide) ?_ (by decide) c,
    ascii_ext (p := fun c => isSpace c = true) (q := fun c => c ∈ _) (by decide) ?_ (by decide) c⟩
  all_goals
    intro c h
    simp only [isIdentifierChar, isAlpha, isDigit, isXDigit, isSpace, Bool.or_eq_true, Bool.and_eq_true,
      decide_eq_true_eq, le_toNat, beq_iff_eq] at h
  · rcases h with ((h | h) | h) | h <;> first | omega | (subst h; decide)
  · omega
  · rcases h with (h | h) | h <;> omega
  · rcases h with ((((h | h) | h) | h) | h) | h <;> subst h <;> decide

/-- C52: every delivered token has the form its type says, and is as long as possible. -/
theorem C52_token_class (content : Str) (n : Nat) :
    ∀ t ∈ (deliver n (Scanner.init content)).1,
      TokenOk t.type t.text (content.drop (t.start + t.text.length)) := by
  suffices H : ∀ (n : Nat) (s : Scanner) (c : Str), s.upcoming = none → content = c ++ s.rest →
      s.pos = c.length → ∀ t ∈ (deliver n s).1,
        TokenOk t.type t.text (content.drop (t.start + t.text.length)) by
    exact H n (Scanner.init content) [] rfl (by simp [Scanner.init]) (by simp [Scanner.init])
  intro n
  induction n with
  | zero => simp [deliver]
  | succ n ih =>
    intro s c hup hc hp t ht
    obtain ⟨⟨g, hg⟩, hup'⟩ := next_ok hup
    have e1 : content = (c ++ (g ++ (next s).1.text)) ++ (next s).2.rest := by
      rw [hc, hg.text]; simp
    have e2 : (next s).2.pos = (c ++ (g ++ (next s).1.text)).length := by
      rw [hg.hpos, hg.start, hp]; simp; omega
    simp only [deliver, List.mem_cons] at ht
    rcases ht with rfl | ht
    · have e3 : content.drop ((next s).1.start + (next s).1.text.length) = (next s).2.rest := by
        rw [← hg.hpos, e2]
        conv => lhs; rw [e1]
        rw [List.drop_left]
      rw [e3, next_eq hup]
      exact nextRaw_shape s
    · exact ih (next s).2 (c ++ (g ++ (next s).1.text)) hup' e1 e2 t ht

/-- C13, full statement: no word (keyword or identifier) is cut in the middle. -/
def C13_statement : Prop :=
  ∀ (content : Str) (n : Nat), ∀ t ∈ (deliver n (Scanner.init content)).1,
    t.type ∈ [.identifier, .kIn, .kNotIn, .kFor, .kAnd, .kOr, .kIf, .kElse] ∨ (t.type = .op '!' ∧ t.text = c!"not") →
    ¬ startsWithWordChar (content.drop (t.start + t.text.length))

/-- C13 is false: in `x if not inner else y`, the word `inner` is cut and gives the operator
`not in` and the identifier `ner`. -/
theorem C13_counterexample : ¬ C13_statement := by
  intro h
  have := h c!"not inner" 1 ⟨.kNotIn, 0, c!"not in", false⟩ (by decide +kernel) (by decide)
  exact this ⟨'n', c!"er", by decide +kernel, by decide⟩

example : (deliver 3 (Scanner.init c!"not inner")).1.map (fun t => (t.type, t.text)) =
    [(.kNotIn, c!"not in"), (.identifier, c!"ner"), (.eof, [])] := by decide +kernel

/-- C13 (partial: all words but `not in`). -/
theorem C13_word_boundary_partial (content : Str) (n : Nat) :
    ∀ t ∈ (deliver n (Scanner.init content)).1,
    t.type ∈ [.identifier, .kIn, .kFor, .kAnd, .kOr, .kIf, .kElse] ∨ (t.type = .op '!' ∧ t.text = c!"not") →
    ¬ startsWithWordChar (content.drop (t.start + t.text.length)) := by
  intro t ht hty
  have h := C52_token_class content n t ht
  generalize content.drop (t.start + t.text.length) = r at h ⊢
  generalize t.type = ty at h hty
  generalize t.text = w at h hty
  cases h <;> simp_all [keywords]

example : TokenOk .kIn c!"in" c!" x" :=
  TokenOk.keyword (by simp [keywords]) (by rintro ⟨c, cs, h, h2⟩; simp at h; rw [← h.1] at h2; revert h2; decide)

end Bant.Props
