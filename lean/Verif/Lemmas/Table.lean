import Verif.Spec.Table

/-! Lemmas: reading tables back. -/
namespace Bant
namespace Table
open TableSpec

/-! ### Texts in quotes -/

/-- The reader gets the text back. -/
def ReadsBack (lit : Lit) (s : Str) : Prop :=
  ∀ rest : Str, rest.head? ≠ some '"' → lit (cEscape s ++ '"' :: rest) = some (s, rest)

theorem cEscape_cons (c : Char) (s : Str) : cEscape (c :: s) = cEscapeChar c ++ cEscape s := by
  simp [cEscape]

theorem octValue_digit (n : Nat) : octValue (octDigit n) = some (n % 8) := by
  have : ∀ m < 8, octValue (Char.ofNat (48 + m)) = some m := by decide
  exact this _ (Nat.mod_lt _ (by omega))

theorem octValue_letters : octValue 'n' = none ∧ octValue 'r' = none ∧ octValue 't' = none ∧
    octValue '"' = none ∧ octValue '\'' = none ∧ octValue '\\' = none := by decide

theorem cLit_quote (r : Str) : cLit ('"' :: r) = some ([], r) := by rw [cLit.eq_def]; simp

theorem cLit_plain {c : Char} (h1 : c ≠ '"') (h2 : c ≠ '\\') (r : Str) :
    cLit (c :: r) = (cLit r).map fun x => (c :: x.1, x.2) := by rw [cLit.eq_def]; simp [h1, h2]

theorem jsonLit_quote (r : Str) : jsonLit ('"' :: r) = some ([], r) := by rw [jsonLit.eq_def]; simp

theorem jsonLit_plain {c : Char} (h1 : c ≠ '"') (h2 : c ≠ '\\') (h3 : ¬ c.toNat < 32) (r : Str) :
    jsonLit (c :: r) = (jsonLit r).map fun x => (c :: x.1, x.2) := by rw [jsonLit.eq_def]; simp [h1, h2, h3]

theorem jsonLit_escape {c v : Char} (h1 : jsonEscape c = some v) (h2 : c ≠ 'u') (r : Str) :
    jsonLit ('\\' :: c :: r) = (jsonLit r).map fun x => (v :: x.1, x.2) := by
  rw [jsonLit.eq_def]; simp [h1, h2]

theorem csvLit_plain {c : Char} (h1 : c ≠ '"') (r : Str) :
    csvLit (c :: r) = (csvLit r).map fun x => (c :: x.1, x.2) := by rw [csvLit.eq_def]; simp [h1]

theorem cLit_char {c : Char} (hc : c.toNat < 256) (t : Str) :
    cLit (cEscapeChar c ++ t) = (cLit t).map fun x => (c :: x.1, x.2) := by
  obtain ⟨o1, o2, o3, o4, o5, o6⟩ := octValue_letters
  unfold cEscapeChar
  by_cases h1 : c = '\n'
  · subst h1; simp [cLit, o1]
  by_cases h2 : c = '\r'
  · subst h2; simp [cLit, o2]
  by_cases h3 : c = '\t'
  · subst h3; simp [cLit, o3]
  by_cases h4 : c = '"'
  · subst h4; simp [cLit, o4]
  by_cases h5 : c = '\''
  · subst h5; simp [cLit, o5]
  by_cases h6 : c = '\\'
  · subst h6; simp [cLit, o6]
  rw [if_neg h1, if_neg h2, if_neg h3, if_neg h4, if_neg h5, if_neg h6]
  split
  · have e : ((c.toNat / 64 % 8) * 8 + c.toNat / 8 % 8) * 8 + c.toNat % 8 = c.toNat := by omega
    simp [cLit, octValue_digit, e]
  · exact cLit_plain h4 h6 t

theorem cLit_reads {s : Str} (hs : Bytes s) : ReadsBack cLit s := by
  intro rest hr
  induction s with
  | nil => exact cLit_quote rest
  | cons c s ih =>
    rw [cEscape_cons, List.append_assoc, cLit_char (hs c (by simp)), ih (fun d hd => hs d (by simp [hd]))]
    rfl

theorem jsonLit_reads {s : Str} (hs : JsonPlain s) : ReadsBack jsonLit s := by
  intro rest hr
  induction s with
  | nil => exact jsonLit_quote rest
  | cons c s ih =>
    have ih := ih (fun d hd => hs d (by simp [hd]))
    have hc := hs c (by simp)
    rw [cEscape_cons, List.append_assoc]
    unfold cEscapeChar
    by_cases h1 : c = '\n'
    · subst h1; exact (jsonLit_escape rfl (by decide) _).trans (congrArg (Option.map fun x => ('\n' :: x.1, x.2)) ih)
    by_cases h2 : c = '\r'
    · subst h2; exact (jsonLit_escape rfl (by decide) _).trans (congrArg (Option.map fun x => ('\r' :: x.1, x.2)) ih)
    by_cases h3 : c = '\t'
    · subst h3; exact (jsonLit_escape rfl (by decide) _).trans (congrArg (Option.map fun x => ('\t' :: x.1, x.2)) ih)
    by_cases h4 : c = '"'
    · subst h4; exact (jsonLit_escape rfl (by decide) _).trans (congrArg (Option.map fun x => ('"' :: x.1, x.2)) ih)
    by_cases h6 : c = '\\'
    · subst h6; exact (jsonLit_escape rfl (by decide) _).trans (congrArg (Option.map fun x => ('\\' :: x.1, x.2)) ih)
    simp only [h1, h2, h3, false_or] at hc
    rw [if_neg h1, if_neg h2, if_neg h3, if_neg h4, if_neg hc.2.2, if_neg h6, if_neg (by omega)]
    have : ¬ c.toNat < 32 := by omega
    rw [List.singleton_append, jsonLit_plain h4 h6 this, ih]
    rfl

theorem csvLit_reads {s : Str} (hs : CsvPlain s) : ReadsBack csvLit s := by
  intro rest hr
  induction s with
  | nil =>
    cases rest with
    | nil => simp [cEscape, csvLit]
    | cons d r =>
      have : d ≠ '"' := by simpa using hr
      simp [cEscape, csvLit, this]
  | cons c s ih =>
    have ih := ih (fun d hd => hs d (by simp [hd]))
    obtain ⟨c1, c2, c3, c4, c5⟩ := hs c (by simp)
    rw [cEscape_cons, List.append_assoc]
    unfold cEscapeChar
    have h1 : c ≠ '\n' := by rintro rfl; revert c1; decide
    have h2 : c ≠ '\r' := by rintro rfl; revert c1; decide
    have h3 : c ≠ '\t' := by rintro rfl; revert c1; decide
    rw [if_neg h1, if_neg h2, if_neg h3, if_neg c4, if_neg c3, if_neg c5, if_neg (by omega)]
    rw [List.singleton_append, csvLit_plain c4, ih]
    rfl

/-- No newlines. -/
theorem cEscape_newline (s : Str) : '\n' ∉ cEscape s := by
  have hd : ∀ n, octDigit n ≠ '\n' := by
    intro n
    have : ∀ m < 8, Char.ofNat (48 + m) ≠ '\n' := by decide
    exact this _ (Nat.mod_lt _ (by omega))
  intro h
  obtain ⟨c, _, hc⟩ := List.mem_flatMap.1 h
  unfold cEscapeChar at hc
  split at hc
  · simp at hc
  split at hc
  · simp at hc
  split at hc
  · simp at hc
  split at hc
  · simp at hc
  split at hc
  · simp at hc
  split at hc
  · simp at hc
  split at hc
  · simp only [List.mem_cons, List.not_mem_nil, or_false] at hc
    rcases hc with hc | hc | hc | hc
    · simp at hc
    all_goals exact hd _ hc.symm
  · next h1 _ _ _ _ _ _ =>
    simp only [List.mem_singleton] at hc
    exact h1 hc.symm

theorem quoted_newline (s : Str) : '\n' ∉ quoted s := by
  simp [quoted, cEscape_newline]

theorem quoted_append (s t : Str) : quoted s ++ t = '"' :: (cEscape s ++ '"' :: t) := by simp [quoted]

theorem mem_intercalate {α : Type} {sep : List α} {l : List (List α)} {a : α} (h : a ∈ sep.intercalate l) :
    a ∈ sep ∨ ∃ x ∈ l, a ∈ x := by
  induction l with
  | nil => simp [List.intercalate] at h
  | cons x xs ih =>
    cases xs with
    | nil => simp [List.intercalate] at h; exact .inr ⟨x, by simp, h⟩
    | cons y ys =>
      have e : sep.intercalate (x :: y :: ys) = x ++ sep ++ sep.intercalate (y :: ys) := by
        simp [List.intercalate]
      rw [e] at h
      rcases List.mem_append.1 h with h | h
      · rcases List.mem_append.1 h with h | h
        · exact .inr ⟨x, by simp, h⟩
        · exact .inl h
      · rcases ih h with h | ⟨z, hz, h⟩
        · exact .inl h
        · exact .inr ⟨z, by simp at hz ⊢; right; exact hz, h⟩

/-! ### JSON -/

/-- The tokens of the text. -/
def JToks (lit : Lit) (t : Str) (l : List JTok) : Prop := ∀ n, t.length < n → jsonToks lit n t = some l

theorem jtoks_nil (lit : Lit) : JToks lit [] [] := by
  intro n hn
  cases n with
  | zero => simp at hn
  | succ n => simp [jsonToks]

theorem jtoks_blank {lit : Lit} {t : Str} {l : List JTok} (h : JToks lit t l) : JToks lit (' ' :: t) l := by
  intro n hn
  cases n with
  | zero => simp at hn
  | succ n =>
    have := h (n + 1) (by simp at hn; omega)
    rw [jsonToks] at this ⊢
    rw [List.dropWhile_cons, if_pos (by decide)]
    exact this

theorem jtoks_punct {lit : Lit} {t : Str} {l : List JTok} (h : JToks lit t l) {c : Char}
    (hc : c ∈ c!"{}[]:,") : JToks lit (c :: t) (.p c :: l) := by
  intro n hn
  cases n with
  | zero => simp at hn
  | succ n =>
    have hb : isBlank c = false := by
      simp only [List.mem_cons, List.not_mem_nil, or_false] at hc
      rcases hc with rfl | rfl | rfl | rfl | rfl | rfl <;> rfl
    have hq : c ≠ '"' := by
      rintro rfl
      simp at hc
    rw [jsonToks, List.dropWhile_cons, if_neg (by simp [hb])]
    simp only [if_neg hq, if_pos hc]
    rw [h n (by simp at hn; omega)]
    rfl

theorem jtoks_quoted {lit : Lit} {t : Str} {l : List JTok} (h : JToks lit t l) {x : Str} (hx : ReadsBack lit x)
    (ht : t.head? ≠ some '"') : JToks lit (quoted x ++ t) (.s x :: l) := by
  intro n hn
  rw [quoted_append] at hn ⊢
  cases n with
  | zero => simp at hn
  | succ n =>
    rw [jsonToks, List.dropWhile_cons, if_neg (by decide)]
    simp only [if_true]
    rw [hx t ht]
    simp only []
    rw [h n (by simp at hn; omega)]
    rfl

/-- Tokens of the first columns. -/
def memberToks : (c : Nat) → List (Str × Str) → List JTok
  | _, [] => []
  | c, (h, x) :: r => (if c ≠ 0 then [.p ','] else []) ++ [.s h, .p ':', .s x] ++ memberToks (c + 1) r

theorem getElem?_drop_zip {headers : List Str} {c : Nat} {h : Str} (hh : headers[c]? = some h) :
    headers.drop c = h :: headers.drop (c + 1) := by
  obtain ⟨hlt, rfl⟩ := List.getElem?_eq_some_iff.1 hh
  exact List.drop_eq_getElem_cons hlt

theorem jsonCells_toks {lit : Lit} {headers : List Str} (hh : ∀ h ∈ headers, ReadsBack lit h) (cells : List Str) :
    ∀ (c : Nat), (∀ x ∈ cells, ReadsBack lit x) → c + cells.length ≤ headers.length →
    ∃ s, jsonCells headers c cells = some s ∧ '\n' ∉ s ∧ ∀ t l, JToks lit t l → t.head? ≠ some '"' →
      JToks lit (s ++ t) (memberToks c ((headers.drop c).zip cells) ++ l) := by
  induction cells with
  | nil =>
    intro c _ _
    refine ⟨[], rfl, by simp, ?_⟩
    intro t l h _
    simpa [memberToks] using h
  | cons x xs ih =>
    intro c hx hlen
    simp only [List.length_cons] at hlen
    obtain ⟨r, h1, h2, h3⟩ := ih (c + 1) (fun y hy => hx y (by simp [hy])) (by omega)
    obtain ⟨h, hhc⟩ : ∃ h, headers[c]? = some h := ⟨_, List.getElem?_eq_getElem (by omega)⟩
    refine ⟨(if c ≠ 0 then c!", " else []) ++ quoted h ++ c!": " ++ quoted x ++ r,
      by simp only [jsonCells, hhc, h1], ?_, ?_⟩
    · by_cases hc : c = 0 <;> simp [hc, quoted_newline, h2]
    · intro t l ht hq
      have hr : (r ++ t).head? ≠ some '"' := by
        cases xs with
        | nil => simp only [jsonCells, Option.some.injEq] at h1; subst h1; simpa using hq
        | cons y ys =>
          simp only [jsonCells] at h1
          split at h1
          · simp only [Option.some.injEq] at h1; subst h1; simp
          · cases h1
      have hmem : h ∈ headers := List.mem_of_getElem? hhc
      rw [getElem?_drop_zip hhc, List.zip_cons_cons, memberToks]
      have a1 := jtoks_quoted (h3 t l ht hq) (hx x (by simp)) hr
      have a2 := jtoks_quoted (jtoks_punct (c := ':') (jtoks_blank a1) (by decide)) (hh h hmem) (by simp)
      by_cases hc : c = 0
      · simpa [hc] using a2
      · have a3 := jtoks_punct (c := ',') (jtoks_blank a2) (by decide)
        simpa [hc] using a3

theorem jtoks_values {lit : Lit} (values : List Str) (hv : ∀ x ∈ values, ReadsBack lit x) {t : Str} {l : List JTok}
    (ht : JToks lit (']' :: t) (.p ']' :: l)) :
    JToks lit ((c!", ").intercalate (values.map quoted) ++ ']' :: t)
      (([JTok.p ',']).intercalate (values.map fun x => [.s x]) ++ .p ']' :: l) := by
  induction values with
  | nil => simpa using ht
  | cons x xs ih =>
    have ih := ih (fun y hy => hv y (by simp [hy]))
    cases xs with
    | nil =>
      simpa [List.intercalate] using jtoks_quoted ht (hv x (by simp)) (by simp)
    | cons y ys =>
      have e1 : (c!", ").intercalate ((x :: y :: ys).map quoted) ++ ']' :: t =
          quoted x ++ ',' :: ' ' :: ((c!", ").intercalate ((y :: ys).map quoted) ++ ']' :: t) := by
        simp [List.intercalate]
      have e2 : ([JTok.p ',']).intercalate ((x :: y :: ys).map fun x => [.s x]) ++ .p ']' :: l =
          .s x :: .p ',' :: (([JTok.p ',']).intercalate ((y :: ys).map fun x => [.s x]) ++ .p ']' :: l) := by
        simp [List.intercalate]
      rw [e1, e2]
      exact jtoks_quoted (jtoks_punct (jtoks_blank ih) (by decide)) (hv x (by simp)) (by simp)

theorem jsonMore_values (values : List Str) (l : List JTok) :
    jsonMore ((values.flatMap fun x => [.p ',', .s x]) ++ .p ']' :: l) = some (values, l) := by
  induction values with
  | nil => rw [jsonMore.eq_def]; simp
  | cons x xs ih =>
    simp only [List.flatMap_cons, List.cons_append, List.nil_append]
    rw [jsonMore]
    simp [ih]

theorem intercalate_values (x : Str) (xs : List Str) :
    ([JTok.p ',']).intercalate ((x :: xs).map fun x => [JTok.s x]) =
      .s x :: xs.flatMap fun x => [.p ',', .s x] := by
  induction xs generalizing x with
  | nil => rfl
  | cons y ys ih =>
    have : ([JTok.p ',']).intercalate ((x :: y :: ys).map fun x => [.s x]) =
        .s x :: .p ',' :: ([JTok.p ',']).intercalate ((y :: ys).map fun x => [.s x]) := by
      simp [List.intercalate]
    rw [this, ih]
    rfl

theorem jsonValue_texts (values : List Str) (l : List JTok) :
    jsonValue (.p '[' :: (([JTok.p ',']).intercalate (values.map fun x => [.s x]) ++ .p ']' :: l)) =
      some (.texts values, l) := by
  cases values with
  | nil => simp [jsonValue]
  | cons x xs =>
    rw [intercalate_values, List.cons_append]
    simp [jsonValue, jsonMore_values]

/-- Tokens of a value. -/
def jvalueToks : JValue → List JTok
  | .text x => [.s x]
  | .texts l => .p '[' :: (([JTok.p ',']).intercalate (l.map fun x => [.s x]) ++ [.p ']'])

theorem jsonValue_toks (v : JValue) (l : List JTok) : jsonValue (jvalueToks v ++ l) = some (v, l) := by
  cases v with
  | text x => rfl
  | texts xs => simpa [jvalueToks] using jsonValue_texts xs l

/-- Tokens of an object after the brace. -/
def objectToks : List (Str × JValue) → List JTok
  | [] => [.p '}']
  | [(k, v)] => .s k :: .p ':' :: (jvalueToks v ++ [.p '}'])
  | (k, v) :: m :: ms => .s k :: .p ':' :: (jvalueToks v ++ .p ',' :: objectToks (m :: ms))

theorem jsonMembers_toks (ms : List (Str × JValue)) (hms : ms ≠ []) (n : Nat) (hn : ms.length ≤ n) :
    jsonMembers n (objectToks ms) = some ms := by
  induction ms generalizing n with
  | nil => exact absurd rfl hms
  | cons m ms ih =>
    obtain ⟨k, v⟩ := m
    cases n with
    | zero => simp at hn
    | succ n =>
      cases ms with
      | nil => simp [objectToks, jsonMembers, jsonValue_toks]
      | cons m' ms =>
        rw [objectToks, jsonMembers]
        have : JTok.p ',' :: objectToks (m' :: ms) ≠ [.p '}'] := by simp
        simp [jsonValue_toks, ih (by simp) n (by simp at hn ⊢; omega)]

theorem objectToks_length (ms : List (Str × JValue)) : ms.length ≤ (objectToks ms).length := by
  induction ms with
  | nil => simp
  | cons m ms ih =>
    obtain ⟨k, v⟩ := m
    cases ms with
    | nil => simp [objectToks]
    | cons m' ms => simp only [objectToks, List.length_cons, List.length_append] at ih ⊢; omega

theorem jsonObject_toks {lit : Lit} {line : Str} {ms : List (Str × JValue)}
    (h : JToks lit line (.p '{' :: objectToks ms)) : jsonObject lit line = some ms := by
  unfold jsonObject
  rw [h _ (by omega)]
  cases ms with
  | nil => simp [objectToks]
  | cons m ms =>
    have : objectToks (m :: ms) ≠ [.p '}'] := by
      obtain ⟨k, v⟩ := m
      cases ms <;> simp [objectToks]
    simp [this, jsonMembers_toks (m :: ms) (by simp) _ (objectToks_length _)]

/-- The tokens of the first columns, and then the others. -/
theorem memberToks_object (c : Nat) (ms : List (Str × Str)) (hms : ms ≠ []) :
    memberToks c ms ++ [.p '}'] =
      (if c ≠ 0 then [.p ','] else []) ++ objectToks (ms.map fun m => (m.1, JValue.text m.2)) := by
  induction ms generalizing c with
  | nil => exact absurd rfl hms
  | cons m ms ih =>
    obtain ⟨k, v⟩ := m
    cases ms with
    | nil => simp [memberToks, objectToks, jvalueToks]
    | cons m' ms =>
      rw [memberToks, List.append_assoc, ih (c + 1) (by simp)]
      simp [objectToks, jvalueToks]

theorem memberToks_last (c : Nat) (ms : List (Str × Str)) (k : Str) (v : JValue) :
    memberToks c ms ++ (if c + ms.length ≠ 0 then [.p ','] else []) ++ (.s k :: .p ':' :: (jvalueToks v ++ [.p '}'])) =
      (if c ≠ 0 then [.p ','] else []) ++ objectToks (ms.map (fun m => (m.1, JValue.text m.2)) ++ [(k, v)]) := by
  induction ms generalizing c with
  | nil => simp [memberToks, objectToks]
  | cons m ms ih =>
    obtain ⟨k', v'⟩ := m
    have e := ih (c + 1)
    have e2 : c + 1 + ms.length = c + ((k', v') :: ms).length := by simp; omega
    rw [e2] at e
    rw [memberToks]
    simp only [List.append_assoc] at e ⊢
    rw [e]
    cases ms <;> simp [objectToks, jvalueToks]

/-- A row as JSON is a line with that object. -/
theorem jsonOp_reads {lit : Lit} {headers : List Str} {op : Op} (hf : Fits headers op)
    (hh : ∀ h ∈ headers, ReadsBack lit h) (hc : ∀ x ∈ cellsOf op, ReadsBack lit x) :
    ∃ line, jsonOp headers op = some (line ++ ['\n']) ∧ '\n' ∉ line ∧
      jsonObject lit line = some (headers.zip (valuesOf op)) := by
  cases op with
  | row cells =>
    simp only [Fits] at hf
    obtain ⟨s, h1, h2, h3⟩ := jsonCells_toks hh cells 0 hc (by omega)
    refine ⟨'{' :: s ++ ['}'], by simp [jsonOp, h1], by simp [h2], jsonObject_toks ?_⟩
    have := jtoks_punct (c := '{') (h3 ['}'] [.p '}'] (jtoks_punct (jtoks_nil lit) (by decide)) (by simp)) (by decide)
    rw [List.drop_zero] at this
    by_cases hz : headers.zip cells = []
    · rw [hz] at this
      have e : headers.zip (valuesOf (.row cells)) = [] := by
        have : cells = [] ∧ headers = [] := by
          cases cells with
          | nil => exact ⟨rfl, List.length_eq_zero_iff.1 hf.symm⟩
          | cons x xs => cases headers with
            | nil => simp at hf
            | cons y ys => simp at hz
        simp [this.1, this.2]
      rw [e]
      simpa [memberToks, objectToks] using this
    · rw [memberToks_object 0 _ hz] at this
      have e : headers.zip (valuesOf (.row cells)) = (headers.zip cells).map fun m => (m.1, JValue.text m.2) := by
        simp [valuesOf, List.zip_map_right]
      rw [e]
      simpa using this
  | «repeated» pre values =>
    simp only [Fits] at hf
    obtain ⟨s, h1, h2, h3⟩ := jsonCells_toks hh pre 0 (fun x hx => hc x (by simp [cellsOf, hx])) (by omega)
    obtain ⟨h, hhc⟩ : ∃ h, headers[pre.length]? = some h := ⟨_, List.getElem?_eq_getElem (by omega)⟩
    have hmem : h ∈ headers := List.mem_of_getElem? hhc
    have hval : ∀ x ∈ values, ReadsBack lit x := fun x hx => hc x (by simp [cellsOf, hx])
    refine ⟨'{' :: s ++ (if pre ≠ [] then c!", " else []) ++ quoted h ++ c!": [" ++
        (c!", ").intercalate (values.map quoted) ++ c!"]}", by simp [jsonOp, h1, hhc], ?_, jsonObject_toks ?_⟩
    · have hv : '\n' ∉ (c!", ").intercalate (values.map quoted) := by
        intro hm
        rcases mem_intercalate hm with hm | ⟨y, hy, hm⟩
        · simp at hm
        · obtain ⟨x, _, rfl⟩ := List.mem_map.1 hy
          exact quoted_newline x hm
      by_cases hp : pre = [] <;> simp [hp, h2, quoted_newline, hv]
    · have a1 := jtoks_values values hval (t := ['}']) (l := [.p '}'])
        (jtoks_punct (jtoks_punct (jtoks_nil lit) (by decide)) (by decide))
      have a2 := jtoks_quoted (jtoks_punct (c := ':') (jtoks_blank (jtoks_punct (c := '[') a1 (by decide))) (by decide))
        (hh h hmem) (by simp)
      have e := memberToks_last 0 (headers.zip pre) h (.texts values)
      have hlen : (headers.zip pre).length = pre.length := by simp; omega
      have ez : headers.zip (valuesOf (.repeated pre values)) =
          (headers.zip pre).map (fun m => (m.1, JValue.text m.2)) ++ [(h, .texts values)] := by
        have hd : headers = headers.take pre.length ++ [h] := by
          have := List.take_append_drop pre.length headers
          rw [getElem?_drop_zip hhc, List.drop_of_length_le (by omega)] at this
          exact this.symm
        have hz : headers.zip pre = (headers.take pre.length).zip pre := by
          conv => lhs; rw [hd]
          rw [← List.append_nil pre, List.zip_append (by simp; omega)]
          simp
        rw [hz]
        conv => lhs; rw [hd]
        rw [valuesOf, List.zip_append (by simp; omega)]
        simp [List.zip_map_right]
      rw [ez]
      simp only [hlen, Nat.zero_add, ne_eq, not_true_eq_false, if_false, List.nil_append] at e
      rw [← e]
      by_cases hp : pre = []
      · subst hp
        have := jtoks_punct (c := '{') a2 (by decide)
        simp only [jsonCells, Option.some.injEq] at h1
        subst h1
        simpa [memberToks, jvalueToks] using this
      · have a3 := jtoks_punct (c := ',') (jtoks_blank a2) (by decide)
        have := jtoks_punct (c := '{') (h3 _ _ a3 (by simp)) (by decide)
        simpa [hp, jvalueToks] using this

theorem lines_line {line : Str} (h : '\n' ∉ line) (rest : Str) :
    lines (line ++ '\n' :: rest) = line :: lines rest := by
  induction line with
  | nil => simp [lines]
  | cons c s ih =>
    simp only [List.mem_cons, not_or] at h
    have : c ≠ '\n' := fun e => h.1 e.symm
    simp [lines, this, ih h.2]

theorem json_reads {lit : Lit} {headers : List Str} (hh : ∀ h ∈ headers, ReadsBack lit h) (ops : List Op)
    (hf : ∀ op ∈ ops, Fits headers op) (hc : ∀ op ∈ ops, ∀ x ∈ cellsOf op, ReadsBack lit x) :
    ∃ text, json headers ops = some text ∧
      readJson lit text = some (ops.map fun op => headers.zip (valuesOf op)) := by
  unfold json readJson
  induction ops with
  | nil => exact ⟨[], rfl, rfl⟩
  | cons op ops ih =>
    obtain ⟨text, h1, h2⟩ := ih (fun o ho => hf o (by simp [ho])) (fun o ho => hc o (by simp [ho]))
    obtain ⟨line, h3, h4, h5⟩ := jsonOp_reads (hf op (by simp)) hh (hc op (by simp))
    obtain ⟨rows, h6, rfl⟩ := Option.map_eq_some_iff.1 h1
    refine ⟨line ++ '\n' :: rows.flatten, ?_, ?_⟩
    · rw [List.mapM_cons, h3, h6]
      simp
    · rw [lines_line h4, List.mapM_cons, h5, h2]
      rfl

/-! ### CSV -/

theorem csvRecord_reads {lit : Lit} (cells : List Str) (hne : cells ≠ []) (hc : ∀ x ∈ cells, ReadsBack lit x)
    (rest : Str) (n : Nat) (hn : cells.length ≤ n) :
    csvRecord lit n (csvRow cells ++ rest) = some (cells, rest) := by
  induction cells generalizing n with
  | nil => exact absurd rfl hne
  | cons x xs ih =>
    cases n with
    | zero => simp at hn
    | succ n =>
      cases xs with
      | nil =>
        have e : csvRow [x] ++ rest = quoted x ++ '\n' :: rest := by simp [csvRow, List.intercalate]
        rw [e, quoted_append, csvRecord]
        simp only [if_true]
        rw [hc x (by simp) _ (by simp)]
        simp
      | cons y ys =>
        have e : csvRow (x :: y :: ys) ++ rest = quoted x ++ ',' :: (csvRow (y :: ys) ++ rest) := by
          simp [csvRow, List.intercalate]
        rw [e, quoted_append, csvRecord]
        simp only [if_true]
        rw [hc x (by simp) _ (by simp)]
        simp [ih (by simp) (fun z hz => hc z (by simp at hz ⊢; right; exact hz)) n (by simp at hn ⊢; omega)]

theorem csvRow_length {cells : List Str} (hne : cells ≠ []) : cells.length < (csvRow cells).length := by
  induction cells with
  | nil => exact absurd rfl hne
  | cons x xs ih =>
    cases xs with
    | nil => simp [csvRow, List.intercalate, quoted]
    | cons y ys =>
      have e : csvRow (x :: y :: ys) = quoted x ++ ',' :: (csvRow (y :: ys)) := by
        simp [csvRow, List.intercalate]
      have := ih (by simp)
      rw [e]
      simp only [List.length_cons, List.length_append] at this ⊢
      omega

theorem csvRecords_reads {lit : Lit} (rows : List (List Str)) (hr : ∀ row ∈ rows, row ≠ [])
    (hc : ∀ row ∈ rows, ∀ x ∈ row, ReadsBack lit x) (n : Nat) (hn : rows.length ≤ n) :
    csvRecords lit n (rows.flatMap csvRow) = some rows := by
  induction rows generalizing n with
  | nil => cases n <;> rfl
  | cons row rows ih =>
    have hne := hr row (by simp)
    have hlen := csvRow_length hne
    cases n with
    | zero => simp at hn
    | succ n =>
      rw [List.flatMap_cons]
      have h1 := csvRecord_reads row hne (hc row (by simp)) (rows.flatMap csvRow)
        (csvRow row ++ rows.flatMap csvRow).length (by rw [List.length_append]; omega)
      have h2 := ih (fun r h => hr r (by simp [h])) (fun r h => hc r (by simp [h])) n (by simp at hn; omega)
      generalize hg : csvRow row ++ rows.flatMap csvRow = t at *
      cases t with
      | nil =>
        have := congrArg List.length hg
        simp only [List.length_append, List.length_nil] at this
        omega
      | cons c t =>
        rw [csvRecords, h1]
        · simp only []
          rw [h2]
          rfl
        · intro h
          cases h

theorem rows_length {rows : List (List Str)} (hr : ∀ row ∈ rows, row ≠ []) :
    rows.length ≤ (rows.flatMap csvRow).length := by
  induction rows with
  | nil => simp
  | cons row rows ih =>
    have := ih (fun r h => hr r (by simp [h]))
    have := csvRow_length (hr row (by simp))
    rw [List.flatMap_cons, List.length_append, List.length_cons]
    omega

theorem csv_eq (headers : List Str) (ops : List Op) :
    csv headers ops = (headers :: ops.flatMap rowsOf).flatMap csvRow := by
  unfold csv
  rw [List.flatMap_cons, List.flatMap_assoc]
  congr 1
  congr 1
  funext op
  cases op <;> simp [csvOp, rowsOf, List.flatMap_map]

theorem csv_reads {lit : Lit} {headers : List Str} (hne : headers ≠ []) (hh : ∀ h ∈ headers, ReadsBack lit h)
    (ops : List Op) (hf : ∀ op ∈ ops, Fits headers op) (hc : ∀ op ∈ ops, ∀ x ∈ cellsOf op, ReadsBack lit x) :
    readCsv lit (csv headers ops) = some (headers :: ops.flatMap rowsOf) := by
  have hlen := List.length_pos_iff.2 hne
  have hr : ∀ row ∈ headers :: ops.flatMap rowsOf, row ≠ [] := by
    intro row hm
    rcases List.mem_cons.1 hm with rfl | hm
    · exact hne
    · obtain ⟨op, ho, hm⟩ := List.mem_flatMap.1 hm
      have := hf op ho
      cases op with
      | row cells =>
        simp only [rowsOf, List.mem_singleton] at hm
        subst hm
        simp only [Fits] at this
        rintro rfl
        simp at this
        omega
      | «repeated» pre values =>
        obtain ⟨v, _, rfl⟩ := List.mem_map.1 hm
        simp
  unfold readCsv
  rw [csv_eq]
  refine csvRecords_reads _ hr ?_ _ (rows_length hr)
  intro row hm
  rcases List.mem_cons.1 hm with rfl | hm
  · exact hh
  · obtain ⟨op, ho, hm⟩ := List.mem_flatMap.1 hm
    have := hc op ho
    cases op with
    | row cells =>
      simp only [rowsOf, List.mem_singleton] at hm
      subst hm
      exact this
    | «repeated» pre values =>
      obtain ⟨v, hv, rfl⟩ := List.mem_map.1 hm
      intro x hx
      simp only [List.mem_append, List.mem_singleton] at hx
      refine this x ?_
      simp only [cellsOf, List.mem_append]
      rcases hx with hx | rfl
      · exact .inl hx
      · exact .inr hv

/-! ### S-expressions -/

def SToks (lit : Lit) (t : Str) (l : List STok) : Prop := ∀ n, t.length < n → sexprToks lit n t = some l

theorem stoks_nil (lit : Lit) : SToks lit [] [] := by
  intro n hn
  cases n with
  | zero => simp at hn
  | succ n => simp [sexprToks]

theorem stoks_blank {lit : Lit} {t : Str} {l : List STok} (h : SToks lit t l) {c : Char} (hc : isBlank c = true) :
    SToks lit (c :: t) l := by
  intro n hn
  cases n with
  | zero => simp at hn
  | succ n =>
    have := h (n + 1) (by simp at hn; omega)
    rw [sexprToks] at this ⊢
    rw [List.dropWhile_cons, if_pos hc]
    exact this

theorem stoks_blanks {lit : Lit} {t : Str} {l : List STok} (h : SToks lit t l) (k : Nat) :
    SToks lit (List.replicate k ' ' ++ t) l := by
  induction k with
  | zero => exact h
  | succ k ih => exact stoks_blank ih (by decide)

theorem stoks_open {lit : Lit} {t : Str} {l : List STok} (h : SToks lit t l) :
    SToks lit ('(' :: t) (.opens :: l) := by
  intro n hn
  cases n with
  | zero => simp at hn
  | succ n =>
    rw [sexprToks, List.dropWhile_cons, if_neg (by decide)]
    simp only [if_true]
    rw [h n (by simp at hn; omega)]
    rfl

theorem stoks_close {lit : Lit} {t : Str} {l : List STok} (h : SToks lit t l) :
    SToks lit (')' :: t) (.closes :: l) := by
  intro n hn
  cases n with
  | zero => simp at hn
  | succ n =>
    rw [sexprToks, List.dropWhile_cons, if_neg (by decide)]
    simp only [if_true]
    rw [h n (by simp at hn; omega)]
    rfl

theorem stoks_quoted {lit : Lit} {t : Str} {l : List STok} (h : SToks lit t l) {x : Str} (hx : ReadsBack lit x)
    (ht : t.head? ≠ some '"') : SToks lit (quoted x ++ t) (.text x :: l) := by
  intro n hn
  rw [quoted_append] at hn ⊢
  cases n with
  | zero => simp at hn
  | succ n =>
    rw [sexprToks, List.dropWhile_cons, if_neg (by decide)]
    simp only [if_true]
    rw [hx t ht]
    simp only []
    rw [h n (by simp at hn; omega)]
    rfl

theorem takeWhile_symbol {s : Str} (hs : Symbol s) (t : Str) :
    (s ++ ' ' :: t).takeWhile (!sexprSpecial ·) = s ∧ (s ++ ' ' :: t).dropWhile (!sexprSpecial ·) = ' ' :: t := by
  induction s with
  | nil => exact ⟨rfl, rfl⟩
  | cons c s ih =>
    obtain ⟨h1, h2⟩ := ih (fun d hd => hs d (by simp [hd]))
    have := hs c (by simp)
    simp only [List.cons_append, List.takeWhile_cons, List.dropWhile_cons, this, Bool.not_false, if_true, h1, h2]
    exact ⟨trivial, trivial⟩

theorem stoks_symbol {lit : Lit} {t : Str} {l : List STok} (h : SToks lit (' ' :: t) l) {s : Str} (hs : Symbol s) :
    SToks lit (':' :: s ++ ' ' :: t) (.symbol (':' :: s) :: l) := by
  intro n hn
  cases n with
  | zero => simp at hn
  | succ n =>
    obtain ⟨h1, h2⟩ := takeWhile_symbol hs t
    rw [List.cons_append, sexprToks, List.dropWhile_cons, if_neg (by decide)]
    simp only [Char.reduceEq, if_false]
    rw [if_neg (by decide), h1, h2, h n (by simp at hn ⊢; omega)]
    rfl

/-- The tokens of a column: key and value. -/
def columnToks (plist : Bool) (m : Str × JValue) : List STok :=
  (if plist then [.symbol (':' :: m.1)] else []) ++ valueToks m.2

theorem sexprKey_some {plist : Bool} {headers : List Str} {c : Nat} {h : Str} (hh : headers[c]? = some h) :
    sexprKey plist headers c = some (if plist then ':' :: h ++ [' '] else []) := by
  unfold sexprKey
  split <;> simp_all

/-- Before the text of a column: a key, maybe. -/
theorem stoks_key {lit : Lit} {t : Str} {l : List STok} (h : SToks lit t l) (plist : Bool) {key : Str}
    (hk : plist = true → Symbol key) :
    SToks lit ((if plist then ':' :: key ++ [' '] else []) ++ t) ((if plist then [.symbol (':' :: key)] else []) ++ l) := by
  cases plist with
  | false => simpa using h
  | true =>
    have := stoks_symbol (stoks_blank h (c := ' ') (by decide)) (hk rfl)
    simpa using this

theorem sexprCells_toks {lit : Lit} {plist : Bool} {headers : List Str}
    (hh : plist = true → ∀ h ∈ headers, Symbol h) (cells : List Str) :
    ∀ (c : Nat), (∀ x ∈ cells, ReadsBack lit x) → c + cells.length ≤ headers.length →
    ∃ s, sexprCells plist headers c cells = some s ∧ ∀ t l, SToks lit t l → t.head? ≠ some '"' →
      SToks lit (s ++ t) ((((headers.drop c).zip cells).flatMap fun m => columnToks plist (m.1, .text m.2)) ++ l) := by
  induction cells with
  | nil =>
    intro c _ _
    refine ⟨[], rfl, ?_⟩
    intro t l h _
    simpa using h
  | cons x xs ih =>
    intro c hx hlen
    simp only [List.length_cons] at hlen
    obtain ⟨r, h1, h3⟩ := ih (c + 1) (fun y hy => hx y (by simp [hy])) (by omega)
    obtain ⟨h, hhc⟩ : ∃ h, headers[c]? = some h := ⟨_, List.getElem?_eq_getElem (by omega)⟩
    refine ⟨(if c ≠ 0 then [' '] else []) ++ (if plist then ':' :: h ++ [' '] else []) ++ quoted x ++ r,
      by simp only [sexprCells, sexprKey_some hhc, h1], ?_⟩
    intro t l ht hq
    have hr : (r ++ t).head? ≠ some '"' := by
      cases xs with
      | nil => simp only [sexprCells, Option.some.injEq] at h1; subst h1; simpa using hq
      | cons y ys =>
        simp only [sexprCells] at h1
        split at h1
        · simp only [Option.some.injEq] at h1; subst h1; simp
        · cases h1
    have hmem : h ∈ headers := List.mem_of_getElem? hhc
    have a1 := stoks_key (stoks_quoted (h3 t l ht hq) (hx x (by simp)) hr) plist (fun hp => hh hp h hmem)
    rw [getElem?_drop_zip hhc, List.zip_cons_cons, List.flatMap_cons]
    by_cases hc : c = 0
    · simpa [hc, columnToks, valueToks] using a1
    · have a2 := stoks_blank a1 (c := ' ') (by decide)
      simpa [hc, columnToks, valueToks] using a2

theorem stoks_values {lit : Lit} (k : Nat) (values : List Str) (hv : ∀ x ∈ values, ReadsBack lit x) {t : Str}
    {l : List STok} (ht : SToks lit t l) (hq : t.head? ≠ some '"') :
    SToks lit ((c!"\n" ++ List.replicate k ' ').intercalate (values.map quoted) ++ t) (values.map .text ++ l) := by
  induction values with
  | nil => simpa [List.intercalate] using ht
  | cons x xs ih =>
    have ih := ih (fun y hy => hv y (by simp [hy]))
    cases xs with
    | nil => simpa [List.intercalate] using stoks_quoted ht (hv x (by simp)) hq
    | cons y ys =>
      have e1 : (c!"\n" ++ List.replicate k ' ').intercalate ((x :: y :: ys).map quoted) ++ t =
          quoted x ++ '\n' :: (List.replicate k ' ' ++
            ((c!"\n" ++ List.replicate k ' ').intercalate ((y :: ys).map quoted) ++ t)) := by
        simp [List.intercalate]
      rw [e1]
      exact stoks_quoted (stoks_blank (stoks_blanks ih k) (by decide)) (hv x (by simp)) (by simp)

/-- Tokens of a row. -/
def opToks (plist : Bool) (headers : List Str) (op : Op) : List STok :=
  .opens :: (headers.zip (valuesOf op)).flatMap (columnToks plist) ++ [.closes]

theorem zip_last {headers pre : List Str} {h : Str} (hhc : headers[pre.length]? = some h)
    (hf : pre.length + 1 = headers.length) (values : List Str) :
    headers.zip (valuesOf (.repeated pre values)) =
      (headers.zip pre).map (fun m => (m.1, JValue.text m.2)) ++ [(h, .texts values)] := by
  have hd : headers = headers.take pre.length ++ [h] := by
    have := List.take_append_drop pre.length headers
    rw [getElem?_drop_zip hhc, List.drop_of_length_le (by omega)] at this
    exact this.symm
  have hz : headers.zip pre = (headers.take pre.length).zip pre := by
    conv => lhs; rw [hd]
    rw [← List.append_nil pre, List.zip_append (by simp; omega)]
    simp
  rw [hz]
  conv => lhs; rw [hd]
  rw [valuesOf, List.zip_append (by simp; omega)]
  simp [List.zip_map_right]

theorem sexprOp_toks {lit : Lit} {plist : Bool} {headers : List Str} {op : Op} (hf : Fits headers op)
    (hh : plist = true → ∀ h ∈ headers, Symbol h) (hc : ∀ x ∈ cellsOf op, ReadsBack lit x) :
    ∃ s, sexprOp plist headers op = some s ∧ ∀ t l, SToks lit t l →
      SToks lit (s ++ t) (opToks plist headers op ++ l) := by
  cases op with
  | row cells =>
    simp only [Fits] at hf
    obtain ⟨s, h1, h2⟩ := sexprCells_toks (plist := plist) hh cells 0 hc (by omega)
    refine ⟨'(' :: s ++ [')'], by simp [sexprOp, h1], ?_⟩
    intro t l ht
    have := stoks_open (h2 _ _ (stoks_close ht) (by simp))
    have e : headers.zip (valuesOf (.row cells)) = (headers.zip cells).map fun m => (m.1, JValue.text m.2) := by
      simp [valuesOf, List.zip_map_right]
    simpa [opToks, e, List.flatMap_map] using this
  | «repeated» pre values =>
    simp only [Fits] at hf
    obtain ⟨s, h1, h2⟩ := sexprCells_toks (plist := plist) hh pre 0 (fun x hx => hc x (by simp [cellsOf, hx])) (by omega)
    obtain ⟨h, hhc⟩ : ∃ h, headers[pre.length]? = some h := ⟨_, List.getElem?_eq_getElem (by omega)⟩
    have hmem : h ∈ headers := List.mem_of_getElem? hhc
    have hval : ∀ x ∈ values, ReadsBack lit x := fun x hx => hc x (by simp [cellsOf, hx])
    refine ⟨('(' :: s ++ (if pre ≠ [] then [' '] else []) ++ (if plist then ':' :: h ++ [' '] else []) ++ ['('] ++
      (c!"\n" ++ List.replicate (s.length + 1 + (if plist then ':' :: h ++ [' '] else [] : Str).length + 3) ' ').intercalate
        (values.map quoted) ++ c!"))"), by simp only [sexprOp, h1, sexprKey_some hhc], ?_⟩
    intro t l ht
    rw [opToks, zip_last hhc hf]
    generalize s.length + 1 + (if plist then ':' :: h ++ [' '] else [] : Str).length + 3 = k
    have a1 := stoks_values k values hval (stoks_close (stoks_close ht)) (by simp)
    have a2 := stoks_key (stoks_open a1) plist (fun hp => hh hp h hmem)
    by_cases hp : pre = []
    · subst hp
      simp only [sexprCells, Option.some.injEq] at h1
      subst h1
      have := stoks_open a2
      simpa [columnToks, valueToks] using this
    · have a3 := stoks_open (h2 _ _ (stoks_blank a2 (c := ' ') (by decide)) (by simp))
      simpa [hp, columnToks, valueToks, List.flatMap_append, List.flatMap_map] using a3

theorem sexpr_reads {lit : Lit} {plist : Bool} {headers : List Str} (hh : plist = true → ∀ h ∈ headers, Symbol h)
    (ops : List Op) (hf : ∀ op ∈ ops, Fits headers op) (hc : ∀ op ∈ ops, ∀ x ∈ cellsOf op, ReadsBack lit x) :
    ∃ text, sexpr plist headers ops = some text ∧
      readSexpr lit text = some (.opens :: ops.flatMap (opToks plist headers) ++ [.closes]) := by
  have key : ∃ rows, ops.mapM (sexprOp plist headers) = some rows ∧ rows.length = ops.length ∧ ∀ t l, SToks lit t l →
      SToks lit ((c!"\n ").intercalate rows ++ t) (ops.flatMap (opToks plist headers) ++ l) := by
    induction ops with
    | nil => exact ⟨[], rfl, rfl, fun t l h => by simpa [List.intercalate] using h⟩
    | cons op ops ih =>
      obtain ⟨rows, h1, hlen, h2⟩ := ih (fun o ho => hf o (by simp [ho])) (fun o ho => hc o (by simp [ho]))
      obtain ⟨s, h3, h4⟩ := sexprOp_toks (plist := plist) (hf op (by simp)) hh (hc op (by simp))
      refine ⟨s :: rows, by rw [List.mapM_cons, h3, h1]; rfl, by simp [hlen], ?_⟩
      intro t l ht
      cases rows with
      | nil =>
        have e : ops = [] := List.length_eq_zero_iff.1 hlen.symm
        subst e
        simpa [List.intercalate] using h4 t l ht
      | cons r rows =>
        have e : (c!"\n ").intercalate (s :: r :: rows) ++ t =
            s ++ '\n' :: ' ' :: ((c!"\n ").intercalate (r :: rows) ++ t) := by
          simp [List.intercalate]
        rw [e, List.flatMap_cons, List.append_assoc]
        exact h4 _ _ (stoks_blank (stoks_blank (h2 t l ht) (by decide)) (by decide))
  obtain ⟨rows, h1, _, h2⟩ := key
  refine ⟨'(' :: (c!"\n ").intercalate rows ++ c!")\n", by simp [sexpr, h1], ?_⟩
  have := stoks_open (h2 c!")\n" [.closes] (stoks_close (stoks_blank (stoks_nil lit) (by decide))))
  exact this _ (by simp)

end Table
end Bant
