import Verif.Lemmas.CompDb
import Verif.Lemmas.Headers

/-! Lemmas on the options in `.bazelrc`. -/
namespace Bant
namespace CompDb
open CompDbSpec

theorem blank_iff {c : Char} : isBlank c = true ↔ c ∈ c!" \t\n\x0c\r" := by
  simp only [isBlank, Bool.or_eq_true, decide_eq_true_eq, List.mem_cons, List.not_mem_nil, or_false, or_assoc]

/-- The text goes on with a blank, or ends. -/
def Ends (s : Str) : Prop := ∀ c, s.head? = some c → isBlank c = true

/-- A word: not empty, no blanks. -/
def IsWord (w : Str) : Prop := w ≠ [] ∧ ∀ c ∈ w, isBlank c = false

theorem words_blank {c : Char} {s : Str} (h : isBlank c = true) : words (c :: s) = words s := by
  rw [words.eq_def]
  simp only []
  rw [if_pos (blank_iff.1 h)]

theorem words_word {w : Str} (hw : IsWord w) {s : Str} (hs : Ends s) : words (w ++ s) = w :: words s := by
  obtain ⟨hn, hb⟩ := hw
  induction w with
  | nil => exact absurd rfl hn
  | cons c w ih =>
    have hc : c ∉ c!" \t\n\x0c\r" := fun h => by simpa [hb c (by simp)] using blank_iff.2 h
    rw [List.cons_append, words.eq_def]
    simp only []
    rw [if_neg hc]
    cases w with
    | nil =>
      cases s with
      | nil => simp [words]
      | cons d s =>
        simp only [List.nil_append]
        rw [if_pos (blank_iff.1 (hs d rfl))]
    | cons d w =>
      have hd : d ∉ c!" \t\n\x0c\r" := fun h => by simpa [hb d (by simp)] using blank_iff.2 h
      have := ih (by simp) (fun c hc => hb c (by simp [hc]))
      simp only [List.cons_append] at this ⊢
      rw [if_neg hd, this]

/-- A text is empty, begins with a blank, or with a word. -/
theorem text_cases (s : Str) : s = [] ∨ (∃ c t, s = c :: t ∧ isBlank c = true) ∨
    ∃ w t, s = w ++ t ∧ IsWord w ∧ Ends t := by
  cases s with
  | nil => exact .inl rfl
  | cons c t =>
    cases hc : isBlank c with
    | true => exact .inr (.inl ⟨c, t, rfl, hc⟩)
    | false =>
      refine .inr (.inr ⟨(c :: t).takeWhile (fun c => !isBlank c), (c :: t).dropWhile (fun c => !isBlank c),
        (List.takeWhile_append_dropWhile).symm, ⟨by simp [hc], ?_⟩, ?_⟩)
      · intro d hd
        have := List.all_eq_true.1 List.all_takeWhile d hd
        simpa using this
      · intro d hd
        have := List.head?_dropWhile_not (fun c => !isBlank c) (c :: t)
        rw [hd] at this
        simpa using this

theorem cxxopts_skip (s : Str) : ∀ n, cxxopts n s = cxxopts 0 (s.drop n) := by
  induction s with
  | nil => intro n; simp [cxxopts]
  | cons c s ih =>
    intro n
    cases n with
    | zero => rfl
    | succ n => rw [cxxopts, ih, List.drop_succ_cons]

theorem cxxopts_none {c : Char} {s : Str} (h : cxxoptAt (c :: s) = none) : cxxopts 0 (c :: s) = cxxopts 0 s := by
  rw [cxxopts, h]

theorem cxxopts_some {s opt rest : Str} {n : Nat} (h : cxxoptAt s = some (opt, rest)) (hn : s.drop n = rest)
    (h0 : 0 < n) (hl : n ≤ s.length) : cxxopts 0 s = opt :: cxxopts 0 rest := by
  cases s with
  | nil => simp at hl; omega
  | cons c s =>
    rw [cxxopts, h]
    simp only []
    rw [cxxopts_skip]
    congr 2
    subst hn
    cases n with
    | zero => omega
    | succ n =>
      rw [List.drop_succ_cons, List.length_drop]
      simp at hl
      congr 1
      omega

/-- A text without blanks at the begin is part of the first word. -/
theorem prefix_word {p u s : Str} (hp : ∀ c ∈ p, isBlank c = false) (hs : Ends s) (h : p <+: u ++ s) : p <+: u := by
  induction p generalizing u with
  | nil => exact List.nil_prefix
  | cons c p ih =>
    cases u with
    | nil =>
      cases s with
      | nil => simp at h
      | cons d s =>
        have := (List.cons_prefix_cons.1 h).1
        subst this
        have h1 := hs c rfl
        rw [hp c (by simp)] at h1
        cases h1
    | cons d u =>
      rw [List.cons_append, List.cons_prefix_cons] at h
      rw [List.cons_prefix_cons]
      exact ⟨h.1, ih (fun c hc => hp c (by simp [hc])) h.2⟩

theorem cxxoptAt_prefix {s : Str} (h : cxxoptAt s ≠ none) : c!"--cxxopt" <+: s ∨ c!"--host_cxxopt" <+: s := by
  unfold cxxoptAt at h
  by_cases h1 : startsWith s c!"--" = true
  · simp only [h1, not_true, if_false] at h
    obtain ⟨s1, rfl⟩ := Headers.startsWith_iff.1 h1
    have e : (c!"--" ++ s1).drop 2 = s1 := rfl
    rw [e] at h
    by_cases h2 : startsWith (skipWord c!"host_" s1) c!"cxxopt" = true
    · obtain ⟨s2, h3⟩ := Headers.startsWith_iff.1 h2
      unfold skipWord at h3
      split at h3
      · rename_i h4
        obtain ⟨s3, rfl⟩ := Headers.startsWith_iff.1 h4
        have e : (c!"host_" ++ s3).drop (List.length c!"host_") = s3 := rfl
        rw [e] at h3
        subst h3
        exact .inr ⟨s2, rfl⟩
      · subst h3
        exact .inl ⟨s2, rfl⟩
    · simp [h2] at h
  · simp [h1] at h

/-- Nothing is found in words that do not mention options. -/
theorem cxxopts_word {w s : Str} (hw : IsWord w) (hs : Ends s) (h : ¬ c!"cxxopt" <:+: w) :
    cxxopts 0 (w ++ s) = cxxopts 0 s := by
  replace hw := hw.2
  induction w with
  | nil => rfl
  | cons c w ih =>
    rw [List.cons_append, cxxopts_none, ih (fun h1 => h (h1.trans (List.suffix_cons c w).isInfix))
      (fun c hc => hw c (by simp [hc]))]
    cases hc : cxxoptAt (c :: (w ++ s)) with
    | none => rfl
    | some x =>
      refine absurd ?_ h
      have : cxxoptAt ((c :: w) ++ s) ≠ none := by
        rw [List.cons_append, hc]; exact fun h => by cases h
      rcases cxxoptAt_prefix this with h1 | h1
      · exact (List.IsInfix.trans ⟨c!"--", [], rfl⟩ (prefix_word (by decide) hs h1).isInfix)
      · exact (List.IsInfix.trans ⟨c!"--host_", [], rfl⟩ (prefix_word (by decide) hs h1).isInfix)

/-- What is taken of a flag with something after it. -/
def taken : Str → Option (Str × Str)
  | [] => none
  | c :: t =>
    if c = '-' ∧ t.takeWhile isOptChar ≠ [] then some (c :: t.takeWhile isOptChar, t.dropWhile isOptChar) else none

theorem cxxoptAt_flag {p : Str} (hp : p = c!"--cxxopt" ∨ p = c!"--host_cxxopt") (s : Str) :
    cxxoptAt (p ++ s) = taken (match (skipWord c!"=" (s.dropWhile isBlank)).dropWhile isBlank with
      | [] => []
      | c :: t => if c = '"' ∨ c = '\'' then t else c :: t) := by
  have e : ∀ x : Str, (match (match x with
        | [] => []
        | c :: t => if c = '"' ∨ c = '\'' then t else x) with
      | [] => none
      | c :: t => if c = '-' ∧ t.takeWhile isOptChar ≠ [] then some (c :: t.takeWhile isOptChar, t.dropWhile isOptChar)
          else none) = taken (match x with
        | [] => []
        | c :: t => if c = '"' ∨ c = '\'' then t else c :: t) := by
    intro x
    cases x with
    | nil => rfl
    | cons c t =>
      simp only []
      generalize (if c = '"' ∨ c = '\'' then t else c :: t) = y
      cases y <;> rfl
  rcases hp with rfl | rfl
  · exact e _
  · exact e _

theorem not_quote {w : Str} (hw : SimpleWord w) : ∀ c ∈ w, c ≠ '"' ∧ c ≠ '\'' := fun c hc =>
  ⟨by rintro rfl; exact hw.1 hc, by rintro rfl; exact hw.2.1 hc⟩

theorem opt_chars {w : Str} (h : ∀ c ∈ w, isBlank c = false) (hq : ∀ c ∈ w, c ≠ '"' ∧ c ≠ '\'') :
    ∀ c ∈ w, isOptChar c = true := by
  intro c hc
  simp [isOptChar, h c hc, (hq c hc).1, (hq c hc).2]

theorem ends_not_opt {s : Str} (hs : Ends s) : s.takeWhile isOptChar = [] ∧ s.dropWhile isOptChar = s := by
  cases s with
  | nil => simp
  | cons c s => simp [isOptChar, hs c rfl]

theorem takeWhile_word {w s : Str} (h : ∀ c ∈ w, isOptChar c = true) (hs : Ends s) :
    (w ++ s).takeWhile isOptChar = w ∧ (w ++ s).dropWhile isOptChar = s := by
  rw [List.takeWhile_append_of_pos h, List.dropWhile_append_of_pos h, (ends_not_opt hs).1, (ends_not_opt hs).2]
  exact ⟨List.append_nil w, rfl⟩

/-- An option is taken. -/
theorem taken_option {w s : Str} (hw : ∀ c ∈ w, isOptChar c = true) (hs : Ends s) (ho : isOption w = true) :
    taken (w ++ s) = some (w, s) := by
  unfold isOption at ho
  split at ho
  · rename_i c t
    have := takeWhile_word (w := c :: t) (fun d hd => hw d (by simp only [List.mem_cons] at hd ⊢; exact .inr hd)) hs
    rw [List.cons_append, taken, this.1, this.2]
    simp
  · cases ho

/-- What is not an option is not taken. -/
theorem taken_other {w s : Str} (hw : IsWord w) (hs : Ends s) (ho : isOption w = false) : taken (w ++ s) = none := by
  cases w with
  | nil => exact absurd rfl hw.1
  | cons c w =>
    rw [List.cons_append, taken, if_neg]
    rintro ⟨rfl, h⟩
    cases w with
    | nil =>
      rw [List.nil_append, (ends_not_opt hs).1] at h
      exact h rfl
    | cons d w => cases ho

theorem dropWhile_blank (s : Str) : s.dropWhile isBlank = [] ∨ ∃ w t, s.dropWhile isBlank = w ++ t ∧ IsWord w ∧ Ends t := by
  rcases text_cases (s.dropWhile isBlank) with h | ⟨c, t, h, hc⟩ | h
  · exact .inl h
  · have := List.head?_dropWhile_not isBlank s
    rw [h] at this
    simp [hc] at this
  · exact .inr h

theorem words_dropWhile (s : Str) : words (s.dropWhile isBlank) = words s := by
  induction s with
  | nil => rfl
  | cons c s ih =>
    rw [List.dropWhile_cons]
    split
    · rename_i h; rw [ih, words_blank h]
    · rfl

theorem word_head {w : Str} (hw : IsWord w) : ∃ c t, w = c :: t ∧ isBlank c = false := by
  obtain ⟨c, t, rfl⟩ := List.exists_cons_of_ne_nil hw.1
  exact ⟨c, t, rfl, hw.2 c (by simp)⟩

/-- Blanks do not matter. -/
theorem cxxopts_blank (s : Str) : cxxopts 0 (s.dropWhile isBlank) = cxxopts 0 s := by
  induction s with
  | nil => rfl
  | cons c s ih =>
    rw [List.dropWhile_cons]
    split
    · rename_i h
      rw [ih, cxxopts_none]
      cases hc : cxxoptAt (c :: s) with
      | none => rfl
      | some x =>
        have hd : c = '-' := by
          rcases cxxoptAt_prefix (s := c :: s) (by rw [hc]; exact fun h => by cases h) with h1 | h1
          · exact (List.cons_prefix_cons.1 h1).1.symm
          · exact (List.cons_prefix_cons.1 h1).1.symm
        subst hd
        cases h
    · rfl

/-- After a flag without value that is not followed by an option. -/
theorem cxxopts_flag_none {p s : Str} (hp : p = c!"--cxxopt" ∨ p = c!"--host_cxxopt") (hs : Ends s)
    (h : cxxoptAt (p ++ s) = none) : cxxopts 0 (p ++ s) = cxxopts 0 s := by
  have key : ∀ p', ¬ c!"--cxxopt" <:+: p' → ¬ c!"--host_cxxopt" <:+: p' → (∀ c ∈ p', isBlank c = false) →
      cxxopts 0 (p' ++ s) = cxxopts 0 s := by
    intro p'
    induction p' with
    | nil => intro _ _ _; rfl
    | cons c p' ih =>
      intro h1 h2 h3
      rw [List.cons_append, cxxopts_none, ih (fun h => h1 (h.trans (List.suffix_cons c p').isInfix))
        (fun h => h2 (h.trans (List.suffix_cons c p').isInfix)) (fun d hd => h3 d (by simp [hd]))]
      cases hc : cxxoptAt (c :: (p' ++ s)) with
      | none => rfl
      | some x =>
        have : cxxoptAt ((c :: p') ++ s) ≠ none := by rw [List.cons_append, hc]; exact fun h => by cases h
        rcases cxxoptAt_prefix this with h4 | h4
        · exact absurd (prefix_word (by decide) hs h4).isInfix h1
        · exact absurd (prefix_word (by decide) hs h4).isInfix h2
  rcases hp with rfl | rfl
  · rw [List.cons_append, cxxopts_none (by simpa using h)]
    exact key c!"-cxxopt" (by decide) (by decide) (by decide)
  · rw [List.cons_append, cxxopts_none (by simpa using h)]
    exact key c!"-host_cxxopt" (by decide) (by decide) (by decide)

theorem wanted_flag {p : Str} (hp : p = c!"--cxxopt" ∨ p = c!"--host_cxxopt") (ws : List Str) :
    wanted false (p :: ws) = wanted true ws := by
  rw [wanted]
  simp [hp]

theorem wanted_true_other {w : Str} {ws : List Str} (h : isOption w = false) :
    wanted true (w :: ws) = wanted false (w :: ws) := by
  rw [wanted, wanted]
  simp [h]

theorem cxxopts_words (n : Nat) : ∀ s : Str, s.length ≤ n → (∀ w ∈ words s, SimpleWord w) →
    cxxopts 0 s = wanted false (words s) := by
  induction n with
  | zero =>
    intro s hl _
    cases s with
    | nil => rfl
    | cons c s => simp at hl
  | succ n ih =>
    intro s hl hsw
    rcases text_cases s with rfl | ⟨c, t, rfl, hc⟩ | ⟨w, t, rfl, hw, ht⟩
    · rfl
    · rw [words_blank hc] at hsw ⊢
      rw [← ih t (by simpa using hl) hsw, ← cxxopts_blank, ← cxxopts_blank t, List.dropWhile_cons, if_pos hc]
    · rw [words_word hw ht] at hsw ⊢
      have hlen : t.length ≤ n := by
        obtain ⟨c, x, rfl, _⟩ := word_head hw
        simp at hl; omega
      have hrest := ih t hlen (fun w hw => hsw w (by simp [hw]))
      obtain ⟨q1, q2, q3, q4⟩ := hsw w (by simp)
      have hne (p v : Str) (hp : p = c!"--cxxopt=" ∨ p = c!"--host_cxxopt=") (hv : isOption v = true) (e : w = p ++ v) :
          cxxopts 0 (w ++ t) = v :: cxxopts 0 t := by
        subst e
        have hq := opt_chars hw.2 (not_quote (hsw _ (by simp)))
        have hv' := taken_option (fun c hc => hq c (by simp [hc])) ht hv
        have hd : ∃ x, v = '-' :: x := by
          unfold isOption at hv; split at hv
          · exact ⟨_, rfl⟩
          · cases hv
        have hc : cxxoptAt (p ++ v ++ t) = some (v, t) := by
          rw [← hv']
          obtain ⟨x, rfl⟩ := hd
          rcases hp with rfl | rfl
          · exact cxxoptAt_flag (.inl rfl) (c!"=" ++ ('-' :: x) ++ t)
          · exact cxxoptAt_flag (.inr rfl) (c!"=" ++ ('-' :: x) ++ t)
        refine cxxopts_some (n := (p ++ v).length) hc (by simp) ?_ (by simp)
        rcases hp with rfl | rfl <;> simp
      rcases q4 with q4 | hf
      · rw [cxxopts_word hw ht q4, hrest, wanted]
        have e1 : w ≠ c!"--cxxopt" := by rintro rfl; exact q4 ⟨c!"--", [], rfl⟩
        have e2 : w ≠ c!"--host_cxxopt" := by rintro rfl; exact q4 ⟨c!"--host_", [], rfl⟩
        have e3 : ¬ c!"--cxxopt=".isPrefixOf w = true := by
          intro h
          exact q4 (List.IsInfix.trans ⟨c!"--", c!"=", rfl⟩ (List.isPrefixOf_iff_prefix.1 h).isInfix)
        have e4 : ¬ c!"--host_cxxopt=".isPrefixOf w = true := by
          intro h
          exact q4 (List.IsInfix.trans ⟨c!"--host_", c!"=", rfl⟩ (List.isPrefixOf_iff_prefix.1 h).isInfix)
        rw [if_neg (by simp), if_neg (by simp [e1, e2]), if_neg e3, if_neg e4]
      · have hflag : (w = c!"--cxxopt" ∨ w = c!"--host_cxxopt") → cxxopts 0 (w ++ t) = wanted false (w :: words t) := by
          intro hf
          rw [wanted_flag hf]
          have hat := cxxoptAt_flag hf t
          rcases dropWhile_blank t with he | ⟨v, u, he, hv, hu⟩
          · have hn : cxxoptAt (w ++ t) = none := by rw [hat, he]; rfl
            rw [cxxopts_flag_none hf ht hn, ← cxxopts_blank, ← words_dropWhile, he]
            rfl
          · have hwt : words t = v :: words u := by rw [← words_dropWhile, he, words_word hv hu]
            obtain ⟨p1, p2, p3, p4⟩ := hsw v (by simp [hwt])
            obtain ⟨c, x, rfl, hcb⟩ := word_head hv
            have hceq : c ≠ '=' := by rintro rfl; exact p3 rfl
            have hcq := not_quote (hsw (c :: x) (by simp [hwt])) c (by simp)
            have h1 : skipWord c!"=" (c :: (x ++ u)) = c :: (x ++ u) := by
              unfold skipWord
              rw [if_neg]
              intro h
              exact hceq (List.cons_prefix_cons.1 (Headers.startsWith_iff.1 h)).1.symm
            have hat2 : cxxoptAt (w ++ t) = taken (c :: x ++ u) := by
              rw [hat, he, List.cons_append, h1, List.dropWhile_cons, if_neg (by simp [hcb])]
              simp only []
              rw [if_neg (by simp [hcq])]
            cases ho : isOption (c :: x) with
            | true =>
              have hq := opt_chars hv.2 (not_quote (hsw (c :: x) (by simp [hwt])))
              rw [taken_option hq hu ho] at hat2
              obtain ⟨bl, htu⟩ : ∃ bl, t = bl ++ (c :: x) ++ u :=
                ⟨t.takeWhile isBlank, by rw [List.append_assoc, ← he, List.takeWhile_append_dropWhile]⟩
              have hlu : u.length ≤ n := by
                have := congrArg List.length htu
                simp at this; omega
              rw [hwt, wanted, if_pos (by simp [ho]), ← ih u hlu (fun w hw => hsw w (by simp [hwt, hw]))]
              refine cxxopts_some (n := (w ++ (bl ++ (c :: x))).length) hat2 ?_ ?_ ?_
              · rw [htu, ← List.append_assoc w (bl ++ c :: x) u, List.drop_left]
              · have := hw.1
                cases w with
                | nil => exact absurd rfl this
                | cons a b => simp
              · have := congrArg List.length htu
                simp at this ⊢; omega
            | false =>
              rw [taken_other hv hu ho] at hat2
              rw [cxxopts_flag_none hf ht hat2, hrest, hwt, wanted_true_other ho]
        have hval : ∀ v, isOption v = true → (w = c!"--cxxopt=" ++ v ∨ w = c!"--host_cxxopt=" ++ v) →
            cxxopts 0 (w ++ t) = wanted false (w :: words t) := by
          rintro v hv (e | e)
          · rw [hne _ v (.inl rfl) hv e, hrest, wanted, e]
            simp [List.isPrefixOf]
          · rw [hne _ v (.inr rfl) hv e, hrest, wanted, e]
            simp [List.isPrefixOf]
        rcases hf with h | h | ⟨v, hv, h⟩
        · exact hflag (.inl h)
        · exact hflag (.inr h)
        · exact hval v hv h

/-! ### All that is found -/

theorem optChar_iff {c : Char} : isOptChar c = true ↔ c ∉ c!" \t\n\x0c\r\"'" := by
  have := @blank_iff c
  simp only [List.mem_cons, List.not_mem_nil, or_false] at this
  simp only [isOptChar, Bool.and_eq_true, decide_eq_true_eq, List.mem_cons, List.not_mem_nil, or_false]
  cases hb : isBlank c
  · simp_all
  · simp only [hb, true_iff] at this
    simp only [Bool.not_true, Bool.false_eq_true, false_and, false_iff, Classical.not_not]
    rcases this with h | h | h | h | h <;> simp [h]

/-- Without a quote in front of it. -/
def unquote : Str → Str
  | [] => []
  | c :: t => if c = '"' ∨ c = '\'' then t else c :: t

theorem cxxoptAt_unquote {p : Str} (hp : p = c!"--cxxopt" ∨ p = c!"--host_cxxopt") (s : Str) :
    cxxoptAt (p ++ s) = taken (unquote ((skipWord c!"=" (s.dropWhile isBlank)).dropWhile isBlank)) := by
  rw [cxxoptAt_flag hp]
  generalize (skipWord c!"=" (s.dropWhile isBlank)).dropWhile isBlank = x
  cases x <;> rfl

theorem dropWhile_blanks {b : Str} (h : ∀ c ∈ b, c ∈ c!" \t\n\x0c\r") (s : Str) :
    (b ++ s).dropWhile isBlank = s.dropWhile isBlank :=
  List.dropWhile_append_of_pos fun c hc => blank_iff.2 (h c hc)

theorem dropWhile_head {c : Char} {s : Str} (h : isBlank c = false) : (c :: s).dropWhile isBlank = c :: s := by
  rw [List.dropWhile_cons, if_neg (by simp [h])]

theorem skip_eq (s : Str) : skipWord c!"=" (c!"=" ++ s) = s := by
  unfold skipWord; rw [if_pos (Headers.startsWith_iff.2 ⟨s, rfl⟩)]; rfl

theorem skip_other {c : Char} {s : Str} (h : c ≠ '=') : skipWord c!"=" (c :: s) = c :: s := by
  unfold skipWord
  rw [if_neg]
  intro h'
  exact h (List.cons_prefix_cons.1 (Headers.startsWith_iff.1 h')).1.symm

/-- A flag, with more characters of the option after it. -/
theorem cxxoptAt_of {x opt s : Str} (h : FlagFor x opt) :
    cxxoptAt (x ++ s) = some (opt ++ s.takeWhile isOptChar, s.dropWhile isOptChar) := by
  obtain ⟨flag, b, eq, b', q, v, rfl, h1, h2, h3, h4, h5, rfl, h6, h7⟩ := h
  have hv : ∀ c ∈ v, isOptChar c = true := fun c hc => optChar_iff.2 (h7 c hc)
  have ht : taken ('-' :: v ++ s) = some ('-' :: v ++ s.takeWhile isOptChar, s.dropWhile isOptChar) := by
    rw [List.cons_append, taken, List.takeWhile_append_of_pos hv, List.dropWhile_append_of_pos hv, if_pos]
    · rfl
    · exact ⟨rfl, by simp [h6]⟩
  simp only [List.append_assoc]
  rw [cxxoptAt_unquote (by simpa using h1), dropWhile_blanks h2]
  have hq : unquote (q ++ ('-' :: v ++ s)) = '-' :: v ++ s := by
    simp only [List.mem_cons, List.not_mem_nil, or_false] at h5
    rcases h5 with rfl | rfl | rfl <;> simp [unquote]
  have hd : ∃ c t, q ++ ('-' :: v ++ s) = c :: t ∧ isBlank c = false ∧ c ≠ '=' := by
    simp only [List.mem_cons, List.not_mem_nil, or_false] at h5
    rcases h5 with rfl | rfl | rfl
    · exact ⟨_, _, rfl, by decide, by decide⟩
    · exact ⟨_, _, rfl, by decide, by decide⟩
    · exact ⟨_, _, rfl, by decide, by decide⟩
  obtain ⟨c, t, e, hb, he⟩ := hd
  have key : (skipWord c!"=" ((eq ++ (b' ++ (q ++ ('-' :: v ++ s)))).dropWhile isBlank)).dropWhile isBlank =
      q ++ ('-' :: v ++ s) := by
    rw [e]
    simp only [List.mem_cons, List.not_mem_nil, or_false] at h3
    rcases h3 with rfl | rfl
    · rw [List.nil_append, dropWhile_blanks h4, dropWhile_head hb, skip_other he, dropWhile_head hb]
    · have : (c!"=" ++ (b' ++ c :: t)).dropWhile isBlank = c!"=" ++ (b' ++ c :: t) := dropWhile_head (by decide)
      rw [this, skip_eq, dropWhile_blanks h4, dropWhile_head hb]
  rw [key, hq, ht]

theorem blanks_split (s : Str) : ∃ b, s = b ++ s.dropWhile isBlank ∧ ∀ c ∈ b, c ∈ c!" \t\n\x0c\r" := by
  refine ⟨s.takeWhile isBlank, (List.takeWhile_append_dropWhile).symm, fun c hc => ?_⟩
  exact blank_iff.1 (List.all_eq_true.1 List.all_takeWhile c hc)

theorem eq_split (s : Str) : ∃ eq, s = eq ++ skipWord c!"=" s ∧ eq ∈ [[], c!"="] := by
  by_cases h : startsWith s c!"=" = true
  · obtain ⟨t, rfl⟩ := Headers.startsWith_iff.1 h
    exact ⟨c!"=", by rw [skip_eq], by simp⟩
  · exact ⟨[], by simp [skipWord, h], by simp⟩

theorem quote_split (s : Str) : ∃ q, q ∈ [[], c!"\"", c!"'"] ∧ s = q ++ unquote s := by
  cases s with
  | nil => exact ⟨[], by simp, rfl⟩
  | cons c t =>
    by_cases h : c = '"' ∨ c = '\''
    · refine ⟨[c], by rcases h with rfl | rfl <;> simp, by simp [unquote, h]⟩
    · exact ⟨[], by simp, by simp [unquote, h]⟩

theorem stops_of (s : Str) (c : Char) (h : (s.dropWhile isOptChar).head? = some c) : c ∈ c!" \t\n\x0c\r\"'" := by
  have := List.head?_dropWhile_not isOptChar s
  rw [h] at this
  by_cases hc : c ∈ c!" \t\n\x0c\r\"'"
  · exact hc
  · have this : isOptChar c = false := this
    rw [optChar_iff.2 hc] at this; cases this

theorem cxxoptAt_sound {s opt rest : Str} (h : cxxoptAt s = some (opt, rest)) :
    ∃ x, s = x ++ rest ∧ FlagFor x opt ∧ ∀ c, rest.head? = some c → c ∈ c!" \t\n\x0c\r\"'" := by
  obtain ⟨flag, s', rfl, hf⟩ : ∃ flag s', s = flag ++ s' ∧ (flag = c!"--cxxopt" ∨ flag = c!"--host_cxxopt") := by
    rcases cxxoptAt_prefix (by rw [h]; exact fun h => by cases h) with ⟨t, h⟩ | ⟨t, h⟩
    · exact ⟨_, t, h.symm, .inl rfl⟩
    · exact ⟨_, t, h.symm, .inr rfl⟩
  rw [cxxoptAt_unquote hf] at h
  obtain ⟨b, e1, hb⟩ := blanks_split s'
  obtain ⟨eq, e2, heq⟩ := eq_split (s'.dropWhile isBlank)
  obtain ⟨b', e3, hb'⟩ := blanks_split (skipWord c!"=" (s'.dropWhile isBlank))
  obtain ⟨q, hq, e4⟩ := quote_split ((skipWord c!"=" (s'.dropWhile isBlank)).dropWhile isBlank)
  revert h e4
  generalize unquote ((skipWord c!"=" (s'.dropWhile isBlank)).dropWhile isBlank) = y
  intro h e4
  cases y with
  | nil => cases h
  | cons c t =>
    rw [taken] at h
    split at h
    · next hc =>
      obtain ⟨rfl, hn⟩ := hc
      cases h
      refine ⟨flag ++ b ++ eq ++ b' ++ q ++ ('-' :: t.takeWhile isOptChar), ?_,
        ⟨flag, b, eq, b', q, t.takeWhile isOptChar, rfl, by simpa using hf, hb, heq, hb', hq, rfl, hn, fun c hc =>
          optChar_iff.1 (List.all_eq_true.1 List.all_takeWhile c hc)⟩, stops_of t⟩
      rw [e1, e2, e3, e4]
      simp
    · cases h

theorem flagFor_ne {x opt : Str} (h : FlagFor x opt) : x ≠ [] := by
  obtain ⟨flag, b, eq, b', q, v, rfl, h1, _⟩ := h
  intro h
  simp only [List.append_eq_nil_iff] at h
  rw [h.1.1.1.1.1] at h1
  simp at h1

theorem optionsIn_nil : OptionsIn [] [] := by
  refine .none fun x opt h h' => flagFor_ne h ?_
  simpa using h'

/-- A character in front of which nothing begins. -/
theorem optionsIn_cons {c : Char} {s : Str} {opts : List Str} (h : cxxoptAt (c :: s) = none) (hs : OptionsIn s opts) :
    OptionsIn (c :: s) opts := by
  have hno : ∀ x opt b, FlagFor x opt → c :: s ≠ x ++ b := by
    intro x opt b hx e
    rw [e, cxxoptAt_of hx] at h
    cases h
  cases hs with
  | none hn =>
    refine .none fun x opt hx hi => ?_
    obtain ⟨a, b, e⟩ := hi
    cases a with
    | nil => exact hno x opt b hx (by simpa using e.symm)
    | cons d a => exact hn x opt hx ⟨a, b, by simpa using (List.cons.inj (by simpa using e)).2⟩
  | @first before x opt after _ opts e hx ha hl ho =>
    refine .first (before := c :: before) (by rw [e]; simp) hx ha ?_ ho
    intro a x' opt' b hx' e'
    cases a with
    | nil => exact absurd (by simpa using e') (hno x' opt' b hx')
    | cons d a =>
      simp only [List.cons_append, List.cons.injEq] at e'
      have := hl a x' opt' b hx' e'.2
      simp only [List.length_cons]; omega

theorem cxxopts_in (n : Nat) : ∀ s : Str, s.length ≤ n → OptionsIn s (cxxopts 0 s) := by
  induction n with
  | zero =>
    intro s h
    cases s with
    | nil => exact optionsIn_nil
    | cons c s => simp at h
  | succ n ih =>
    intro s hl
    cases s with
    | nil => exact optionsIn_nil
    | cons c s =>
      cases h : cxxoptAt (c :: s) with
      | none =>
        rw [cxxopts_none h]
        exact optionsIn_cons h (ih s (by simpa using hl))
      | some y =>
        obtain ⟨opt, rest⟩ := y
        obtain ⟨x, e, hx, hr⟩ := cxxoptAt_sound h
        have hpos := List.length_pos_iff.2 (flagFor_ne hx)
        have hlen := congrArg List.length e
        simp only [List.length_append, List.length_cons] at hlen hl
        rw [cxxopts_some h (n := x.length) (by rw [e, List.drop_left]) hpos (by simp; omega)]
        exact .first (before := []) (by simpa using e) hx hr (fun _ _ _ _ _ _ => Nat.zero_le _) (ih rest (by omega))

/-- There is one such list. -/
theorem optionsIn_unique {s : Str} {opts : List Str} (h : OptionsIn s opts) : opts = cxxopts 0 s := by
  induction h with
  | @none text hn =>
    induction text with
    | nil => rfl
    | cons c s ih =>
      rw [cxxopts_none, ← ih fun x opt hx hi => hn x opt hx (hi.trans (List.suffix_cons c s).isInfix)]
      cases h : cxxoptAt (c :: s) with
      | none => rfl
      | some y =>
        obtain ⟨x, e, hx, _⟩ := cxxoptAt_sound (opt := y.1) (rest := y.2) h
        exact absurd ⟨[], y.2, by simpa using e.symm⟩ (hn x y.1 hx)
  | @first before x opt after text opts e hx ha hl _ ih =>
    subst e
    have hd : ∀ before, (∀ a x' opt' b, FlagFor x' opt' → before ++ x ++ after = a ++ x' ++ b → before.length ≤ a.length) →
        cxxopts 0 (before ++ x ++ after) = cxxopts 0 (x ++ after) := by
      intro before
      induction before with
      | nil => intro _; rfl
      | cons c before ihb =>
        intro hl
        simp only [List.cons_append]
        rw [cxxopts_none, ihb]
        · intro a x' opt' b hx' e'
          have := hl (c :: a) x' opt' b hx' (by simpa using e')
          simpa using this
        · cases h : cxxoptAt (c :: (before ++ x ++ after)) with
          | none => rfl
          | some y =>
            obtain ⟨x', e', hx', _⟩ := cxxoptAt_sound (opt := y.1) (rest := y.2) h
            have := hl [] x' y.1 y.2 hx' (by simpa using e')
            simp at this
    rw [hd before hl, ih]
    have hstop : after.takeWhile isOptChar = [] ∧ after.dropWhile isOptChar = after := by
      cases after with
      | nil => simp
      | cons c s =>
        have hc : isOptChar c = false := by
          cases hc : isOptChar c with
          | false => rfl
          | true => exact absurd (ha c rfl) (optChar_iff.1 hc)
        simp [hc]
    have hat := cxxoptAt_of (s := after) hx
    rw [hstop.1, hstop.2, List.append_nil] at hat
    rw [cxxopts_some hat (n := x.length) (by rw [List.drop_left]) (List.length_pos_iff.2 (flagFor_ne hx)) (by simp)]

/-! ### The definition for tests -/

theorem inLine_iff {w s : Str} (hw : w ≠ []) : inLine w s = true ↔ ∃ a b, s = a ++ w ++ b ∧ '\n' ∉ a := by
  induction s with
  | nil =>
    simp only [inLine, Bool.false_eq_true, false_iff]
    rintro ⟨a, b, h, _⟩
    simp at h
    exact hw h.2.1
  | cons c s ih =>
    rw [inLine, Bool.or_eq_true, Headers.startsWith_iff, Bool.and_eq_true, ih]
    constructor
    · rintro (⟨b, h⟩ | ⟨h1, a, b, h2, h3⟩)
      · exact ⟨[], b, by simpa using h.symm, by simp⟩
      · have h1 : c ≠ '\n' := by simpa using h1
        exact ⟨c :: a, b, by simp [h2], by simp [h3, Ne.symm h1]⟩
    · rintro ⟨a, b, h1, h2⟩
      cases a with
      | nil => exact .inl ⟨b, by simpa using h1.symm⟩
      | cons d a =>
        simp only [List.cons_append, List.cons.injEq] at h1
        obtain ⟨rfl, h1⟩ := h1
        simp only [List.mem_cons, not_or] at h2
        exact .inr ⟨by simpa using Ne.symm h2.1, a, b, h1, h2.2⟩

theorem definesAbsl_iff {s : Str} : definesAbsl s = true ↔
    ∃ a b d, s = a ++ c!"define" ++ b ++ c!"absl=1" ++ d ∧ '\n' ∉ b := by
  induction s with
  | nil =>
    simp only [definesAbsl, Bool.false_eq_true, false_iff]
    rintro ⟨a, b, d, h, _⟩
    simp at h
  | cons c s ih =>
    rw [definesAbsl, Bool.or_eq_true, Bool.and_eq_true, Headers.startsWith_iff, ih, inLine_iff (by simp)]
    constructor
    · rintro (⟨⟨t, h1⟩, b, d, h2, h3⟩ | ⟨a, b, d, h1, h2⟩)
      · refine ⟨[], b, d, ?_, h3⟩
        have e : (c :: s).drop 6 = t := by rw [← h1]; rfl
        rw [e] at h2
        rw [← h1, h2]
        simp
      · exact ⟨c :: a, b, d, by simp [h1], h2⟩
    · rintro ⟨a, b, d, h1, h2⟩
      cases a with
      | nil =>
        refine .inl ⟨⟨b ++ c!"absl=1" ++ d, by rw [h1]; simp⟩, b, d, by rw [h1]; simp, h2⟩
      | cons x a =>
        simp only [List.cons_append, List.cons.injEq] at h1
        obtain ⟨rfl, h1⟩ := h1
        exact .inr ⟨a, b, d, h1, h2⟩

end CompDb
end Bant
