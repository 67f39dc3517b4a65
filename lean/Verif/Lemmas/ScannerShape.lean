import Verif.Lemmas.Scanner

/-! Shape of the tokens (C13, C52). -/
namespace Bant
namespace Scanner

theorem flatten_cons_unit (u : Str) (us : List Str) : (u :: us).flatten = u ++ us.flatten := by
  simp

/-- Single quoted strings. -/
theorem stringLoop_single (q : Char) (hq : q ≠ '\\') (n : Nat) (s : Str) (hn : s.length < n)
    (pos : Nat) (lines : LineMap) (nl : Nat) :
    let r := stringLoop q false s pos lines nl 1 false
    (r.2.2.2 = true → ∃ us : List Str, (∀ u ∈ us, StringUnit u) ∧ [q] ∉ us ∧ r.1 = us.flatten) ∧
    (r.2.2.2 = false → ∃ (us : List Str) (tail : Str), (∀ u ∈ us, StringUnit u) ∧ [q] ∉ us ∧
      tail ∈ [[], ['\\']] ∧ r.1 = us.flatten ++ tail) := by
  induction n generalizing s pos lines nl with
  | zero => omega
  | succ n ih =>
    cases s with
    | nil =>
      refine ⟨by simp [stringLoop], fun _ => ⟨[], [], by simp, by simp, by simp, by simp [stringLoop]⟩⟩
    | cons c cs =>
      simp only [stringLoop]
      by_cases hc : c = q
      · subst hc
        simp
        exact ⟨[], by simp, by simp, by simp⟩
      · by_cases hb : c = '\\'
        · subst hb
          cases cs with
          | nil =>
            simp [stringLoop, Ne.symm hq]
            exact ⟨[], by simp, by simp, Or.inr (by simp)⟩
          | cons d ds =>
            simp only [stringLoop]
            have := ih ds (by simp at hn; omega) (pos + 1 + 1)
              (if d = '\n' then lines ++ [pos + 1 + 1] else lines) (if d = '\n' then nl + 1 else nl)
            have e1 : ('\\' == q) = false := by simpa using hc
            simp only [e1, Bool.false_eq_true, if_false, beq_self_eq_true,
              Bool.not_false, Bool.and_true, Bool.not_true, Bool.and_false,
              show ('\\' = '\n') = False by simp] at this ⊢
            generalize stringLoop q false ds (pos + 1 + 1)
              (if d = '\n' then lines ++ [pos + 1 + 1] else lines)
              (if d = '\n' then nl + 1 else nl) 1 false = r at this ⊢
            obtain ⟨h1, h2⟩ := this
            constructor
            · intro h
              obtain ⟨us, hu1, hu2, hu3⟩ := h1 h
              refine ⟨['\\', d] :: us, ?_, by simpa using hu2, by simp [hu3]⟩
              intro u hu
              rcases List.mem_cons.1 hu with rfl | hu
              · exact Or.inr ⟨d, rfl⟩
              · exact hu1 u hu
            · intro h
              obtain ⟨us, tail, hu1, hu2, hu3, hu4⟩ := h2 h
              refine ⟨['\\', d] :: us, tail, ?_, by simpa using hu2, hu3, by simp [hu4]⟩
              intro u hu
              rcases List.mem_cons.1 hu with rfl | hu
              · exact Or.inr ⟨d, rfl⟩
              · exact hu1 u hu
        · have := ih cs (by simp at hn; omega) (pos + 1)
              (if c = '\n' then lines ++ [pos + 1] else lines) (if c = '\n' then nl + 1 else nl)
          have e1 : (c == q) = false := by simpa using hc
          have e2 : (c == '\\') = false := by simpa using hb
          simp only [e1, e2, Bool.false_and, Bool.false_eq_true, if_false] at this ⊢
          generalize stringLoop q false cs (pos + 1)
            (if c = '\n' then lines ++ [pos + 1] else lines)
            (if c = '\n' then nl + 1 else nl) 1 false = r at this ⊢
          obtain ⟨h1, h2⟩ := this
          constructor
          · intro h
            obtain ⟨us, hu1, hu2, hu3⟩ := h1 h
            refine ⟨[c] :: us, ?_, by simpa [Ne.symm hc] using hu2, by simp [hu3]⟩
            intro u hu
            rcases List.mem_cons.1 hu with rfl | hu
            · exact Or.inl ⟨c, rfl, hb⟩
            · exact hu1 u hu
          · intro h
            obtain ⟨us, tail, hu1, hu2, hu3, hu4⟩ := h2 h
            refine ⟨[c] :: us, tail, ?_, by simpa [Ne.symm hc] using hu2, hu3, by simp [hu4]⟩
            intro u hu
            rcases List.mem_cons.1 hu with rfl | hu
            · exact Or.inl ⟨c, rfl, hb⟩
            · exact hu1 u hu

/-- No three successive `x`. -/
def NoTriple (x : Str) (us : List Str) : Prop := ∀ a b, us ≠ a ++ [x, x, x] ++ b

theorem noTriple_cons {x u : Str} {us : List Str} (k : Nat) (hk : k ≤ 2) (hu : u ≠ x)
    (h : NoTriple x us) : NoTriple x (List.replicate k x ++ u :: us) := by
  intro a b e
  have hk' : k = 0 ∨ k = 1 ∨ k = 2 := by omega
  rcases hk' with rfl | rfl | rfl <;> simp [List.replicate] at e
  · rcases a with _ | ⟨a1, a⟩
    · simp at e; exact hu e.1
    · simp at e; exact h a b (by simpa using e.2)
  · rcases a with _ | ⟨a1, _ | ⟨a2, a⟩⟩
    · simp at e; exact hu e.1
    · simp at e; exact hu e.2.1
    · simp at e; exact h a b (by simpa using e.2.2)
  · rcases a with _ | ⟨a1, _ | ⟨a2, _ | ⟨a3, a⟩⟩⟩
    · simp at e; exact hu e.1
    · simp at e; exact hu e.2.1
    · simp at e; exact hu e.2.2.1
    · simp at e; exact h a b (by simpa using e.2.2.2)

theorem noTriple_replicate (x : Str) (k : Nat) (hk : k ≤ 2) : NoTriple x (List.replicate k x) := by
  intro a b e
  have := congrArg List.length e
  simp at this
  omega

/-- Triple quoted strings; `3 - cc` unescaped quotes have just been seen. -/
theorem stringLoop_triple (q : Char) (hq : q ≠ '\\') (n : Nat) (s : Str) (hn : s.length < n)
    (pos : Nat) (lines : LineMap) (nl cc : Nat) (hcc : 1 ≤ cc ∧ cc ≤ 3) :
    let r := stringLoop q true s pos lines nl cc false
    (r.2.2.2 = true → ∃ us : List Str, (∀ u ∈ us, StringUnit u) ∧ r.1 = us.flatten ∧
      NoTriple [q] (List.replicate (3 - cc) [q] ++ us) ∧
      ∃ vs, List.replicate (3 - cc) [q] ++ us = vs ++ [[q], [q]]) ∧
    (r.2.2.2 = false → ∃ (us : List Str) (tail : Str), (∀ u ∈ us, StringUnit u) ∧
      NoTriple [q] (List.replicate (3 - cc) [q] ++ us) ∧
      tail ∈ [[], ['\\']] ∧ r.1 = us.flatten ++ tail) := by
  induction n generalizing s pos lines nl cc with
  | zero => omega
  | succ n ih =>
    cases s with
    | nil =>
      refine ⟨by simp [stringLoop], fun _ => ⟨[], [], by simp, ?_, by simp, by simp [stringLoop]⟩⟩
      simpa using noTriple_replicate [q] (3 - cc) (by omega)
    | cons c cs =>
      simp only [stringLoop]
      by_cases hc : c = q
      · subst hc
        by_cases h1 : cc = 1
        · subst h1
          simp
          exact ⟨[], by simp, by simp, noTriple_replicate _ 2 (by omega), [], rfl⟩
        · have e1 : (cc == 1) = false := by simpa using h1
          have e2 : (c == '\\') = false := by simpa using hq
          have := ih cs (by simp at hn; omega) (pos + 1)
              (if c = '\n' then lines ++ [pos + 1] else lines) (if c = '\n' then nl + 1 else nl)
              (cc - 1) (by omega)
          simp only [e1, e2, beq_self_eq_true, Bool.not_false, Bool.and_true, Bool.and_false,
            Bool.false_eq_true, if_false, if_true] at this ⊢
          generalize stringLoop c true cs (pos + 1)
            (if c = '\n' then lines ++ [pos + 1] else lines)
            (if c = '\n' then nl + 1 else nl) (cc - 1) false = r at this ⊢
          obtain ⟨h1, h2⟩ := this
          have erep : ∀ us, List.replicate (3 - (cc - 1)) [c] ++ us
              = List.replicate (3 - cc) [c] ++ [c] :: us := by
            intro us
            rw [show 3 - (cc - 1) = (3 - cc) + 1 by omega, List.replicate_succ', List.append_assoc]
            rfl
          constructor
          · intro h
            obtain ⟨us, hu1, hu2, hu3, hu4⟩ := h1 h
            rw [erep] at hu3 hu4
            refine ⟨[c] :: us, ?_, by simp [hu2], hu3, hu4⟩
            intro u hu
            rcases List.mem_cons.1 hu with rfl | hu
            · exact Or.inl ⟨c, rfl, hq⟩
            · exact hu1 u hu
          · intro h
            obtain ⟨us, tail, hu1, hu2, hu3, hu4⟩ := h2 h
            rw [erep] at hu2
            refine ⟨[c] :: us, tail, ?_, hu2, hu3, by simp [hu4]⟩
            intro u hu
            rcases List.mem_cons.1 hu with rfl | hu
            · exact Or.inl ⟨c, rfl, hq⟩
            · exact hu1 u hu
      · by_cases hb : c = '\\'
        · subst hb
          cases cs with
          | nil =>
            simp [stringLoop, Ne.symm hq]
            exact ⟨[], by simp, by simpa using noTriple_replicate [q] (3 - cc) (by omega), Or.inr (by simp)⟩
          | cons d ds =>
            simp only [stringLoop]
            have := ih ds (by simp at hn; omega) (pos + 1 + 1)
              (if d = '\n' then lines ++ [pos + 1 + 1] else lines) (if d = '\n' then nl + 1 else nl)
              3 (by omega)
            have e1 : ('\\' == q) = false := by simpa using hc
            simp only [e1, Bool.false_and, Bool.false_eq_true, if_false, beq_self_eq_true,
              Bool.not_false, Bool.and_true, Bool.not_true, Bool.and_false, if_true,
              show ('\\' = '\n') = False by simp] at this ⊢
            generalize stringLoop q true ds (pos + 1 + 1)
              (if d = '\n' then lines ++ [pos + 1 + 1] else lines)
              (if d = '\n' then nl + 1 else nl) 3 false = r at this ⊢
            simp only [Nat.sub_self, List.replicate_zero, List.nil_append] at this
            obtain ⟨h1, h2⟩ := this
            constructor
            · intro h
              obtain ⟨us, hu1, hu2, hu3, vs, hu4⟩ := h1 h
              refine ⟨['\\', d] :: us, ?_, by simp [hu2], noTriple_cons _ (by omega) (by simp) hu3,
                List.replicate (3 - cc) [q] ++ ['\\', d] :: vs, by simp [hu4]⟩
              intro u hu
              rcases List.mem_cons.1 hu with rfl | hu
              · exact Or.inr ⟨d, rfl⟩
              · exact hu1 u hu
            · intro h
              obtain ⟨us, tail, hu1, hu2, hu3, hu4⟩ := h2 h
              refine ⟨['\\', d] :: us, tail, ?_, noTriple_cons _ (by omega) (by simp) hu2, hu3,
                by simp [hu4]⟩
              intro u hu
              rcases List.mem_cons.1 hu with rfl | hu
              · exact Or.inr ⟨d, rfl⟩
              · exact hu1 u hu
        · have := ih cs (by simp at hn; omega) (pos + 1)
              (if c = '\n' then lines ++ [pos + 1] else lines) (if c = '\n' then nl + 1 else nl)
              3 (by omega)
          have e1 : (c == q) = false := by simpa using hc
          have e2 : (c == '\\') = false := by simpa using hb
          simp only [e1, e2, Bool.false_and, Bool.false_eq_true, if_false, if_true] at this ⊢
          generalize stringLoop q true cs (pos + 1)
            (if c = '\n' then lines ++ [pos + 1] else lines)
            (if c = '\n' then nl + 1 else nl) 3 false = r at this ⊢
          simp only [Nat.sub_self, List.replicate_zero, List.nil_append] at this
          obtain ⟨h1, h2⟩ := this
          constructor
          · intro h
            obtain ⟨us, hu1, hu2, hu3, vs, hu4⟩ := h1 h
            refine ⟨[c] :: us, ?_, by simp [hu2], noTriple_cons _ (by omega) (by simpa using hc) hu3,
              List.replicate (3 - cc) [q] ++ [c] :: vs, by simp [hu4]⟩
            intro u hu
            rcases List.mem_cons.1 hu with rfl | hu
            · exact Or.inl ⟨c, rfl, hb⟩
            · exact hu1 u hu
          · intro h
            obtain ⟨us, tail, hu1, hu2, hu3, hu4⟩ := h2 h
            refine ⟨[c] :: us, tail, ?_, noTriple_cons _ (by omega) (by simpa using hc) hu2, hu3,
              by simp [hu4]⟩
            intro u hu
            rcases List.mem_cons.1 hu with rfl | hu
            · exact Or.inl ⟨c, rfl, hb⟩
            · exact hu1 u hu

theorem rawPrefix_cases {rest : Str}
    (h : (∃ q cs, rest = q :: cs ∧ (q = '"' ∨ q = '\'')) ∨
      (∃ r q cs, rest = r :: q :: cs ∧ (r = 'r' ∨ r = 'R') ∧ (q = '"' ∨ q = '\''))) :
    ∃ pre q body, rest = pre ++ q :: body ∧ rawPrefix rest = pre ∧ StringStart pre q := by
  rcases h with ⟨q, cs, rfl, hq⟩ | ⟨r, q, cs, rfl, hr, hq⟩
  · refine ⟨[], q, cs, rfl, ?_, by simp, by simpa using hq⟩
    rcases hq with rfl | rfl <;> rfl
  · refine ⟨[r], q, cs, rfl, ?_, by simpa using hr, by simpa using hq⟩
    rcases hr with rfl | rfl <;> rfl

theorem handleString_shape (rest : Str) (pos : Nat) (lines : LineMap) (nl : Nat)
    (h : (∃ q cs, rest = q :: cs ∧ (q = '"' ∨ q = '\'')) ∨
      (∃ r q cs, rest = r :: q :: cs ∧ (r = 'r' ∨ r = 'R') ∧ (q = '"' ∨ q = '\''))) :
    TokenOk (handleString rest pos lines nl).type (handleString rest pos lines nl).text
      (rest.drop (handleString rest pos lines nl).text.length) := by
  obtain ⟨pre, q, body, hrest, hpre, hst⟩ := rawPrefix_cases h
  have hqb : q ≠ '\\' := by
    have := hst.2
    simp at this
    rcases this with rfl | rfl <;> decide
  unfold handleString
  simp only
  rw [hpre]
  subst hrest
  rw [List.drop_left]
  simp only
  cases htr : isTriple q body
  · simp only [Bool.false_eq_true, if_false]
    have hdrop : (pre ++ q :: body).drop (pre ++ [q]).length = body := by
      rw [show pre ++ q :: body = (pre ++ [q]) ++ body by simp, List.drop_left]
    rw [hdrop]
    obtain ⟨h1, h2⟩ := stringLoop_single q hqb (body.length + 1) body (by omega)
      (pos + (pre ++ [q]).length) lines nl
    obtain ⟨-, -, -, h4, h5⟩ := stringLoop_ok q false body (pos + (pre ++ [q]).length) lines nl 1
      false
    generalize stringLoop q false body (pos + (pre ++ [q]).length) lines nl 1 false = r
      at h1 h2 h4 h5 ⊢
    by_cases hc : r.2.2.2 = true
    · rw [if_pos hc]
      obtain ⟨us, hu1, hu2, hu3⟩ := h1 hc
      obtain ⟨tail, htail⟩ := h4 hc
      have e : (pre ++ q :: body).drop (pre ++ [q] ++ r.1 ++ [q]).length = tail := by
        rw [← htail, show pre ++ q :: (r.1 ++ [q] ++ tail) = (pre ++ [q] ++ r.1 ++ [q]) ++ tail by simp,
          List.drop_left]
      simp only
      rw [e, hu3]
      refine TokenOk.string (StringText.single hst hu1 hu2 ?_)
      intro hus hhead
      subst hus
      cases tail with
      | nil => simp at hhead
      | cons d ds =>
        simp at hhead
        subst hhead
        rw [hu3] at htail
        rw [← htail] at htr
        simp [isTriple] at htr
    · rw [if_neg hc]
      simp only [Bool.not_eq_true] at hc
      obtain ⟨us, tail, hu1, hu2, hu3, hu4⟩ := h2 hc
      have hr := h5 hc
      have e : (pre ++ q :: body).drop (pre ++ [q] ++ r.1).length = [] := by
        rw [hr]; simp
      simp only
      rw [e, hu4, ← List.append_assoc]
      exact TokenOk.unterminated (OpenString.single hst hu1 hu2 hu3)
  · simp only [if_true]
    obtain ⟨body', rfl⟩ : ∃ b, body = q :: q :: b := by
      match body, htr with
      | a :: b :: t, htr =>
        simp [isTriple] at htr
        exact ⟨t, by rw [htr.1, htr.2]⟩
    have hdrop : (pre ++ q :: q :: q :: body').drop (pre ++ [q, q, q]).length = body' := by
      rw [show pre ++ q :: q :: q :: body' = (pre ++ [q, q, q]) ++ body' by simp, List.drop_left]
    rw [hdrop]
    obtain ⟨h1, h2⟩ := stringLoop_triple q hqb (body'.length + 1) body' (by omega)
      (pos + (pre ++ [q, q, q]).length) lines nl 3 (by omega)
    obtain ⟨-, -, -, h4, h5⟩ := stringLoop_ok q true body' (pos + (pre ++ [q, q, q]).length) lines
      nl 3 false
    generalize stringLoop q true body' (pos + (pre ++ [q, q, q]).length) lines nl 3 false = r
      at h1 h2 h4 h5 ⊢
    simp only [Nat.sub_self, List.replicate_zero, List.nil_append] at h1 h2
    by_cases hc : r.2.2.2 = true
    · rw [if_pos hc]
      obtain ⟨us, hu1, hu2, hu3, vs, rfl⟩ := h1 hc
      have e : pre ++ [q, q, q] ++ r.1 ++ [q] = pre ++ [q, q, q] ++ vs.flatten ++ [q, q, q] := by
        rw [hu2]; simp
      simp only
      rw [e]
      refine TokenOk.string (StringText.triple hst ?_ ?_ ?_)
      · intro u hu; exact hu1 u (by simp [hu])
      · intro a b hab
        exact hu3 a (b ++ [[q], [q]]) (by rw [hab]; simp)
      · intro a ha
        exact hu3 a [] (by rw [ha]; simp)
    · rw [if_neg hc]
      simp only [Bool.not_eq_true] at hc
      obtain ⟨us, tail, hu1, hu2, hu3, hu4⟩ := h2 hc
      have hr := h5 hc
      have e : (pre ++ q :: q :: q :: body').drop (pre ++ [q, q, q] ++ r.1).length = [] := by
        rw [hr]; simp
      simp only
      rw [e, hu4, ← List.append_assoc]
      exact TokenOk.unterminated (OpenString.triple hst hu1 hu2 hu3)

theorem numberLoop_shape (d : Char → Bool) (dot : Bool) (s : Str) :
    let r := numberLoop d dot s
    (∀ c ∈ r.1, d c = true ∨ c = '.') ∧ r.1.count '.' ≤ (if dot then 0 else 1) ∧
    (r.2 = false → ∀ c cs, s.drop r.1.length = c :: cs → d c = false ∧ c ≠ '.') ∧
    (r.2 = true → (s.drop r.1.length).head? = some '.' ∧ (dot = true ∨ '.' ∈ r.1)) := by
  induction s generalizing dot with
  | nil => simp [numberLoop]
  | cons c cs ih =>
    simp only [numberLoop]
    by_cases h1 : (d c || c == '.') = true
    · rw [if_pos h1]
      by_cases h2 : c = '.' ∧ dot = true
      · rw [if_pos h2]
        simp [h2.1, h2.2]
      · rw [if_neg h2]
        obtain ⟨i1, i2, i3, i4⟩ := ih (dot || c == '.')
        generalize numberLoop d (dot || c == '.') cs = r at i1 i2 i3 i4 ⊢
        refine ⟨?_, ?_, ?_, ?_⟩
        · intro x hx
          rcases List.mem_cons.1 hx with rfl | hx
          · simpa using h1
          · exact i1 x hx
        · by_cases hc : c = '.'
          · subst hc
            have : dot = false := by simpa using h2
            subst this
            simp at i2 ⊢
            exact i2
          · have : (c == '.') = false := by simpa using hc
            simp only [this, Bool.or_false] at i2
            simpa [hc] using i2
        · intro h; simpa using i3 h
        · intro h
          obtain ⟨j1, j2⟩ := i4 h
          refine ⟨by simpa using j1, ?_⟩
          rcases j2 with j2 | j2
          · simp at j2
            rcases j2 with j2 | j2
            · exact Or.inl j2
            · exact Or.inr (by simp [j2])
          · exact Or.inr (by simp [j2])
    · rw [if_neg h1]
      simp at h1
      simp [h1]

theorem handleNumber_shape (c : Char) (cs : Str) (hc : isDigit c = true) :
    TokenOk (handleNumber c cs).1 (handleNumber c cs).2
      ((c :: cs).drop (handleNumber c cs).2.length) := by
  unfold handleNumber
  simp only
  have key : (∀ s, Digits (numberBase c cs).2 s →
      NumberText (numberBase c cs).2 (c :: ((numberBase c cs).1 ++ s))) ∧
      (numberBase c cs).1 <+: cs := by
    unfold numberBase
    split
    · exact ⟨fun s h => NumberText.hex h, by simp⟩
    · exact ⟨fun s h => NumberText.oct h, by simp⟩
    · exact ⟨fun s h => NumberText.dec hc h, by simp⟩
  obtain ⟨k1, k3⟩ := key
  generalize numberBase c cs = x at k1 k3 ⊢
  obtain ⟨s', rfl⟩ := k3
  rw [List.drop_left]
  obtain ⟨i1, i2, i3, i4⟩ := numberLoop_shape x.2 false s'
  generalize numberLoop x.2 false s' = r at i1 i2 i3 i4 ⊢
  have hdig : Digits x.2 r.1 := ⟨i1, by simpa using i2⟩
  have hdrop : (c :: (x.1 ++ s')).drop (c :: (x.1 ++ r.1)).length = s'.drop r.1.length := by
    rw [List.length_cons, List.drop_succ_cons, List.length_append, ← List.drop_drop, List.drop_left]
  rw [hdrop]
  by_cases hr : r.2 = true
  · rw [if_pos hr]
    obtain ⟨j1, j2⟩ := i4 hr
    refine TokenOk.secondDot (k1 _ hdig) ?_ j1
    simp at j2
    simp [j2]
  · rw [if_neg hr]
    simp at hr
    exact TokenOk.number (k1 _ hdig) (i3 hr)

theorem takeWhile_stop {p : α → Bool} {l : List α} {c : α} {cs : List α}
    (h : l.drop (l.takeWhile p).length = c :: cs) : p c = false := by
  induction l with
  | nil => simp at h
  | cons a l ih =>
    rw [List.takeWhile_cons] at h
    split at h
    · exact ih (by simpa using h)
    · simp at h
      rw [← h.1]
      simp_all

theorem handleWord_shape (c : Char) (cs : Str) (pos : Nat) (lines : LineMap) (nl : Nat)
    (hd : isDigit c = false) (hs : c ∉ c!"(){}[],:+-*/.%|!<>=\"'") :
    TokenOk (handleWord (c :: cs) pos lines nl).type (handleWord (c :: cs) pos lines nl).text
      ((c :: cs).drop (handleWord (c :: cs) pos lines nl).text.length) := by
  unfold handleWord
  split
  · rename_i hraw
    apply handleString_shape
    right
    match cs, hraw with
    | b :: d :: t, hraw =>
      simp [isRawString] at hraw
      exact ⟨c, b, d :: t, rfl, by grind, by grind⟩
  · simp only
    by_cases hid : isIdentifierChar c = true
    · rw [if_neg (by simpa using hid)]
      have hw : (c :: cs).takeWhile isIdentifierChar = c :: cs.takeWhile isIdentifierChar := by
        simp [hid]
      have hstop : ¬ startsWithWordChar
          ((c :: cs).drop ((c :: cs).takeWhile isIdentifierChar).length) := by
        rintro ⟨d, ds, h1, h2⟩
        rw [takeWhile_stop h1] at h2
        exact absurd h2 (by simp)
      have hall : ∀ d ∈ (c :: cs).takeWhile isIdentifierChar, isIdentifierChar d = true :=
        fun d h => mem_takeWhile_imp h
      by_cases hnot : (c :: cs).takeWhile isIdentifierChar = c!"not"
      · rw [if_pos hnot]
        cases hin : consumeOptionalIn
            ((c :: cs).drop ((c :: cs).takeWhile isIdentifierChar).length) with
        | some t =>
          simp only
          obtain ⟨hpre, ws, hws, hsp⟩ := consumeOptionalIn_ok hin
          rw [hws, hnot, ← List.append_assoc]
          refine TokenOk.notIn ?_ hsp
          intro he
          subst he
          rw [hws] at hpre
          obtain ⟨u, hu⟩ := hpre
          exact hstop ⟨'i', 'n' :: u, by rw [← hu]; rfl, by decide⟩
        | none =>
          simp only
          rw [hnot] at hstop ⊢
          exact TokenOk.not hstop
      · rw [if_neg hnot]
        simp only
        generalize hwe : (c :: cs).takeWhile isIdentifierChar = w at *
        unfold wordType
        split
        · subst_vars; rename_i h; rw [h] at hstop ⊢; exact TokenOk.keyword (by simp [keywords]) hstop
        split
        · subst_vars; rename_i h; rw [h] at hstop ⊢; exact TokenOk.keyword (by simp [keywords]) hstop
        split
        · subst_vars; rename_i h; rw [h] at hstop ⊢; exact TokenOk.keyword (by simp [keywords]) hstop
        split
        · subst_vars; rename_i h; rw [h] at hstop ⊢; exact TokenOk.keyword (by simp [keywords]) hstop
        split
        · subst_vars; rename_i h; rw [h] at hstop ⊢; exact TokenOk.keyword (by simp [keywords]) hstop
        split
        · subst_vars; rename_i h; rw [h] at hstop ⊢; exact TokenOk.keyword (by simp [keywords]) hstop
        rw [hw] at *
        refine TokenOk.identifier hd hall hnot ?_ hstop
        intro ty hm
        simp only [keywords, List.mem_cons, Prod.mk.injEq, List.not_mem_nil, or_false] at hm
        grind
    · rw [if_pos (by simpa using hid)]
      exact TokenOk.invalid (by simpa using hid) hs

theorem handleRelational_shape (c : Char) (cs : Str) (hc : c ∈ c!"!<>=") :
    TokenOk (handleRelational c cs).1 (handleRelational c cs).2
      ((c :: cs).drop (handleRelational c cs).2.length) := by
  unfold handleRelational
  split
  · exact TokenOk.relEq hc
  · rename_i h
    refine TokenOk.rel hc ?_
    intro he
    cases cs with
    | nil => simp at he
    | cons d ds =>
      simp at he
      exact h ds (by rw [he])

theorem dispatch_shape (c : Char) (cs : Str) (pos : Nat) (lines : LineMap) (nl : Nat) :
    TokenOk (dispatch c cs pos lines nl).type (dispatch c cs pos lines nl).text
      ((c :: cs).drop (dispatch c cs pos lines nl).text.length) := by
  unfold dispatch
  split
  · rename_i h
    exact TokenOk.punct (by simpa [singleChars] using h)
  rename_i h1
  split
  · rename_i h
    exact handleRelational_shape c cs (by simp [h])
  rename_i h2
  split
  · rename_i h
    exact handleRelational_shape c cs (by rcases h with rfl | rfl | rfl <;> simp)
  rename_i h3
  split
  · rename_i h
    exact handleNumber_shape c cs h
  rename_i h4
  split
  · rename_i h
    exact handleString_shape _ _ _ _ (Or.inl ⟨c, cs, rfl, h⟩)
  rename_i h5
  refine handleWord_shape c cs pos lines nl (by simpa using h4) ?_
  simp [singleChars] at h1 h2 h3 h5 ⊢
  grind

theorem nextRaw_shape (s : Scanner) :
    TokenOk (nextRaw s).1.type (nextRaw s).1.text (nextRaw s).2.rest := by
  unfold nextRaw
  simp only
  split
  · exact TokenOk.eof
  · rename_i h
    simp only [h]
    exact dispatch_shape _ _ _ _ _

end Scanner
end Bant
