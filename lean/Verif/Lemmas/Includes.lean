import Verif.Lemmas.Regex
import Verif.Lemmas.Str
import Verif.Model.Includes
import Verif.Spec.Includes

namespace Bant
namespace Includes
open IncludeSpec Regex

theorem isSpace_iff {c : Char} : isSpace c = true ↔
    c = ' ' ∨ c = '\t' ∨ c = '\n' ∨ c = '\r' ∨ c = Char.ofNat 12 := by
  have h12 : c.toNat = 12 ↔ c = Char.ofNat 12 := by
    rw [← Char.toNat_inj]; rfl
  simp only [isSpace, Bool.or_eq_true, beq_iff_eq, h12]
  constructor
  · rintro ((((h | h) | h) | h) | h) <;> simp [h]
  · rintro (h | h | h | h | h) <;> simp [h]

theorem blank_iff {s : Str} : Blank s ↔ ∀ c ∈ s, isSpace c = true := by
  unfold Blank
  constructor
  · intro h c hc; exact isSpace_iff.2 (h c hc)
  · intro h c hc; exact isSpace_iff.1 (h c hc)

theorem pathForm_iff {p : Str} : pathRe.fullMatch p = true ↔ PathForm p := by
  rw [fullMatch_iff]
  have h1 : ∀ s, Matches (.star (.cat (.lit '.') (.cat (.lit '.') (.lit '/')))) s ↔
      ∃ n, s = (List.replicate n c!"../").flatten := by
    intro s
    constructor
    · intro h
      generalize hr : Regex.star _ = r at h
      induction h with
      | starNil => exact ⟨0, rfl⟩
      | starCons h1 _ _ ih =>
        cases hr
        obtain ⟨n, rfl⟩ := ih rfl
        simp only [matches_cat, matches_lit] at h1
        obtain ⟨_, _, rfl, rfl, _, _, rfl, rfl, rfl⟩ := h1
        exact ⟨n + 1, by simp [List.replicate_succ]⟩
      | _ => cases hr
    · rintro ⟨n, rfl⟩
      induction n with
      | zero => exact .starNil
      | succ n ih =>
        rw [List.replicate_succ, List.flatten_cons]
        refine .starCons ?_ ih
        simp only [matches_cat, matches_lit]
        exact ⟨['.'], ['.', '/'], rfl, rfl, ['.'], ['/'], rfl, rfl, rfl⟩
  have h2 : ∀ (q : Char → Bool) s, Matches (.cat (.cls q) (.star (.cls q))) s ↔
      s ≠ [] ∧ ∀ c ∈ s, q c = true := by
    intro q s
    simp only [matches_cat, matches_cls, matches_star_cls]
    constructor
    · rintro ⟨_, t, rfl, ⟨c, hc, rfl⟩, ht⟩
      refine ⟨by simp, ?_⟩
      intro d hd
      rcases List.mem_cons.1 hd with rfl | hd
      · exact hc
      · exact ht d hd
    · rintro ⟨hne, hall⟩
      cases s with
      | nil => exact absurd rfl hne
      | cons c s => exact ⟨[c], s, rfl, ⟨c, hall c (by simp), rfl⟩, fun d hd => hall d (by simp [hd])⟩
  have h3 : ∀ s, Matches (.star (.cat (.lit '.') (.cat (.cls Char.isAlpha) (.star (.cls Char.isAlpha))))) s ↔
      ∃ exts : List Str, s = (exts.map ('.' :: ·)).flatten ∧ ∀ e ∈ exts, e ≠ [] ∧ ∀ c ∈ e, c.isAlpha = true := by
    intro s
    constructor
    · intro h
      generalize hr : Regex.star _ = r at h
      induction h with
      | starNil => exact ⟨[], rfl, by simp⟩
      | starCons h1 _ _ ih =>
        cases hr
        obtain ⟨exts, rfl, he⟩ := ih rfl
        rw [matches_cat] at h1
        obtain ⟨a, b, rfl, ha, hb⟩ := h1
        rw [matches_lit] at ha
        subst ha
        refine ⟨b :: exts, by simp, ?_⟩
        intro e hm
        rcases List.mem_cons.1 hm with rfl | hm
        · exact (h2 _ _).1 hb
        · exact he e hm
      | _ => cases hr
    · rintro ⟨exts, rfl, he⟩
      induction exts with
      | nil => exact .starNil
      | cons e exts ih =>
        rw [List.map_cons, List.flatten_cons]
        refine .starCons ?_ (ih fun x hx => he x (by simp [hx]))
        rw [matches_cat]
        exact ⟨['.'], e, rfl, matches_lit.2 rfl, (h2 _ _).2 (he e (by simp))⟩
  have h4 : ∀ c, isPathChar c = true ↔ c.isAlphanum = true ∨ c = '_' ∨ c = '/' ∨ c = '+' ∨ c = '-' := by
    intro c
    simp only [isPathChar, Bool.or_eq_true, beq_iff_eq]
    constructor
    · rintro ((((h | h) | h) | h) | h) <;> simp [h]
    · rintro (h | h | h | h | h) <;> simp [h]
  unfold pathRe
  rw [matches_cat]
  constructor
  · rintro ⟨a, b, rfl, ha, hb⟩
    rw [matches_cat] at hb
    obtain ⟨b1, b2, rfl, hb1, hb2⟩ := hb
    obtain ⟨n, rfl⟩ := (h1 _).1 ha
    obtain ⟨hne, hall⟩ := (h2 _ _).1 hb1
    obtain ⟨exts, rfl, he⟩ := (h3 _).1 hb2
    exact ⟨n, b1, exts, by simp, hne, fun c hc => (h4 c).1 (hall c hc), he⟩
  · rintro ⟨n, body, exts, rfl, hne, hall, he⟩
    refine ⟨_, body ++ (exts.map ('.' :: ·)).flatten, by simp, (h1 _).2 ⟨n, rfl⟩, ?_⟩
    rw [matches_cat]
    exact ⟨body, _, rfl, (h2 _ _).2 ⟨hne, fun c hc => (h4 c).2 (hall c hc)⟩, (h3 _).2 ⟨exts, rfl, he⟩⟩

/-- No newline in a path. -/
theorem pathForm_newline {p : Str} (h : PathForm p) : '\n' ∉ p := by
  obtain ⟨n, body, exts, rfl, _, hb, he⟩ := h
  intro hm
  simp only [List.mem_append, List.mem_flatten, List.mem_replicate, List.mem_map] at hm
  rcases hm with (⟨_, ⟨_, rfl⟩, hm⟩ | hm) | ⟨_, ⟨e, h1, rfl⟩, hm⟩
  · simp at hm
  · have := hb _ hm; revert this; decide
  · rcases List.mem_cons.1 hm with hm | hm
    · cases hm
    · have := (he e h1).2 _ hm; revert this; decide

theorem dropWhile_append_cons {p : Char → Bool} {w t : Str} {x : Char} (hw : ∀ c ∈ w, p c = true)
    (hx : p x = false) : (w ++ x :: t).dropWhile p = x :: t := by
  induction w with
  | nil => simp [hx]
  | cons c w ih =>
    rw [List.cons_append, List.dropWhile_cons, if_pos (hw c (by simp)), ih fun d hd => hw d (by simp [hd])]

theorem takeWhile_append_cons {p : Char → Bool} {w t : Str} {x : Char} (hw : ∀ c ∈ w, p c = true)
    (hx : p x = false) : (w ++ x :: t).takeWhile p = w := by
  induction w with
  | nil => simp [hx]
  | cons c w ih =>
    rw [List.cons_append, List.takeWhile_cons, if_pos (hw c (by simp)), ih fun d hd => hw d (by simp [hd])]

theorem dropWhile_split (p : Char → Bool) (s : Str) :
    ∃ w, s = w ++ s.dropWhile p ∧ ∀ c ∈ w, p c = true := by
  refine ⟨s.takeWhile p, List.takeWhile_append_dropWhile.symm, ?_⟩
  intro c hc
  induction s with
  | nil => cases hc
  | cons x s ih =>
    rw [List.takeWhile_cons] at hc
    split at hc
    · rcases List.mem_cons.1 hc with rfl | hc
      · assumption
      · exact ih hc
    · cases hc

theorem afterHash_iff {s p : Str} {n : Nat} : afterHash s = some (n, p) ↔
    ∃ b c rest, s = b ++ c!"include" ++ c ++ c!"\"" ++ p ++ c!"\"" ++ rest ∧ Blank b ∧ Blank c ∧ c ≠ [] ∧
      '"' ∉ p ∧ PathForm p ∧ n = (b ++ c!"include" ++ c ++ c!"\"").length := by
  constructor
  · intro h
    unfold afterHash at h
    obtain ⟨b, hb, hbs⟩ := dropWhile_split isSpace s
    generalize s.dropWhile isSpace = s1 at h hb
    simp only [] at h
    split at h
    · rename_i hinc
      obtain ⟨s2, hs2⟩ := List.isPrefixOf_iff_prefix.1 hinc
      have hd : s1.drop 7 = s2 := by rw [← hs2]; rfl
      rw [hd] at h
      obtain ⟨c, hc, hcs⟩ := dropWhile_split isSpace s2
      generalize s2.dropWhile isSpace = s3 at h hc
      split at h
      · cases h
      · rename_i hlen
        have hcne : c ≠ [] := by
          rintro rfl; exact hlen (by rw [hc]; rfl)
        split at h
        · rename_i s4
          obtain ⟨q, hq, hqs⟩ := dropWhile_split (fun c => c != '"') s4
          have hp : (s4.takeWhile fun c => c != '"') ++ (s4.dropWhile fun c => c != '"') = s4 :=
            List.takeWhile_append_dropWhile
          generalize hpp : (s4.takeWhile fun c => c != '"') = path at h hp
          split at h
          · rename_i hcond
            simp only [Bool.and_eq_true, decide_eq_true_eq] at hcond
            simp only [Option.some.injEq, Prod.mk.injEq] at h
            obtain ⟨h1, h2⟩ := h
            subst h2
            have hr : ∃ rest, (s4.dropWhile fun c => c != '"') = '"' :: rest := by
              cases hd : s4.dropWhile fun c => c != '"' with
              | nil => rw [hd] at hp; simp at hp; rw [hp] at hcond; omega
              | cons x rest =>
                have := List.head?_dropWhile_not (fun c => c != '"') s4
                rw [hd] at this
                simp at this
                exact ⟨rest, by rw [this]⟩
            obtain ⟨rest, hrest⟩ := hr
            rw [hrest] at hp
            have hs : s = b ++ c!"include" ++ c ++ c!"\"" ++ path ++ c!"\"" ++ rest := by
              rw [hb, ← hs2, hc, ← hp]; simp
            refine ⟨b, c, rest, hs, blank_iff.2 hbs, blank_iff.2 hcs, hcne, ?_, pathForm_iff.1 hcond.2, ?_⟩
            · rw [← hpp]
              intro hm
              obtain ⟨w, hw1, hw2⟩ := dropWhile_split (fun c => c != '"') s4
              have : w = s4.takeWhile fun c => c != '"' := by
                have e := List.takeWhile_append_dropWhile (p := fun c => c != '"') (l := s4)
                rw [← e] at hw1
                rw [e] at hw1
                exact (List.append_cancel_right (hw1.symm.trans e.symm))
              rw [← this] at hm
              simpa using hw2 _ hm
            · rw [← h1, hs, ← hp]; simp; omega
          · cases h
        · cases h
    · cases h
  · rintro ⟨b, c, rest, rfl, hb, hc, hcne, hq, hp, rfl⟩
    rw [blank_iff] at hb hc
    have e1 : b ++ c!"include" ++ c ++ c!"\"" ++ p ++ c!"\"" ++ rest =
      b ++ 'i' :: (c!"nclude" ++ (c ++ '"' :: (p ++ '"' :: rest))) := by simp
    unfold afterHash
    rw [e1, dropWhile_append_cons hb (by decide)]
    have e2 : startsWith ('i' :: (c!"nclude" ++ (c ++ '"' :: (p ++ '"' :: rest)))) c!"include" = true := by
      simp [startsWith]
    simp only [e2, if_true]
    have e3 : ('i' :: (c!"nclude" ++ (c ++ '"' :: (p ++ '"' :: rest)))).drop 7 = c ++ '"' :: (p ++ '"' :: rest) := rfl
    rw [e3, dropWhile_append_cons hc (by decide)]
    have hl : c.length ≠ 0 := by simpa using hcne
    rw [if_neg (by simp; omega)]
    simp only []
    rw [takeWhile_append_cons (fun d hd => by
      simp only [bne_iff_ne]; rintro rfl; exact hq hd) (by simp), if_pos]
    · simp; omega
    · simp [pathForm_iff.2 hp]

/-- The position of a path is behind at least one character, and it ends within the string. -/
theorem afterHash_bound {s p : Str} {n : Nat} (h : afterHash s = some (n, p)) :
    n + p.length + 1 ≤ s.length := by
  obtain ⟨b, c, rest, rfl, _, _, _, _, _, rfl⟩ := afterHash_iff.1 h
  simp; omega

/-! ## The loop without jumps -/

/-- The same as `scan`, with a flag for: there have been only blanks since `^` matched. -/
def scan2 (skip : Nat) (fresh nested : Bool) (off : Nat) : Str → List (Nat × Str)
  | [] => []
  | c :: cs =>
    match skip with
    | k + 1 => scan2 k fresh nested (off + 1) cs
    | 0 =>
      match if fresh && c = '#' then afterHash cs else none with
      | some (n, path) =>
        let rest := scan2 (n + path.length + 1) true nested (off + 1) cs
        if nested then rest else (off + 1 + n, path) :: rest
      | none =>
        if c = '"' then scan2 0 true (!nested) (off + 1) cs
        else scan2 0 (c = '\n' || (fresh && isSpace c)) nested (off + 1) cs

theorem scan_drop (k : Nat) (start nested : Bool) (off : Nat) (s : Str) :
    scan k start nested off s = scan 0 start nested (off + k) (s.drop k) := by
  induction k generalizing off s with
  | zero => rfl
  | succ k ih =>
    cases s with
    | nil => simp [scan]
    | cons c cs => rw [scan, ih, List.drop_succ_cons]; congr 1; omega

theorem scan2_drop (k : Nat) (fresh nested : Bool) (off : Nat) (s : Str) :
    scan2 k fresh nested off s = scan2 0 fresh nested (off + k) (s.drop k) := by
  induction k generalizing off s with
  | zero => rfl
  | succ k ih =>
    cases s with
    | nil => simp [scan2]
    | cons c cs => rw [scan2, ih, List.drop_succ_cons]; congr 1; omega

theorem matchInclude_space {c : Char} {s : Str} (h : isSpace c = true) :
    matchInclude (c :: s) = (matchInclude s).map fun r => (r.1 + 1, r.2) := by
  unfold matchInclude
  rw [List.dropWhile_cons, if_pos h]
  split
  · rename_i t ht
    have hlen : t.length < s.length := by
      obtain ⟨w, hw, _⟩ := dropWhile_split isSpace s
      rw [ht] at hw; rw [hw]; simp; omega
    cases afterHash t with
    | none => rfl
    | some r => simp; omega
  · rfl

theorem matchInclude_hash {s : Str} :
    matchInclude ('#' :: s) = (afterHash s).map fun r => (r.1 + 1, r.2) := by
  unfold matchInclude
  rw [List.dropWhile_cons, if_neg (by decide)]
  simp only [List.length_cons]
  cases afterHash s with
  | none => rfl
  | some r => simp; omega

theorem matchInclude_other {c : Char} {s : Str} (h1 : isSpace c = false) (h2 : c ≠ '#') :
    matchInclude (c :: s) = none := by
  unfold matchInclude
  rw [List.dropWhile_cons, if_neg (by simp [h1])]
  split
  · rename_i t ht; injection ht with ht; exact absurd ht h2
  · rfl

theorem scan_eq : ∀ (len : Nat) (s : Str), s.length = len → ∀ nested off,
    scan 0 true nested off s = scan2 0 true nested off s ∧
    scan 0 false nested off s = scan2 0 false nested off s ∧
    (matchInclude s = none → scan 0 false nested off s = scan2 0 true nested off s) := by
  intro len
  induction len using Nat.strongRecOn with
  | ind len ih =>
    intro s hs nested off
    cases s with
    | nil => exact ⟨rfl, rfl, fun _ => rfl⟩
    | cons c cs =>
      have hlen : cs.length < len := by rw [← hs]; simp
      have next := ih cs.length hlen cs rfl
      -- a step that is not a match
      have plain : ∀ start, (if start then matchInclude (c :: cs) else none) = none →
          scan 0 start nested off (c :: cs) =
            if c = '"' then scan 0 true (!nested) (off + 1) cs
            else scan 0 (c = '\n') nested (off + 1) cs := by
        intro start h
        rw [scan]
        simp only [h]
      have plain2 : ∀ fresh, (if fresh && c = '#' then afterHash cs else none) = none →
          scan2 0 fresh nested off (c :: cs) =
            if c = '"' then scan2 0 true (!nested) (off + 1) cs
            else scan2 0 (c = '\n' || (fresh && isSpace c)) nested (off + 1) cs := by
        intro fresh h
        rw [scan2]
        simp only [h]
      have hF : scan 0 false nested off (c :: cs) = scan2 0 false nested off (c :: cs) := by
        rw [plain false rfl, plain2 false (by simp)]
        by_cases hq : c = '"'
        · rw [if_pos hq, if_pos hq]; exact (next _ _).1
        · rw [if_neg hq, if_neg hq]
          by_cases hn : c = '\n'
          · simp only [hn, decide_true, Bool.true_or]; exact (next _ _).1
          · simp only [hn, decide_false, Bool.false_and, Bool.false_or]; exact (next _ _).2.1
      have hN : matchInclude (c :: cs) = none → scan 0 false nested off (c :: cs) =
          scan2 0 true nested off (c :: cs) := by
        intro hm
        have hmt : (if true && c = '#' then afterHash cs else none) = none := by
          by_cases hh : c = '#'
          · subst hh
            rw [matchInclude_hash, Option.map_eq_none_iff] at hm
            simp [hm]
          · simp [hh]
        rw [plain false rfl, plain2 true hmt]
        by_cases hq : c = '"'
        · rw [if_pos hq, if_pos hq]; exact (next _ _).1
        · rw [if_neg hq, if_neg hq]
          by_cases hn : c = '\n'
          · simp only [hn, decide_true, Bool.true_or]; exact (next _ _).1
          · cases hsp : isSpace c with
            | true =>
              rw [matchInclude_space hsp, Option.map_eq_none_iff] at hm
              simp only [hn, decide_false, Bool.and_self, Bool.or_true]
              exact (next _ _).2.2 hm
            | false =>
              simp only [hn, decide_false, Bool.and_false, Bool.or_false]
              exact (next _ _).2.1
      refine ⟨?_, hF, hN⟩
      cases hm : matchInclude (c :: cs) with
      | none =>
        rw [← hN hm]
        rw [plain true (by simp [hm]), plain false rfl]
      | some r =>
        obtain ⟨n, p⟩ := r
        have hstep : scan 0 true nested off (c :: cs) =
            if nested then scan 0 true nested (off + (n + p.length + 1)) (cs.drop (n + p.length))
            else (off + n, p) :: scan 0 true nested (off + (n + p.length + 1)) (cs.drop (n + p.length)) := by
          rw [scan]
          simp only [if_true, hm, scan_drop (n + p.length)]
          have : off + 1 + (n + p.length) = off + (n + p.length + 1) := by omega
          rw [this]
        by_cases hh : c = '#'
        · subst hh
          rw [matchInclude_hash, Option.map_eq_some_iff] at hm
          obtain ⟨⟨k, p'⟩, hk, he⟩ := hm
          simp only [Prod.mk.injEq] at he
          obtain ⟨rfl, rfl⟩ := he
          rw [hstep, scan2]
          simp only [Bool.true_and, decide_true, if_true, hk]
          rw [scan2_drop (k + p'.length + 1)]
          have e1 : off + (k + 1 + p'.length + 1) = off + 1 + (k + p'.length + 1) := by omega
          have e2 : k + 1 + p'.length = k + p'.length + 1 := by omega
          have e3 : off + (k + 1) = off + 1 + k := by omega
          rw [e1, e2, e3]
          rw [(ih (cs.drop (k + p'.length + 1)).length (by
            rw [List.length_drop]; omega) _ rfl nested _).1]
        · cases hsp : isSpace c with
          | false => rw [matchInclude_other hsp hh] at hm; cases hm
          | true =>
            have hq : c ≠ '"' := by rintro rfl; revert hsp; decide
            rw [matchInclude_space hsp, Option.map_eq_some_iff] at hm
            obtain ⟨⟨k, p'⟩, hk, he⟩ := hm
            simp only [Prod.mk.injEq] at he
            obtain ⟨rfl, rfl⟩ := he
            rw [plain2 true (by simp [hh]), if_neg hq]
            simp only [hsp, Bool.and_self, Bool.or_true]
            rw [← (next nested (off + 1)).1, hstep]
            cases cs with
            | nil => simp [matchInclude] at hk
            | cons d ds =>
              rw [scan]
              simp only [if_true, hk, scan_drop (k + p'.length)]
              have e1 : off + (k + 1 + p'.length + 1) = off + 1 + 1 + (k + p'.length) := by omega
              have e2 : k + 1 + p'.length = k + p'.length + 1 := by omega
              have e3 : off + (k + 1) = off + 1 + k := by omega
              rw [e1, e2, e3, List.drop_succ_cons]

/-! ## Line by line -/

/-- Text up to the end of the line does not contain a directive any more. -/
theorem scan2_tail {t : Str} : ∀ {fresh nested : Bool} {off : Nat} {R : Str}, '\n' ∉ t →
    (∀ a b c, t = a ++ c!"\"" ++ b ++ c!"#" ++ c → ¬ Blank b) →
    (fresh = true → ∀ b c, t = b ++ c!"#" ++ c → ¬ Blank b) →
    (t.count '"' % 2 = if nested then 1 else 0) →
    ∃ f, scan2 0 fresh nested off (t ++ R) = scan2 0 f false (off + t.length) R := by
  induction t with
  | nil =>
    intro fresh nested off R _ _ _ hq
    cases nested with
    | true => simp at hq
    | false => exact ⟨fresh, rfl⟩
  | cons c t ih =>
    intro fresh nested off R hn hh hf hq
    have hn' : '\n' ∉ t := fun h => hn (by simp [h])
    have hh' : ∀ a b d, t = a ++ c!"\"" ++ b ++ c!"#" ++ d → ¬ Blank b :=
      fun a b d h => hh (c :: a) b d (by rw [h]; rfl)
    have hcn : c ≠ '\n' := fun h => hn (by simp [h])
    have hno : (if fresh && c = '#' then afterHash (t ++ R) else none) = none := by
      rw [if_neg]
      intro hc
      simp only [Bool.and_eq_true, decide_eq_true_eq] at hc
      exact hf hc.1 [] t (by rw [hc.2]; rfl) (fun _ h => by cases h)
    rw [List.cons_append, scan2]
    simp only [hno]
    have hoff : off + (c :: t).length = off + 1 + t.length := by simp; omega
    rw [hoff]
    by_cases hcq : c = '"'
    · subst hcq
      rw [if_pos rfl]
      refine ih hn' hh' (fun _ b d h => hh [] b d (by rw [h]; rfl)) ?_
      rw [List.count_cons_self] at hq
      cases nested <;> simp at hq ⊢ <;> omega
    · rw [if_neg hcq]
      simp only [hcn, decide_false, Bool.false_or]
      refine ih hn' hh' ?_ ?_
      · intro hb b d h hbl
        simp only [Bool.and_eq_true] at hb
        refine hf hb.1 (c :: b) d (by rw [h]; rfl) ?_
        rw [blank_iff] at hbl ⊢
        intro x hx
        rcases List.mem_cons.1 hx with rfl | hx
        · exact hb.2
        · exact hbl x hx
      · rw [List.count_cons_of_ne hcq] at hq
        exact hq

/-- What follows a line: nothing, or a newline. -/
def Follows (R R' : Str) : Prop := (R = [] ∧ R' = []) ∨ R = '\n' :: R'

theorem scan2_follows {R R' : Str} (h : Follows R R') (f : Bool) (off : Nat) :
    scan2 0 f false off R = scan2 0 true false (off + 1) R' := by
  rcases h with ⟨rfl, rfl⟩ | rfl
  · rfl
  · rw [scan2]
    have : (if f && ('\n' = '#') then afterHash R' else none) = none := by simp
    simp only [this]
    rw [if_neg (by decide)]
    simp

/-- A match is within the line. -/
theorem afterHash_line {t R R' : Str} (hR : Follows R R') (hn : '\n' ∉ t)
    (h1 : ¬ Blank t) (h2 : ∀ b c, t = b ++ c!"include" ++ c → Blank b → ¬ Blank c) :
    afterHash (t ++ R) = afterHash t := by
  rcases hR with ⟨rfl, rfl⟩ | rfl
  · rw [List.append_nil]
  -- split at the newline
  have key : ∀ n p, afterHash (t ++ '\n' :: R') = some (n, p) → afterHash t = some (n, p) := by
    intro n p h
    obtain ⟨b, c, rest, he, hb, hc, hcne, hq, hp, rfl⟩ := afterHash_iff.1 h
    -- position of the newline in the text
    have split : ∀ (x y : Str), t ++ '\n' :: R' = x ++ y → '\n' ∉ x →
        ∃ z, t = x ++ z ∧ y = z ++ '\n' :: R' := by
      intro x y hxy hx
      rcases List.append_eq_append_iff.1 hxy with ⟨a, ha1, ha2⟩ | ⟨a, ha1, ha2⟩
      · cases a with
        | nil => exact ⟨[], by simpa using ha1.symm, by simpa using ha2.symm⟩
        | cons d a =>
          injection ha2 with hd _
          subst hd
          exact absurd (by rw [ha1]; simp) hx
      · exact ⟨a, ha1, ha2⟩
    have hbn : '\n' ∉ b := by
      intro hm
      obtain ⟨b1, b2, rfl, hb1⟩ := List.eq_append_cons_of_mem hm
      have he' : t ++ '\n' :: R' = b1 ++ ('\n' :: (b2 ++ c!"include" ++ c ++ c!"\"" ++ p ++ c!"\"" ++ rest)) := by
        rw [he]; simp
      obtain ⟨z, hz, hz2⟩ := split _ _ he' hb1
      cases z with
      | nil =>
        refine h1 ?_
        rw [hz, List.append_nil]
        exact fun d hd => hb d (by simp [hd])
      | cons d z =>
        injection hz2 with hd _
        subst hd
        exact hn (by rw [hz]; simp)
    have hcn : '\n' ∉ c := by
      intro hm
      obtain ⟨c1, c2, rfl, hc1⟩ := List.eq_append_cons_of_mem hm
      have he' : t ++ '\n' :: R' = (b ++ c!"include" ++ c1) ++ ('\n' :: (c2 ++ c!"\"" ++ p ++ c!"\"" ++ rest)) := by
        rw [he]; simp
      obtain ⟨z, hz, hz2⟩ := split _ _ he' (by simp [hbn, hc1])
      cases z with
      | nil =>
        exact h2 b c1 (by rw [hz, List.append_nil]) hb (fun d hd => hc d (by simp [hd]))
      | cons d z =>
        injection hz2 with hd _
        subst hd
        exact hn (by rw [hz]; simp)
    have he' : t ++ '\n' :: R' = (b ++ c!"include" ++ c ++ c!"\"" ++ p ++ c!"\"") ++ rest := by
      rw [he]
    obtain ⟨z, hz, hz2⟩ := split _ _ he' (by simp [hbn, hcn, pathForm_newline hp])
    exact afterHash_iff.2 ⟨b, c, z, hz, hb, hc, hcne, hq, hp, rfl⟩
  cases ha : afterHash t with
  | none =>
    cases hb : afterHash (t ++ '\n' :: R') with
    | none => rfl
    | some r => obtain ⟨n, p⟩ := r; rw [key n p hb] at ha; cases ha
  | some r =>
    obtain ⟨n, p⟩ := r
    obtain ⟨b, c, rest, rfl, h⟩ := afterHash_iff.1 ha
    exact afterHash_iff.2 ⟨b, c, rest ++ '\n' :: R', by simp, h⟩

theorem scan2_blank {w : Str} (h : ∀ c ∈ w, isSpace c = true) (nested : Bool) (off : Nat) (s : Str) :
    scan2 0 true nested off (w ++ s) = scan2 0 true nested (off + w.length) s := by
  induction w generalizing off with
  | nil => rfl
  | cons c w ih =>
    have hc := h c (by simp)
    have h1 : c ≠ '#' := by rintro rfl; revert hc; decide
    have h2 : c ≠ '"' := by rintro rfl; revert hc; decide
    rw [List.cons_append, scan2]
    have : (if true && c = '#' then afterHash (w ++ s) else none) = none := by simp [h1]
    simp only [this]
    rw [if_neg h2]
    simp only [hc, Bool.and_self, Bool.or_true]
    rw [ih fun d hd => h d (by simp [hd])]
    congr 1; simp; omega

/-- One line. -/
theorem scan2_line {line R R' : Str} (ht : Tidy line) (hn : '\n' ∉ line) (hR : Follows R R') (off : Nat) :
    (∃ col path, Directive line col path ∧
      scan2 0 true false off (line ++ R) = (off + col, path) :: scan2 0 true false (off + line.length + 1) R') ∨
    ((∀ col path, ¬ Directive line col path) ∧
      scan2 0 true false off (line ++ R) = scan2 0 true false (off + line.length + 1) R') := by
  by_cases hh : ∃ a t, line = a ++ '#' :: t ∧ Blank a
  · obtain ⟨a, t, rfl, ha⟩ := hh
    have ha' := blank_iff.1 ha
    have hnt : '\n' ∉ t := fun h => hn (by simp [h])
    have hal : afterHash (t ++ R) = afterHash t :=
      afterHash_line hR hnt (ht.alone a t (by simp) ha)
        (fun b c h hb => ht.lonely a b c (by rw [h]; simp) ha hb)
    have hnq : ∀ q ∈ a, q ≠ '"' := by
      rintro q hq rfl; have := ha' _ hq; revert this; decide
    have hca : a.count '"' = 0 := List.count_eq_zero.2 fun h => hnq _ h rfl
    have huniq : ∀ a' t', a ++ '#' :: t = a' ++ '#' :: t' → Blank a' → a' = a ∧ t' = t := by
      intro a' t' h hb'
      have h1 := dropWhile_append_cons (t := t) (x := '#') ha' (by decide)
      have h2 := dropWhile_append_cons (t := t') (x := '#') (blank_iff.1 hb') (by decide)
      rw [h, h2] at h1
      injection h1 with _ h1
      subst h1
      exact ⟨(List.append_cancel_right h).symm, rfl⟩
    rw [List.append_assoc, scan2_blank ha', List.cons_append, scan2]
    simp only [Bool.true_and, decide_true, if_true, hal]
    cases hm : afterHash t with
    | some r =>
      obtain ⟨n, p⟩ := r
      left
      obtain ⟨b, c, rest, rfl, hb, hc, hcne, hq, hp, rfl⟩ := afterHash_iff.1 hm
      refine ⟨_, p, ⟨a, b, c, rest, by simp, ha, hb, hc, hq, rfl⟩, ?_⟩
      simp only [Bool.false_eq_true, if_false]
      have e1 : off + a.length + 1 + (b ++ c!"include" ++ c ++ c!"\"").length =
        off + (a ++ c!"#" ++ b ++ c!"include" ++ c ++ c!"\"").length := by simp; omega
      rw [e1]
      congr 1
      rw [scan2_drop]
      have e2 : (b ++ c!"include" ++ c ++ c!"\"" ++ p ++ c!"\"" ++ rest ++ R).drop
          ((b ++ c!"include" ++ c ++ c!"\"").length + p.length + 1) = rest ++ R := by
        have : b ++ c!"include" ++ c ++ c!"\"" ++ p ++ c!"\"" ++ rest ++ R =
          (b ++ c!"include" ++ c ++ c!"\"" ++ p ++ c!"\"") ++ (rest ++ R) := by simp
        rw [this, List.drop_left']
        simp; omega
      rw [e2]
      have hcb : ∀ {w : Str}, Blank w → w.count '"' = 0 := by
        intro w hw
        refine List.count_eq_zero.2 fun h => ?_
        have := blank_iff.1 hw _ h
        revert this; decide
      obtain ⟨f, hf⟩ := scan2_tail (t := rest) (fresh := true) (nested := false)
        (off := off + a.length + 1 + ((b ++ c!"include" ++ c ++ c!"\"").length + p.length + 1)) (R := R)
        (fun h => hn (by simp [h]))
        (fun x y z h => ht.hash (a ++ '#' :: (b ++ c!"include" ++ c ++ c!"\"" ++ p ++ c!"\"" ++ x)) y z
          (by rw [h]; simp))
        (fun _ y z h => ht.hash (a ++ '#' :: (b ++ c!"include" ++ c ++ c!"\"" ++ p)) y z
          (by rw [h]; simp))
        (by
          have := ht.quotes
          simp only [List.count_append, List.count_cons, List.count_nil, hca, hcb hb, hcb hc,
            List.count_eq_zero.2 hq] at this
          simp at this ⊢
          omega)
      rw [hf, scan2_follows hR]
      congr 1
      simp; omega
    | none =>
      right
      refine ⟨?_, ?_⟩
      · rintro col path ⟨a', b, c, rest, he, ha2, hb, hc, hq, _⟩
        obtain ⟨h1, h2⟩ := ht.directive a' b c path rest he ha2 hb hc hq
        have he' : a ++ '#' :: t = a' ++ '#' :: (b ++ c!"include" ++ c ++ c!"\"" ++ path ++ c!"\"" ++ rest) := by
          rw [he]; simp
        obtain ⟨rfl, rfl⟩ := huniq _ _ he' ha2
        rw [afterHash_iff.2 ⟨b, c, rest, rfl, hb, hc, h1, hq, h2, rfl⟩] at hm
        cases hm
      · simp only []
        rw [if_neg (by decide)]
        have hsp : ('#' = '\n' || isSpace '#') = false := by decide
        rw [hsp]
        obtain ⟨f, hf⟩ := scan2_tail (t := t) (fresh := false) (nested := false)
          (off := off + a.length + 1) (R := R) hnt
          (fun x y z h => ht.hash (a ++ '#' :: x) y z (by rw [h]; simp))
          (fun h => by cases h)
          (by
            have := ht.quotes
            simp only [List.count_append, List.count_cons, hca] at this
            simp at this ⊢
            omega)
        rw [hf, scan2_follows hR]
        congr 1
        simp; omega
  · right
    refine ⟨?_, ?_⟩
    · rintro col path ⟨a', b, c, rest, he, ha2, _⟩
      exact hh ⟨a', _, by rw [he]; simp; rfl, ha2⟩
    · obtain ⟨f, hf⟩ := scan2_tail (t := line) (fresh := true) (nested := false) (off := off) (R := R) hn
        ht.hash (fun _ b c h hb => hh ⟨b, c, by rw [h]; simp, hb⟩)
        (by have := ht.quotes; simpa using this)
      rw [hf, scan2_follows hR]

theorem splitAll_cons (s : Str) : ∃ line R R', s = line ++ R ∧ '\n' ∉ line ∧ Follows R R' ∧
    ((R = [] ∧ splitAll '\n' s = [line]) ∨ (R = '\n' :: R' ∧ splitAll '\n' s = line :: splitAll '\n' R')) := by
  by_cases h : '\n' ∈ s
  · obtain ⟨a, b, rfl, ha⟩ := List.eq_append_cons_of_mem h
    exact ⟨a, '\n' :: b, b, rfl, ha, .inr rfl, .inr ⟨rfl, splitAll_append ha⟩⟩
  · exact ⟨s, [], [], by simp, h, .inl ⟨rfl, rfl⟩, .inl ⟨rfl, splitAll_of_not_mem h⟩⟩

theorem scan2_lines : ∀ (len : Nat) (s : Str), s.length = len → ∀ off,
    (∀ line ∈ splitAll '\n' s, Tidy line) →
    Listed off (splitAll '\n' s) (scan2 0 true false off s) := by
  intro len
  induction len using Nat.strongRecOn with
  | ind len ih =>
    intro s hs off ht
    obtain ⟨line, R, R', rfl, hn, hR, h⟩ := splitAll_cons s
    have hrest : ∀ off, ∃ ls, splitAll '\n' (line ++ R) = line :: ls ∧
        Listed off ls (scan2 0 true false off R') := by
      intro off
      rcases h with ⟨rfl, h⟩ | ⟨rfl, h⟩
      · rcases hR with ⟨_, rfl⟩ | hR
        · exact ⟨[], h, .nil⟩
        · cases hR
      · refine ⟨_, h, ih R'.length (by rw [← hs]; simp; omega) R' rfl off ?_⟩
        intro l hl
        exact ht l (by rw [h]; simp [hl])
    obtain ⟨ls, h1, h2⟩ := hrest (off + line.length + 1)
    rw [h1]
    rcases scan2_line (ht line (by rw [h1]; simp)) hn hR off with ⟨col, path, hd, he⟩ | ⟨hd, he⟩
    · rw [he]; exact .directive hd h2
    · rw [he]; exact .other hd h2

theorem extract_listed (content : Str) (ht : ∀ line ∈ splitAll '\n' content, Tidy line) :
    Listed 0 (splitAll '\n' content) (extract content) := by
  unfold extract
  rw [(scan_eq _ content rfl false 0).1]
  exact scan2_lines _ content rfl 0 ht

/-! ## Tidy lines -/

theorem tidy_plain {line : Str} (h : '#' ∉ line) (hq : line.count '"' % 2 = 0) : Tidy line where
  directive a b c path rest he := absurd (by rw [he]; simp) h
  quotes := hq
  hash a b c he := absurd (by rw [he]; simp) h
  alone a b he := absurd (by rw [he]; simp) h
  lonely a b c he := absurd (by rw [he]; simp) h

theorem blank_no {a : Str} (h : Blank a) {x : Char} (hx : isSpace x = false) : x ∉ a := fun hm => by
  have := blank_iff.1 h _ hm
  rw [this] at hx; cases hx

/-- The first `#` of a line. -/
theorem hash_unique {a t a' t' : Str} (ha : Blank a) (ha' : '#' ∉ a')
    (h : a ++ '#' :: t = a' ++ '#' :: t') : a' = a ∧ t' = t := by
  have hno : '#' ∉ a := blank_no ha (by decide)
  rcases List.append_eq_append_iff.1 h with ⟨x, h1, h2⟩ | ⟨x, h1, h2⟩
  · cases x with
    | nil => simp at h1 h2; exact ⟨h1, h2.symm⟩
    | cons d x => injection h2 with hd _; subst hd; exact absurd (by rw [h1]; simp) ha'
  · cases x with
    | nil => simp at h1 h2; exact ⟨h1.symm, h2⟩
    | cons d x => injection h2 with hd _; subst hd; exact absurd (by rw [h1]; simp) hno

theorem quote_hash {a t : Str} (ha : Blank a) (ht : '#' ∉ t) (x y z : Str)
    (he : a ++ '#' :: t = x ++ c!"\"" ++ y ++ c!"#" ++ z) : ¬ Blank y := by
  intro hy
  have he' : a ++ '#' :: t = (x ++ c!"\"" ++ y) ++ '#' :: z := by rw [he]; simp
  by_cases hx : '#' ∈ x
  · obtain ⟨x1, x2, rfl, hx1⟩ := List.eq_append_cons_of_mem hx
    have he2 : a ++ '#' :: t = x1 ++ '#' :: (x2 ++ c!"\"" ++ y ++ c!"#" ++ z) := by rw [he]; simp
    obtain ⟨_, rfl⟩ := hash_unique ha hx1 he2
    exact ht (by simp)
  · have hn : '#' ∉ x ++ c!"\"" ++ y := by
      simp only [List.mem_append, not_or]
      exact ⟨⟨hx, by decide⟩, blank_no hy (by decide)⟩
    obtain ⟨h1, _⟩ := hash_unique ha hn he'
    have : '"' ∈ a := by rw [← h1]; simp
    exact blank_no ha (by decide) this

theorem blank_prefix {b b' : Str} {x y : Char} {t t' : Str} (hb : Blank b) (hb' : Blank b')
    (hx : isSpace x = false) (hy : isSpace y = false) (h : b ++ x :: t = b' ++ y :: t') :
    b = b' ∧ x = y ∧ t = t' := by
  have h1 := dropWhile_append_cons (t := t) (x := x) (blank_iff.1 hb) hx
  have h2 := dropWhile_append_cons (t := t') (x := y) (blank_iff.1 hb') hy
  rw [h, h2] at h1
  injection h1 with e1 e2
  subst e1 e2
  exact ⟨List.append_cancel_right h, rfl, rfl⟩

/-- An include directive is a tidy line. -/
theorem tidy_include {a b c path rest : Str} (ha : Blank a) (hb : Blank b) (hc : Blank c) (hne : c ≠ [])
    (hp : PathForm path) (hr : '#' ∉ rest) (hq : rest.count '"' % 2 = 0) :
    Tidy (a ++ c!"#" ++ b ++ c!"include" ++ c ++ c!"\"" ++ path ++ c!"\"" ++ rest) := by
  have hpc : ∀ x ∈ path, isPathChar x = true ∨ x = '.' := by
    obtain ⟨n, body, exts, rfl, _, h1, h2⟩ := hp
    intro x hx
    simp only [List.mem_append, List.mem_flatten, List.mem_replicate, List.mem_map] at hx
    rcases hx with (⟨l, ⟨_, rfl⟩, hx⟩ | hx) | ⟨l, ⟨e, he, rfl⟩, hx⟩
    · have : x = '.' ∨ x = '/' := by simpa using hx
      rcases this with rfl | rfl
      · exact .inr rfl
      · exact .inl (by decide)
    · left
      rcases h1 x hx with h | rfl | rfl | rfl | rfl
      · simp [isPathChar, h]
      all_goals decide
    · rcases List.mem_cons.1 hx with rfl | hx
      · exact .inr rfl
      · left
        have := (h2 e he).2 x hx
        simp [isPathChar, Char.isAlphanum, this]
  have hpn : ∀ x, isPathChar x = false → x ≠ '.' → x ∉ path := by
    intro x h1 h2 hm
    rcases hpc x hm with h | h
    · rw [h] at h1; cases h1
    · exact h2 h
  have ht : '#' ∉ b ++ c!"include" ++ c ++ c!"\"" ++ path ++ c!"\"" ++ rest := by
    simp only [List.mem_append, not_or]
    exact ⟨⟨⟨⟨⟨⟨blank_no hb (by decide), by decide⟩, blank_no hc (by decide)⟩, by decide⟩,
      hpn _ (by decide) (by decide)⟩, by decide⟩, hr⟩
  have hl : a ++ c!"#" ++ b ++ c!"include" ++ c ++ c!"\"" ++ path ++ c!"\"" ++ rest =
    a ++ '#' :: (b ++ c!"include" ++ c ++ c!"\"" ++ path ++ c!"\"" ++ rest) := by simp
  rw [hl]
  have key : ∀ a' t', a ++ '#' :: (b ++ c!"include" ++ c ++ c!"\"" ++ path ++ c!"\"" ++ rest) =
      a' ++ c!"#" ++ t' → Blank a' →
      t' = b ++ c!"include" ++ c ++ c!"\"" ++ path ++ c!"\"" ++ rest := by
    intro a' t' he ha'
    have he' : _ = a' ++ '#' :: t' := he.trans (by simp)
    exact (hash_unique ha (blank_no ha' (by decide)) he').2
  have key2 : ∀ b' u, b' ++ c!"include" ++ u = b ++ c!"include" ++ c ++ c!"\"" ++ path ++ c!"\"" ++ rest →
      Blank b' → u = c ++ c!"\"" ++ path ++ c!"\"" ++ rest := by
    intro b' u he hb'
    have he' : b' ++ 'i' :: (c!"nclude" ++ u) =
        b ++ 'i' :: (c!"nclude" ++ (c ++ c!"\"" ++ path ++ c!"\"" ++ rest)) := by
      simpa using he
    obtain ⟨_, _, h⟩ := blank_prefix hb' hb (by decide) (by decide) he'
    exact List.append_cancel_left h
  refine ⟨?_, ?_, fun x y z he => quote_hash ha ht x y z he, ?_, ?_⟩
  · intro a' b' c' path' rest' he ha' hb' hc' hq'
    have h1 := key a' (b' ++ c!"include" ++ (c' ++ c!"\"" ++ path' ++ c!"\"" ++ rest')) (by rw [he]; simp) ha'
    have h2 := key2 _ _ h1 hb'
    have h3 : c' ++ '"' :: (path' ++ c!"\"" ++ rest') = c ++ '"' :: (path ++ c!"\"" ++ rest) := by
      simpa using h2
    obtain ⟨rfl, _, h4⟩ := blank_prefix hc' hc (by decide) (by decide) h3
    refine ⟨hne, ?_⟩
    have hpq : '"' ∉ path := hpn _ (by decide) (by decide)
    have h5 : path' = path := by
      have e1 := takeWhile_append_cons (p := (· != '"')) (w := path') (t := rest') (x := '"')
        (by intro x hx; simp; rintro rfl; exact hq' hx) (by decide)
      have e2 := takeWhile_append_cons (p := (· != '"')) (w := path) (t := rest) (x := '"')
        (by intro x hx; simp; rintro rfl; exact hpq hx) (by decide)
      have e3 : path' ++ '"' :: rest' = path ++ '"' :: rest := by simpa using h4
      rw [e3, e2] at e1
      exact e1.symm
    rw [h5]; exact hp
  · have z : ∀ {w : Str}, Blank w → w.count '"' = 0 :=
      fun hw => List.count_eq_zero.2 (blank_no hw (by decide))
    have zp : path.count '"' = 0 := List.count_eq_zero.2 (hpn _ (by decide) (by decide))
    simp only [List.count_append, List.count_cons, List.count_nil, z ha, z hb, z hc, zp]
    simp
    omega
  · intro a' b' he ha' hbl
    have h1 := key a' b' he ha'
    refine blank_no hbl (x := 'i') (by decide) ?_
    rw [h1]; simp
  · intro a' b' c' he ha' hb' hbl
    have h1 := key a' (b' ++ c!"include" ++ c') (by rw [he]; simp) ha'
    have h2 := key2 _ _ h1 hb'
    refine blank_no hbl (x := '"') (by decide) ?_
    rw [h2]; simp

/-- Another directive is a tidy line. -/
theorem tidy_directive {a b t : Str} {x : Char} (ha : Blank a) (hb : Blank b) (hx : isSpace x = false)
    (hi : ¬ startsWith (x :: t) c!"include" = true) (hn : '#' ∉ x :: t) (hq : (x :: t).count '"' % 2 = 0) :
    Tidy (a ++ c!"#" ++ b ++ x :: t) := by
  have hl : a ++ c!"#" ++ b ++ x :: t = a ++ '#' :: (b ++ x :: t) := by simp
  rw [hl]
  have hb0 := blank_no hb (x := '#') (by decide)
  have key : ∀ a' b' u, a ++ '#' :: (b ++ x :: t) = a' ++ c!"#" ++ b' ++ c!"include" ++ u →
      Blank a' → Blank b' → False := by
    intro a' b' u he ha' hb'
    have he' : a ++ '#' :: (b ++ x :: t) = a' ++ '#' :: (b' ++ 'i' :: (c!"nclude" ++ u)) := by
      rw [he]; simp
    obtain ⟨_, h⟩ := hash_unique ha (blank_no ha' (by decide)) he'
    obtain ⟨_, rfl, rfl⟩ := blank_prefix hb' hb (by decide) hx h
    exact hi (by simp [startsWith])
  refine ⟨?_, ?_, fun p q r he => quote_hash ha (by rw [List.mem_append]; exact fun h => h.elim hb0 hn) p q r he, ?_, ?_⟩
  · intro a' b' c' path' rest' he ha' hb' _ _
    exact (key a' b' (c' ++ c!"\"" ++ path' ++ c!"\"" ++ rest') (by rw [he]; simp) ha' hb').elim
  · have z : ∀ {w : Str}, Blank w → w.count '"' = 0 :=
      fun hw => List.count_eq_zero.2 (blank_no hw (by decide))
    rw [List.count_append, List.count_cons_of_ne (by decide), List.count_append, z ha, z hb]
    simpa using hq
  · intro a' b' he ha' hbl
    have he' : a ++ '#' :: (b ++ x :: t) = a' ++ '#' :: b' := by rw [he]; simp
    obtain ⟨_, rfl⟩ := hash_unique ha (blank_no ha' (by decide)) he'
    exact blank_no hbl (x := x) hx (by simp)
  · intro a' b' c' he ha' hb' _
    exact key a' b' c' he ha' hb'

/-! ## Any text -/

/-- What is reported is there. -/
theorem scan2_sound : ∀ (s : Str) (skip : Nat) (fresh nested : Bool) (off : Nat), ∀ r ∈ scan2 skip fresh nested off s,
    ∃ x b c rest, s = x ++ c!"#" ++ b ++ c!"include" ++ c ++ c!"\"" ++ r.2 ++ c!"\"" ++ rest ∧
      Blank b ∧ Blank c ∧ c ≠ [] ∧ PathForm r.2 ∧ skip ≤ x.length ∧
      r.1 = off + (x ++ c!"#" ++ b ++ c!"include" ++ c ++ c!"\"").length := by
  intro s
  induction s with
  | nil => intro skip fresh nested off r hr; cases skip <;> cases hr
  | cons d s ih =>
    intro skip fresh nested off r hr
    have step : ∀ skip' f n, r ∈ scan2 skip' f n (off + 1) s → skip ≤ skip' + 1 →
        ∃ x b c rest, d :: s = x ++ c!"#" ++ b ++ c!"include" ++ c ++ c!"\"" ++ r.2 ++ c!"\"" ++ rest ∧
          Blank b ∧ Blank c ∧ c ≠ [] ∧ PathForm r.2 ∧ skip ≤ x.length ∧
          r.1 = off + (x ++ c!"#" ++ b ++ c!"include" ++ c ++ c!"\"").length := by
      intro skip' f n h hle
      obtain ⟨x, b, c, rest, h1, h2, h3, h4, h5, h6, h7⟩ := ih skip' f n _ r h
      refine ⟨d :: x, b, c, rest, by rw [h1]; simp, h2, h3, h4, h5, by simp; omega, ?_⟩
      rw [h7]; simp; omega
    cases skip with
    | succ k => rw [scan2] at hr; exact step _ _ _ hr (by omega)
    | zero =>
      rw [scan2] at hr
      cases hm : (if fresh && d = '#' then afterHash s else none) with
      | none =>
        simp only [hm] at hr
        split at hr <;> exact step _ _ _ hr (by omega)
      | some q =>
        obtain ⟨n, path⟩ := q
        simp only [hm] at hr
        by_cases hc : (fresh && d = '#') = true
        · rw [if_pos hc] at hm
          have hd : d = '#' := by simp at hc; exact hc.2
          subst hd
          cases nested with
          | true => exact step _ _ _ hr (by omega)
          | false =>
            simp only [Bool.false_eq_true, if_false] at hr
            rcases List.mem_cons.1 hr with rfl | hr
            · obtain ⟨b, c, rest, rfl, hb, hc, hcne, hq, hp, rfl⟩ := afterHash_iff.1 hm
              exact ⟨[], b, c, rest, by simp, hb, hc, hcne, hp, by simp, by simp; omega⟩
            · exact step _ _ _ hr (by omega)
        · rw [if_neg hc] at hm; cases hm

/-- Results are in order and do not overlap. -/
theorem scan2_ordered : ∀ (s : Str) (skip : Nat) (fresh nested : Bool) (off : Nat),
    (scan2 skip fresh nested off s).Pairwise fun r r' => r.1 + r.2.length < r'.1 := by
  intro s
  induction s with
  | nil => intro skip fresh nested off; cases skip <;> exact .nil
  | cons d s ih =>
    intro skip fresh nested off
    cases skip with
    | succ k => rw [scan2]; exact ih _ _ _ _
    | zero =>
      rw [scan2]
      cases hm : (if fresh && d = '#' then afterHash s else none) with
      | none => simp only []; split <;> exact ih _ _ _ _
      | some q =>
        obtain ⟨n, path⟩ := q
        simp only []
        cases nested with
        | true => exact ih _ _ _ _
        | false =>
          simp only [Bool.false_eq_true, if_false]
          refine List.pairwise_cons.2 ⟨?_, ih _ _ _ _⟩
          intro r hr
          obtain ⟨x, b, c, rest, h1, h2, h3, h4, h5, h6, h7⟩ := scan2_sound s _ _ _ _ r hr
          rw [h7]; simp only [List.length_append]; simp; omega

/-! ## Exactly -/

/-- The same, within a text. -/
def Fresh (fresh : Bool) (x : Str) : Prop :=
  ∃ y a, x = y ++ a ∧ Blank a ∧ ((y = [] ∧ fresh = true) ∨ y.getLast? = some '\n' ∨ y.getLast? = some '"')

theorem fresh_nil {fresh : Bool} : Fresh fresh [] ↔ fresh = true := by
  constructor
  · rintro ⟨y, a, h, _, h2⟩
    obtain ⟨rfl, rfl⟩ := List.append_eq_nil_iff.1 h.symm
    simpa using h2
  · intro h
    exact ⟨[], [], rfl, (fun _ h => by cases h), .inl ⟨rfl, h⟩⟩

theorem fresh_cons {fresh : Bool} {d : Char} {x : Str} :
    Fresh fresh (d :: x) ↔ Fresh (d = '"' || d = '\n' || (fresh && isSpace d)) x := by
  constructor
  · rintro ⟨y, a, h, ha, h2⟩
    cases y with
    | nil =>
      simp only [List.nil_append] at h
      subst h
      have h3 : fresh = true := by simpa using h2
      have h4 := blank_iff.1 ha d (by simp)
      exact ⟨[], x, rfl, fun c hc => ha c (by simp [hc]), .inl ⟨rfl, by simp [h3, h4]⟩⟩
    | cons e y =>
      simp only [List.cons_append, List.cons.injEq] at h
      obtain ⟨rfl, rfl⟩ := h
      refine ⟨y, a, rfl, ha, ?_⟩
      simp only [List.cons_ne_nil, false_and, false_or] at h2
      cases y with
      | nil =>
        simp only [List.getLast?_singleton, Option.some.injEq] at h2
        left
        rcases h2 with rfl | rfl <;> simp
      | cons f y =>
        right
        simpa [List.getLast?_cons_cons] using h2
  · rintro ⟨y, a, rfl, ha, h2⟩
    by_cases hy : y = []
    · subst hy
      have h3 : (d = '"' || d = '\n' || (fresh && isSpace d)) = true := by simpa using h2
      simp only [Bool.or_eq_true, decide_eq_true_eq, Bool.and_eq_true] at h3
      rcases h3 with (rfl | rfl) | ⟨h3, h4⟩
      · exact ⟨c!"\"", a, rfl, ha, .inr (.inr rfl)⟩
      · exact ⟨c!"\n", a, rfl, ha, .inr (.inl rfl)⟩
      · refine ⟨[], d :: a, rfl, ?_, .inl ⟨rfl, h3⟩⟩
        intro c hc
        rcases List.mem_cons.1 hc with rfl | hc
        · exact isSpace_iff.1 h4
        · exact ha c hc
    · refine ⟨d :: y, a, rfl, ha, ?_⟩
      right
      cases y with
      | nil => exact absurd rfl hy
      | cons f y => simpa [List.getLast?_cons_cons] using h2

/-- Behind a quote everything begins anew. -/
theorem fresh_quote {fresh : Bool} {u x : Str} : Fresh fresh (u ++ '"' :: x) ↔ Fresh true x := by
  induction u generalizing fresh with
  | nil => rw [List.nil_append, fresh_cons]; simp
  | cons d u ih => rw [List.cons_append, fresh_cons, ih]

/-- A directive at `x`. -/
def At (s x path : Str) (len : Nat) : Prop :=
  ∃ b c rest, s = x ++ c!"#" ++ b ++ c!"include" ++ c ++ c!"\"" ++ path ++ c!"\"" ++ rest ∧
    Blank b ∧ Blank c ∧ c ≠ [] ∧ PathForm path ∧ len = (x ++ c!"#" ++ b ++ c!"include" ++ c ++ c!"\"").length

theorem pathForm_quote {p : Str} (h : PathForm p) : '"' ∉ p ∧ '#' ∉ p := by
  obtain ⟨n, body, exts, rfl, _, hb, he⟩ := h
  constructor <;> intro hm <;>
    simp only [List.mem_append, List.mem_flatten, List.mem_replicate, List.mem_map] at hm <;>
    rcases hm with (⟨_, ⟨_, rfl⟩, hm⟩ | hm) | ⟨_, ⟨e, h1, rfl⟩, hm⟩
  · simp at hm
  · have := hb _ hm; revert this; decide
  · rcases List.mem_cons.1 hm with hm | hm
    · cases hm
    · have := (he e h1).2 _ hm; revert this; decide
  · simp at hm
  · have := hb _ hm; revert this; decide
  · rcases List.mem_cons.1 hm with hm | hm
    · cases hm
    · have := (he e h1).2 _ hm; revert this; decide

theorem at_nil {d : Char} {s path : Str} {len : Nat} :
    At (d :: s) [] path len ↔ d = '#' ∧ ∃ n, afterHash s = some (n, path) ∧ len = n + 1 := by
  constructor
  · rintro ⟨b, c, rest, h, hb, hc, hne, hp, hl⟩
    simp only [List.nil_append, List.cons_append, List.cons.injEq] at h
    obtain ⟨rfl, rfl⟩ := h
    refine ⟨rfl, _, afterHash_iff.2 ⟨b, c, rest, by simp, hb, hc, hne, (pathForm_quote hp).1, hp, rfl⟩, ?_⟩
    rw [hl]; simp
  · rintro ⟨rfl, n, h, rfl⟩
    obtain ⟨b, c, rest, rfl, hb, hc, hne, _, hp, rfl⟩ := afterHash_iff.1 h
    exact ⟨b, c, rest, by simp, hb, hc, hne, hp, by simp⟩

theorem at_cons {d e : Char} {s x path : Str} {len : Nat} :
    At (d :: s) (e :: x) path len ↔ e = d ∧ 0 < len ∧ At s x path (len - 1) := by
  constructor
  · rintro ⟨b, c, rest, h, hb, hc, hne, hp, hl⟩
    simp only [List.cons_append, List.cons.injEq] at h
    obtain ⟨rfl, rfl⟩ := h
    exact ⟨rfl, by rw [hl]; simp, b, c, rest, by simp, hb, hc, hne, hp, by rw [hl]; simp⟩
  · rintro ⟨rfl, hlen, b, c, rest, rfl, hb, hc, hne, hp, hl⟩
    exact ⟨b, c, rest, by simp, hb, hc, hne, hp, by simp at hl ⊢; omega⟩

/-- A later directive is behind the whole of an earlier one. -/
theorem at_behind {u s x path : Str} {len : Nat} (hu : '#' ∉ u) (h : At (u ++ s) x path len) :
    ∃ x', x = u ++ x' ∧ u.length ≤ len ∧ At s x' path (len - u.length) := by
  induction u generalizing x len with
  | nil => exact ⟨x, rfl, by simp, h⟩
  | cons d u ih =>
    cases x with
    | nil => rw [List.cons_append, at_nil] at h; exact (hu (by rw [h.1]; simp)).elim
    | cons e x =>
      rw [List.cons_append, at_cons] at h
      obtain ⟨rfl, h1, h2⟩ := h
      obtain ⟨x', rfl, h3, h4⟩ := ih (fun hm => hu (by simp [hm])) h2
      exact ⟨x', rfl, by simp; omega, by simpa [Nat.sub_sub, Nat.add_comm] using h4⟩

theorem at_append {u s x path : Str} {len : Nat} (h : At s x path len) : At (u ++ s) (u ++ x) path (u.length + len) := by
  obtain ⟨b, c, rest, rfl, hb, hc, hne, hp, rfl⟩ := h
  exact ⟨b, c, rest, by simp, hb, hc, hne, hp, by simp⟩

/-- What is reported, exactly. -/
theorem scan2_exact (len : Nat) : ∀ (s : Str), s.length = len → ∀ (fresh nested : Bool) (off pos : Nat) (path : Str),
    (pos, path) ∈ scan2 0 fresh nested off s ↔
      ∃ x n, At s x path n ∧ Fresh fresh x ∧ (x.count '"' + nested.toNat) % 2 = 0 ∧ pos = off + n := by
  induction len using Nat.strongRecOn with
  | ind len ih =>
    intro s hs fresh nested off pos path
    cases s with
    | nil =>
      simp only [scan2, List.not_mem_nil, false_iff]
      rintro ⟨x, n, ⟨b, c, rest, h, _⟩, _⟩
      simp at h
    | cons d s =>
      simp only [List.length_cons] at hs
      rw [scan2]
      cases hm : (if fresh && d = '#' then afterHash s else none) with
      | none =>
        have hnil : ∀ n, At (d :: s) [] path n → fresh = true → False := by
          intro n h hf
          obtain ⟨rfl, k, h1, _⟩ := at_nil.1 h
          rw [hf, if_pos (by simp), h1] at hm
          cases hm
        -- the first character is not part of a directive
        have key : ∀ nested', (d.toNat = '"'.toNat → nested' = !nested) → (d.toNat ≠ '"'.toNat → nested' = nested) →
            ((pos, path) ∈ scan2 0 (d = '"' || d = '\n' || (fresh && isSpace d)) nested' (off + 1) s ↔
              ∃ x n, At (d :: s) x path n ∧ Fresh fresh x ∧ (x.count '"' + nested.toNat) % 2 = 0 ∧ pos = off + n) := by
          intro nested' h1 h2
          rw [ih s.length (by omega) s rfl]
          have hcount : ∀ x : Str, ((d :: x).count '"' + nested.toNat) % 2 = 0 ↔ (x.count '"' + nested'.toNat) % 2 = 0 := by
            intro x
            rw [List.count_cons]
            by_cases hd : d = '"'
            · rw [h1 (by rw [hd]), if_pos (by simp [hd])]
              cases nested <;> simp <;> omega
            · rw [h2 (fun e => hd (Char.toNat_inj.1 e)), if_neg (by simpa using hd)]
              simp
          constructor
          · rintro ⟨x, n, ha, hf, hc, rfl⟩
            exact ⟨d :: x, n + 1, at_cons.2 ⟨rfl, by omega, ha⟩, fresh_cons.2 hf, (hcount x).2 hc, by omega⟩
          · rintro ⟨x, n, ha, hf, hc, rfl⟩
            cases x with
            | nil => exact (hnil n ha (fresh_nil.1 hf)).elim
            | cons e x =>
              obtain ⟨rfl, h3, h4⟩ := at_cons.1 ha
              exact ⟨x, n - 1, h4, fresh_cons.1 hf, (hcount x).1 hc, by omega⟩
        simp only []
        by_cases hd : d = '"'
        · subst hd
          rw [if_pos rfl]
          simpa using key (!nested) (fun _ => rfl) (fun h => absurd rfl h)
        · rw [if_neg hd]
          have := key nested (fun e => absurd (Char.toNat_inj.1 e) hd) (fun _ => rfl)
          simpa [hd] using this
      | some q =>
        obtain ⟨n0, p0⟩ := q
        have hc : (fresh && d = '#') = true := by
          refine Classical.byContradiction fun h => ?_
          rw [if_neg h] at hm; cases hm
        rw [if_pos hc] at hm
        simp only [Bool.and_eq_true, decide_eq_true_eq] at hc
        obtain ⟨hf, rfl⟩ := hc
        have hm0 := hm
        obtain ⟨b, c, rest, rfl, hb, hcb, hne, hq, hp, rfl⟩ := afterHash_iff.1 hm
        -- the directive
        let u : Str := b ++ c!"include" ++ c ++ c!"\"" ++ p0
        have hus : b ++ c!"include" ++ c ++ c!"\"" ++ p0 ++ c!"\"" ++ rest = (u ++ c!"\"") ++ rest := rfl
        have hulen : (b ++ c!"include" ++ c ++ c!"\"").length + p0.length + 1 = (u ++ c!"\"").length := by
          simp [u]; omega
        have hu : '#' ∉ u ++ c!"\"" := by
          simp only [u, List.mem_append, not_or]
          exact ⟨⟨⟨⟨⟨blank_no hb (by decide), by decide⟩, blank_no hcb (by decide)⟩, by decide⟩,
            (pathForm_quote hp).2⟩, by decide⟩
        have hcnt : (u ++ c!"\"").count '"' = 2 := by
          have z1 : b.count '"' = 0 := List.count_eq_zero.2 (blank_no hb (by decide))
          have z2 : c.count '"' = 0 := List.count_eq_zero.2 (blank_no hcb (by decide))
          have z3 : p0.count '"' = 0 := List.count_eq_zero.2 hq
          simp only [u, List.count_append, z1, z2, z3]
          decide
        have hrest : (pos, path) ∈ scan2 ((b ++ c!"include" ++ c ++ c!"\"").length + p0.length + 1) true nested (off + 1)
              (b ++ c!"include" ++ c ++ c!"\"" ++ p0 ++ c!"\"" ++ rest) ↔
            ∃ x n, At rest x path n ∧ Fresh true x ∧ (x.count '"' + nested.toNat) % 2 = 0 ∧
              pos = off + 1 + (u ++ c!"\"").length + n := by
          rw [scan2_drop, hulen, hus, List.drop_left]
          refine ih rest.length ?_ rest rfl true nested _ pos path
          simp at hs; omega
        have hlater : (∃ x n, At rest x path n ∧ Fresh true x ∧ (x.count '"' + nested.toNat) % 2 = 0 ∧
              pos = off + 1 + (u ++ c!"\"").length + n) ↔
            ∃ x n, At ('#' :: (b ++ c!"include" ++ c ++ c!"\"" ++ p0 ++ c!"\"" ++ rest)) ('#' :: x) path n ∧
              Fresh fresh ('#' :: x) ∧ (('#' :: x).count '"' + nested.toNat) % 2 = 0 ∧ pos = off + n := by
          constructor
          · rintro ⟨x, n, ha, hfr, hcn, rfl⟩
            refine ⟨(u ++ c!"\"") ++ x, 1 + ((u ++ c!"\"").length + n), ?_, ?_, ?_, by omega⟩
            · rw [at_cons, hus]
              refine ⟨rfl, by omega, ?_⟩
              rw [Nat.add_sub_cancel_left]
              exact at_append ha
            · rw [show '#' :: (u ++ c!"\"" ++ x) = ('#' :: u) ++ '"' :: x by simp, fresh_quote]
              exact hfr
            · rw [List.count_cons, List.count_append, hcnt]
              simp; omega
          · rintro ⟨x, n, ha, hfr, hcn, rfl⟩
            rw [at_cons, hus] at ha
            obtain ⟨_, h1, h2⟩ := ha
            obtain ⟨x', rfl, h3, h4⟩ := at_behind hu h2
            refine ⟨x', _, h4, ?_, ?_, by omega⟩
            · rw [show '#' :: (u ++ c!"\"" ++ x') = ('#' :: u) ++ '"' :: x' by simp, fresh_quote] at hfr
              exact hfr
            · rw [List.count_cons, List.count_append, hcnt] at hcn
              simp at hcn; omega
        have hsplit : (∃ x n, At ('#' :: (b ++ c!"include" ++ c ++ c!"\"" ++ p0 ++ c!"\"" ++ rest)) x path n ∧
              Fresh fresh x ∧ (x.count '"' + nested.toNat) % 2 = 0 ∧ pos = off + n) ↔
            (nested = false ∧ path = p0 ∧ pos = off + 1 + (b ++ c!"include" ++ c ++ c!"\"").length) ∨
            ∃ x n, At ('#' :: (b ++ c!"include" ++ c ++ c!"\"" ++ p0 ++ c!"\"" ++ rest)) ('#' :: x) path n ∧
              Fresh fresh ('#' :: x) ∧ (('#' :: x).count '"' + nested.toNat) % 2 = 0 ∧ pos = off + n := by
          constructor
          · rintro ⟨x, n, ha, hfr, hcn, hpos⟩
            cases x with
            | nil =>
              left
              obtain ⟨_, k, h1, h2⟩ := at_nil.1 ha
              rw [hm0] at h1
              cases h1
              refine ⟨?_, rfl, by omega⟩
              cases nested
              · rfl
              · simp at hcn
            | cons e x =>
              obtain ⟨rfl, _⟩ := at_cons.1 ha
              exact .inr ⟨x, n, ha, hfr, hcn, hpos⟩
          · rintro (⟨rfl, rfl, rfl⟩ | ⟨x, n, h⟩)
            · exact ⟨[], _, at_nil.2 ⟨rfl, _, hm0, rfl⟩, fresh_nil.2 hf, by simp, by omega⟩
            · exact ⟨_, n, h⟩
        rw [hsplit, ← hlater, ← hrest]
        simp only []
        cases nested with
        | true => simp
        | false =>
          simp only [Bool.false_eq_true, if_false, List.mem_cons, Prod.mk.injEq, true_and]
          rw [and_comm (a := pos = _)]

end Includes
end Bant
