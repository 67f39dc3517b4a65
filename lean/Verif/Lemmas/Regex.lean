import Verif.Model.Regex

/-! Helper lemmas about regular expressions. -/
namespace Bant
namespace Regex

theorem matches_eps {s : Str} : Matches eps s ↔ s = [] :=
  ⟨fun h => by cases h; rfl, fun h => h ▸ .eps⟩

theorem matches_cls {p : Char → Bool} {s : Str} :
    Matches (cls p) s ↔ ∃ c, p c = true ∧ s = [c] :=
  ⟨fun h => by cases h; exact ⟨_, ‹_›, rfl⟩, fun ⟨_, h, e⟩ => e ▸ .cls h⟩

theorem matches_lit {c : Char} {s : Str} : Matches (lit c) s ↔ s = [c] := by
  rw [lit, matches_cls]
  constructor
  · rintro ⟨d, hd, rfl⟩; simp at hd; simp [hd]
  · rintro rfl; exact ⟨c, by simp, rfl⟩

theorem matches_cat {a b : Regex} {s : Str} :
    Matches (cat a b) s ↔ ∃ u v, s = u ++ v ∧ Matches a u ∧ Matches b v :=
  ⟨fun h => by cases h; exact ⟨_, _, rfl, ‹_›, ‹_›⟩,
   fun ⟨_, _, e, h1, h2⟩ => e ▸ .cat h1 h2⟩

theorem matches_alt {a b : Regex} {s : Str} :
    Matches (alt a b) s ↔ Matches a s ∨ Matches b s :=
  ⟨fun h => by cases h with | altL h => exact .inl h | altR h => exact .inr h,
   fun h => h.elim .altL .altR⟩

theorem matches_opt {a : Regex} {s : Str} : Matches (opt a) s ↔ s = [] ∨ Matches a s :=
  ⟨fun h => by cases h with | optNone => exact .inl rfl | optSome h => exact .inr h,
   fun h => h.elim (fun e => e ▸ .optNone) .optSome⟩

theorem not_matches_void {s : Str} : ¬ Matches void s := by
  intro h
  rw [void, matches_cls] at h
  obtain ⟨_, h, _⟩ := h
  cases h

theorem matches_star_cls {p : Char → Bool} {s : Str} :
    Matches (star (cls p)) s ↔ ∀ c ∈ s, p c = true := by
  constructor
  · intro h
    generalize hr : star (cls p) = r at h
    induction h with
    | starNil => simp
    | starCons h1 _ _ ih2 =>
      cases hr
      rw [matches_cls] at h1
      obtain ⟨c, hc, rfl⟩ := h1
      intro d hd
      rcases List.mem_append.1 hd with hd | hd
      · simp at hd; exact hd ▸ hc
      · exact ih2 rfl d hd
    | _ => cases hr
  · intro h
    induction s with
    | nil => exact .starNil
    | cons c cs ih =>
      exact .starCons (s := [c]) (.cls (h c (by simp))) (ih fun d hd => h d (by simp [hd]))

theorem nullable_iff {r : Regex} : r.nullable = true ↔ Matches r [] := by
  induction r with
  | eps => simp [nullable, matches_eps]
  | cls p => simp [nullable, matches_cls]
  | cat a b iha ihb =>
    simp only [nullable, Bool.and_eq_true, iha, ihb, matches_cat]
    constructor
    · rintro ⟨h1, h2⟩; exact ⟨[], [], rfl, h1, h2⟩
    · rintro ⟨u, v, e, h1, h2⟩
      have e := List.append_eq_nil_iff.1 e.symm
      rw [e.1] at h1; rw [e.2] at h2
      exact ⟨h1, h2⟩
  | alt a b iha ihb => simp [nullable, iha, ihb, matches_alt]
  | star a _ => simp [nullable]; exact .starNil
  | opt a _ => simp [nullable, matches_opt]

theorem star_cons {a : Regex} {c : Char} {s : Str} (h : Matches (star a) (c :: s)) :
    ∃ u v, s = u ++ v ∧ Matches a (c :: u) ∧ Matches (star a) v := by
  generalize hr : star a = r at h
  generalize hs : c :: s = w at h
  induction h with
  | starNil => cases hs
  | @starCons a' u v h1 h2 _ ih2 =>
    cases hr
    cases u with
    | nil => exact ih2 rfl hs
    | cons x u' =>
      simp only [List.cons_append, List.cons.injEq] at hs
      exact ⟨u', v, hs.2, hs.1 ▸ h1, h2⟩
  | _ => cases hr

theorem deriv_iff {r : Regex} {c : Char} {s : Str} :
    Matches (r.deriv c) s ↔ Matches r (c :: s) := by
  induction r generalizing s with
  | eps => simp [deriv, not_matches_void, matches_eps]
  | cls p =>
    simp only [deriv]
    split
    · rename_i h
      rw [matches_eps, matches_cls]
      constructor
      · rintro rfl; exact ⟨c, h, rfl⟩
      · rintro ⟨d, _, e⟩; simp at e; exact e.2
    · rename_i h
      simp only [not_matches_void, matches_cls, false_iff, not_exists, not_and]
      intro d hd e
      simp at e
      exact h (e.1 ▸ hd)
  | cat a b iha ihb =>
    have key : Matches (cat a b) (c :: s) ↔
        Matches (cat (a.deriv c) b) s ∨ (Matches a [] ∧ Matches (b.deriv c) s) := by
      rw [matches_cat, matches_cat, ihb]
      constructor
      · rintro ⟨u, v, e, h1, h2⟩
        cases u with
        | nil => simp at e; exact .inr ⟨h1, e ▸ h2⟩
        | cons x u' =>
          simp only [List.cons_append, List.cons.injEq] at e
          exact .inl ⟨u', v, e.2, iha.2 (e.1 ▸ h1), h2⟩
      · rintro (⟨u, v, e, h1, h2⟩ | ⟨h1, h2⟩)
        · exact ⟨c :: u, v, by simp [e], iha.1 h1, h2⟩
        · exact ⟨[], c :: s, rfl, h1, h2⟩
    simp only [deriv]
    split
    · rename_i hn
      rw [matches_alt, key]
      simp [nullable_iff.1 hn]
    · rename_i hn
      rw [key]
      have : ¬ Matches a [] := fun h => hn (nullable_iff.2 h)
      simp [this]
  | alt a b iha ihb => simp [deriv, matches_alt, iha, ihb]
  | star a iha =>
    simp only [deriv, matches_cat]
    constructor
    · rintro ⟨u, v, e, h1, h2⟩
      have := Matches.starCons (iha.1 h1) h2
      simpa [e] using this
    · intro h
      obtain ⟨u, v, e, h1, h2⟩ := star_cons h
      exact ⟨u, v, e, iha.2 h1, h2⟩
  | opt a iha => simp [deriv, matches_opt, iha]

/-- The computable matcher decides the language. -/
theorem fullMatch_iff {r : Regex} {s : Str} : r.fullMatch s = true ↔ Matches r s := by
  induction s generalizing r with
  | nil => simp [fullMatch, nullable_iff]
  | cons c cs ih => simp [fullMatch, ih, deriv_iff]

end Regex

/-! ### The syntax -/

theorem reRun_append {st : List ReFrame} {b : Bool} {xs ys : List ReTok} :
    reRun st b (xs ++ ys) = (reRun st b xs).bind fun (st', b') => reRun st' b' ys := by
  induction xs generalizing st b with
  | nil => rfl
  | cons x xs ih =>
    simp only [List.cons_append, reRun]
    split
    · rfl
    · exact ih

end Bant
namespace Bant
open Regex

theorem reTokens_simple {c : Char} {s : Str} {t : ReTok} (h1 : c ≠ '\\') (h2 : c ≠ '[')
    (h : reSimple c = some t) : reTokens (c :: s) = (reTokens s).map (t :: ·) := by
  rw [reTokens.eq_def]; simp [h1, h2, h]

theorem reTokens_plain {c : Char} {s : Str} (h : rePlain c = true) :
    reTokens (c :: s) = (reTokens s).map (.atom (.lit c) :: ·) := by
  have n : ∀ d, rePlain d = false → c ≠ d := by
    intro d hd e; rw [e, hd] at h; cases h
  apply reTokens_simple (n _ (by decide)) (n _ (by decide))
  simp [reSimple, h, n '.' (by decide), n '*' (by decide), n '?' (by decide), n '|' (by decide),
    n '(' (by decide), n ')' (by decide)]

theorem reTokens_escaped {c : Char} {s : Str} (h : reEscapable c = true) :
    reTokens ('\\' :: c :: s) = (reTokens s).map (.atom (.lit c) :: ·) := by
  rw [reTokens.eq_def]; simp [h]

theorem reTokens_nul {s : Str} :
    reTokens (c!"\\x00" ++ s) = (reTokens s).map (.atom (.lit (Char.ofNat 0)) :: ·) := by
  have : c!"\\x00" ++ s = '\\' :: 'x' :: '0' :: '0' :: s := rfl
  have h : reEscapable 'x' = false := by decide
  rw [this, reTokens]; simp [h]

theorem reTokens_notSlashStar {s : Str} :
    reTokens (c!"[^/]*" ++ s) = (reTokens s).map ([.atom .notSlash, .star] ++ ·) := by
  have : c!"[^/]*" ++ s = '[' :: '^' :: '/' :: ']' :: '*' :: s := rfl
  rw [this, reTokens]
  simp only [reduceIte, Char.reduceEq, and_self]
  rw [reTokens_simple (t := .star) (by decide) (by decide) rfl]
  cases reTokens s <;> simp

theorem reTokens_quoteChar {c : Char} {s : Str} :
    reTokens (quoteChar c ++ s) = (reTokens s).map (.atom (.lit c) :: ·) := by
  unfold quoteChar
  split
  · rename_i h
    refine reTokens_plain ?_
    have n : ∀ d : Char, (d.isAlphanum || d == '_' || decide (d.toNat ≥ 128)) = false → c ≠ d := by
      intro d hd e
      subst e
      simp at h hd
      grind
    simp [rePlain, n '\\' (by decide), n '.' (by decide), n '+' (by decide), n '*' (by decide), n '?' (by decide),
      n '(' (by decide), n ')' (by decide), n '|' (by decide), n '[' (by decide), n ']' (by decide), n '{' (by decide),
      n '}' (by decide), n '^' (by decide), n '$' (by decide)]
  · split
    · rename_i h1 h0
      have : c = Char.ofNat 0 := by
        have : c.toNat = (Char.ofNat 0).toNat := by rw [h0]; rfl
        exact Char.toNat_inj.1 this
      rw [this]; exact reTokens_nul
    · rename_i h1 h0
      exact reTokens_escaped (by simp [reEscapable] at h1 ⊢; grind)

theorem reTokens_quoteMeta {p s : Str} :
    reTokens (quoteMeta p ++ s) = (reTokens s).map (p.map (fun c => ReTok.atom (.lit c)) ++ ·) := by
  induction p with
  | nil => simp [quoteMeta]
  | cons c cs ih =>
    have : quoteMeta (c :: cs) ++ s = quoteChar c ++ (quoteMeta cs ++ s) := by
      simp [quoteMeta]
    rw [this, reTokens_quoteChar, ih]
    cases reTokens s <;> simp

theorem reTokens_plains {p s : Str} (h : ∀ c ∈ p, rePlain c = true) :
    reTokens (p ++ s) = (reTokens s).map (p.map (fun c => ReTok.atom (.lit c)) ++ ·) := by
  induction p with
  | nil => simp
  | cons c cs ih =>
    rw [List.cons_append, reTokens_plain (h c (by simp)), ih fun d hd => h d (by simp [hd])]
    cases reTokens s <;> simp

theorem reTokens_dotStar {s : Str} :
    reTokens (c!".*" ++ s) = (reTokens s).map ([.atom .dot, .star] ++ ·) := by
  have : c!".*" ++ s = '.' :: '*' :: s := rfl
  rw [this, reTokens_simple (t := .atom .dot) (by decide) (by decide) rfl,
    reTokens_simple (t := .star) (by decide) (by decide) rfl]
  cases reTokens s <;> simp

/-! Sequences without groups. -/

/-- An atom, possibly with `*` or `?` behind it. -/
inductive ReItem where
  | one (r : Regex) | star (r : Regex) | opt (r : Regex)

def ReItem.toks : ReItem → List ReTok
  | .one r => [.atom r]
  | .star r => [.atom r, .star]
  | .opt r => [.atom r, .quest]

def ReItem.re : ReItem → Regex
  | .one r => r
  | .star r => .star r
  | .opt r => .opt r

theorem reRun_items (items : List ReItem) (al : Option Regex) (cur : List Regex)
    (fs : List ReFrame) (b : Bool) :
    ∃ b', reRun (⟨al, cur⟩ :: fs) b (items.flatMap ReItem.toks)
      = some (⟨al, (items.map ReItem.re).reverse ++ cur⟩ :: fs, b') := by
  induction items generalizing cur b with
  | nil => exact ⟨b, rfl⟩
  | cons i is ih =>
    cases i with
    | one r =>
      obtain ⟨b', h⟩ := ih (r :: cur) true
      exact ⟨b', by simp [ReItem.toks, ReItem.re, reRun, reStep, h]⟩
    | star r =>
      obtain ⟨b', h⟩ := ih (.star r :: cur) false
      exact ⟨b', by simp [ReItem.toks, ReItem.re, reRun, reStep, h]⟩
    | opt r =>
      obtain ⟨b', h⟩ := ih (.opt r :: cur) false
      exact ⟨b', by simp [ReItem.toks, ReItem.re, reRun, reStep, h]⟩

/-- Consecutive pieces of a string match consecutive expressions. -/
def MatchesSeq : List Regex → Str → Prop
  | [], s => s = []
  | r :: rs, s => ∃ u v, s = u ++ v ∧ Matches r u ∧ MatchesSeq rs v

theorem matchesSeq_append {xs ys : List Regex} {s : Str} :
    MatchesSeq (xs ++ ys) s ↔ ∃ u v, s = u ++ v ∧ MatchesSeq xs u ∧ MatchesSeq ys v := by
  induction xs generalizing s with
  | nil =>
    simp only [MatchesSeq, List.nil_append]
    constructor
    · intro h; exact ⟨[], s, rfl, rfl, h⟩
    · rintro ⟨u, v, rfl, rfl, h⟩; exact h
  | cons x xs ih =>
    simp only [List.cons_append, MatchesSeq, ih]
    constructor
    · rintro ⟨u, v, rfl, h1, u', v', rfl, h2, h3⟩
      exact ⟨u ++ u', v', by simp, ⟨u, u', rfl, h1, h2⟩, h3⟩
    · rintro ⟨_, v, rfl, ⟨u, u', rfl, h1, h2⟩, h3⟩
      exact ⟨u, u' ++ v, by simp, h1, u', v, rfl, h2, h3⟩

theorem matches_catRev {l : List Regex} {s : Str} :
    Matches (ReFrame.catRev l) s ↔ MatchesSeq l.reverse s := by
  induction l generalizing s with
  | nil => simp [ReFrame.catRev, MatchesSeq, matches_eps]
  | cons r rs ih =>
    have h1 : MatchesSeq (r :: rs).reverse s ↔
        ∃ u v, s = u ++ v ∧ Matches (ReFrame.catRev rs) u ∧ Matches r v := by
      rw [List.reverse_cons, matchesSeq_append]
      simp only [MatchesSeq, ih]
      constructor
      · rintro ⟨u, v, e, h1, w, z, rfl, h2, rfl⟩
        exact ⟨u, w, by simpa using e, h1, h2⟩
      · rintro ⟨u, v, e, h1, h2⟩
        exact ⟨u, v, e, h1, v, [], by simp, h2, rfl⟩
    rw [h1]
    cases rs with
    | nil =>
      simp only [ReFrame.catRev, matches_eps]
      constructor
      · intro h; exact ⟨[], s, rfl, rfl, h⟩
      · rintro ⟨u, v, rfl, rfl, h⟩; exact h
    | cons q qs => simp only [ReFrame.catRev, matches_cat]

theorem matchesSeq_lits {p s : Str} : MatchesSeq (p.map Regex.lit) s ↔ s = p := by
  induction p generalizing s with
  | nil => simp [MatchesSeq]
  | cons c cs ih =>
    simp only [List.map_cons, MatchesSeq, matches_lit, ih]
    constructor
    · rintro ⟨u, v, rfl, rfl, rfl⟩; rfl
    · rintro rfl; exact ⟨[c], cs, rfl, rfl, rfl⟩

end Bant
