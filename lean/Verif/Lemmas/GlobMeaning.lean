import Verif.Lemmas.Glob
import Verif.Lemmas.FileUtils

/-! Lemmas: patterns and their documented meaning; the files of `glob()`. -/
namespace Bant
namespace Glob
open GlobSpec

/-! ### Segments -/

theorem segments_ne (s : Str) : segments s ≠ [] := by
  cases s with
  | nil => simp [segments]
  | cons c s =>
    simp only [segments]
    split
    · simp
    · split <;> simp

theorem segments_slash (s : Str) : segments ('/' :: s) = [] :: segments s := by simp [segments]

theorem segments_char {c : Char} (h : c ≠ '/') {s x : Str} {xs : List Str} (hs : segments s = x :: xs) :
    segments (c :: s) = (c :: x) :: xs := by simp [segments, h, hs]

theorem segments_cons (s : Str) : ∃ x xs, segments s = x :: xs := by
  cases h : segments s with
  | nil => exact absurd h (segments_ne s)
  | cons x xs => exact ⟨x, xs, rfl⟩

theorem segments_append {u : Str} (hu : '/' ∉ u) {s x : Str} {xs : List Str} (hs : segments s = x :: xs) :
    segments (u ++ s) = (u ++ x) :: xs := by
  induction u with
  | nil => exact hs
  | cons c u ih =>
    simp only [List.mem_cons, not_or] at hu
    exact segments_char (fun e => hu.1 e.symm) (ih hu.2)

/-- Segments have no slashes. -/
theorem segments_mem {s x : Str} (h : x ∈ segments s) : '/' ∉ x := by
  induction s generalizing x with
  | nil => simp [segments] at h; simp [h]
  | cons c s ih =>
    by_cases hc : c = '/'
    · subst hc
      rw [segments_slash] at h
      rcases List.mem_cons.1 h with rfl | h
      · simp
      · exact ih h
    · obtain ⟨y, ys, hy⟩ := segments_cons s
      rw [segments_char hc hy] at h
      rcases List.mem_cons.1 h with rfl | h
      · simp only [List.mem_cons, not_or]
        exact ⟨fun e => hc e.symm, ih (by simp [hy])⟩
      · exact ih (by simp [hy, h])

/-- With slashes in between. -/
def joined : List Str → Str
  | [] => []
  | [x] => x
  | x :: y :: xs => x ++ '/' :: joined (y :: xs)

theorem joined_segments (s : Str) : joined (segments s) = s := by
  induction s with
  | nil => rfl
  | cons c s ih =>
    obtain ⟨y, ys, hy⟩ := segments_cons s
    by_cases hc : c = '/'
    · subst hc
      rw [segments_slash, hy]
      rw [hy] at ih
      simp only [joined, ih, List.nil_append]
    · rw [segments_char hc hy]
      rw [hy] at ih
      cases ys with
      | nil => simp only [joined] at ih ⊢; rw [ih]
      | cons z zs => simp only [joined, List.cons_append] at ih ⊢; rw [ih]

/-! ### Without `**` -/

theorem pathMatch_seg {p x : Str} {ps fs : List Str} (hp : p ≠ c!"**") (h : PathMatch (p :: ps) (x :: fs)) :
    SegMatch p x ∧ PathMatch ps fs := by
  cases h with
  | none _ => exact absurd rfl hp
  | more _ => exact absurd rfl hp
  | seg _ h1 h2 => exact ⟨h1, h2⟩

theorem accepts_means {p f : Str} (h : Accepts p f) : ¬ c!"**" <:+: p → Means p f := by
  unfold Means
  induction h with
  | nil => exact fun _ => .seg (by decide) .nil .nil
  | @deep p u s _ _ _ => exact fun hp => absurd ⟨[], '/' :: p, rfl⟩ hp
  | @star p u s hp hu _ ih =>
    intro hs
    have hs' : ¬ c!"**" <:+: p := by
      rintro ⟨a, b, rfl⟩
      exact hs ⟨'*' :: a, b, by simp⟩
    obtain ⟨x, xs, hx⟩ := segments_cons p
    obtain ⟨y, ys, hy⟩ := segments_cons s
    have := ih hs'
    rw [hx, hy] at this
    rw [segments_char (by decide) hx, segments_append hu hy]
    have hj := joined_segments p
    rw [hx] at hj
    have hpre : ∃ t, p = x ++ t := by
      cases xs with
      | nil => exact ⟨[], by rw [← hj]; simp [joined]⟩
      | cons z zs => exact ⟨'/' :: joined (z :: zs), by rw [← hj]; simp only [joined]⟩
    obtain ⟨t, ht⟩ := hpre
    obtain ⟨h1, h2⟩ := pathMatch_seg (by rintro rfl; exact hs' ⟨[], t, ht.symm⟩) this
    refine .seg ?_ (.star h1) h2
    intro e
    simp only [List.cons.injEq, true_and] at e
    subst e
    exact hs ⟨[], t, by rw [ht]; simp⟩
  | @char c p s hc _ ih =>
    intro hs
    have hs' : ¬ c!"**" <:+: p := by
      rintro ⟨a, b, rfl⟩
      exact hs ⟨c :: a, b, by simp⟩
    obtain ⟨x, xs, hx⟩ := segments_cons p
    obtain ⟨y, ys, hy⟩ := segments_cons s
    have := ih hs'
    by_cases hsl : c = '/'
    · subst hsl
      rw [segments_slash, segments_slash]
      exact .seg (by decide) .nil this
    · rw [hx, hy] at this
      rw [segments_char hsl hx, segments_char hsl hy]
      have hj := joined_segments p
      rw [hx] at hj
      have hpre : ∃ t, p = x ++ t := by
        cases xs with
        | nil => exact ⟨[], by rw [← hj]; simp [joined]⟩
        | cons z zs => exact ⟨'/' :: joined (z :: zs), by rw [← hj]; simp only [joined]⟩
      obtain ⟨t, ht⟩ := hpre
      obtain ⟨h1, h2⟩ := pathMatch_seg (by rintro rfl; exact hs' ⟨[], t, ht.symm⟩) this
      refine .seg ?_ (.char hc h1) h2
      intro e
      simp only [List.cons.injEq] at e
      exact hc e.1

/-! ### With `**` -/

theorem accepts_seg {p x : Str} (h : SegMatch p x) (hx : '/' ∉ x) (hp : ¬ c!"**" <:+: p) {q g : Str}
    (hq : q = [] ∨ ∃ q', q = '/' :: q') (hg : Accepts q g) : Accepts (p ++ q) (x ++ g) := by
  induction h with
  | nil => exact hg
  | @star p u s _ ih =>
    simp only [List.mem_append, not_or] at hx
    rw [List.cons_append, List.append_assoc]
    refine .star ?_ hx.1 (ih hx.2 ?_)
    · rintro ⟨t, ht⟩
      cases p with
      | nil =>
        rcases hq with rfl | ⟨q', rfl⟩
        · simp at ht
        · simp at ht
      | cons c p =>
        simp only [List.cons_append, List.nil_append, List.cons.injEq] at ht
        exact hp ⟨[], p, by rw [← ht.1]; rfl⟩
    · rintro ⟨a, b, rfl⟩
      exact hp ⟨'*' :: a, b, by simp⟩
  | @char c p s hc _ ih =>
    simp only [List.mem_cons, not_or] at hx
    refine .char hc (ih hx.2 ?_)
    rintro ⟨a, b, rfl⟩
    exact hp ⟨c :: a, b, by simp⟩

/-- A pattern that does not end in `**` does not match nothing. -/
theorem pathMatch_ne {ps fs : List Str} (h : PathMatch ps fs) : ∀ l, ps.getLast? = some l → l ≠ c!"**" → fs ≠ [] := by
  induction h with
  | nil => intro l hl; simp at hl
  | @none ps fs _ ih =>
    intro l hl hne
    cases ps with
    | nil => simp at hl; exact absurd hl.symm hne
    | cons y ys => exact ih l (by simpa [List.getLast?_cons_cons] using hl) hne
  | more => simp
  | seg => simp

theorem means_accepts {ps fs : List Str} (h : PathMatch ps fs) (l : Str) : ps.getLast? = some l → l ≠ c!"**" →
    (∀ p ∈ ps, c!"**" <:+: p → p = c!"**") → (∀ x ∈ fs, '/' ∉ x ∧ '\n' ∉ x) →
    Accepts (joined ps) (joined fs) := by
  induction h with
  | nil => intro hl; simp at hl
  | @none ps fs h ih =>
    intro hl hne hp hx
    cases ps with
    | nil => simp at hl; exact absurd hl.symm hne
    | cons y ys =>
      have := ih (by simpa [List.getLast?_cons_cons] using hl) hne (fun p h => hp p (by simp [h])) hx
      exact .deep (u := []) (by simp) this
  | @more ps x fs h ih =>
    intro hl hne hp hx
    have hfs := pathMatch_ne h l hl hne
    have ha := ih hl hne hp (fun x h => hx x (by simp [h]))
    cases fs with
    | nil => exact absurd rfl hfs
    | cons f fs =>
      cases ps with
      | nil => simp at hl; exact absurd hl.symm hne
      | cons y ys =>
        have e : joined (c!"**" :: y :: ys) = c!"**/" ++ joined (y :: ys) := rfl
        have e2 : joined (x :: f :: fs) = x ++ '/' :: joined (f :: fs) := rfl
        rw [e] at ha ⊢
        rw [e2]
        generalize hg : joined (f :: fs) = g at ha
        generalize hq : c!"**/" ++ joined (y :: ys) = q at ha
        cases ha with
        | nil => cases hq
        | @deep p u s hu hs =>
          have : p = joined (y :: ys) := by
            simp only [List.cons_append, List.nil_append, List.cons.injEq, true_and] at hq
            exact hq.symm
          subst this
          have e3 : x ++ '/' :: (u ++ s) = (x ++ '/' :: u) ++ s := by simp
          rw [e3]
          refine .deep ?_ hs
          simp only [List.mem_append, List.mem_cons, not_or]
          exact ⟨(hx x (by simp)).2, by decide, hu⟩
        | @star p u s hno _ _ =>
          simp only [List.cons_append, List.nil_append, List.cons.injEq, true_and] at hq
          exact absurd ⟨joined (y :: ys), by rw [← hq]; rfl⟩ hno
        | char hc _ =>
          simp only [List.cons_append, List.nil_append, List.cons.injEq] at hq
          exact absurd hq.1.symm hc
  | @seg p ps x fs hne' hm h ih =>
    intro hl hne hp hx
    have hno : ¬ c!"**" <:+: p := fun hi => hne' (hp p (by simp) hi)
    have hxs := (hx x (by simp)).1
    cases ps with
    | nil =>
      cases h
      simpa [joined] using accepts_seg hm hxs hno (q := []) (.inl rfl) .nil
    | cons y ys =>
      have hl' : (y :: ys).getLast? = some l := by simpa [List.getLast?_cons_cons] using hl
      have hfs := pathMatch_ne h l hl' hne
      have ha := ih hl' hne (fun p h => hp p (by simp [h])) (fun x h => hx x (by simp [h]))
      cases fs with
      | nil => exact absurd rfl hfs
      | cons f fs =>
        simp only [joined]
        exact accepts_seg hm hxs hno (.inr ⟨_, rfl⟩) (.char (by decide) ha)

/-- Without `**`, newlines do not matter. -/
theorem means_accepts' {ps fs : List Str} (h : PathMatch ps fs) (hp : ∀ p ∈ ps, ¬ c!"**" <:+: p)
    (hx : ∀ x ∈ fs, '/' ∉ x) : Accepts (joined ps) (joined fs) := by
  induction h with
  | nil => exact .nil
  | none _ _ => exact absurd (List.infix_rfl) (hp _ (by simp))
  | more _ _ => exact absurd (List.infix_rfl) (hp _ (by simp))
  | @seg p ps x fs _ hm h ih =>
    have ha := ih (fun p h => hp p (by simp [h])) (fun x h => hx x (by simp [h]))
    have hno := hp p (by simp)
    have hxs := hx x (by simp)
    cases ps with
    | nil =>
      cases h
      simpa [joined] using accepts_seg hm hxs hno (q := []) (.inl rfl) .nil
    | cons y ys =>
      cases fs with
      | nil =>
        cases h with
        | none _ => exact absurd (List.infix_rfl) (hp c!"**" (by simp))
      | cons f fs =>
        simp only [joined]
        exact accepts_seg hm hxs hno (.inr ⟨_, rfl⟩) (.char (by decide) ha)

theorem segments_infix {s x : Str} (h : x ∈ segments s) : x <:+: s := by
  have key : ∀ l : List Str, x ∈ l → x <:+: joined l := by
    intro l hl
    induction l with
    | nil => simp at hl
    | cons y ys ih =>
      cases ys with
      | nil => simp only [List.mem_singleton] at hl; subst hl; exact List.infix_rfl
      | cons z zs =>
        simp only [joined]
        rcases List.mem_cons.1 hl with rfl | hl
        · exact (List.prefix_append _ _).isInfix
        · exact (ih hl).trans ((List.suffix_cons _ _).trans (List.suffix_append _ _)).isInfix
  rw [← joined_segments s]
  exact key _ h

/-! ### Files of a tree -/
open FileUtils FileSpec

theorem entered_mono {t : Tree} {w : Str → Bool} {start d : Str} (h : Entered t w start d) :
    Entered t (fun _ => true) start d := by
  induction h with
  | start => exact .start
  | sub _ h1 h2 _ ih => exact .sub ih h1 h2 rfl

/-- Paths of what is in a directory that has no slash at the end. -/
theorem in_path {t : Tree} {dir path : Str} {e : Dirent} (h : In t dir e path) (hd : dir.getLast? ≠ some '/') :
    path = dir ++ '/' :: e.name := by
  obtain ⟨d, n, h1, h2, h3⟩ := h.path
  cases n with
  | zero =>
    simp only [List.replicate_zero, List.append_nil] at h1
    rw [h3, h1]
    simp
  | succ n =>
    rw [h1, List.replicate_succ'] at hd
    simp at hd

theorem entered_rel {t : Tree} {w : Str → Bool} {start d : Str} (hn : Named t)
    (hs : start.getLast? ≠ some '/') (h : Entered t w start d) :
    d = start ∨ ∃ r, d = start ++ '/' :: r ∧ r ≠ [] ∧ d.getLast? ≠ some '/' := by
  induction h with
  | start => exact .inl rfl
  | @sub dir e path i _ h1 _ _ ih =>
    obtain ⟨es, hl, he⟩ := h1.listed
    have hname := (hn _ _ hl).2 e he
    have last : ∀ x : Str, (x ++ '/' :: e.name).getLast? ≠ some '/' := by
      intro x hx
      have : (x ++ '/' :: e.name) = (x ++ ['/']) ++ e.name := by simp
      rw [this, List.getLast?_append, List.getLast?_eq_some_getLast hname.1, Option.some_or,
        ← List.getLast?_eq_some_getLast hname.1] at hx
      exact hname.2 (List.mem_of_getLast? hx)
    right
    rcases ih with rfl | ⟨r, rfl, _, hr⟩
    · have := in_path h1 hs
      exact ⟨e.name, this, hname.1, by rw [this]; exact last _⟩
    · have := in_path h1 hr
      exact ⟨r ++ '/' :: e.name, by rw [this]; simp, by simp, by rw [this]; exact last _⟩

theorem file_rel {t : Tree} {w v : Str → Bool} {start f : Str} (hn : Named t)
    (hs : start.getLast? ≠ some '/') (h : Wanted t w v start f) : ∃ r, f = start ++ '/' :: r ∧ r ≠ [] := by
  obtain ⟨dir, e, h1, h2, _, _⟩ := h
  obtain ⟨es, hl, he⟩ := h2.listed
  have hname := (hn _ _ hl).2 e he
  rcases entered_rel hn hs h1 with rfl | ⟨r, rfl, _, hr⟩
  · exact ⟨e.name, in_path h2 hs, hname.1⟩
  · exact ⟨r ++ '/' :: e.name, by rw [in_path h2 hr]; simp, by simp⟩

/-- Pruning does not lose directories. -/
theorem entered_pruned {t : Tree} {start d : Str} (hn : Named t) (hs : start.getLast? ≠ some '/')
    {incl : List Str} {p f : Str} (hp : p ∈ incl) (ha : Accepts p f) (hnl : '\n' ∉ f)
    (h : Entered t (fun _ => true) start d) : ∀ {rest}, start ++ '/' :: f = d ++ '/' :: rest →
    Entered t (fun dir => directoryMatches incl (dir.drop (start.length + 1))) start d := by
  induction h with
  | start => exact fun _ => .start
  | @sub dir e path i hd h1 h2 _ ih =>
    intro rest hf
    have hpath : path = dir ++ '/' :: e.name := by
      rcases entered_rel hn hs hd with rfl | ⟨r, _, _, hr⟩
      · exact in_path h1 hs
      · exact in_path h1 hr
    refine .sub (ih (rest := e.name ++ '/' :: rest) (by rw [hf, hpath]; simp)) h1 h2 ?_
    obtain ⟨r, hr⟩ : ∃ r, path = start ++ '/' :: r := by
      rcases entered_rel hn hs hd with rfl | ⟨r, hr, _, _⟩
      · exact ⟨_, hpath⟩
      · exact ⟨r ++ '/' :: e.name, by rw [hpath, hr]; simp⟩
    have hdrop : path.drop (start.length + 1) = r := by
      rw [hr, List.drop_append]; simp
    simp only [hdrop]
    refine directoryMatches_prunes hp ha hnl (rest := rest) ?_
    rw [hr] at hf
    simpa using hf

end Glob
end Bant
