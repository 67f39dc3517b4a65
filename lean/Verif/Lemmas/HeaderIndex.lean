import Verif.Model.HeaderIndex
import Verif.Lemmas.StrMap
import Verif.Spec.Paths

/-! Lemmas about header lookup. -/
namespace Bant
namespace HeaderIndex
open Paths StrMap

/-- Longest common prefix. -/
def lcp : Str → Str → Str
  | a :: as, b :: bs => if a = b then a :: lcp as bs else []
  | _, _ => []

theorem lcp_comm (a b : Str) : lcp a b = lcp b a := by
  induction a generalizing b with
  | nil => cases b <;> rfl
  | cons x xs ih =>
    cases b with
    | nil => rfl
    | cons y ys =>
      simp only [lcp]
      by_cases h : x = y
      · subst h; simp [ih]
      · simp [h, Ne.symm h]

theorem prefixLoop_eq {a b : Str} (h : a.length ≤ b.length) : prefixLoop a b = some (lcp a b) := by
  induction a generalizing b with
  | nil => cases b <;> rfl
  | cons x xs ih =>
    cases b with
    | nil => simp at h
    | cons y ys =>
      simp only [prefixLoop, lcp]
      by_cases hx : x = y
      · rw [ih (by simpa using h)]; simp [hx]
      · simp [hx]

theorem commonSlashes_eq (a b : Str) : commonSlashes a b = some ((lcp a b).count '/') := by
  unfold commonSlashes commonPrefix
  split
  · rw [prefixLoop_eq (by omega), lcp_comm]; rfl
  · rw [prefixLoop_eq (by omega)]; rfl

/-- The farther away in the order, the less in common. -/
theorem lcp_up {a b c : Str} (h1 : strLt b a = false) (h2 : strLt c b = false) :
    lcp a c <+: lcp a b := by
  induction a generalizing b c with
  | nil => simp [lcp]
  | cons x xs ih =>
    cases c with
    | nil => simp [lcp]
    | cons z zs =>
      simp only [lcp]
      by_cases hz : x = z
      · subst hz
        cases b with
        | nil => simp [strLt] at h1
        | cons y ys =>
          simp only [strLt, Bool.or_eq_false_iff, Bool.and_eq_false_iff, decide_eq_false_iff_not] at h1 h2
          rcases char_trichotomy x y with h | h | h
          · exact absurd h h2.1
          · subst h
            simp only [if_true, lcp, List.cons_prefix_cons, true_and]
            exact ih (by simpa using h1.2) (by simpa using h2.2)
          · exact absurd h h1.1
      · simp [hz]

theorem lcp_down {a b c : Str} (h1 : strLt a b = false) (h2 : strLt b c = false) :
    lcp a c <+: lcp a b := by
  induction a generalizing b c with
  | nil => simp [lcp]
  | cons x xs ih =>
    cases c with
    | nil => simp [lcp]
    | cons z zs =>
      simp only [lcp]
      by_cases hz : x = z
      · subst hz
        cases b with
        | nil => simp [strLt] at h2
        | cons y ys =>
          simp only [strLt, Bool.or_eq_false_iff, Bool.and_eq_false_iff, decide_eq_false_iff_not] at h1 h2
          rcases char_trichotomy x y with h | h | h
          · exact absurd h h1.1
          · subst h
            simp only [if_true, lcp, List.cons_prefix_cons, true_and]
            exact ih (by simpa using h1.2) (by simpa using h2.2)
          · exact absurd h h2.1
      · simp [hz]

/-! ### Slashes and components -/

theorem components_ne_nil (s : Str) : ∃ p ps, components s = p :: ps := by
  cases s with
  | nil => exact ⟨_, _, rfl⟩
  | cons x xs =>
    simp only [components]
    split
    · exact ⟨_, _, rfl⟩
    · split <;> exact ⟨_, _, rfl⟩

theorem components_sep (s : Str) : components ('/' :: s) = [] :: components s := by
  simp [components]

theorem components_cons {x : Char} (hx : x ≠ '/') {s p : Str} {ps : List Str}
    (h : components s = p :: ps) : components (x :: s) = (x :: p) :: ps := by
  simp [components, hx, h]

theorem slashes_eq (a b : Str) :
    (lcp (a ++ ['/']) (b ++ ['/'])).count '/' = sharedStart (components a) (components b) := by
  induction a generalizing b with
  | nil =>
    cases b with
    | nil => decide
    | cons y ys =>
      by_cases hy : y = '/'
      · subst hy; simp [lcp, components, sharedStart]
      · obtain ⟨p, ps, h⟩ := components_ne_nil ys
        rw [components_cons hy h]
        simp [lcp, components, sharedStart, Ne.symm hy]
  | cons x xs ih =>
    obtain ⟨p, ps, hp⟩ := components_ne_nil xs
    cases b with
    | nil =>
      by_cases hx : x = '/'
      · subst hx; rw [components_sep]; simp [lcp, components, sharedStart]
      · rw [components_cons hx hp]
        simp [lcp, components, sharedStart, hx]
    | cons y ys =>
      obtain ⟨q, qs, hq⟩ := components_ne_nil ys
      by_cases hx : x = '/'
      · subst hx
        rw [components_sep]
        by_cases hy : y = '/'
        · subst hy
          rw [components_sep]
          simp [lcp, sharedStart, ih]; omega
        · rw [components_cons hy hq]
          simp [lcp, sharedStart, Ne.symm hy]
      · rw [components_cons hx hp]
        by_cases hy : y = '/'
        · subst hy; rw [components_sep]; simp [lcp, sharedStart, hx]
        · rw [components_cons hy hq]
          by_cases hxy : x = y
          · subst hxy
            have := ih ys
            rw [hp, hq] at this
            simp only [sharedStart] at this ⊢
            simp [lcp, hx, this]
          · simp [lcp, sharedStart, hxy]

theorem components_snoc_sep (s : Str) : components (s ++ ['/']) = components s ++ [[]] := by
  induction s with
  | nil => decide
  | cons x xs ih =>
    by_cases hx : x = '/'
    · subst hx; simp [components_sep, ih]
    · obtain ⟨p, ps, hp⟩ := components_ne_nil xs
      rw [List.cons_append, components_cons hx (by rw [ih, hp]; rfl), components_cons hx hp]; rfl

theorem components_snoc {x : Char} (hx : x ≠ '/') (s : Str) :
    ∃ l last, components s = l ++ [last] ∧ components (s ++ [x]) = l ++ [last ++ [x]] := by
  induction s with
  | nil => exact ⟨[], [], rfl, by simp [components, hx]⟩
  | cons y ys ih =>
    obtain ⟨l, last, h1, h2⟩ := ih
    by_cases hy : y = '/'
    · subst hy
      exact ⟨[] :: l, last, by simp [components_sep, h1], by simp [components_sep, h2]⟩
    · cases l with
      | nil =>
        refine ⟨[], y :: last, ?_, ?_⟩
        · rw [components_cons hy (by rw [h1]; rfl)]; rfl
        · rw [List.cons_append, components_cons hy (by rw [h2]; rfl)]; rfl
      | cons p ps =>
        refine ⟨(y :: p) :: ps, last, ?_, ?_⟩
        · rw [components_cons hy (by rw [h1]; rfl)]; rfl
        · rw [List.cons_append, components_cons hy (by rw [h2]; rfl)]; rfl

theorem components_reverse (s : Str) :
    components s.reverse = ((components s).map List.reverse).reverse := by
  induction s with
  | nil => rfl
  | cons x xs ih =>
    rw [List.reverse_cons]
    by_cases hx : x = '/'
    · subst hx
      rw [components_snoc_sep, components_sep, ih]; simp
    · obtain ⟨p, ps, hp⟩ := components_ne_nil xs
      obtain ⟨l, last, h1, h2⟩ := components_snoc hx xs.reverse
      rw [h2, components_cons hx hp]
      rw [ih, hp] at h1
      simp only [List.map_cons, List.reverse_cons] at h1 ⊢
      obtain ⟨h3, h4⟩ := List.append_inj' h1 rfl
      simp at h4
      rw [h3, h4]

theorem sharedStart_map {α β : Type} [DecidableEq α] [DecidableEq β] (f : α → β)
    (hf : ∀ a b, f a = f b → a = b) (a b : List α) :
    sharedStart (a.map f) (b.map f) = sharedStart a b := by
  induction a generalizing b with
  | nil => cases b <;> rfl
  | cons x xs ih =>
    cases b with
    | nil => rfl
    | cons y ys =>
      simp only [List.map_cons, sharedStart, ih]
      by_cases h : x = y
      · simp [h]
      · rw [if_neg h, if_neg (fun e => h (hf _ _ e))]

theorem slashes_shared (a b : Str) :
    (lcp (keyTransform a) (keyTransform b)).count '/' = sharedEnd a b := by
  unfold keyTransform sharedEnd
  rw [slashes_eq, components_reverse, components_reverse, ← List.map_reverse, ← List.map_reverse]
  exact sharedStart_map _ (fun a b h => List.reverse_inj.1 h) _ _

theorem keyTransform_inj {a b : Str} (h : keyTransform a = keyTransform b) : a = b := by
  unfold keyTransform at h
  exact List.reverse_inj.1 (List.append_cancel_right h)

/-! ### Content of the index -/

variable {α : Type} [DecidableEq α]

/-- What an index filled with `adds` contains. -/
structure Holds (adds : List (Str × α)) (index : StrMap (List α)) : Prop where
  sorted : Sorted index
  key : ∀ e ∈ index, ∃ p t, (p, t) ∈ adds ∧ e.1 = keyTransform p
  has : ∀ p t, (p, t) ∈ adds → ∃ v, (keyTransform p, v) ∈ index
  targets : ∀ p v, (keyTransform p, v) ∈ index → ∀ t, t ∈ v ↔ (p, t) ∈ adds

theorem holds_add {adds : List (Str × α)} {index : StrMap (List α)} (h : Holds adds index) (p : Str)
    (t : α) : Holds (adds ++ [(p, t)]) (add index p t) := by
  obtain ⟨h1, h2, h3⟩ := update_spec h.sorted (keyTransform p) [] fun s => if t ∈ s then s else s ++ [t]
  refine ⟨h1, ?_, ?_, ?_⟩
  · rintro ⟨k, v⟩ he
    by_cases hk : k = keyTransform p
    · exact ⟨p, t, by simp, hk⟩
    · obtain ⟨q, u, h4, h5⟩ := h.key _ ((h2 k v hk).1 he)
      exact ⟨q, u, by simp [h4], h5⟩
  · intro q u hq
    by_cases hk : keyTransform q = keyTransform p
    · rw [hk]
      rcases h3 with ⟨v, _, hw⟩ | ⟨_, hw⟩
      · exact ⟨_, (hw _).2 rfl⟩
      · exact ⟨_, (hw _).2 rfl⟩
    · have hqp : q ≠ p := fun e => hk (by rw [e])
      simp [hqp] at hq
      obtain ⟨v, hv⟩ := h.has q u hq
      exact ⟨v, (h2 _ v hk).2 hv⟩
  · intro q v hv u
    by_cases hk : keyTransform q = keyTransform p
    · have := keyTransform_inj hk
      subst this
      rcases h3 with ⟨v', hv', hw⟩ | ⟨hv', hw⟩
      · rw [(hw v).1 hv]
        have := h.targets q v' hv' u
        by_cases ht : t ∈ v'
        · simp only [ht, if_true, this, List.mem_append, List.mem_singleton, Prod.mk.injEq, true_and]
          constructor
          · exact .inl
          · rintro (h | rfl)
            · exact h
            · exact (h.targets q v' hv' _).1 ht
        · simp [ht, this]
      · rw [(hw v).1 hv]
        have : (q, u) ∉ adds := fun hc => by
          obtain ⟨v, hv⟩ := h.has q u hc
          exact hv' v hv
        simp [this]
    · have hqp : q ≠ p := fun e => hk (by rw [e])
      rw [h.targets q v ((h2 _ v hk).1 hv) u]
      simp [hqp]

theorem holds_fill {adds : List (Str × α)} {index : StrMap (List α)} (h : Holds adds index)
    (l : List (Str × α)) : Holds (adds ++ l) (fill index l) := by
  induction l generalizing adds index with
  | nil => simpa [fill] using h
  | cons x l ih =>
    have := ih (holds_add h x.1 x.2)
    simpa [fill] using this

omit [DecidableEq α] in
theorem holds_empty : Holds ([] : List (Str × α)) [] :=
  ⟨List.Pairwise.nil, by simp, by simp, by simp⟩

/-! ### Lookup -/

omit [DecidableEq α] in
theorem count_le {a b : Str} (h : a <+: b) : a.count '/' ≤ b.count '/' := by
  obtain ⟨c, rfl⟩ := h
  simp

omit [DecidableEq α] in
/-- Nothing at or behind the lower bound has more in common than the lower bound. -/
theorem lower_best {index : StrMap α} (hs : Sorted index) {key : Str} {found : Str × α}
    {rest : StrMap α} (hl : index.lower key = found :: rest) {e : Str × α} (he : e ∈ index.lower key) :
    (lcp key e.1).count '/' ≤ (lcp key found.1).count '/' := by
  have hf : strLt found.1 key = false := lower_ge hs (by rw [hl]; simp)
  have hp : (found :: rest).Pairwise fun a b => strLt a.1 b.1 = true := by
    rw [← hl]; exact hs.sublist (List.dropWhile_sublist _)
  rw [hl] at he
  rcases List.mem_cons.1 he with rfl | he
  · exact Nat.le_refl _
  · exact count_le (lcp_up hf (strLt_asymm ((List.pairwise_cons.1 hp).1 e he)))

omit [DecidableEq α] in
/-- Nothing before has more in common than the entry just before the lower bound. -/
theorem before_best {index : StrMap α} (hs : Sorted index) {key : Str} {prev : Str × α}
    {rest : StrMap α} (hl : index.before key = rest ++ [prev]) {e : Str × α} (he : e ∈ index.before key) :
    (lcp key e.1).count '/' ≤ (lcp key prev.1).count '/' := by
  have hf : strLt prev.1 key = true := before_lt (m := index) (by rw [hl]; simp)
  have hp : (rest ++ [prev]).Pairwise fun a b => strLt a.1 b.1 = true := by
    rw [← hl]; exact hs.sublist (List.takeWhile_sublist _)
  rw [hl] at he
  rcases List.mem_append.1 he with he | he
  · exact count_le (lcp_down (strLt_asymm hf)
      (strLt_asymm ((List.pairwise_append.1 hp).2.2 e he prev (by simp))))
  · rw [List.mem_singleton.1 he]; exact Nat.le_refl _

omit [DecidableEq α] in
theorem lower_exact {index : StrMap α} (hs : Sorted index) {key : Str} {found : Str × α}
    {rest : StrMap α} (hl : index.lower key = found :: rest) {v : α} (he : (key, v) ∈ index) :
    found = (key, v) := by
  have hp : (found :: rest).Pairwise fun a b => strLt a.1 b.1 = true := by
    rw [← hl]; exact hs.sublist (List.dropWhile_sublist _)
  rw [← before_lower index key] at he
  rcases List.mem_append.1 he with he | he
  · exact absurd (before_lt he) (by simp [strLt_irrefl])
  · rw [hl] at he
    rcases List.mem_cons.1 he with he | he
    · exact he.symm
    · have h1 : strLt found.1 key = true := (List.pairwise_cons.1 hp).1 _ he
      have h2 : strLt found.1 key = false := lower_ge hs (by rw [hl]; simp)
      rw [h1] at h2; cases h2

omit [DecidableEq α] in
/-- What `findBySuffix` returns, in terms of the entries of the index. -/
theorem find_spec {index : StrMap α} (hs : Sorted index) (key : Str) (minimum : Nat) :
    (∃ v, (keyTransform key, v) ∈ index ∧ findBySuffix index key minimum = some (some ⟨key, v, 0⟩)) ∨
    ((∀ v, (keyTransform key, v) ∉ index) ∧
      ((index = [] ∧ findBySuffix index key minimum = some none) ∨
       ∃ best ∈ index, (∀ e ∈ index, (lcp (keyTransform key) e.1).count '/' ≤
            (lcp (keyTransform key) best.1).count '/') ∧
          findBySuffix index key minimum =
            some (finish best ((lcp (keyTransform key) best.1).count '/') minimum))) := by
  generalize hk : keyTransform key = search
  cases hi : index.isEmpty with
  | true =>
    have : index = [] := by simpa using hi
    subst this
    exact .inr ⟨by simp, .inl ⟨rfl, by simp [findBySuffix]⟩⟩
  | false =>
    unfold findBySuffix
    simp only [hi, Bool.false_eq_true, if_false, hk, commonSlashes_eq]
    have hall := before_lower index search
    cases hl : index.lower search with
    | nil =>
      rcases List.eq_nil_or_concat (index.before search) with hb | ⟨rest, prev, hb⟩
      · rw [hl, hb] at hall
        rw [← hall] at hi; cases hi
      · rw [hl, List.append_nil] at hall
        refine .inr ⟨?_, .inr ⟨prev, ?_, ?_, ?_⟩⟩
        · intro v hv
          rw [← hall] at hv
          exact absurd (before_lt hv) (by simp [strLt_irrefl])
        · rw [← hall, hb]; simp
        · intro e he
          rw [← hall] at he
          exact before_best hs (by simpa using hb) he
        · simp [hb]
    | cons found rest =>
      have hmem : found ∈ index := by rw [← hall, hl]; simp
      by_cases hf : found.1 = search
      · exact .inl ⟨found.2, by rw [← hf]; exact hmem, by simp [hf]⟩
      · refine .inr ⟨?_, .inr ?_⟩
        · intro v hv
          have := lower_exact hs hl hv
          exact hf (by rw [this])
        · rcases List.eq_nil_or_concat (index.before search) with hb | ⟨rest', prev, hb⟩
          · refine ⟨found, hmem, ?_, by simp [hf, hb]⟩
            intro e he
            rw [← hall, hb, List.nil_append] at he
            exact lower_best hs hl he
          · have hb' : index.before search = rest' ++ [prev] := by simpa using hb
            have hmem' : prev ∈ index := by rw [← hall, hb']; simp
            by_cases hc : (lcp search prev.1).count '/' > (lcp search found.1).count '/'
            · refine ⟨prev, hmem', ?_, by simp [hf, hb', hc]⟩
              intro e he
              rw [← hall] at he
              rcases List.mem_append.1 he with he | he
              · exact before_best hs hb' he
              · have := lower_best hs hl he
                omega
            · refine ⟨found, hmem, ?_, by simp [hf, hb', hc]⟩
              intro e he
              rw [← hall] at he
              rcases List.mem_append.1 he with he | he
              · have := before_best hs hb' he
                omega
              · exact lower_best hs hl he

theorem keyTransform_back (p : Str) : (keyTransform p).reverse.tail = p := by
  simp [keyTransform]

end HeaderIndex
end Bant
