import Verif.Lemmas.Query
import Verif.Spec.Headers

/-! Callbacks on the rules of a file, for trees that can be searched. -/
namespace Bant
namespace Rules
open Query

theorem mapAll_eq {α β : Type} {f : α → Option (List β)} {g : α → List β} {l : List α}
    (h : ∀ x ∈ l, f x = some (g x)) : mapAll f l = some (l.flatMap g) := by
  induction l with
  | nil => rfl
  | cons x l ih =>
    rw [mapAll, h x (by simp), ih (fun y hy => h y (by simp [hy]))]; rfl

theorem forTargets_eq {β : Type} {ast : Node} {kinds : List Str} {f : Result → Option (List β)}
    {g : Result → List β} (hs : ∀ s ∈ sites ast, Proper s)
    (h : ∀ r ∈ rulesOf kinds ast, f r = some (g r)) :
    forTargets ast kinds f = some ((rulesOf kinds ast).flatMap g) := by
  rw [forTargets, findTargets_report ast hs]
  exact mapAll_eq h

/-- Where a reported rule comes from. -/
theorem mem_report {k : List Node → List (Node × Node)} {kinds : List Str} {ae : Bool}
    {ss : List (Node × Node)} {vis : Option ListRef} {r : Result}
    (h : r ∈ report k kinds ae vis ss) :
    ∃ vis' fn ty args, (.ident fn, .list ty args) ∈ ss ∧
      r = attributes vis' fn (.list ty args) (k args) ∧ fn ≠ c!"package" ∧
      (kinds = [] ∨ fn ∈ kinds) := by
  induction ss generalizing vis with
  | nil => simp [report] at h
  | cons s ss ih =>
    have next : ∀ v, r ∈ report k kinds ae v ss → ∃ vis' fn ty args, (.ident fn, .list ty args) ∈ s :: ss ∧
      r = attributes vis' fn (.list ty args) (k args) ∧ fn ≠ c!"package" ∧
      (kinds = [] ∨ fn ∈ kinds) := by
      intro v hv
      obtain ⟨v', fn, ty, args, h1, h2⟩ := ih hv
      exact ⟨v', fn, ty, args, by simp [h1], h2⟩
    rw [report.eq_def] at h
    split at h
    · cases ‹_ = []›
    · rename_i v fn ty args rest he
      cases he
      split at h
      · exact next _ h
      · rename_i hp
        split at h
        · rename_i hc
          rcases List.mem_cons.1 h with rfl | h
          · exact ⟨_, fn, ty, args, by simp, rfl, hp, hc.1⟩
          · exact next _ h
        · exact next _ h
    · rename_i he
      cases he
      exact next _ h

theorem last_mem {α : Type} {key : Str} {g : Node → Option α} {kws : List (Node × Node)} {x : α}
    (h : last key g kws = some x) : ∃ kw ∈ kws, g kw.2 = some x := by
  obtain ⟨kw, hm, hg⟩ := List.exists_of_findSome?_eq_some h
  refine ⟨kw, by simpa using hm, ?_⟩
  split at hg
  · split at hg
    · exact hg
    · cases hg
  · cases hg

/-- The lists of a rule, without visibility. -/
def listsOf (r : Result) : List (Option ListRef) :=
  [r.srcs, r.hdrs, r.textualHdrs, r.publicHdrs, r.deps, r.outs, r.includes]

theorem no_null {ast : Node} (h : Searchable ast) {kinds : List Str} {r : Result}
    (hr : r ∈ rulesOf kinds ast) {l : ListRef} (hl : some l ∈ listsOf r) : Node.null ∉ l.2 := by
  obtain ⟨vis, fn, ty, args, hm, rfl, _, _⟩ := mem_report hr
  have key : ∀ key, last key listOf (kwArgsIn args) = some l → Node.null ∉ l.2 := by
    intro key hk
    obtain ⟨kw, hkw, hg⟩ := last_mem hk
    obtain ⟨ty', xs⟩ := l
    refine h.lists fn ty args hm kw hkw ty' xs ?_
    unfold listOf at hg
    split at hg
    · cases hg; assumption
    · cases hg
  simp only [listsOf, attributes, List.mem_cons, List.not_mem_nil, or_false] at hl
  rcases hl with hl | hl | hl | hl | hl | hl | hl <;> exact key _ hl.symm

/-- No list of visibilities has a missing element. -/
theorem report_visibility {k : List Node → List (Node × Node)} {kinds : List Str} {ae : Bool}
    {P : ListRef → Prop} (ss : List (Node × Node))
    (hk : ∀ fn ty args, (.ident fn, .list ty args) ∈ ss → ∀ key l, last key listOf (k args) = some l → P l) :
    ∀ vis, (∀ l, vis = some l → P l) → ∀ r ∈ report k kinds ae vis ss, ∀ l, r.visibility = some l → P l := by
  induction ss with
  | nil => intro vis _ r hr; cases hr
  | cons s ss ih =>
    intro vis hv r hr
    have ih := ih fun fn ty args h => hk fn ty args (.tail _ h)
    rw [report.eq_def] at hr
    obtain ⟨f, a⟩ := s
    cases f <;> cases a <;> try exact ih vis hv r hr
    rename_i fn ty args
    simp only [] at hr
    have own := hk fn ty args (by simp)
    split at hr
    · refine ih _ ?_ r hr
      intro l hl
      cases hd : last c!"default_visibility" listOf (k args) with
      | none => rw [hd] at hl; exact hv l (by simpa using hl)
      | some l' => rw [hd] at hl; cases hl; exact own _ _ hd
    · split at hr
      · rcases List.mem_cons.1 hr with rfl | hr
        · intro l hl
          have hl : (last c!"visibility" listOf (k args)).or vis = some l := hl
          cases hd : last c!"visibility" listOf (k args) with
          | none => rw [hd] at hl; exact hv l (by simpa using hl)
          | some l' => rw [hd] at hl; cases hl; exact own _ _ hd
        · exact ih vis hv r hr
      · exact ih vis hv r hr

theorem visibility_no_null {ast : Node} (h : Searchable ast) {kinds : List Str} {r : Result}
    (hr : r ∈ rulesOf kinds ast) {l : ListRef} (hl : r.visibility = some l) : Node.null ∉ l.2 := by
  refine report_visibility (P := fun l => Node.null ∉ l.2) (sites ast) ?_ none (by simp) r hr l hl
  intro fn ty args hm key l hk
  obtain ⟨kw, hkw, hg⟩ := last_mem hk
  obtain ⟨ty', xs⟩ := l
  refine h.lists fn ty args hm kw hkw ty' xs ?_
  unfold listOf at hg
  split at hg
  · cases hg; assumption
  · cases hg

theorem strings_eq {xs : List Node} (h : Node.null ∉ xs) :
    strings xs = some ((xs.filterMap text).filter (· ≠ [])) := by
  induction xs with
  | nil => rfl
  | cons x xs ih =>
    simp only [List.mem_cons, not_or] at h
    have ih := ih h.2
    cases x with
    | null => exact absurd rfl h.1
    | str t a b =>
      rw [strings, ih]
      by_cases ht : t = [] <;> simp [ht, text]
    | int rep v =>
      rw [strings, ih]
      by_cases ht : rep = [] <;> simp [ht, text]
    | _ => simp only [strings, ih]; rfl

theorem stringList_eq {l : Option ListRef} (h : ∀ x, l = some x → Node.null ∉ x.2) :
    stringList l = some (stringsOf l) := by
  cases l with
  | none => rfl
  | some l => exact strings_eq (h l rfl)

theorem stringList_rule {ast : Node} (h : Searchable ast) {kinds : List Str} {r : Result}
    (hr : r ∈ rulesOf kinds ast) {l : Option ListRef} (hl : l ∈ listsOf r) :
    stringList l = some (stringsOf l) :=
  stringList_eq fun _ hx => no_null h hr (hx ▸ hl)

theorem rule_kind {kinds : List Str} {ast : Node} {r : Result} (hr : r ∈ rulesOf kinds ast)
    (hk : kinds ≠ []) : r.rule ∈ kinds := by
  obtain ⟨vis, fn, ty, args, _, rfl, _, h⟩ := mem_report hr
  exact h.resolve_left hk

/-- Searching for several kinds of rules finds the same as searching for each one. -/
theorem report_kind {k : List Node → List (Node × Node)} {kinds : List Str} {ae : Bool} {x : Str}
    (hx : x ∈ kinds) (ss : List (Node × Node)) : ∀ vis,
    (report k kinds ae vis ss).filter (fun r => r.rule = x) = report k [x] ae vis ss := by
  induction ss with
  | nil => intro vis; rfl
  | cons s ss ih =>
    intro vis
    rw [report.eq_def, report.eq_def k [x]]
    obtain ⟨f, a⟩ := s
    cases f <;> cases a <;> try exact ih vis
    rename_i fn ty args
    simp only []
    by_cases hp : fn = c!"package"
    · simp only [hp, if_true]; exact ih _
    · simp only [hp, if_false]
      by_cases hf : fn = x
      · subst hf
        simp only [hx, List.mem_singleton, or_true, true_and]
        split
        · rw [List.filter_cons_of_pos (by simp [attributes]), ih]
        · exact ih vis
      · rw [if_neg (c := (([x] : List Str) = [] ∨ fn ∈ [x]) ∧ _) (by simp [hf])]
        split
        · rw [List.filter_cons_of_neg (by simp [attributes, hf]), ih]
        · exact ih vis

theorem rulesOf_kind {kinds : List Str} {x : Str} (hx : x ∈ kinds) (ast : Node) :
    (rulesOf kinds ast).filter (fun r => r.rule = x) = rulesOf [x] ast :=
  report_kind hx _ _

end Rules
end Bant
