import Verif.Model.Edits
import Verif.Lemmas.TypesBazel

/-!
# Properties C03, C04, C05, C06: packages and targets as strings

Specification vocabulary: `Verif/Spec/Targets.lean`.
-/
namespace Bant.Props
open Bant Spec

/-! ## C06: packages -/

/-- C06 (a): the printed form of a package parses back to it. -/
theorem C06_package_roundtrip (p : BazelPackage) (h : WfPackage p) :
    BazelPackage.parseFrom p.toString = some p :=
  packageParse_toString h

/-- C06 (b), full statement: whatever string parses, the package that comes out is in
normal form (no leading, trailing or double slash and no `:` in the path, no `~version` in
the project name). -/
def C06_normal_form_statement : Prop :=
  ∀ s p, BazelPackage.parseFrom s = some p → WfPath p.path ∧ '~' ∉ p.project

/-- C06 (b) is false as stated: with two colons, only the last one is cut off. -/
theorem C06_normal_form_counterexample : ¬ C06_normal_form_statement := by
  intro h
  have := (h c!"//a:b:c" ⟨[], c!"a:b"⟩ (by decide)).1
  exact (wfPath_facts this).2.2.2 (by decide)

/-- C06 (b) (partial: strings with at most one colon). A project named just `@` can result
(from `@~version//...`, see `C06_project_lost_counterexample`), every other project name is
well-formed. -/
theorem C06_package_normal_form_partial (s : Str) (hs : s.count ':' ≤ 1) (p : BazelPackage)
    (h : BazelPackage.parseFrom s = some p) :
    WfPath p.path ∧ '~' ∉ p.project ∧ (p.project = ['@'] ∨ WfProject p.project) := by
  have e : ':' ∉ beforeLast ':' s := by
    unfold beforeLast
    split
    · rename_i a b hl
      have he := (splitLast_eq_some hl).1
      intro hm
      have := List.count_pos_iff.2 hm
      rw [he] at hs
      simp at hs
      omega
    · rename_i hl
      intro hm
      exact absurd hm (by simpa using (splitLast_eq_none.1 hl))
  have h' : BazelPackage.parseFrom (beforeLast ':' s) = some p := by
    unfold BazelPackage.parseFrom at h ⊢
    rw [beforeLast_of_not_mem e]
    exact h
  have w := packageParse_wf h' e
  exact ⟨w.1, w.2.1, w.2.2.2⟩

/-- The version cut leaves the project `@` for `@~1.0//foo`; the printed form of that
package denotes another package. -/
theorem C06_project_lost_counterexample :
    ∃ s p, ':' ∉ s ∧ BazelPackage.parseFrom s = some p ∧
      BazelPackage.parseFrom p.toString ≠ some p :=
  ⟨c!"@~1.0//foo", ⟨c!"@", c!"foo"⟩, by decide, by decide, by decide⟩

/-- Two different well-formed packages never print the same. -/
theorem C06_package_toString_injective (p q : BazelPackage) (hp : WfPackage p)
    (hq : WfPackage q) (h : p.toString = q.toString) : p = q := by
  have h1 := C06_package_roundtrip p hp
  rw [h, C06_package_roundtrip q hq] at h1
  exact (Option.some.inj h1).symm

/-! ## C03: absolute form -/

/-- C03: the absolute form of a target parses, in any context, back to the target; a
main project target written in a package of an external project is looked up there. -/
theorem C03_target_roundtrip (t : BazelTarget) (h : WfTarget t) (ctx : BazelPackage) :
    BazelTarget.parseFrom t.toString ctx = some (inContext t ctx) :=
  targetParse_toString h ctx

/-- C03: unconditional form of the round trip where no project needs to be completed. -/
theorem C03_target_roundtrip_same (t : BazelTarget) (h : WfTarget t) (ctx : BazelPackage)
    (hp : t.package.project ≠ [] ∨ ctx.project = []) :
    BazelTarget.parseFrom t.toString ctx = some t := by
  rw [C03_target_roundtrip t h ctx]
  obtain ⟨⟨pr, path⟩, n⟩ := t
  rcases hp with hp | hp
  · simp only [ne_eq] at hp; simp [inContext, hp]
  · by_cases h0 : pr = [] <;> simp [inContext, hp, h0]

/-- C03: different targets have different names. -/
theorem C03_toString_injective (s t : BazelTarget) (hs : WfTarget s) (ht : WfTarget t)
    (h : s.toString = t.toString) : s = t := by
  have h1 := C03_target_roundtrip_same s hs ⟨[], []⟩ (.inr rfl)
  rw [h, C03_target_roundtrip_same t ht ⟨[], []⟩ (.inr rfl)] at h1
  exact (Option.some.inj h1).symm

/-- C03: the three spellings of the same target agree: `//foo/bar`, `//foo/bar:bar`
(and, for a project's toplevel target, `@foo`, `@foo//:foo`). -/
theorem C03_spellings (pr : Str) (hpr : WfProject pr) (comps : List Str) (last : Str)
    (hc : ∀ c ∈ comps, WfComponent c) (hl : WfComponent last) (ctx : BazelPackage) :
    BazelTarget.parseFrom (pr ++ c!"//" ++ joinPath (comps ++ [last])) ctx
      = BazelTarget.parseFrom
          (pr ++ c!"//" ++ joinPath (comps ++ [last]) ++ ':' :: last) ctx := by
  have hpath : WfPath (joinPath (comps ++ [last])) :=
    ⟨comps ++ [last], by
      intro c hm
      rcases List.mem_append.1 hm with hm | hm
      · exact hc c hm
      · simp at hm; exact hm ▸ hl, rfl⟩
  let p : BazelPackage := ⟨pr, joinPath (comps ++ [last])⟩
  have hp : WfPackage p := ⟨hpr, hpath⟩
  have hne : p.path ≠ [] := by
    cases comps with
    | nil => exact joinPath_ne_nil hl.1
    | cons c cs => exact joinPath_ne_nil (hc c (by simp)).1
  have hlast : p.lastElement = last := by
    have : ∀ comps : List Str, (comps ≠ [] →
        ∃ a, joinPath (comps ++ [last]) = a ++ '/' :: last) := by
      intro comps
      induction comps with
      | nil => simp
      | cons c cs ih =>
        intro _
        cases cs with
        | nil => exact ⟨c, rfl⟩
        | cons d ds =>
          obtain ⟨a, ha⟩ := ih (by simp)
          refine ⟨c ++ '/' :: a, ?_⟩
          have : joinPath (c :: d :: ds ++ [last]) = c ++ '/' :: joinPath (d :: ds ++ [last]) := rfl
          rw [this, ha]; simp
    cases hcs : comps with
    | nil =>
      have e : p.path = last := by simp [p, hcs, joinPath]
      have hn := hne
      rw [e] at hn
      simp [BazelPackage.lastElement, e, splitLast_eq_none.2 hl.2.1, hn]
    | cons c cs =>
      obtain ⟨a, ha⟩ := this comps (by simp [hcs])
      have e : p.path = a ++ '/' :: last := ha
      simp [BazelPackage.lastElement, e, splitLast_append hl.2.1]
  have wf : WfTarget ⟨p, last⟩ := ⟨hp, hl.1, hl.2.2⟩
  have h1 := C03_target_roundtrip ⟨p, last⟩ wf ctx
  have e1 : (⟨p, last⟩ : BazelTarget).toString = p.toString := by
    simp [BazelTarget.toString, hlast, hne]
  rw [e1] at h1
  exact h1.trans (targetParse_full hp hl.2.2 ctx).symm

/-- C03: toplevel target of an external project. -/
theorem C03_spellings_project (r : Str) (hr : WfProject ('@' :: r)) (ctx : BazelPackage) :
    BazelTarget.parseFrom ('@' :: r) ctx
      = BazelTarget.parseFrom ('@' :: r ++ c!"//:" ++ r) ctx := by
  rcases hr with h | ⟨r', he, hrn, hs, hc, ht⟩
  · cases h
  · cases he
    have hp : WfPackage ⟨'@' :: r, []⟩ := ⟨.inr ⟨r, rfl, hrn, hs, hc, ht⟩, [], by simp, rfl⟩
    have wf : WfTarget ⟨⟨'@' :: r, []⟩, r⟩ := ⟨hp, hrn, hc⟩
    have e : (⟨⟨'@' :: r, []⟩, r⟩ : BazelTarget).toString = '@' :: r := by
      simp [BazelTarget.toString, BazelPackage.lastElement, splitLast]
    have h1 := C03_target_roundtrip _ wf ctx
    rw [e] at h1
    have h2 := targetParse_full hp hc ctx
    simp only [BazelPackage.toString] at h2
    rw [h1, ← h2]
    simp

/-! ## C04: relative form -/

/-- C04, full statement. -/
def C04_statement : Prop :=
  ∀ t p, WfTarget t → WfPackage p → BazelTarget.parseFrom (t.toStringRelativeTo p) p = some t

/-- C04 is false as stated: a main project target seen from a package of an external
project is printed without project, which denotes a target of the external project there. -/
theorem C04_counterexample : ¬ C04_statement := by
  intro h
  have := h ⟨⟨[], c!"foo"⟩, c!"bar"⟩ ⟨c!"@ext", c!"x"⟩
    ⟨⟨.inl rfl, [c!"foo"], by simp [WfComponent], rfl⟩, by decide, by decide⟩
    ⟨.inr ⟨c!"ext", rfl, by decide, by decide, by decide, by decide⟩,
      [c!"x"], by simp [WfComponent], rfl⟩
  revert this
  decide

/-- C04 (partial: all but main project targets seen from external projects): the form
relative to a package denotes, in that package, the same target. -/
theorem C04_relative_roundtrip_partial (t : BazelTarget) (h : WfTarget t) (p : BazelPackage)
    (hp : t.package.project ≠ [] ∨ p.project = []) :
    BazelTarget.parseFrom (t.toStringRelativeTo p) p = some t := by
  unfold BazelTarget.toStringRelativeTo
  split
  · exact C03_target_roundtrip_same t h p hp
  · rename_i he
    have he : p = t.package := by simpa using he
    rw [targetParse_rel h.2.2, he]

/-- C04 (exact): what the relative form denotes in that package: the target is completed with the project of the package,
if it has none. So it is the same target iff it has a project, or the package has none. -/
theorem C04_exact_partial (t : BazelTarget) (h : WfTarget t) (p : BazelPackage) :
    BazelTarget.parseFrom (t.toStringRelativeTo p) p = some (inContext t p) ∧
    (BazelTarget.parseFrom (t.toStringRelativeTo p) p = some t ↔ t.package.project ≠ [] ∨ p.project = []) := by
  have key : BazelTarget.parseFrom (t.toStringRelativeTo p) p = some (inContext t p) := by
    by_cases hp : t.package.project ≠ [] ∨ p.project = []
    · rw [C04_relative_roundtrip_partial t h p hp]
      obtain ⟨⟨pr, path⟩, n⟩ := t
      rcases hp with hp | hp
      · simp only [ne_eq] at hp; simp [inContext, hp]
      · by_cases h0 : pr = [] <;> simp [inContext, hp, h0]
    · have hne : ¬ p = t.package := by
        rintro rfl
        by_cases h0 : t.package.project = []
        · exact hp (.inr h0)
        · exact hp (.inl h0)
      rw [BazelTarget.toStringRelativeTo, if_pos (by simpa using hne)]
      exact C03_target_roundtrip t h p
  refine ⟨key, fun he => ?_, C04_relative_roundtrip_partial t h p⟩
  rw [key] at he
  by_cases h0 : t.package.project = []
  · right
    have := congrArg (fun t : BazelTarget => t.package.project) (Option.some.inj he)
    simpa [inContext, h0] using this
  · exact .inl h0

/-- Inside its own package a target is always printed with a leading colon only. -/
theorem C04_short_in_own_package (t : BazelTarget) :
    t.toStringRelativeTo t.package = ':' :: t.name := by
  simp [BazelTarget.toStringRelativeTo]

/-! ## C05: canonicalize -/

/-- Whatever parses in a package satisfies the side condition of
`C04_relative_roundtrip_partial`; it is well-formed unless the project is `@` or the name is
empty. -/
theorem C05_parsed_is_wf (dep : Str) (p : BazelPackage) (hp : WfPackage p) (t : BazelTarget)
    (h : BazelTarget.parseFrom dep p = some t) (h1 : t.package.project ≠ ['@'])
    (h2 : t.name ≠ []) :
    WfTarget t ∧ (t.package.project ≠ [] ∨ p.project = []) := by
  have w := targetParse_wf h hp
  refine ⟨⟨⟨?_, w.2.1⟩, h2, w.1⟩, ?_⟩
  · rcases w.2.2.1 with h | h
    · exact absurd h h1
    · exact h
  · by_cases h0 : t.package.project = []
    · exact .inr (w.2.2.2 h0)
    · exact .inl h0

/-- C05 (meaning): a dependency is renamed exactly if it differs from the canonical
spelling, and the new spelling names the same target in that package. -/
theorem C05_rename_preserves_meaning (dep : Str) (p : BazelPackage) (hp : WfPackage p)
    (t self : BazelTarget) (h : BazelTarget.parseFrom dep p = some t)
    (h1 : t.package.project ≠ ['@']) (h2 : t.name ≠ []) :
    (∀ e, canonDep p self dep = some e →
        e.op = .rename ∧ e.target = self ∧ e.before = dep ∧ e.after ≠ dep ∧
        BazelTarget.parseFrom e.after p = some t) ∧
    (canonDep p self dep = none → dep = t.toStringRelativeTo p) := by
  have w := C05_parsed_is_wf dep p hp t h h1 h2
  constructor
  · intro e he
    simp only [canonDep, h] at he
    split at he
    · rename_i hne
      simp only [Option.some.injEq] at he
      subst he
      exact ⟨rfl, rfl, rfl, Ne.symm hne, C04_relative_roundtrip_partial t w.1 p w.2⟩
    · cases he
  · intro he
    simp only [canonDep, h] at he
    split at he
    · cases he
    · rename_i hne; simpa using hne

/-- C05 (idempotence): the new spelling needs no further edit. -/
theorem C05_idempotent (dep : Str) (p : BazelPackage) (hp : WfPackage p)
    (t self : BazelTarget) (h : BazelTarget.parseFrom dep p = some t)
    (h1 : t.package.project ≠ ['@']) (h2 : t.name ≠ []) (e : Edit)
    (he : canonDep p self dep = some e) : canonDep p self e.after = none := by
  have m := (C05_rename_preserves_meaning dep p hp t self h h1 h2).1 e he
  simp only [canonDep, m.2.2.2.2]
  simp only [canonDep, h] at he
  split at he
  · simp only [Option.some.injEq] at he
    subst he
    simp
  · cases he

/-- C05 (canonical form is unique): two spellings of the same target get the same
canonical spelling, so afterwards equal dependencies are textually equal. -/
theorem C05_canonical_unique (d1 d2 : Str) (p : BazelPackage) (t s1 s2 : BazelTarget)
    (h1 : BazelTarget.parseFrom d1 p = some t) (h2 : BazelTarget.parseFrom d2 p = some t) :
    ((canonDep p s1 d1).map Edit.after).getD d1 = ((canonDep p s2 d2).map Edit.after).getD d2 := by
  simp only [canonDep, h1, h2]
  by_cases e1 : d1 = t.toStringRelativeTo p <;> by_cases e2 : d2 = t.toStringRelativeTo p <;>
    simp [e1, e2]

/-- C05 (scope): all edits of a run are renames inside matching packages, of rules that
match the pattern, of dependencies that these rules have. -/
theorem C05_edits_in_scope (pattern : BazelPattern)
    (project : List (BazelPackage × List RuleDeps)) (e : Edit)
    (he : e ∈ canonicalizeEdits pattern project) :
    ∃ pk rules r, (pk, rules) ∈ project ∧ r ∈ rules ∧ e.before ∈ r.deps ∧
      e.op = .rename ∧ e.target.package = pk ∧ pattern.matchTarget e.target = true ∧
      pattern.matchPackage pk = true ∧ e.before ≠ e.after := by
  simp only [canonicalizeEdits, List.mem_flatMap] at he
  obtain ⟨⟨pk, rules⟩, hmem, he⟩ := he
  split at he
  · rename_i hpm
    obtain ⟨r, hr, he⟩ := List.mem_flatMap.1 he
    simp only [canonRule] at he
    split at he
    · simp at he
    · rename_i self hself
      split at he
      · rename_i hmt
        obtain ⟨dep, hdep, hd⟩ := List.mem_filterMap.1 he
        simp only [canonDep] at hd
        split at hd
        · cases hd
        · split at hd
          · rename_i hne
            simp only [Option.some.injEq] at hd
            subst hd
            refine ⟨pk, rules, r, hmem, hr, hdep, rfl, ?_, hmt, hpm, hne⟩
            exact qualifiedTarget_package hself
          · cases hd
      · simp at he
  · simp at he

/-- C05 (completeness): a dependency of a matching rule whose text is not canonical
is renamed. -/
theorem C05_edits_complete (pattern : BazelPattern)
    (project : List (BazelPackage × List RuleDeps)) (pk : BazelPackage)
    (rules : List RuleDeps) (r : RuleDeps) (self : BazelTarget) (dep : Str) (t : BazelTarget)
    (h1 : (pk, rules) ∈ project) (h2 : r ∈ rules) (h3 : dep ∈ r.deps)
    (h4 : pattern.matchPackage pk = true) (h5 : pk.qualifiedTarget r.name = some self)
    (h6 : pattern.matchTarget self = true) (h7 : BazelTarget.parseFrom dep pk = some t)
    (h8 : dep ≠ t.toStringRelativeTo pk) :
    ⟨.rename, self, dep, t.toStringRelativeTo pk⟩ ∈ canonicalizeEdits pattern project := by
  simp only [canonicalizeEdits, List.mem_flatMap]
  refine ⟨(pk, rules), h1, ?_⟩
  simp only [h4, if_true, List.mem_flatMap]
  refine ⟨r, h2, ?_⟩
  simp only [canonRule, h5, h6, if_true, List.mem_filterMap]
  exact ⟨dep, h3, by simp [canonDep, h7, h8]⟩

/-- Without the two side conditions C05 fails: `//` written in `//foo` is "canonicalized"
to the empty string, which denotes a target of `//foo`. -/
theorem C05_empty_name_counterexample :
    ∃ dep p t e, WfPackage p ∧ BazelTarget.parseFrom dep p = some t ∧
      canonDep p t dep = some e ∧ e.after = [] ∧ BazelTarget.parseFrom e.after p ≠ some t := by
  refine ⟨c!"//", ⟨[], c!"foo"⟩, ⟨⟨[], []⟩, []⟩,
    ⟨.rename, ⟨⟨[], []⟩, []⟩, c!"//", []⟩, ?_, by decide, by decide, by decide, by decide⟩
  exact ⟨.inl rfl, [c!"foo"], by simp [WfComponent], rfl⟩

/-- Likewise for `@~1//foo:x`, which is turned into the name of another target. -/
theorem C05_lost_project_counterexample :
    ∃ dep p t e, WfPackage p ∧ BazelTarget.parseFrom dep p = some t ∧
      canonDep p t dep = some e ∧ BazelTarget.parseFrom e.after p ≠ some t := by
  refine ⟨c!"@~1//foo:x", ⟨[], c!"foo"⟩, ⟨⟨c!"@", c!"foo"⟩, c!"x"⟩,
    ⟨.rename, ⟨⟨c!"@", c!"foo"⟩, c!"x"⟩, c!"@~1//foo:x",
      c!"@//foo:x"⟩, ?_, by decide, by decide, by decide⟩
  exact ⟨.inl rfl, [c!"foo"], by simp [WfComponent], rfl⟩

/-! ## Non-vacuity -/

/-- A well-formed target with project, path of two components and slash in the name. -/
example : WfTarget ⟨⟨c!"@re2", c!"a/b"⟩, c!"c/d.h"⟩ :=
  ⟨⟨.inr ⟨c!"re2", rfl, by decide, by decide, by decide, by decide⟩,
    [c!"a", c!"b"], by simp [WfComponent], rfl⟩, by decide, by decide⟩

example : BazelTarget.parseFrom c!"@re2//a/b:c/d.h" ⟨[], c!"x"⟩
    = some ⟨⟨c!"@re2", c!"a/b"⟩, c!"c/d.h"⟩ := by decide
example : (⟨⟨c!"@foo", []⟩, c!"foo"⟩ : BazelTarget).toString = c!"@foo" := by decide

/-- The README examples for `canonicalize`. -/
example : (canonDep ⟨[], c!"foo/bar"⟩ default c!"//foo/bar:baz").map Edit.after
    = some c!":baz" := by decide
example : (canonDep ⟨[], c!"x"⟩ default c!"//foo:foo").map Edit.after
    = some c!"//foo" := by decide
example : (canonDep ⟨[], c!"x"⟩ default c!"@foo//:foo").map Edit.after
    = some c!"@foo" := by decide
example : (canonDep ⟨[], c!"x"⟩ default c!"foo").map Edit.after
    = some c!":foo" := by decide
example : canonDep ⟨[], c!"x"⟩ default c!"//foo" = none := by decide

/-- `C05_edits_complete` with a project that has a matching rule. -/
example : canonicalizeEdits BazelPattern.always
    [(⟨[], c!"x"⟩, [⟨c!"lib", [c!"foo", c!":bar"]⟩])]
    = [⟨.rename, ⟨⟨[], c!"x"⟩, c!"lib"⟩, c!"foo", c!":foo"⟩] := by decide

end Bant.Props
