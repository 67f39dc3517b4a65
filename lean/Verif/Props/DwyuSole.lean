import Verif.Props.Dwyu

/-! When the only provider of an included header is added (C28), and a rule to itself (C58). -/
namespace Bant
namespace Props
open Dwyu DwyuSpec Query Rules HeaderSpec Headers Paths Elab Parser

/-- Whatever the included header is taken for, `t` is the only visible library that provides it. -/
def SoleProvider (files : Files) (target : BazelTarget) (inc : Str) (t : BazelTarget) : Prop :=
  (∃ found, FoundAs files target.package inc found) ∧
    ∀ found, FoundAs files target.package inc found → ∀ t', Provides files found t' ∧ Visible files target t' ↔ t' = t

theorem singleton_of {α : Type} {l : List α} {x : α} (hn : l.Nodup) (h0 : l ≠ []) (h : ∀ y ∈ l, y = x) : l = [x] := by
  cases l with
  | nil => exact absurd rfl h0
  | cons a l =>
    have := h a (by simp)
    subst this
    cases l with
    | nil => rfl
    | cons b l =>
      have := h b (by simp)
      subst this
      simp at hn

/-- **C28**, the other direction: the only visible library that provides a header that is included by a rule is added
to its dependencies, unless it is there already, or is `testonly` and must not be used. -/
theorem C28_sole_provider (files : Files) (env : Env) (pattern : BazelPattern) (edits : List Edit)
    (hs : ∀ f ∈ files, Searchable f.2) (hc : createDependencyEdits env pattern files = some edits)
    {pkg : BazelPackage} {r : Result} {target t : BazelTarget} {inc : Str} (hr : Rule files pkg r target)
    (hp : pattern.matchTarget target = true) (hi : Needs env pkg target r inc)
    (hsole : SoleProvider files target inc t) (hd : ¬ DependsOn target r t) (ht : TestonlyOk files target t) :
    ⟨.add, target, [], t.toStringRelativeTo target.package⟩ ∈ edits := by
  have hpkg : target.package = pkg := by
    obtain ⟨_, _, _, hq⟩ := hr; exact qualifiedTarget_package hq
  subst hpkg
  obtain ⟨of, h1, h2⟩ := C28_account files hs env pattern
  rw [h1] at hc
  cases hc
  have hsel := selected_iff.2 ⟨hr, hp⟩
  obtain ⟨sets, needed, removed, libs, ha⟩ := h2 _ _ _ hsel
  refine List.mem_flatMap.2 ⟨_, hsel, ?_⟩
  rw [ha.emitted, List.mem_append]
  obtain ⟨⟨found0, hf0⟩, hall⟩ := hsole
  have hv : Visible files target t := ((hall found0 hf0 t).2 rfl).2
  refine .inr (List.mem_map.2 ⟨t, (ha.libs_iff t).2 ⟨?_, hd, hv, ht⟩, rfl⟩)
  rcases ha.alternatives.for_inc inc hi with h | ⟨found, hf, h | ⟨s, hsm, h⟩⟩
  · exact absurd hf0 (h found0)
  · have := (hall found hf t).2 rfl
    exact absurd this.2 (h t this.1)
  · obtain ⟨res, hres, hsub⟩ := ha.reduced.covers s hsm
    have := singleton_of (x := t) (ha.distinct res hres) (ha.reduced.nonempty res hres)
      fun y hy => (hall found hf y).1 ((h y).1 (hsub y hy))
    rw [← this]
    exact hres

/-- **C58**, in general: if a rule is told to depend on itself, then it includes a header that is not one of its sources,
and that is taken for one that the rule provides; and it does not depend on itself. -/
theorem C58_why_partial (files : Files) (env : Env) (pattern : BazelPattern) (edits : List Edit)
    (hs : ∀ f ∈ files, Searchable f.2) (hproj : ∀ f ∈ files, ¬ c!":" <+: f.1.project)
    (hc : createDependencyEdits env pattern files = some edits) (e : Edit) (he : e ∈ edits) (hop : e.op = .add)
    (hself : e.after = e.target.toStringRelativeTo e.target.package) :
    ∃ r, Rule files e.target.package r e.target ∧ ¬ DependsOn e.target r e.target ∧
      ∃ inc found, Needs env e.target.package e.target r inc ∧ FoundAs files e.target.package inc found ∧
        Provides files found e.target := by
  obtain ⟨pkg, r, t, h1, _, _, h3, ⟨inc, found, h4, h5, h6⟩, h7, _, _, _⟩ :=
    C28_add_partial files env pattern edits hs hc e he hop
  have hpkg : e.target.package = pkg := by
    obtain ⟨_, _, _, hq⟩ := h1; exact qualifiedTarget_package hq
  subst hpkg
  have htt : t = e.target := by
    rw [h3] at hself
    unfold BazelTarget.toStringRelativeTo at hself
    by_cases hp : e.target.package = t.package
    · simp only [hp, ne_eq, not_true_eq_false, if_false] at hself
      injection hself with _ hself
      obtain ⟨tp, tn⟩ := t
      simp only at hp hself
      subst hp hself
      rfl
    · rw [if_pos hp] at hself
      simp only [ne_eq, not_true_eq_false, if_false] at hself
      obtain ⟨f, hf, hpk⟩ := provides_package h6
      exact absurd hself (toString_head (by rw [hpk]; exact hproj f hf) _)
  subst htt
  exact ⟨r, h1, h7, inc, found, h4, h5, h6⟩

/-- **C58**, where it is false: each rule that includes a header, not one of its sources, that only the rule itself
provides (of what is visible), is told to depend on itself, unless it does already. -/
theorem C58_itself_partial (files : Files) (env : Env) (pattern : BazelPattern) (edits : List Edit)
    (hs : ∀ f ∈ files, Searchable f.2) (hc : createDependencyEdits env pattern files = some edits)
    {pkg : BazelPackage} {r : Result} {target : BazelTarget} {inc : Str} (hr : Rule files pkg r target)
    (hp : pattern.matchTarget target = true) (hi : Needs env pkg target r inc)
    (hsole : SoleProvider files target inc target) (hd : ¬ DependsOn target r target) :
    ⟨.add, target, [], target.toStringRelativeTo target.package⟩ ∈ edits :=
  C28_sole_provider files env pattern edits hs hc hr hp hi hsole hd fun r hr ht s hs' =>
    .inl (by rw [library_unique hs' hr]; exact ht)

/-! ### Examples -/

theorem foundAs_provided {files : Files} {pkg : BazelPackage} {inc found : Str} {t : BazelTarget}
    (hp : Provides files inc t) : FoundAs files pkg inc found ↔ found = inc := by
  constructor
  · rintro (⟨_, h | ⟨h, _⟩⟩ | ⟨h, _⟩)
    · exact h
    · exact absurd hp (h t)
    · exact absurd ⟨⟨t, hp⟩, .inl rfl⟩ (h inc)
  · rintro rfl
    exact .inl ⟨⟨t, hp⟩, .inl rfl⟩

/-- In a project of one file without deprecated rules, for a header with one provider. -/
theorem soleProvider_of {text inc : Str} {target t : BazelTarget} (hw : parsesWell text = true)
    (hp : (extractHeaderToLibMapping (projectOf text)).bind (HeaderIndex.findBySuffix · inc 2) = some (some ⟨inc, [t], 0⟩))
    (hpkg : target.package = t.package) (hdep : ∀ e ∈ libraries (projectOf text), e.2.deprecation = []) :
    SoleProvider (projectOf text) target inc t := by
  have hprov := provides_of (projectOf_searchable hw) hp
  have ht := (hprov t).1 (by simp)
  refine ⟨⟨inc, (foundAs_provided ht).2 rfl⟩, fun found hf t' => ?_⟩
  rw [(foundAs_provided ht).1 hf, ← hprov t', List.mem_singleton]
  refine ⟨fun h => h.1, fun h => ⟨h, ?_⟩⟩
  subst h
  rintro r ⟨before, after, h, _⟩
  exact ⟨hdep (t', r) (by rw [h]; simp), .inl hpkg⟩

/-- The assumptions of `C58_itself_partial` hold for a header that is included with its prefix. -/
example : ∃ r, Rule (projectOf prefixText) somePkg r (local! c!"l") ∧
    Needs (envOf [(c!"p/l.cc", c!"#include \"lib/x.h\"\n")] [] false) somePkg (local! c!"l") r c!"lib/x.h" ∧
    SoleProvider (projectOf prefixText) (local! c!"l") c!"lib/x.h" (local! c!"l") ∧
    ¬ DependsOn (local! c!"l") r (local! c!"l") := by
  have h1 : (rulesOf [c!"cc_library", c!"cc_binary", c!"cc_test"] (treeOf prefixText)).map
      (fun r => (somePkg.qualifiedTarget r.name, sourcesOf r, stringsOf r.deps)) =
        [(some (local! c!"l"), [c!"l.cc", c!"x.h"], [])] := by decide +kernel
  cases h : rulesOf [c!"cc_library", c!"cc_binary", c!"cc_test"] (treeOf prefixText) with
  | nil => rw [h] at h1; cases h1
  | cons r rs =>
    rw [h] at h1
    simp only [List.map_cons, List.cons.injEq, Prod.mk.injEq] at h1
    obtain ⟨⟨h1, h2, h3⟩, _⟩ := h1
    refine ⟨r, ⟨treeOf prefixText, by simp [projectOf], by rw [h]; simp, h1⟩, ⟨⟨c!"l.cc", by rw [h2]; simp,
      c!"#include \"lib/x.h\"\n", ⟨[], c!"", _, rfl, by decide +kernel, by simp⟩, 10, by decide +kernel⟩, ?_⟩,
      soleProvider_of (by decide +kernel) (by decide +kernel) rfl (by decide +kernel), ?_⟩
    · rw [h2]
      intro src hs
      simp only [List.mem_cons, List.not_mem_nil, or_false] at hs
      rcases hs with rfl | rfl <;> decide
    · rintro ⟨dep, hd, _⟩
      rw [h3] at hd
      cases hd

end Props
end Bant
