import Verif.Props.Stable
import Verif.Props.DwyuMessages
import Verif.Lemmas.EditChecks

/-!
C123, C124: what the edits of `dwyu` mean for the headers that are included.
-/
namespace Bant
namespace Props
open StableSpec Stable Query Rules Headers HeaderSpec DwyuSpec Dwyu

/-- The dependencies of a rule once the edits are carried out: nothing that is needed is removed, and what is
missing is added. -/
theorem edited_deps {files : Files} (hs : ∀ f ∈ files, Searchable f.2) (hf : StableSpec.Sound files)
    {talk : Talk} {env : Env} {pattern : BazelPattern} {edits : List Edit} (hc : createDependencyEdits env pattern files = some edits)
    {msgs : List Message} (hm : sayAll talk env pattern files = some msgs) {pkg : BazelPackage} {r r' : Result}
    {target : BazelTarget} (hsel : (pkg, r, target) ∈ selected files pattern) (hmain : pkg.project = [])
    (hed : EditedRule edits pkg r r') :
    ∃ (near : Str → Option Str) (of : List Edit) (sets needed : List (List BazelTarget)) (removed : List Str)
      (libs : List BazelTarget), Account files env pkg r target of sets needed removed libs ∧
      (∀ m, Says files env talk near pkg r target needed m → m ∈ msgs) ∧
      (∀ s ∈ needed, ∀ t ∈ s, DependsOn target r t → DependsOn target r' t) ∧
      ∀ t, [t] ∈ needed → Visible files target t → TestonlyOk files target t → DependsOn target r' t := by
  obtain ⟨near, first, of, said, needed, hn, h0, h1, h2, h3⟩ := C106_account_partial files hs talk env pattern
  rw [hm, Option.some.injEq] at h1
  rw [hc, Option.some.injEq] at h0
  obtain ⟨⟨sets, removed, libs, ha⟩, h4⟩ := h3 pkg r target hsel
  obtain ⟨⟨ast, hmem, hr, hq⟩, hpat⟩ := selected_iff.1 hsel
  have hes : ∀ e : Edit, e.target = target → (e ∈ edits ↔ e ∈ of (pkg, r, target)) := by
    intro e het
    rw [h0, List.mem_flatMap]
    constructor
    · rintro ⟨⟨p2, r2, t2⟩, hsel2, he⟩
      obtain ⟨⟨ast2, g1, g2, g3⟩, _⟩ := selected_iff.1 hsel2
      obtain ⟨⟨_, _, _, c2⟩, _⟩ := h3 p2 r2 t2 hsel2
      have : e.target = t2 := by
        have := he
        rw [c2.emitted, List.mem_append, List.mem_map, List.mem_map] at this
        rcases this with ⟨_, _, rfl⟩ | ⟨_, _, rfl⟩ <;> rfl
      have ht2 : t2 = target := this.symm.trans het
      subst ht2
      obtain ⟨e1, e2⟩ := rule_unique hf g1 hmem (rulesOf_sub g2) (rulesOf_sub hr) g3 hq
      cases e1
      subst e2
      exact he
    · intro he
      exact ⟨_, hsel, he⟩
  have hrem : ∀ dep, (⟨.remove, target, dep, []⟩ : Edit) ∈ edits ↔ dep ∈ removed := by
    intro dep
    rw [hes _ rfl, ha.emitted, List.mem_append, List.mem_map, List.mem_map]
    constructor
    · rintro (⟨d, hd, he⟩ | ⟨_, _, he⟩)
      · injection he with _ _ he _
        subst he; exact hd
      · cases he
    · exact fun h => .inl ⟨dep, h, rfl⟩
  have hren : ∀ a b, (⟨.rename, target, a, b⟩ : Edit) ∉ edits := by
    intro a b
    rw [hes _ rfl, ha.emitted, List.mem_append, List.mem_map, List.mem_map]
    rintro (⟨_, _, he⟩ | ⟨_, _, he⟩) <;> cases he
  have hkeep : ∀ s ∈ needed (pkg, r, target), ∀ t ∈ s, DependsOn target r t → DependsOn target r' t := by
    rintro s hs' t ht ⟨dep, d1, d2⟩
    refine ⟨dep, (hed.deps target hq dep).2 (.inl ⟨d1, ?_, hren dep⟩), d2⟩
    rw [hrem]
    intro hx
    obtain ⟨_, l2, _, k2, _, _, _, k6⟩ := (ha.removed_iff dep).1 hx
    rw [d2] at k2
    cases k2
    exact k6 _ hs' ht
  refine ⟨near, _, sets, _, removed, libs, ha, ?_, hkeep, ?_⟩
  · intro m hsays
    rw [h1]
    refine List.mem_append_left _ (List.mem_append_right _ (List.mem_flatMap.2 ⟨_, hsel, (h4 m).2 hsays⟩))
  · intro t hl hv ht
    by_cases hd : DependsOn target r t
    · exact hkeep _ hl t (by simp) hd
    · have hlib := (ha.libs_iff t).2 ⟨hl, hd, hv, ht⟩
      have hback : BazelTarget.parseFrom (t.toStringRelativeTo target.package) target.package = some t := by
        obtain ⟨family, hne, hfam, hiff⟩ := ha.reduced.common [t] hl
        obtain ⟨s, hsf⟩ := List.exists_mem_of_ne_nil _ hne
        obtain ⟨_, _, inc, found, _, _, h⟩ := ha.alternatives.from_inc s (hfam s hsf)
        have hl' := ((h t).1 ((hiff t).1 (by simp) s hsf)).1
        refine C04_relative_roundtrip_partial t (provides_wf hf hl') _ (.inr ?_)
        rw [qualifiedTarget_package hq]
        exact hmain
      refine ⟨_, (hed.deps target hq _).2 (.inr (.inl ?_)), hback⟩
      rw [hes _ rfl, ha.emitted]
      exact List.mem_append_right _ (List.mem_map.2 ⟨t, hlib, rfl⟩)

/-- A list with two different elements. -/
theorem two_of_ne {α : Type} {l : List α} {a b : α} (ha : a ∈ l) (hb : b ∈ l) (h : a ≠ b) : 2 ≤ l.length := by
  match l with
  | [] => cases ha
  | [x] =>
    simp only [List.mem_singleton] at ha hb
    exact absurd (ha.trans hb.symm) h
  | _ :: _ :: _ => simp

/-- What becomes of a header that is found and that some visible library provides. -/
inductive Outcome (files : Files) (target : BazelTarget) (r' : Result) (msgs : List Message) (found : Str) : Prop
  /-- A dependency provides it; -/
  | provided (t : BazelTarget) : Provides files found t → Visible files target t → DependsOn target r' t →
      Outcome files target r' msgs found
  /-- there are several libraries to choose from, which is said; -/
  | choices (place : Str) (l : List BazelTarget) : 2 ≤ l.length → .choices place target l ∈ msgs →
      (∀ t ∈ l, Provides files found t ∧ Visible files target t) → Outcome files target r' msgs found
  /-- it is only for tests, which is said. -/
  | testonly (place : Str) (t : BazelTarget) : .testonly place target t ∈ msgs → Provides files found t →
      Visible files target t → ¬ TestonlyOk files target t → Outcome files target r' msgs found

/-- **C123**: once the edits are carried out, a dependency of the rule provides each header that it includes, or it
has been said that there is a choice, or that the library is for tests only; unless the header is not found, or
no visible library provides it. -/
theorem C123_provided {files : Files} (hs : ∀ f ∈ files, Searchable f.2) (hf : StableSpec.Sound files)
    (talk : Talk) (env : Env) (pattern : BazelPattern) {edits : List Edit} (hc : createDependencyEdits env pattern files = some edits)
    {msgs : List Message} (hm : sayAll talk env pattern files = some msgs) {pkg : BazelPackage} {r r' : Result}
    {target : BazelTarget} (hsel : (pkg, r, target) ∈ selected files pattern) (hmain : pkg.project = [])
    (hed : EditedRule edits pkg r r') {inc : Str} (hn : Needs env pkg target r inc) :
    (∀ found, ¬ FoundAs files pkg inc found) ∨
    ∃ found, FoundAs files pkg inc found ∧
      ((∀ t, Provides files found t → ¬ Visible files target t) ∨ Outcome files target r' msgs found) := by
  obtain ⟨near, of, sets, needed, removed, libs, ha, hsay, hkeep, hadd⟩ := edited_deps hs hf hc hm hsel hmain hed
  rcases ha.alternatives.for_inc inc hn with hnone | ⟨found, hfo, hv | ⟨s, hs', hiff⟩⟩
  · exact .inl hnone
  · exact .inr ⟨found, hfo, .inl hv⟩
  · refine .inr ⟨found, hfo, .inr ?_⟩
    obtain ⟨c, hc', hsub⟩ := ha.reduced.covers s hs'
    have hp : ∀ t ∈ c, Provides files found t ∧ Visible files target t := fun t ht => (hiff t).1 (hsub t ht)
    by_cases hd : ∃ t ∈ c, DependsOn target r t
    · obtain ⟨t, ht, hd⟩ := hd
      exact .provided t (hp t ht).1 (hp t ht).2 (hkeep c hc' t ht hd)
    · have hnd : ∀ t ∈ c, ¬ DependsOn target r t := fun t ht h => hd ⟨t, ht, h⟩
      match hcc : c with
      | [] => exact absurd rfl (ha.reduced.nonempty _ hc')
      | [t] =>
        by_cases hto : TestonlyOk files target t
        · exact .provided t (hp t (by simp)).1 (hp t (by simp)).2 (hadd t hc' (hp t (by simp)).2 hto)
        · have hlib : ∃ d, Library files target d := by
            apply Classical.byContradiction
            intro h
            exact hto fun _ _ _ d hd => absurd ⟨d, hd⟩ h
          obtain ⟨d, hd⟩ := hlib
          exact .testonly _ t (hsay _ (.testonly hc' (hnd t (by simp)) hto hd)) (hp t (by simp)).1 (hp t (by simp)).2 hto
      | x :: y :: rest =>
        refine .choices _ (inOrder (x :: y :: rest)) ?_ (hsay _ (.choices hc' (by simp) hnd (fun t => mem_inOrder)
          (inOrder_ascending _))) ?_
        · have hne : x ≠ y := fun h => (List.nodup_cons.1 (ha.distinct _ hc')).1 (h ▸ List.mem_cons_self)
          exact two_of_ne (mem_inOrder.2 (by simp)) (mem_inOrder.2 (by simp)) hne
        · intro t ht
          exact hp t (mem_inOrder.1 ht)

/-! ## C124 -/

/-- **C124**, full statement: if a dependency provides an included header, and is visible, then one does so once the
edits are carried out. -/
def C124_statement : Prop :=
  ∀ (files : Files) (env : Env) (pattern : BazelPattern) (edits : List Edit) (pkg : BazelPackage) (r r' : Result)
    (target t : BazelTarget) (inc : Str), (∀ f ∈ files, Searchable f.2) → StableSpec.Sound files →
    createDependencyEdits env pattern files = some edits → (pkg, r, target) ∈ selected files pattern →
    pkg.project = [] → EditedRule edits pkg r r' → Needs env pkg target r inc → Provides files inc t →
    Visible files target t → DependsOn target r t → ∃ u, Provides files inc u ∧ DependsOn target r' u

/-- **C124** for rules about which nothing is said that is to be done by hand. -/
theorem C124_kept_partial {files : Files} (hs : ∀ f ∈ files, Searchable f.2) (hf : StableSpec.Sound files)
    (talk : Talk) (env : Env) (pattern : BazelPattern) {edits : List Edit} (hc : createDependencyEdits env pattern files = some edits)
    {msgs : List Message} (hm : sayAll talk env pattern files = some msgs) {pkg : BazelPackage} {r r' : Result}
    {target : BazelTarget} (hsel : (pkg, r, target) ∈ selected files pattern) (hmain : pkg.project = [])
    (hed : EditedRule edits pkg r r') (hch : ∀ place l, .choices place target l ∉ msgs)
    (hto : ∀ place t, .testonly place target t ∉ msgs) {inc : Str} {t : BazelTarget}
    (hn : Needs env pkg target r inc) (hp : Provides files inc t) (hv : Visible files target t) :
    ∃ u, Provides files inc u ∧ Visible files target u ∧ DependsOn target r' u := by
  have hnear : Nearest files inc inc := ⟨⟨t, hp⟩, .inl rfl⟩
  rcases C123_provided hs hf talk env pattern hc hm hsel hmain hed hn with h | ⟨found, hfo, h⟩
  · exact absurd (.inl hnear) (h inc)
  · have : found = inc := by
      rcases hfo with ⟨_, h | ⟨h, _⟩⟩ | ⟨h, _⟩
      · exact h
      · exact absurd hp (h t)
      · exact absurd hnear (h inc)
    subst this
    rcases h with h | ⟨u, h1, h2, h3⟩ | ⟨place, l, _, h, _⟩ | ⟨place, u, h, _⟩
    · exact absurd hv (h t hp)
    · exact ⟨u, h1, h2, h3⟩
    · exact absurd h (hch _ _)
    · exact absurd h (hto _ _)

/-- Two libraries provide both headers, and two others one each; the rule depends on the latter. -/
def replacedText : Str :=
  c!"cc_library(name=\"a\",hdrs=[\"x.h\",\"y.h\"])\ncc_library(name=\"b\",hdrs=[\"x.h\",\"y.h\"])\ncc_library(name=\"c\",hdrs=[\"x.h\"])\ncc_library(name=\"d\",hdrs=[\"y.h\"])\ncc_library(name=\"l\",srcs=[\"l.cc\"],deps=[\":c\",\":d\"])"

def replacedSource : Str := c!"#include \"p/x.h\"\n#include \"p/y.h\"\n"

/-- Both dependencies are removed, and nothing is added. -/
theorem replaced_edits : editsOf replacedText replacedSource [] =
    some [⟨.remove, local! c!"l", c!":c", []⟩, ⟨.remove, local! c!"l", c!":d", []⟩] := by decide +kernel

theorem C124_counterexample : ¬ C124_statement := by
  intro h
  have hs := projectOf_searchable (text := replacedText) (by decide +kernel)
  have hx : ∃ x ∈ selected (projectOf replacedText) .always, x.1 = somePkg ∧ x.2.2 = local! c!"l" ∧
      sourcesOf x.2.1 = [c!"l.cc"] ∧ stringsOf x.2.1.deps = [c!":c", c!":d"] := by decide +kernel
  obtain ⟨⟨pkg, r, target⟩, hx, rfl, rfl, hsrc, hdeps⟩ := hx
  simp only at hx hsrc hdeps
  have hp := (provides_of hs (path := c!"p/x.h") (ts := [local! c!"a", local! c!"b", local! c!"c"]) (by decide +kernel)
    (local! c!"c")).1 (by simp)
  have hq := (selected_iff.1 hx).1
  obtain ⟨_, _, _, hq⟩ := hq
  obtain ⟨u, _, dep, hd, _⟩ := h _ _ _ _ _ r { r with deps := none } _ (local! c!"c") c!"p/x.h" hs
    (EditChecks.soundB_sound (by decide +kernel)) replaced_edits hx rfl
    { same := ⟨rfl, rfl, rfl, rfl, rfl, rfl, rfl, rfl, rfl, rfl, rfl, rfl, rfl, rfl, rfl, rfl⟩
      deps := by
        intro t ht dep
        rw [hq] at ht
        cases ht
        rw [hdeps]
        simp only [stringsOf, List.not_mem_nil, false_iff]
        rintro (⟨h1, h2, _⟩ | h1 | ⟨_, _, h1⟩)
        · simp only [List.mem_cons, List.not_mem_nil, or_false] at h1
          rcases h1 with rfl | rfl <;> exact h2 (by simp)
        · simp at h1
        · simp at h1
      others := fun h => absurd hq (h _ List.mem_cons_self) }
    ⟨⟨c!"l.cc", by rw [hsrc]; simp, replacedSource, ⟨[], c!"", _, rfl, by decide +kernel, by simp⟩, 10,
      by decide +kernel⟩, by
        rw [hsrc]
        intro src h
        simp only [List.mem_singleton] at h
        subst h
        decide⟩ hp
    (by
      rintro l ⟨before, after, hl, _⟩
      have : ∀ e ∈ libraries (projectOf replacedText), e.2.deprecation = [] := by decide +kernel
      exact ⟨this (local! c!"c", l) (by rw [hl]; simp), .inl rfl⟩)
    ⟨c!":c", by rw [hdeps]; simp, by decide +kernel⟩
  cases hd

/-- It is said that there is a choice. -/
example : (saidOf replacedText [(c!"p/l.cc", replacedSource), (c!"p/x.h", []), (c!"p/y.h", [])] 0) =
    some [.choices c!"BUILD(l)" (local! c!"l") [local! c!"a", local! c!"b"], .checked 5 2] := by decide +kernel

/-- A project in which the edits are carried out: `:a` is removed, `:b` is added, whose header is included. -/
example : ∃ es, editsOf (threeLibs ++ c!"cc_library(name=\"l\",srcs=[\"l.cc\"],deps=[\":a\",\":c\"])")
      c!"#include \"p/y.h\"\n" [] = some es ∧
    ∃ x ∈ selected (projectOf (threeLibs ++ c!"cc_library(name=\"l\",srcs=[\"l.cc\"],deps=[\":a\",\":c\"])")) .always,
    ∃ x' ∈ selected (projectOf (threeLibs ++ c!"cc_library(name=\"l\",srcs=[\"l.cc\"],deps=[\":c\",\":b\"])")) .always,
      x.2.2 = local! c!"l" ∧ EditedRule es somePkg x.2.1 x'.2.1 ∧
      DependsOn x.2.2 x'.2.1 (local! c!"b") ∧ ¬ DependsOn x.2.2 x.2.1 (local! c!"b") := by
  have h : ∃ x ∈ selected (projectOf (threeLibs ++ c!"cc_library(name=\"l\",srcs=[\"l.cc\"],deps=[\":a\",\":c\"])")) .always,
      ∃ x' ∈ selected (projectOf (threeLibs ++ c!"cc_library(name=\"l\",srcs=[\"l.cc\"],deps=[\":c\",\":b\"])")) .always,
      x.2.2 = local! c!"l" ∧ EditChecks.editedRuleB [⟨.remove, local! c!"l", c!":a", []⟩,
        ⟨.add, local! c!"l", [], c!":b"⟩] somePkg x.2.1 x'.2.1 = true ∧
      stringsOf x'.2.1.deps = [c!":c", c!":b"] ∧ stringsOf x.2.1.deps = [c!":a", c!":c"] := by decide +kernel
  obtain ⟨x, hx, x', hx', h1, h2, h3, h4⟩ := h
  refine ⟨_, by decide +kernel, x, hx, x', hx', h1, EditChecks.editedRuleB_sound h2, ?_, ?_⟩
  · rw [h1]
    exact ⟨c!":b", by rw [h3]; simp, by decide +kernel⟩
  · rw [h1]
    rintro ⟨dep, h, h'⟩
    rw [h4] at h
    simp only [List.mem_cons, List.not_mem_nil, or_false] at h
    rcases h with rfl | rfl
    · exact absurd h' (by decide +kernel)
    · exact absurd h' (by decide +kernel)

end Props
end Bant
