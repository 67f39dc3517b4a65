import Verif.Lemmas.Script
import Verif.Props.Dwyu

/-! # Edit scripts (C48) -/
namespace Bant
namespace Props
open ScriptSpec

/-- **C48**, full statement: a shell and buildozer read a script as the edits that it was made from. -/
def C48_statement : Prop := ∀ es : List Edit, requests (buildozerScript es) = some (es.map wanted)

/-- A name is not quoted: here a command is run that is not an edit. -/
theorem C48_counterexample : ¬ C48_statement ∧
    shell (buildozerScript [⟨.remove, ⟨⟨[], c!"a"⟩, c!"b"⟩, c!":x' //a; rm 'y", []⟩]) =
      some [[c!"buildozer", c!"remove deps :x", c!"//a"], [c!"rm", c!"y", c!"//a:b"]] := by
  refine ⟨?_, by decide +kernel⟩
  intro h
  have := h [⟨.remove, ⟨⟨[], c!"a"⟩, c!"b"⟩, c!":x' //a; rm 'y", []⟩]
  revert this
  decide +kernel

/-- **C48**: holds if the names of an edit have no characters with a meaning of their own: as many requests as
there are edits, in that order, each with the rule and the names in the right places. -/
theorem C48_script_partial {es : List Edit} (h : ∀ e ∈ es, PlainEdit e) :
    requests (buildozerScript es) = some (es.map wanted) := by
  obtain ⟨more, h1, h2⟩ := script_read h []
  have : shell (buildozerScript es) = some more := by
    unfold shell
    have h0 : (buildozerScript es).foldlM Shell.next {} = some ⟨false, none, [], more⟩ := by simpa using h1
    rw [h0]
    simp [Shell.endCommand, Shell.endWord]
  unfold requests
  rw [this]
  exact h2

/-- **C48**: as many lines as edits. -/
theorem C48_lines_partial {es : List Edit} (h : ∀ e ∈ es, PlainEdit e) :
    (buildozerScript es).count '\n' = es.length := by
  induction es with
  | nil => rfl
  | cons e es ih =>
    have hn : ∀ {s : Str}, Plain s → s.count '\n' = 0 := by
      intro s hs
      rw [List.count_eq_zero]
      intro hm
      have := hs.2 _ hm
      revert this
      decide
    have he := h e (by simp)
    have hline : (buildozerLine e).count '\n' = 1 := by
      have hr := hn he.rule
      have h1 := he.old
      have h2 := he.new
      unfold buildozerLine
      cases hop : e.op with
      | add => simp [hr, hn (h2 (by simp [hop]))]
      | remove => simp [hr, hn (h1 (by simp [hop]))]
      | rename => simp [hr, hn (h1 (by simp [hop])), hn (h2 (by simp [hop]))]
    have : buildozerScript (e :: es) = buildozerLine e ++ buildozerScript es := by simp [buildozerScript]
    rw [this, List.count_append, hline, ih fun e he => h e (by simp [he]), List.length_cons]
    omega

/-- Names in BUILD files without special characters. -/
def PlainProject (project : List (BazelPackage × List RuleDeps)) : Prop :=
  ∀ e ∈ project, PlainPackage e.1 ∧ ∀ r ∈ e.2, (∀ c ∈ r.name, special c = false) ∧ ∀ d ∈ r.deps, PlainDep d

/-- **C48**: the script of `bant canonicalize` is read as its edits if names in the BUILD files have no special
characters. -/
theorem C48_canonicalize_partial (pattern : BazelPattern) {project : List (BazelPackage × List RuleDeps)}
    (h : PlainProject project) :
    requests (buildozerScript (canonicalizeEdits pattern project)) =
      some ((canonicalizeEdits pattern project).map wanted) := by
  apply C48_script_partial
  intro e he
  simp only [canonicalizeEdits, List.mem_flatMap] at he
  obtain ⟨⟨package, rules⟩, hp, he⟩ := he
  simp only at he
  split at he
  · simp only [List.mem_flatMap] at he
    obtain ⟨r, hr, he⟩ := he
    obtain ⟨hpkg, hrules⟩ := h _ hp
    obtain ⟨hname, hdeps⟩ := hrules r hr
    simp only at hpkg
    unfold canonRule at he
    cases hq : package.qualifiedTarget r.name with
    | none => rw [hq] at he; cases he
    | some self =>
      rw [hq] at he
      simp only at he
      split at he
      · obtain ⟨dep, hd, hc⟩ := List.mem_filterMap.1 he
        have hdep := hdeps dep hd
        obtain ⟨q1, q2, q3⟩ := qualified_plain hname hq
        obtain ⟨t1, t2⟩ := toString_plain (t := self) (by rw [q1]; exact hpkg) q2 q3
        unfold canonDep at hc
        cases ht : BazelTarget.parseFrom dep package with
        | none => rw [ht] at hc; cases hc
        | some t =>
          rw [ht] at hc
          simp only [Option.ite_none_right_eq_some, Option.some.injEq] at hc
          obtain ⟨hne, rfl⟩ := hc
          obtain ⟨p1, p2, p3⟩ := parse_plain hpkg hdep ht
          exact ⟨fun _ => hdep.1, fun _ => relative_plain p1 p2 p3 _, t1, t2⟩
      · cases he
  · cases he

/-- The same for trees. -/
def PlainFiles (files : List HeaderSpec.Tree) : Prop :=
  ∀ f ∈ files, PlainPackage f.1 ∧ ∀ kinds, ∀ r ∈ Rules.rulesOf kinds f.2,
    (∀ c ∈ r.name, special c = false) ∧ ∀ d ∈ Rules.stringsOf r.deps, Plain d

/-- A library that provides a header is a rule with a plain name. -/
theorem provides_plain {files : List HeaderSpec.Tree} (h : PlainFiles files) {path : Str} {t : BazelTarget}
    (hp : HeaderSpec.Provides files path t) :
    PlainPackage t.package ∧ t.name ≠ [] ∧ ∀ c ∈ t.name, special c = false := by
  have hrule : ∀ {pkg ast kinds r}, (pkg, ast) ∈ files → r ∈ Rules.rulesOf kinds ast → ∀ {t : BazelTarget},
      pkg.qualifiedTarget r.name = some t →
      PlainPackage t.package ∧ t.name ≠ [] ∧ ∀ c ∈ t.name, special c = false := by
    intro pkg ast kinds r hf hr t hq
    obtain ⟨h1, h2⟩ := h _ hf
    obtain ⟨q1, q2, q3⟩ := qualified_plain (h2 kinds r hr).1 hq
    exact ⟨by rw [q1]; exact h1, q2, q3⟩
  cases hp with
  | library hf hr hq _ _ _ _ hor =>
    rcases hor with rfl | ⟨pkg', ast', r', hf', hr', hq', _⟩
    · exact hrule hf hr hq
    · exact hrule hf' hr' hq'
  | @proto pkg ast r proto grpc src stem ext _ hf hr hq hfind _ _ _ =>
    obtain ⟨e, h1, rfl⟩ := Option.map_eq_some_iff.1 hfind
    have hm := List.mem_of_find?_eq_some h1
    unfold HeaderSpec.protoRules at hm
    obtain ⟨r', hr', hm⟩ := List.mem_flatMap.1 hm
    cases hq' : pkg.qualifiedTarget r'.name with
    | none => rw [hq'] at hm; cases hm
    | some lib =>
      rw [hq'] at hm
      obtain ⟨d, _, hd⟩ := List.mem_filterMap.1 hm
      obtain ⟨p, _, rfl⟩ := Option.map_eq_some_iff.1 hd
      exact hrule hf hr' hq'

/-- **C48**: the script of `bant dwyu` is read as its edits, if names in the BUILD files have no special characters. -/
theorem C48_dwyu_partial {files : List HeaderSpec.Tree} (h : PlainFiles files) (hs : ∀ f ∈ files, Rules.Searchable f.2)
    (env : Dwyu.Env) (pattern : BazelPattern) :
    ∃ edits, Dwyu.createDependencyEdits env pattern files = some edits ∧
      requests (buildozerScript edits) = some (edits.map wanted) := by
  obtain ⟨of, h1, _⟩ := C28_account files hs env pattern
  refine ⟨_, h1, C48_script_partial ?_⟩
  intro e he
  obtain ⟨pkg, r, edits, sets, needed, removed, libs, hrule, _, hacc, hmem⟩ := edit_account hs h1 he
  obtain ⟨ast, hf, hr, hq⟩ := hrule
  obtain ⟨hpkg, hrules⟩ := h _ hf
  obtain ⟨hname, hdeps⟩ := hrules _ r hr
  obtain ⟨q1, q2, q3⟩ := qualified_plain hname hq
  obtain ⟨t1, t2⟩ := toString_plain (t := e.target) (by rw [q1]; exact hpkg) q2 q3
  by_cases hadd : e.op = .add
  · obtain ⟨_, _, t, _, _, _, hafter, ⟨inc, found, _, _, hprov⟩, _⟩ := C28_add_partial files env pattern _ hs h1 e he hadd
    obtain ⟨p1, p2, p3⟩ := provides_plain h hprov
    exact ⟨fun hn => absurd hadd hn, fun _ => by rw [hafter]; exact relative_plain p1 p2 p3 _, t1, t2⟩
  · rw [hacc.emitted] at hmem
    rcases List.mem_append.1 hmem with hmem | hmem
    · obtain ⟨dep, hdep, heq⟩ := List.mem_map.1 hmem
      have h2 : e.before = dep := by rw [← heq]
      have h3 : e.op = .remove := by rw [← heq]
      exact ⟨fun _ => by rw [h2]; exact hdeps dep (hacc.order.subset hdep), fun hn => absurd h3 hn, t1, t2⟩
    · obtain ⟨t, _, heq⟩ := List.mem_map.1 hmem
      exact absurd (by rw [← heq]) hadd

/-- Non-vacuity: two edits in an external project. -/
example :
    let project := [((⟨c!"@x", c!"a"⟩ : BazelPackage), [(⟨c!"b", [c!"//a:c", c!"@y//d", c!"//e:e"]⟩ : RuleDeps)])]
    PlainProject project ∧
    buildozerScript (canonicalizeEdits .always project) =
      c!"buildozer 'replace deps //a:c :c' @x//a:b\nbuildozer 'replace deps //e:e @x//e' @x//a:b\n" ∧
    requests (buildozerScript (canonicalizeEdits .always project)) =
      some [⟨.rename, some c!"//a:c", some c!":c", c!"@x//a:b"⟩, ⟨.rename, some c!"//e:e", some c!"@x//e", c!"@x//a:b"⟩] := by
  refine ⟨?_, by decide +kernel, by decide +kernel⟩
  unfold PlainProject PlainPackage PlainDep Plain
  decide +kernel

/-- The hypothesis about the end of dependencies is needed: what is written for `//` has no new name. -/
example : buildozerScript (canonicalizeEdits .always [(⟨[], c!"a"⟩, [⟨c!"b", [c!"//"]⟩])]) =
    c!"buildozer 'replace deps // ' //a:b\n" := by decide +kernel

end Props
end Bant
