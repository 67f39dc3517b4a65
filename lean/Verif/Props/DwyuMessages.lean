import Verif.Lemmas.DwyuMessages
import Verif.Props.Dwyu
import Verif.Props.Headers

/-!
C105 to C107: what DWYU says.
-/
namespace Bant
namespace Props
open Dwyu DwyuSpec Query Rules HeaderSpec HeaderIndex Headers

/-- For each of the selected rules, in order. -/
theorem says_of {files : Files} (hs : ∀ f ∈ files, Searchable f.2) {gen : Generator} (hm : Made files gen)
    (talk : Talk) (env : Env) {genrules : List (Str × BazelTarget)}
    (hg : ∀ path, lookup genrules path = madeBy files path) (pattern : BazelPattern) :
    sayForPattern talk env gen genrules pattern files =
      some ((selected files pattern).map fun x => (sayForTarget talk env gen genrules x.2.2 x.2.1 x.1).getD []) := by
  rw [List.map_eq_flatMap]
  unfold sayForPattern selected
  rw [List.flatMap_assoc]
  refine mapAll_eq ?_
  rintro ⟨pkg, ast⟩ hf
  simp only []
  rw [List.flatMap_assoc]
  split
  · rename_i hp
    symm
    congr 1
    rw [List.flatMap_eq_nil_iff]
    intro r _
    cases hq : pkg.qualifiedTarget r.name with
    | none => rfl
    | some t =>
      simp only []
      have : pattern.matchTarget t = false := by
        cases ht : pattern.matchTarget t with
        | false => rfl
        | true =>
          have := C01_match_target_implies_package _ _ ht
          rw [qualifiedTarget_package hq] at this
          simp [this] at hp
      rw [this]
      rfl
  · refine forTargets_eq (hs _ hf).proper ?_
    intro r hr
    cases hq : pkg.qualifiedTarget r.name with
    | none => rfl
    | some t =>
      simp only []
      cases ht : pattern.matchTarget t with
      | false => rfl
      | true =>
        obtain ⟨_, _, _, _, _, ms, _, _, h, _⟩ := rule_says hm hs talk env hg (r := r) (target := t) ⟨ast, hf, hr, hq⟩
        simp [h]

/-- **C106**: in every project, what is said is, first, which outputs several `genrule`s have, then, for each of the
selected rules in order, exactly what is wrong with it, and finally how many rules and edits there are. No check fails. -/
theorem C106_account_partial (files : Files) (hs : ∀ f ∈ files, Searchable f.2) (talk : Talk) (env : Env)
    (pattern : BazelPattern) :
    ∃ (near : Str → Option Str) (first : List Message) (of : BazelPackage × Result × BazelTarget → List Edit)
      (said : BazelPackage × Result × BazelTarget → List Message)
      (needed : BazelPackage × Result × BazelTarget → List (List BazelTarget)), Reading files near ∧
      createDependencyEdits env pattern files = some ((selected files pattern).flatMap of) ∧
      sayAll talk env pattern files = some (first ++ (selected files pattern).flatMap said ++
        [.checked (selected files pattern).length ((selected files pattern).flatMap of).length]) ∧
      (∀ m, m ∈ first ↔ SaysTwice files talk m) ∧
      ∀ pkg r target, (pkg, r, target) ∈ selected files pattern →
        (∃ sets removed libs, Account files env pkg r target (of (pkg, r, target)) sets (needed (pkg, r, target))
          removed libs) ∧
        ∀ m, m ∈ said (pkg, r, target) ↔ Says files env talk near pkg r target (needed (pkg, r, target)) m := by
  obtain ⟨gen, hc, hm⟩ := create_made hs
  obtain ⟨genrules, hg, hl⟩ := C57_genrules files hs
  have hl : ∀ path, lookup genrules path = madeBy files path := hl
  have hrule : ∀ x : BazelPackage × Result × BazelTarget, ∃ needed, Rule files x.1 x.2.1 x.2.2 →
      (∃ sets removed libs, Account files env x.1 x.2.1 x.2.2
        ((createEditsForTarget env gen x.2.2 x.2.1 x.1).getD []) sets needed removed libs) ∧
      ∀ m, m ∈ (sayForTarget talk env gen genrules x.2.2 x.2.1 x.1).getD [] ↔
        Says files env talk (nearOf gen) x.1 x.2.1 x.2.2 needed m := by
    rintro ⟨pkg, r, target⟩
    by_cases hr : Rule files pkg r target
    · obtain ⟨edits, sets, needed, removed, libs, ms, h1, h2, h3, h4⟩ := rule_says hm hs talk env hl hr
      refine ⟨needed, fun _ => ⟨⟨sets, removed, libs, ?_⟩, ?_⟩⟩
      · simpa [h1] using h2
      · simpa [h3] using h4
    · exact ⟨[], fun h => absurd h hr⟩
  refine ⟨nearOf gen, _, _, fun x => (sayForTarget talk env gen genrules x.2.2 x.2.1 x.1).getD [], fun x => Classical.choose (hrule x), reading_of hm, edits_of hs hc hm env pattern, ?_,
    fun m => twice_iff, ?_⟩
  · have he := edits_of hs hc hm env pattern
    unfold createDependencyEdits at he
    rw [hc, Option.bind_some] at he
    unfold sayAll
    rw [hc, hg, genruleOuts_eq hs talk]
    simp only [says_of hs hm talk env hl pattern, he, List.length_map, ← List.flatMap_def]
  · intro pkg r target h
    exact Classical.choose_spec (hrule (pkg, r, target)) (selected_iff.1 h).1

/-- The claim of C106 for one of the messages: what would be added but is said to be not visible, is not visible. -/
def C106_statement : Prop :=
  ∀ (files : Files) (talk : Talk) (env : Env) (pattern : BazelPattern) (msgs : List Message),
    (∀ f ∈ files, Searchable f.2) → sayAll talk env pattern files = some msgs →
    ∀ loc t, Message.notVisible loc t ∈ msgs → ∃ x ∈ selected files pattern, ¬ Visible files x.2.2 t

/-- It is never true: what is said to be not visible, is visible. -/
theorem C106_never_partial (files : Files) (hs : ∀ f ∈ files, Searchable f.2) (talk : Talk) (env : Env)
    (pattern : BazelPattern) (msgs : List Message) (h : sayAll talk env pattern files = some msgs) (loc : Str)
    (t : BazelTarget) (hm : Message.notVisible loc t ∈ msgs) :
    ∃ pkg r target, (pkg, r, target) ∈ selected files pattern ∧ loc = talk.places.name r target ∧
      Visible files target t ∧ ¬ TestonlyOk files target t := by
  obtain ⟨near, first, of, said, needed, _, _, h1, h2, h3⟩ := C106_account_partial files hs talk env pattern
  rw [h] at h1
  cases h1
  rw [List.mem_append, List.mem_append] at hm
  rcases hm with (hm | hm) | hm
  · rw [h2] at hm; cases hm
  · rw [List.mem_flatMap] at hm
    obtain ⟨⟨pkg, r, target⟩, hx, hm⟩ := hm
    obtain ⟨⟨sets, removed, libs, ha⟩, h4⟩ := h3 pkg r target hx
    rw [h4] at hm
    cases hm with
    | complaint h => cases h
    | notVisible c1 c2 c3 c4 =>
      exact ⟨pkg, r, target, hx, rfl, needed_visible ha.alternatives ha.reduced c2 (by simp), c4⟩
  · simp at hm

/-! ## C105: silence -/

/-- The claim of C105: if nothing is said but how many rules there are, and there are no edits, then each header that
is included is one of the own sources, or there is a dependency that provides it. -/
def C105_statement : Prop :=
  ∀ (files : Files) (talk : Talk) (env : Env) (pattern : BazelPattern) (n : Nat),
    (∀ f ∈ files, Searchable f.2) → createDependencyEdits env pattern files = some [] →
    sayAll talk env pattern files = some [.checked n 0] →
    ∀ pkg r target, (pkg, r, target) ∈ selected files pattern →
      (∀ src ∈ sourcesOf r, ∃ content, Content env pkg src content) ∧
      ∀ inc, Needs env pkg target r inc → ∃ found, FoundAs files pkg inc found ∧
        ∃ t, Provides files found t ∧ DependsOn target r t

/-- **C105**, with the two exceptions: unknown headers, unless verbose; and headers that no visible library provides. -/
theorem C105_silence_partial (files : Files) (talk : Talk) (env : Env) (pattern : BazelPattern) (n : Nat)
    (hs : ∀ f ∈ files, Searchable f.2) (he : createDependencyEdits env pattern files = some [])
    (hq : sayAll talk env pattern files = some [.checked n 0]) (pkg : BazelPackage) (r : Result) (target : BazelTarget)
    (hx : (pkg, r, target) ∈ selected files pattern) :
    (∀ src ∈ sourcesOf r, ∃ content, Content env pkg src content) ∧
    ∀ inc, Needs env pkg target r inc →
      (talk.verbose = 0 ∧ madeBy files inc = none ∧ ∀ found, ¬ FoundAs files pkg inc found) ∨
      ∃ found, FoundAs files pkg inc found ∧
        ((∀ t, Provides files found t → ¬ Visible files target t) ∨
          ∃ t, Provides files found t ∧ Visible files target t ∧ DependsOn target r t) := by
  obtain ⟨near, first, of, said, needed, hn, h0, h1, h2, h3⟩ := C106_account_partial files hs talk env pattern
  rw [hq, Option.some.injEq] at h1
  rw [he, Option.some.injEq] at h0
  have hnil : first ++ (selected files pattern).flatMap said = [] := by
    have := congrArg List.length h1
    simp only [List.length_append, List.length_cons, List.length_nil] at this
    rw [← List.length_eq_zero_iff, List.length_append]
    omega
  rw [List.append_eq_nil_iff, List.flatMap_eq_nil_iff] at hnil
  obtain ⟨⟨sets, removed, libs, ha⟩, h4⟩ := h3 pkg r target hx
  have hsaid : ∀ m, ¬ Says files env talk near pkg r target (needed (pkg, r, target)) m := by
    intro m hm
    rw [← h4, hnil.2 _ hx] at hm
    cases hm
  have hedits : of (pkg, r, target) = [] := List.flatMap_eq_nil_iff.1 h0.symm _ hx
  have hlibs : libs = [] := by
    have := ha.emitted
    rw [hedits] at this
    simpa using (List.append_eq_nil_iff.1 this.symm).2
  refine ⟨?_, ?_⟩
  · intro src hsrc
    apply Classical.byContradiction
    intro hc
    obtain ⟨k, hk⟩ := List.mem_iff_getElem?.1 hsrc
    exact hsaid _ (.unreadable hk fun c h => hc ⟨c, h⟩)
  · intro inc hneeds
    rcases ha.alternatives.for_inc inc hneeds with hnone | ⟨found, hf, hv | ⟨s, hs', hiff⟩⟩
    · left
      have hn1 : near inc = none := by
        cases h : near inc with
        | none => rfl
        | some p => exact absurd (.inl (hn.found _ _ h)) (hnone p)
      have hn2 : near (pkg.qualifiedFile inc) = none := by
        cases h : near (pkg.qualifiedFile inc) with
        | none => rfl
        | some p => exact absurd (.inr ⟨hn.missing _ hn1, hn.found _ _ h⟩) (hnone p)
      obtain ⟨⟨src, hsrc, content, ⟨before, dir, after, hd⟩, pos, hp⟩, hown⟩ := hneeds
      obtain ⟨k, hk⟩ := List.mem_iff_getElem?.1 hsrc
      have hat : IncludesAt env pkg r k dir _ inc := ⟨src, content, pos, hk, ⟨before, after, hd⟩, hp, rfl⟩
      have ho : ¬ Own target r inc := by
        rintro ⟨s, hs, h | h⟩
        · exact (hown s hs).1 h
        · exact (hown s hs).2.1 h
      have ho' : ¬ OwnSlash r inc := by
        rintro ⟨s, hs, h⟩
        exact (hown s hs).2.2 h
      have hg : madeBy files inc = none := by
        cases h : madeBy files inc with
        | none => rfl
        | some g => exact absurd (.complaint (.generated hat ho ho' hn1 hn2 h)) (hsaid _)
      refine ⟨?_, hg, hnone⟩
      apply Classical.byContradiction
      intro h
      exact hsaid _ (.complaint (.unknown (by omega) hat ho ho' hn1 hn2 hg))
    · exact .inr ⟨found, hf, .inl hv⟩
    · refine .inr ⟨found, hf, .inr ?_⟩
      obtain ⟨c, hc, hsub⟩ := ha.reduced.covers s hs'
      apply Classical.byContradiction
      intro hno
      have hnd : ∀ t ∈ c, ¬ DependsOn target r t := by
        intro t ht hd
        obtain ⟨h1, h2⟩ := (hiff t).1 (hsub t ht)
        exact hno ⟨t, h1, h2, hd⟩
      match hc' : c with
      | [] => exact ha.reduced.nonempty _ hc rfl
      | [t] =>
        by_cases hto : TestonlyOk files target t
        · have : t ∈ libs := (ha.libs_iff t).2 ⟨hc, hnd t (by simp), ((hiff t).1 (hsub t (by simp))).2, hto⟩
          rw [hlibs] at this; cases this
        · have hlib : ∃ d, Library files target d := by
            apply Classical.byContradiction
            intro h
            exact hto fun _ _ _ d hd => absurd ⟨d, hd⟩ h
          obtain ⟨d, hd⟩ := hlib
          exact hsaid _ (.testonly hc (hnd t (by simp)) hto hd)
      | x :: y :: rest =>
        exact hsaid _ (.choices hc (by simp) hnd (fun t => mem_inOrder) (inOrder_ascending _))

/-! ## C107: includes that are not seen from the root of the project -/

/-- The claim of C107: if a source in the project includes another source of the same rule, and not by the path from
the root of the project, then this is pointed out. -/
def C107_statement : Prop :=
  ∀ (files : Files) (talk : Talk) (env : Env) (pattern : BazelPattern) (msgs : List Message),
    (∀ f ∈ files, Searchable f.2) → sayAll talk env pattern files = some msgs →
    ∀ pkg r target n loc inc, (pkg, r, target) ∈ selected files pattern → IncludesAt env pkg r n [] loc inc →
      target.package.path ≠ [] → inc ∈ sourcesOf r → (∀ src ∈ sourcesOf r, inc ≠ target.package.path ++ c!"/" ++ src) →
      .relative loc inc ∈ msgs

/-- **C107**: what is pointed out is exactly: own sources with a slash before; and headers of others that are found
from the package only. For files that are generated, nothing is. -/
theorem C107_relative_partial (files : Files) (talk : Talk) (env : Env) (pattern : BazelPattern) (msgs : List Message)
    (hs : ∀ f ∈ files, Searchable f.2) (h : sayAll talk env pattern files = some msgs) (loc inc : Str) :
    .relative loc inc ∈ msgs ↔ ∃ pkg r target n, (pkg, r, target) ∈ selected files pattern ∧
      IncludesAt env pkg r n [] loc inc ∧ ¬ Own target r inc ∧
      (OwnSlash r inc ∨ (∀ p, ¬ Nearest files inc p) ∧ ∃ p, Nearest files (pkg.qualifiedFile inc) p) := by
  obtain ⟨near, first, of, said, needed, hn, _, h1, h2, h3⟩ := C106_account_partial files hs talk env pattern
  rw [h] at h1
  cases h1
  rw [List.mem_append, List.mem_append, h2, List.mem_flatMap]
  constructor
  · rintro ((hm | ⟨⟨pkg, r, target⟩, hx, hm⟩) | hm)
    · cases hm
    · rw [(h3 pkg r target hx).2] at hm
      cases hm with
      | complaint h =>
        cases h with
        | own c1 c2 c3 => exact ⟨pkg, r, target, _, hx, c1, c2, .inl c3⟩
        | relative c1 c2 c3 c4 c5 =>
          exact ⟨pkg, r, target, _, hx, c1, c2, .inr ⟨hn.missing _ c4, _, hn.found _ _ c5⟩⟩
    · simp at hm
  · rintro ⟨pkg, r, target, n, hx, c1, c2, c3⟩
    refine .inl (.inr ⟨_, hx, ?_⟩)
    rw [(h3 pkg r target hx).2]
    by_cases hsl : OwnSlash r inc
    · exact .complaint (.own c1 c2 hsl)
    · obtain ⟨c4, p, c5⟩ := c3.resolve_left hsl
      have hn1 : near inc = none := by
        cases h : near inc with
        | none => rfl
        | some p => exact absurd (hn.found _ _ h) (c4 p)
      cases hn2 : near (pkg.qualifiedFile inc) with
      | none => exact absurd c5 (hn.missing _ hn2 p)
      | some q => exact .complaint (.relative c1 c2 hsl hn1 hn2)

/-! ## Cases -/

/-- Places that tell what they are for. -/
def here : Places where
  name r _ := c!"BUILD(" ++ r.name ++ c!")"
  source r _ n := c!"BUILD(" ++ r.name ++ c!" source " ++ showInt n ++ c!")"
  dep r _ n := c!"BUILD(" ++ r.name ++ c!" dep " ++ showInt n ++ c!")"
  out r _ n := c!"BUILD(" ++ r.name ++ c!" out " ++ showInt n ++ c!")"
  known t := c!"BUILD(" ++ t.name ++ c!")"

/-- What is said for a project with the BUILD file `text` in `p`, and these sources. -/
def saidOf (text : Str) (sources : List (Str × Str)) (verbose : Nat) : Option (List Message) :=
  sayAll ⟨verbose, false, here⟩ (envOf sources [] false) .always (projectOf text)

/-- As text. -/
def spoken (text : Str) (sources : List (Str × Str)) (verbose : Nat) : Option Str :=
  (saidOf text sources verbose).map fun ms => ms.flatMap Message.text

/-- A bit of everything. -/
example : spoken (threeLibs ++
      c!"cc_library(name=\"l\",srcs=[\"l.cc\",\"m.cc\"],deps=[\":a\",\":c\",\":a\",\"x:::\"])\ngenrule(name=\"g\",outs=[\"gen.h\",\"m.cc\"])\n")
    [(c!"p/x.h", []), (c!"bazel-bin/p/y.h", c!"#include \"z.h\""), (c!"p/z.h", []),
      (c!"p/l.cc", c!"#include \"p/y.h\"\n#include \"unknown.h\"\n  #include \"p/gen.h\"\n#include \"x.h\"\n#include \"/l.cc\"\n")] 3 =
    some (c!"bazel-bin/p/y.h:1:11-13: #include \"z.h\"\n" ++
      c!"bazel-bin/p/y.h:1:11-13:    | //p:c\n" ++
      c!"p/l.cc:1:11-15: #include \"p/y.h\"\n" ++
      c!"p/l.cc:1:11-15:    | //p:b\n" ++
      c!"p/l.cc:2:11-19: unknown provider for unknown.h -- Missing or from non-standard bazel-rule ?\n" ++
      c!"p/l.cc:3:13-19: p/gen.h not accounted for; generated by genrule //p:g, but not in hdrs=[...] of any cc_library() we depend on.\n" ++
      c!"p/l.cc:4:11-13: x.h header relative to this file. Consider FQN relative to project root.\n" ++
      c!"p/l.cc:4:11-13: #include \"x.h\"\n" ++
      c!"p/l.cc:4:11-13:    | //p:a\n" ++
      c!"p/l.cc:5:11-15: /l.cc header relative to this file. Consider FQN relative to project root.\n" ++
      c!"BUILD(l source 0) ^... in source 'l.cc' referenced by //p:l\n" ++
      c!"BUILD(l source 1) Can not read source 'p/m.cc' for target //p:l; Run genrule `bazel build //p:g` first.\n" ++
      c!"BUILD(l dep 1): Unsure what //p:c provides, but there are also unaccounted headers. Won't remove.\n" ++
      c!"BUILD(l dep 2) in target //p:l: dependency :a same dependency mentioned multiple times. Run buildifier\n" ++
      c!"BUILD(l dep 3) Invalid target name 'x:::'\n" ++
      c!"Checked DWYU on 4 targets. Emitted 2 edits.\n") := by decide +kernel
/-- Alternatives. -/
example : spoken c!"cc_library(name=\"a\",hdrs=[\"x.h\"])\nalias(name=\"b\",actual=\":a\")\ncc_library(name=\"l\",srcs=[\"l.cc\"])"
    [(c!"p/l.cc", c!"#include \"p/x.h\"\n")] 0 =
    some (c!"BUILD(a source 0) Can not read source 'p/x.h' for target //p:a -- Missing ?\n" ++
      c!"BUILD(l) Can't auto-fix: Referenced headers in //p:l need exactly one of multiple choices\nAlternatives are:\n\t//p:a\n\t//p:b\n" ++
      c!"Checked DWYU on 2 targets.\n") := by decide +kernel
/-- Two dependencies provide the same header. -/
example : spoken c!"cc_library(name=\"a\",hdrs=[\"x.h\"])\ncc_library(name=\"b\",hdrs=[\"x.h\"])\ncc_library(name=\"l\",srcs=[\"l.cc\"],deps=[\":a\",\":b\",\":a\"])"
    [(c!"p/l.cc", c!"#include \"p/x.h\"\n"), (c!"p/x.h", [])] 0 =
    some (c!"BUILD(l dep 1) in target //p:l: dependency :b provides headers already provided by //p:a before. Multiple libraries providing the same headers ?\n" ++
      c!"BUILD(l dep 2) in target //p:l: dependency :a same dependency mentioned multiple times. Run buildifier\n" ++
      c!"Checked DWYU on 3 targets.\n") := by decide +kernel
/-- The same file from two rules. -/
example : spoken c!"genrule(name=\"g\",outs=[\"x.h\"])\ngenrule(name=\"h\",outs=[\"y.h\",\"x.h\"])" [] 0 =
    some (c!"BUILD(h out 1) 'p/x.h' in //p:h also created by //p:g\n" ++ c!"Checked DWYU on 0 targets.\n") := by
  decide +kernel

/-! ### C105 does not hold -/

def silentText : Str := c!"cc_library(name=\"l\",srcs=[\"l.cc\"])"

def silentSources : List (Str × Str) := [(c!"p/l.cc", c!"#include \"q/x.h\"\n")]

/-- Unknown headers are not mentioned. -/
theorem silent_said : saidOf silentText silentSources 0 = some [.checked 1 0] := by decide +kernel

theorem C105_counterexample : ¬ C105_statement := by
  intro h
  have hs := projectOf_searchable (text := silentText) (by decide +kernel)
  have hx : ∃ x ∈ selected (projectOf silentText) .always, x.1 = somePkg ∧ x.2.2 = local! c!"l" ∧
      sourcesOf x.2.1 = [c!"l.cc"] := by decide +kernel
  obtain ⟨⟨pkg, r, target⟩, hx, rfl, rfl, hsrc⟩ := hx
  have hsrc : sourcesOf r = [c!"l.cc"] := hsrc
  obtain ⟨_, h2⟩ := h _ _ _ _ _ hs (by decide +kernel) silent_said _ _ _ hx
  obtain ⟨found, hf, t, hp, _⟩ := h2 c!"q/x.h" ⟨⟨c!"l.cc", by rw [hsrc]; simp, _,
    ⟨[], c!"", _, rfl, rfl, by simp⟩, 10, by decide +kernel⟩, by
      rw [hsrc]
      intro src h
      simp only [List.mem_singleton] at h
      subst h
      decide⟩
  have := provides_all hs (q := fun _ _ => false) (by decide +kernel) _ _ hp
  cases this

/-- If verbose, they are. -/
example : spoken silentText silentSources 1 =
    some (c!"p/l.cc:1:11-15: unknown provider for q/x.h -- Missing or from non-standard bazel-rule ?\n" ++
      c!"BUILD(l source 0) ^... in source 'l.cc' referenced by //p:l\n" ++
      c!"Checked DWYU on 1 targets.\n") := by decide +kernel
/-- But not if it is known who provides them and that is deprecated (or not visible). -/
example : saidOf c!"cc_library(name=\"old\",hdrs=[\"x.h\"],deprecation=\"no\")\ncc_library(name=\"l\",srcs=[\"l.cc\"])"
    [(c!"p/l.cc", c!"#include \"p/x.h\"\n"), (c!"p/x.h", [])] 2 = some [.checked 2 0] := by decide +kernel
example : editsOf c!"cc_library(name=\"old\",hdrs=[\"x.h\"],deprecation=\"no\")\ncc_library(name=\"l\",srcs=[\"l.cc\"])"
    c!"#include \"p/x.h\"\n" [] = some [] := by decide +kernel

/-! ### C106 does not hold -/

def hiddenText : Str :=
  c!"cc_library(name=\"t\",hdrs=[\"x.h\"],testonly=True)\ncc_library(name=\"l\",srcs=[\"l.cc\"])"

theorem hidden_said : saidOf hiddenText [(c!"p/l.cc", c!"#include \"p/x.h\"\n"), (c!"p/x.h", [])] 2 =
    some [.testonly c!"BUILD(l)" (local! c!"l") (local! c!"t"), .notVisible c!"BUILD(l)" (local! c!"t"),
      .checked 2 0] := by decide +kernel

theorem C106_counterexample : ¬ C106_statement := by
  intro h
  have hs := projectOf_searchable (text := hiddenText) (by decide +kernel)
  obtain ⟨x, hx, hv⟩ := h _ _ _ _ _ hs hidden_said c!"BUILD(l)" (local! c!"t") (by simp)
  apply hv
  intro r hr
  have hd : ∀ e ∈ libraries (projectOf hiddenText), e.2.deprecation = [] := by decide +kernel
  obtain ⟨before, after, hl, _⟩ := hr
  have hp : ∀ x ∈ selected (projectOf hiddenText) .always, x.2.2.package = somePkg := by decide +kernel
  exact ⟨hd (local! c!"t", r) (by rw [hl]; simp), .inl (hp x hx)⟩

/-! ### C107 does not hold -/

def relativeText : Str := c!"cc_library(name=\"l\",srcs=[\"l.cc\"],hdrs=[\"l.h\"])"

def relativeSources : List (Str × Str) := [(c!"p/l.cc", c!"#include \"l.h\"\n"), (c!"p/l.h", [])]

theorem relative_said : saidOf relativeText relativeSources 3 = some [.checked 1 0] := by decide +kernel

theorem C107_counterexample : ¬ C107_statement := by
  intro h
  have hs := projectOf_searchable (text := relativeText) (by decide +kernel)
  have hx : ∃ x ∈ selected (projectOf relativeText) .always, x.1 = somePkg ∧ x.2.2 = local! c!"l" ∧
      sourcesOf x.2.1 = [c!"l.cc", c!"l.h"] := by decide +kernel
  obtain ⟨⟨pkg, r, target⟩, hx, rfl, rfl, hsrc⟩ := hx
  have hsrc : sourcesOf r = [c!"l.cc", c!"l.h"] := hsrc
  have := h _ _ _ _ _ hs relative_said _ _ _ 0 _ c!"l.h" hx
    ⟨c!"l.cc", c!"#include \"l.h\"\n", 10, by rw [hsrc]; rfl, ⟨[], _, rfl, rfl, by simp⟩, by decide +kernel, rfl⟩
    (by decide) (by rw [hsrc]; simp) (by
      rw [hsrc]
      intro src h
      simp only [List.mem_cons, List.not_mem_nil, or_false] at h
      rcases h with rfl | rfl <;> decide)
  simp at this

/-- With a slash, it is pointed out; and with the header in another rule. -/
example : spoken relativeText [(c!"p/l.cc", c!"\n#include \"/l.h\"\n"), (c!"p/l.h", [])] 0 =
    some (c!"p/l.cc:2:11-14: /l.h header relative to this file. Consider FQN relative to project root.\n" ++
      c!"BUILD(l source 0) ^... in source 'l.cc' referenced by //p:l\n" ++
      c!"Checked DWYU on 1 targets.\n") := by decide +kernel
example : spoken c!"cc_library(name=\"a\",hdrs=[\"x.h\"])\ncc_library(name=\"l\",srcs=[\"l.cc\"],deps=[\":a\"])"
    [(c!"p/l.cc", c!"#include \"x.h\"\n"), (c!"p/x.h", [])] 0 =
    some (c!"p/l.cc:1:11-13: x.h header relative to this file. Consider FQN relative to project root.\n" ++
      c!"BUILD(l source 0) ^... in source 'l.cc' referenced by //p:l\n" ++
      c!"Checked DWYU on 2 targets.\n") := by decide +kernel

end Props
end Bant
