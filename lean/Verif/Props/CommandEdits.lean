import Verif.Props.Commands
import Verif.Props.Stable
import Verif.Lemmas.EditChecks
import Verif.Spec.CommandEdits

/-! The commands that suggest edits (C92, C93). -/
namespace Bant
namespace Props
open Commands CommandSpec Cli Query Rules Headers GraphSpec StableSpec Stable EditChecks

/-! ## Carrying out edits -/

theorem readAs_unique {m : Machine} {evaluate : Bool} {pkg : BazelPackage} {name content : Str} {f f' : File}
    (h : ReadAs m evaluate pkg name content f) (h' : ReadAs m evaluate pkg name content f') : f = f' := by
  obtain ⟨ast, st, h1, h2, h3, h4⟩ := h
  obtain ⟨ast', st', g1, g2, g3, g4⟩ := h'
  rw [h1] at g1
  cases g1
  obtain ⟨n, a, e⟩ := f
  obtain ⟨n', a', e'⟩ := f'
  simp only at h2 g2 h3 g3 h4 g4
  have he : e = e' := by rw [Bool.eq_iff_iff, h3, g3]
  have ha : a = a' := by
    cases evaluate with
    | false => simp only [Bool.false_eq_true, if_false] at h4 g4; rw [h4, g4]
    | true =>
      simp only [if_true] at h4 g4
      rw [h4] at g4
      exact Option.some.inj g4
  rw [h2, g2, he, ha]

/-- Two lists that are sorted, and have elements for the same keys. -/
theorem pairs_of_keys {α β γ : Type} [Ordered α] [LawfulOrdered α] {R : α × β → α × γ → Prop} {l : List (α × β)}
    {l' : List (α × γ)} (h : Ascending (l.map (·.1))) (h' : Ascending (l'.map (·.1)))
    (hk : ∀ a, a ∈ l.map (·.1) ↔ a ∈ l'.map (·.1)) (hr : ∀ a b c, (a, b) ∈ l → (a, c) ∈ l' → R (a, b) (a, c)) :
    Pairs (fun x y => y.1 = x.1 ∧ R x y) l l' := by
  have hkeys : l.map (·.1) = l'.map (·.1) := by
    refine List.Perm.eq_of_pairwise (le := fun a b => Ordered.lt a b = true) ?_ h h'
      ((List.perm_ext_iff_of_nodup h.nodup h'.nodup).2 hk)
    intro a b _ _ h1 h2
    have := LawfulOrdered.trans h1 h2
    rw [LawfulOrdered.irrefl] at this
    cases this
  clear h h' hk
  induction l generalizing l' with
  | nil =>
    cases l' with
    | nil => exact .nil
    | cons x l' => cases hkeys
  | cons x l ih =>
    cases l' with
    | nil => cases hkeys
    | cons y l' =>
      simp only [List.map_cons, List.cons.injEq] at hkeys
      obtain ⟨a, b⟩ := x
      obtain ⟨a', c⟩ := y
      obtain ⟨h1, h2⟩ := hkeys
      simp only [] at h1
      subst h1
      exact .cons ⟨rfl, hr _ _ _ (by simp) (by simp)⟩
        (ih (fun a b c hb hc => hr a b c (.tail _ hb) (.tail _ hc)) h2)

theorem carried_out {edits : List Edit} {m m' : Machine} (hh' : Healthy m') {flags : Flags} {cmd : Command}
    {pattern : BazelPattern} {ws : Workspace.Map} {found : List Str} {files : Loaded}
    (hs : Starts m flags cmd pattern ws found files) (hneed : needsProject cmd pattern = true)
    (hc : CarriedOut edits (evaluates flags cmd) m m' ws (searched cmd pattern) found) :
    ∃ files', Starts m' flags cmd pattern ws found files' ∧ files'.map (·.1) = files.map (·.1) ∧
      Edited edits (trees files) (trees files') := by
  have hf : Collect.collectBuildFiles m'.tree m'.symlink ws (searched cmd pattern) m'.steps = some found := by
    rw [hc.tree, hc.symlink, hc.steps]; exact hs.opened.files
  obtain ⟨files', hs', _⟩ := C85_opened hh' (hc.workspace.trans hs.workspace) hs.roots flags cmd pattern hf hneed
  have hp : Pairs (fun (x : BazelPackage × File) (y : BazelPackage × File) => y.1 = x.1 ∧
      Pairs (EditedRule edits x.1) (rulesOf [] x.2.ast) (rulesOf [] y.2.ast)) files files' := by
    refine pairs_of_keys (R := fun x y => Pairs (EditedRule edits x.1) (rulesOf [] x.2.ast) (rulesOf [] y.2.ast))
      hs.opened.order hs'.opened.order ?_ ?_
    · intro pkg
      simp only [List.mem_map]
      constructor
      · rintro ⟨⟨p, f⟩, hm, rfl⟩
        obtain ⟨name, text, h1, _⟩ := (hs.opened.each p f).1 hm
        rcases hc.build p with ⟨h2, _⟩ | ⟨n, t, t', g, g', h2, h3, h4, h5, h6⟩
        · rw [h1] at h2; cases h2
        · exact ⟨(p, g'), (hs'.opened.each p g').2 ⟨n, t', h3, h5⟩, rfl⟩
      · rintro ⟨⟨p, f⟩, hm, rfl⟩
        obtain ⟨name, text, h1, _⟩ := (hs'.opened.each p f).1 hm
        rcases hc.build p with ⟨_, h2⟩ | ⟨n, t, t', g, g', h2, h3, h4, h5, h6⟩
        · rw [h1] at h2; cases h2
        · exact ⟨(p, g), (hs.opened.each p g).2 ⟨n, t, h2, h4⟩, rfl⟩
    · intro pkg f f' hm hm'
      obtain ⟨name, text, h1, h2⟩ := (hs.opened.each pkg f).1 hm
      obtain ⟨name', text', h3, h4⟩ := (hs'.opened.each pkg f').1 hm'
      rcases hc.build pkg with ⟨g1, _⟩ | ⟨n, t, t', g, g', g1, g2, g3, g4, g5⟩
      · rw [h1] at g1; cases g1
      · rw [h1] at g1; cases g1
        rw [h3] at g2; cases g2
        rw [readAs_unique h2 g3, readAs_unique h4 g4]
        exact g5
  refine ⟨files', hs', ?_, pairs_map hp⟩
  exact (pairs_eq (pairs_map (pairs_mono hp fun a b h => h.1.symm))).symm

/-! ## C92: `canonicalize` -/

theorem canonEdits_eq {pattern : BazelPattern} {files : Files} (hs : ∀ f ∈ files, Searchable f.2) :
    canonEdits pattern files =
      some ((matchingDeps pattern files).filterMap fun x => canonDep x.1.package x.1 x.2) := by
  unfold matchingDeps
  rw [List.filterMap_flatMap]
  refine mapAll_eq ?_
  rintro ⟨pkg, ast⟩ hf
  simp only []
  rw [List.filterMap_flatMap]
  split
  · rename_i hp
    congr 1
    symm
    rw [List.flatMap_eq_nil_iff]
    intro r _
    cases hq : pkg.qualifiedTarget r.name with
    | none => rfl
    | some t =>
      have : pattern.matchTarget t = false := by
        cases ht : pattern.matchTarget t with
        | false => rfl
        | true =>
          have := C01_match_target_implies_package _ _ ht
          rw [qualifiedTarget_package hq] at this
          simp [this] at hp
      simp [this]
  · refine forTargets_eq (hs _ hf).proper ?_
    intro r hr
    cases hq : pkg.qualifiedTarget r.name with
    | none => rfl
    | some t =>
      cases ht : pattern.matchTarget t with
      | false => simp [ht]
      | true =>
        simp only [ht, Bool.not_true, Bool.false_eq_true, if_false, (lists (hs _ hf) hr).2.2.2.2.1, Option.map_some,
          if_true, canonRule, hq, List.filterMap_map]
        show _ = some (List.filterMap (fun dep => canonDep t.package t dep) (stringsOf r.deps))
        rw [show t.package = pkg from qualifiedTarget_package hq]

theorem canonicalize_run {m : Machine} (hh : Healthy m) {flags : Flags} {pattern : BazelPattern} {ws : Workspace.Map}
    {found : List Str} {files : Loaded} (hs : Starts m flags .canonicalizeDeps pattern ws found files) :
    Suggests m flags .canonicalizeDeps pattern (note found)
      ((matchingDeps pattern (trees files)).filterMap fun x => canonDep x.1.package x.1 x.2) := by
  have ho := starts_opened hh hs (by simp [needsProject])
  refine run_of hs.workspace ho (l := files) (g := {}) (by simp [follow, usesGraph]) ?_
  simp only [perform, canonEdits_eq (opened_searchable hh ho), Commands.edits, Option.map_some, Option.some.injEq,
    Prod.mk.injEq, and_true]
  generalize List.filterMap _ _ = es
  cases es <;> simp

theorem canonDep_some {pkg : BazelPackage} {self : BazelTarget} {dep : Str} {e : Edit} :
    canonDep pkg self dep = some e ↔ ∃ t, BazelTarget.parseFrom dep pkg = some t ∧ dep ≠ t.toStringRelativeTo pkg ∧
      e = ⟨.rename, self, dep, t.toStringRelativeTo pkg⟩ := by
  unfold canonDep
  cases BazelTarget.parseFrom dep pkg with
  | none => simp
  | some t =>
    simp only [Option.some.injEq, exists_eq_left']
    by_cases h : dep = t.toStringRelativeTo pkg
    · simp [← h]
    · simp [h, eq_comm]

theorem shortens (deps : List (BazelTarget × Str)) :
    Shortens deps (deps.filterMap fun x => canonDep x.1.package x.1 x.2) := by
  constructor
  · induction deps with
    | nil => rfl
    | cons x deps ih =>
      have hx : (canonDep x.1.package x.1 x.2).map (fun e => (e.target, e.before)) =
          if long x.1.package x.2 then some x else none := by
        unfold canonDep long
        cases BazelTarget.parseFrom x.2 x.1.package with
        | none => simp
        | some t => by_cases h : x.2 = t.toStringRelativeTo x.1.package <;> simp [h]
      rw [List.filterMap_cons, List.filter_cons]
      revert hx
      cases canonDep x.1.package x.1 x.2 with
      | none => intro hx; cases hl : long x.1.package x.2 with
        | false => simpa using ih
        | true => simp [hl] at hx
      | some e => intro hx; cases hl : long x.1.package x.2 with
        | false => simp [hl] at hx
        | true =>
          simp only [Option.map_some, hl, if_true, Option.some.injEq] at hx
          simp [hx, ih]
  · intro e he
    obtain ⟨x, _, h⟩ := List.mem_filterMap.1 he
    obtain ⟨t, h1, _, rfl⟩ := canonDep_some.1 h
    exact ⟨rfl, t, h1, rfl⟩

/-- There are no other such edits. -/
theorem shortens_unique {deps : List (BazelTarget × Str)} {edits edits' : List Edit} (h : Shortens deps edits)
    (h' : Shortens deps edits') : edits = edits' := by
  have he := h.each.trans h'.each.symm
  have hs := h.short
  have hs' := h'.short
  clear h h'
  induction edits generalizing edits' with
  | nil => cases edits' with
    | nil => rfl
    | cons e' es' => cases he
  | cons e es ih => cases edits' with
    | nil => cases he
    | cons e' es' =>
      simp only [List.map_cons, List.cons.injEq, Prod.mk.injEq] at he
      obtain ⟨o1, t, p1, a1⟩ := hs e (by simp)
      obtain ⟨o2, t', p2, a2⟩ := hs' e' (by simp)
      have h1 : e = e' := by
        obtain ⟨op, target, before, after⟩ := e
        obtain ⟨op', target', before', after'⟩ := e'
        simp only at he o1 o2 p1 p2 a1 a2
        obtain ⟨⟨rfl, rfl⟩, _⟩ := he
        rw [p1] at p2
        cases p2
        rw [o1, o2, a1, a2]
      rw [h1, ih he.2 (fun x hx => hs x (.tail _ hx)) (fun x hx => hs' x (.tail _ hx))]

/-- **C92**: `canonicalize` prints exactly one edit for each dependency of a matching rule that is written longer
than needed, in the order of the files; the edit replaces it by the shortest name of the target. -/
theorem C92_canonicalize {m : Machine} (hh : Healthy m) {flags : Flags} {pattern : BazelPattern} {ws : Workspace.Map}
    {found : List Str} {files : Loaded} (hs : Starts m flags .canonicalizeDeps pattern ws found files) :
    ∃ edits, Suggests m flags .canonicalizeDeps pattern (note found) edits ∧
      Shortens (matchingDeps pattern (trees files)) edits :=
  ⟨_, canonicalize_run hh hs, shortens _⟩

/-- **C92**, full statement: once the edits are carried out, there is nothing left to say. -/
def C92_statement : Prop :=
  ∀ (m m' : Machine) (flags : Flags) (pattern : BazelPattern) (ws : Workspace.Map) (found : List Str) (files : Loaded)
    (edits : List Edit), Healthy m → Healthy m' → Starts m flags .canonicalizeDeps pattern ws found files →
    (∀ f ∈ files, Spec.WfPackage f.1) → Shortens (matchingDeps pattern (trees files)) edits →
    CarriedOut edits (evaluates flags .canonicalizeDeps) m m' ws pattern found →
    Suggests m' flags .canonicalizeDeps pattern (note found) []

/-- **C92** for dependencies that have a name. -/
theorem C92_stable_partial {m m' : Machine} (hh' : Healthy m') {flags : Flags}
    {pattern : BazelPattern} {ws : Workspace.Map} {found : List Str} {files : Loaded}
    (hs : Starts m flags .canonicalizeDeps pattern ws found files) (hw : ∀ f ∈ files, Spec.WfPackage f.1)
    (hn : Nameable (matchingDeps pattern (trees files))) {edits : List Edit}
    (hsh : Shortens (matchingDeps pattern (trees files)) edits)
    (hc : CarriedOut edits (evaluates flags .canonicalizeDeps) m m' ws pattern found) :
    Suggests m' flags .canonicalizeDeps pattern (note found) [] := by
  have := shortens_unique hsh (shortens _)
  subst this
  obtain ⟨files', hs', _, hed⟩ := carried_out hh' hs (by simp [needsProject]) hc
  have := canonicalize_run hh' hs'
  suffices hnil : ((matchingDeps pattern (trees files')).filterMap fun x => canonDep x.1.package x.1 x.2) = [] by
    rwa [hnil] at this
  rw [List.filterMap_eq_nil_iff]
  rintro ⟨t, dep⟩ hx
  have hmem : ∀ {fs : Files} {t : BazelTarget} {dep : Str}, (t, dep) ∈ matchingDeps pattern fs ↔ ∃ f ∈ fs, ∃ r ∈ rulesOf [] f.2,
      f.1.qualifiedTarget r.name = some t ∧ pattern.matchTarget t = true ∧ dep ∈ stringsOf r.deps := by
    intro fs t dep
    unfold matchingDeps
    simp only [List.mem_flatMap]
    constructor
    · rintro ⟨f, hf, r, hr, h⟩
      refine ⟨f, hf, r, hr, ?_⟩
      cases hq : f.1.qualifiedTarget r.name with
      | none => rw [hq] at h; cases h
      | some t' =>
        rw [hq] at h
        simp only [] at h
        split at h
        · rename_i hp
          obtain ⟨d, hd, he⟩ := List.mem_map.1 h
          cases he
          exact ⟨rfl, hp, hd⟩
        · cases h
    · rintro ⟨f, hf, r, hr, h1, h2, h3⟩
      exact ⟨f, hf, r, hr, by simp [h1, h2, h3]⟩
  obtain ⟨f', hf', r', hr', hq', hpat, hd'⟩ := hmem.1 hx
  obtain ⟨f, hf, hpk, hp⟩ := pairs_right hed hf'
  obtain ⟨r, hr, hedr⟩ := pairs_right hp hr'
  have hq : f.1.qualifiedTarget r.name = some t := by rw [← hedr.same.name, ← hpk]; exact hq'
  have htp := qualifiedTarget_package hq
  have hold : ∀ d ∈ stringsOf r.deps, (t, d) ∈ matchingDeps pattern (trees files) :=
    fun d hd => hmem.2 ⟨f, hf, r, hr, hq, hpat, hd⟩
  have hwf : Spec.WfPackage t.package := by
    rw [htp]
    obtain ⟨g, hg, _⟩ := mem_trees.1 hf
    exact hw _ hg
  rcases (hedr.deps t hq dep).1 hd' with ⟨h1, _, h2⟩ | h | ⟨old, h1, h2⟩
  · cases he : canonDep t.package t dep with
    | none => rfl
    | some e =>
      obtain ⟨x, _, _, rfl⟩ := canonDep_some.1 he
      exact absurd (List.mem_filterMap.2 ⟨(t, dep), hold dep h1, he⟩) (h2 _)
  · obtain ⟨x, _, h⟩ := List.mem_filterMap.1 h
    obtain ⟨_, _, _, h⟩ := canonDep_some.1 h
    cases h
  · obtain ⟨⟨t', d⟩, hm, h⟩ := List.mem_filterMap.1 h2
    obtain ⟨x, g1, _, g3⟩ := canonDep_some.1 h
    injection g3 with _ g3 g4 g5
    simp only [] at g3 g4
    subst g3; subst g4
    have hnm := hn _ hm x g1
    have := C05_idempotent old t.package hwf x t g1 hnm.1 hnm.2 _ h
    exact this

/-- Two states of a project, the second with some edits carried out. -/
theorem disk_carried {edits : List Edit} {evaluate : Bool} {texts texts' : List (Str × Str)} {pattern : BazelPattern}
    {found : List Str} (hn : texts'.map (·.1) = texts.map (·.1))
    (hb : buildB edits evaluate (disk texts) (disk texts') [] pattern.pattern.package.project found = true)
    (hw : workspaceOf (disk texts') = workspaceOf (disk texts)) :
    CarriedOut edits evaluate (disk texts) (disk texts') [] pattern found := by
  have hkey : ∀ (l l' : List (Str × Str)) (x : Str), l'.map (·.1) = l.map (·.1) →
      (lookup l' x).isSome = (lookup l x).isSome := by
    intro l
    induction l with
    | nil => intro l' x h; cases l' with
      | nil => rfl
      | cons a l' => cases h
    | cons e l ih => intro l' x h; cases l' with
      | nil => cases h
      | cons e' l' =>
        simp only [List.map_cons, List.cons.injEq] at h
        unfold lookup
        rw [List.find?_cons, List.find?_cons, h.1]
        by_cases hx : e.1 = x
        · simp [hx]
        · simpa [hx, lookup] using ih l' x h.2
  have hdirs : ∀ (g : Str → Bool) (l l' : List (Str × Str)), l'.map (·.1) = l.map (·.1) →
      (l'.filter fun e => g e.1).map (·.1) = (l.filter fun e => g e.1).map (·.1) := by
    intro g l l' h
    have : ∀ l : List (Str × Str), (l.filter fun e => g e.1).map (·.1) = (l.map (·.1)).filter g := by
      intro l; rw [List.filter_map]; rfl
    rw [this, this, h]
  refine ⟨?_, rfl, rfl, hw, fun path => hkey _ _ _ hn, buildB_sound hb⟩
  have h1 : (texts'.map fun e => dirName e.1) = texts.map fun e => dirName e.1 := by
    have := congrArg (List.map dirName) hn
    simpa [List.map_map, Function.comp_def] using this
  have h2 : ∀ d : Str, ((texts'.filter fun e => dirName e.1 = plainPath d).map fun e =>
        (⟨e.1.drop ((dirName e.1).length + 1), 99, .other⟩ : FileUtils.Dirent)) =
      (texts.filter fun e => dirName e.1 = plainPath d).map fun e => ⟨e.1.drop ((dirName e.1).length + 1), 99, .other⟩ := by
    intro d
    have := congrArg (List.map fun x : Str => (⟨x.drop ((dirName x).length + 1), 99, .other⟩ : FileUtils.Dirent))
      (hdirs (fun x => dirName x = plainPath d) texts texts' hn)
    simpa [List.map_map, Function.comp_def] using this
  simp only [disk, h1, h2]

def oneFile (dep : Str) : List (Str × Str) :=
  [(c!"p/BUILD", c!"cc_library(name=\"a\",deps=[\"" ++ dep ++ c!"\"])")]

/-- `@~1//foo:x` is `@//foo:x`, and that is `//foo:x`. -/
theorem C92_counterexample : ¬ C92_statement := by
  intro h
  have hc : ∀ e ∈ oneFile c!"@~1//foo:x", cleanText e.2 = true := by decide +kernel
  have hc' : ∀ e ∈ oneFile c!"@//foo:x", cleanText e.2 = true := by decide +kernel
  have hw : workspaceOf (disk (oneFile c!"@~1//foo:x")) = some [] := by decide +kernel
  have hw' : workspaceOf (disk (oneFile c!"@//foo:x")) = some [] := by decide +kernel
  obtain ⟨found, files, hs, ho⟩ := disk_starts hc hw {} .canonicalizeDeps everything (by decide +kernel) rfl
  have hrun : runCommand (disk (oneFile c!"@//foo:x")) {} .canonicalizeDeps everything =
      some ⟨3, c!"buildozer 'replace deps @//foo:x //foo:x' //p:a\n", []⟩ := by decide +kernel
  have hfound : Collect.collectBuildFiles (disk (oneFile c!"@~1//foo:x")).tree
      (disk (oneFile c!"@~1//foo:x")).symlink [] everything 9 = some [c!"./p/BUILD"] := by decide +kernel
  have hfd : found = [c!"./p/BUILD"] := Option.some.inj (hs.opened.files.symm.trans hfound)
  subst hfd
  have hed : ((opened (disk (oneFile c!"@~1//foo:x")) [] {} .canonicalizeDeps everything).map fun o =>
      (matchingDeps everything (trees o.1), o.1.all fun f => plainB f.1)) =
      some ([(⟨⟨[], c!"p"⟩, c!"a"⟩, c!"@~1//foo:x")], true) := by decide +kernel
  rw [ho] at hed
  simp only [Option.map_some, Option.some.injEq, Prod.mk.injEq, List.all_eq_true] at hed
  have := h (disk (oneFile c!"@~1//foo:x")) (disk (oneFile c!"@//foo:x")) {} everything [] _ files
    [⟨.rename, ⟨⟨[], c!"p"⟩, c!"a"⟩, c!"@~1//foo:x", c!"@//foo:x"⟩] (disk_healthy hc) (disk_healthy hc') hs
    (fun f hf => plainB_sound (hed.2 f hf)) (by
      rw [hed.1]
      refine ⟨by decide +kernel, ?_⟩
      intro e he
      rw [List.mem_singleton] at he
      subst he
      exact ⟨rfl, ⟨⟨c!"@", c!"foo"⟩, c!"x"⟩, by decide +kernel, by decide +kernel⟩)
    (disk_carried rfl (by decide +kernel) (by rw [hw, hw']))
  unfold Suggests at this
  rw [hrun] at this
  cases this

/-- A dependency that is too long, and what is said about it; then, nothing. -/
example : runCommand (disk (oneFile c!"//p:a")) {} .canonicalizeDeps everything =
    some ⟨3, c!"buildozer 'replace deps //p:a :a' //p:a\n", []⟩ := by decide +kernel
example : runCommand (disk (oneFile c!":a")) {} .canonicalizeDeps everything = some ⟨0, [], []⟩ := by decide +kernel

/-- The assumptions of `C92_stable_partial` hold for the example. -/
example : ∃ found files edits,
    Starts (disk (oneFile c!"//p:a")) {} .canonicalizeDeps everything [] found files ∧
    (∀ f ∈ files, Spec.WfPackage f.1) ∧ Nameable (matchingDeps everything (trees files)) ∧
    Shortens (matchingDeps everything (trees files)) edits ∧ edits ≠ [] ∧
    CarriedOut edits (evaluates {} .canonicalizeDeps) (disk (oneFile c!"//p:a")) (disk (oneFile c!":a")) [] everything
      found := by
  have hc : ∀ e ∈ oneFile c!"//p:a", cleanText e.2 = true := by decide +kernel
  have hw : workspaceOf (disk (oneFile c!"//p:a")) = some [] := by decide +kernel
  have hw' : workspaceOf (disk (oneFile c!":a")) = some [] := by decide +kernel
  obtain ⟨found, files, hs, ho⟩ := disk_starts hc hw {} .canonicalizeDeps everything (by decide +kernel) rfl
  have hfound : Collect.collectBuildFiles (disk (oneFile c!"//p:a")).tree
      (disk (oneFile c!"//p:a")).symlink [] everything 9 = some [c!"./p/BUILD"] := by decide +kernel
  have hfd : found = [c!"./p/BUILD"] := Option.some.inj (hs.opened.files.symm.trans hfound)
  subst hfd
  have hed : ((opened (disk (oneFile c!"//p:a")) [] {} .canonicalizeDeps everything).map fun o =>
      (matchingDeps everything (trees o.1), o.1.all fun f => plainB f.1)) =
      some ([(⟨⟨[], c!"p"⟩, c!"a"⟩, c!"//p:a")], true) := by decide +kernel
  rw [ho] at hed
  simp only [Option.map_some, Option.some.injEq, Prod.mk.injEq, List.all_eq_true] at hed
  refine ⟨_, files, [⟨.rename, ⟨⟨[], c!"p"⟩, c!"a"⟩, c!"//p:a", c!":a"⟩], hs,
    fun f hf => plainB_sound (hed.2 f hf), ?_, ?_, by simp, disk_carried rfl (by decide +kernel) (by rw [hw, hw'])⟩
  · rw [hed.1]
    intro x hx t ht
    rw [List.mem_singleton] at hx
    subst hx
    have : BazelTarget.parseFrom c!"//p:a" ⟨[], c!"p"⟩ = some ⟨⟨[], c!"p"⟩, c!"a"⟩ := by decide +kernel
    simp only [this, Option.some.injEq] at ht
    subst ht
    exact ⟨by simp, by simp⟩
  · rw [hed.1]
    refine ⟨by decide +kernel, ?_⟩
    intro e he
    rw [List.mem_singleton] at he
    subst he
    exact ⟨rfl, ⟨⟨[], c!"p"⟩, c!"a"⟩, by decide +kernel, by decide +kernel⟩

/-! ## C93: `dwyu` -/

theorem dwyu_depth (flags : Flags) : 0 ≤ depthOf flags .dwyu ∧ (depthOf flags .dwyu).toNat = limit flags ∧
    1 ≤ limit flags := by
  unfold depthOf limit intMax
  by_cases h : flags.depth ≤ 0
  · simp [h]
  · simp only [h, false_and, if_false]
    exact ⟨by omega, trivial, by omega⟩

/-- **C93**: what `dwyu` prints are the edits for the files that are opened, and those of all packages that are
reached from them. -/
theorem C93_dwyu {m : Machine} (hh : Healthy m) {flags : Flags} {pattern : BazelPattern} {ws : Workspace.Map}
    {found : List Str} {files : Loaded} (hs : Starts m flags .dwyu pattern ws found files) {now : Files}
    (hg : Grown m ws pattern (limit flags) files now) :
    (∀ f ∈ now, Searchable f.2) ∧
    ∃ edits, Dwyu.createDependencyEdits (sourcesFor m ws flags) pattern now = some edits ∧
      Suggests m flags .dwyu pattern (note found) edits := by
  have ho := starts_opened hh hs (by simp [needsProject])
  obtain ⟨hd1, hd2, _⟩ := dwyu_depth flags
  obtain ⟨l, now', g, hf, hfo⟩ := follow_spec hh ho (by rfl) hd1
  have hg' := hfo.grown
  rw [hd2] at hg'
  have : now' = now := grown_unique hg' hg
  subst this
  refine ⟨hfo.searchable, ?_⟩
  obtain ⟨of, h1, _⟩ := account_exists now' hfo.searchable (sourcesFor m ws flags) pattern
  refine ⟨_, h1, ?_⟩
  refine run_of hs.workspace ho hf ?_
  unfold sourcesFor at h1
  simp only [perform, hfo.same, h1, Commands.edits, Option.map_some, Option.some.injEq, Prod.mk.injEq, and_true]
  generalize List.flatMap _ _ = es
  cases es <;> simp

/-- **C93**, full statement: once the edits are carried out, there is nothing left to say. -/
def C93_statement : Prop :=
  ∀ (m m' : Machine) (flags : Flags) (pattern : BazelPattern) (ws : Workspace.Map) (found : List Str)
    (files files' : Loaded) (now now' : Files) (edits : List Edit), Healthy m → Healthy m' →
    Starts m flags .dwyu pattern ws found files → Grown m ws pattern (limit flags) files now →
    Starts m' flags .dwyu pattern ws found files' → Grown m' ws pattern (limit flags) files' now' →
    StableSpec.Sound now → StableSpec.Sound now' → (∀ x ∈ DwyuSpec.selected now pattern, x.1.project = []) →
    Dwyu.createDependencyEdits (sourcesFor m ws flags) pattern now = some edits →
    EditedPackages edits m m' ws files files' now now' →
    CommentsIn (sourcesFor m ws flags) (sourcesFor m' ws flags) now now' →
    (∀ path, ¬ IsBuild path → m'.fs.content path = m.fs.content path) →
    Suggests m' flags .dwyu pattern (note found) []

theorem grown_tree {m : Machine} {ws : Workspace.Map} {pattern : BazelPattern} {depth : Nat} {files : Loaded}
    (hasc : Ascending (files.map (·.1))) {now : Files}
    (hg : Grown m ws pattern depth files now) {pkg : BazelPackage} {ast : Node} (h : (pkg, ast) ∈ now) :
    GraphSpec.treeOf (world m ws) (trees files) pkg = some ast := by
  unfold GraphSpec.treeOf
  rcases (hg.each pkg ast).1 h with h | ⟨h1, h2, _⟩
  · rw [(mem_lookup (by rw [trees_keys]; exact hasc.nodup)).1 h]
  · rw [lookup_none.2 (by rw [trees_keys]; exact h1), h2]

/-- **C93** if the same packages are read the second time. -/
theorem C93_command_partial {m m' : Machine} (hh : Healthy m) (hh' : Healthy m') {flags : Flags}
    {pattern : BazelPattern} {ws : Workspace.Map} {found : List Str} {files files' : Loaded} {now now' : Files}
    (hs : Starts m flags .dwyu pattern ws found files) (hg : Grown m ws pattern (limit flags) files now)
    (hs' : Starts m' flags .dwyu pattern ws found files') (hg' : Grown m' ws pattern (limit flags) files' now')
    (hsame : ∀ pkg, pkg ∈ now.map (·.1) ↔ pkg ∈ now'.map (·.1)) (hf : StableSpec.Sound now)
    (hmain : ∀ x ∈ DwyuSpec.selected now pattern, x.1.project = []) {edits : List Edit}
    (hc : Dwyu.createDependencyEdits (sourcesFor m ws flags) pattern now = some edits)
    (hed : EditedPackages edits m m' ws files files' now now')
    (hcm : CommentsIn (sourcesFor m ws flags) (sourcesFor m' ws flags) now now')
    (hread : SourcesStay (sourcesFor m ws flags) (sourcesFor m' ws flags) now) :
    Suggests m' flags .dwyu pattern (note found) [] := by
  obtain ⟨h1, _⟩ := C93_dwyu hh hs hg
  obtain ⟨h1', edits', h2', h3'⟩ := C93_dwyu hh' hs' hg'
  have hp := pairs_of_keys (R := fun (f f' : BazelPackage × Node) =>
    Pairs (EditedRule edits f.1) (rulesOf [] f.2) (rulesOf [] f'.2) ∧
    Pairs (SameComments (sourcesFor m ws flags) (sourcesFor m' ws flags) f.1) (rulesOf [] f.2) (rulesOf [] f'.2))
    hg.order hg'.order hsame (by
      intro pkg ast ast' hm hm'
      refine ⟨?_, hcm pkg ast ast' hm hm'⟩
      obtain ⟨a, a', t1, t2, t3⟩ := hed pkg (.inl (List.mem_map.2 ⟨_, hm, rfl⟩))
      rw [grown_tree hs.opened.order hg hm] at t1
      rw [grown_tree hs'.opened.order hg' hm'] at t2
      cases t1
      cases t2
      exact t3)
  rw [C93_stable_partial h1 h1' hf hc hmain (pairs_mono hp fun _ _ h => ⟨h.1, h.2.1⟩)
    (pairs_mono hp fun _ _ h => h.2.2) hread rfl rfl] at h2'
  cases h2'
  exact h3'

/-- A package cannot be loaded if there is no file; edits do not change this. -/
theorem load_same {m m' : Machine} {ws : Workspace.Map} (h : ∀ path, m'.fs.canRead path = m.fs.canRead path)
    {pkg : BazelPackage} : DepGraph.load (world m ws) pkg = some none →
    DepGraph.load (world m' ws) pkg = some none := by
  have hp : DepGraph.pathForPackage (world m' ws) pkg = DepGraph.pathForPackage (world m ws) pkg := by
    unfold DepGraph.pathForPackage world
    rw [show m'.fs.canRead = m.fs.canRead from funext h]
  unfold DepGraph.load
  rw [hp]
  cases DepGraph.pathForPackage (world m ws) pkg with
  | none => exact id
  | some path =>
    intro hl
    exfalso
    simp only [] at hl
    split at hl
    · cases hl
    · split at hl
      · cases hl
      · obtain ⟨_, _, hl⟩ := Option.map_eq_some_iff.1 hl
        cases hl

/-- **C93** if everything that is needed is opened for the pattern, and the pattern matches all of it, like `//...`
in a project without external dependencies. -/
theorem C93_whole_partial {m m' : Machine} (hh : Healthy m) (hh' : Healthy m') {flags : Flags}
    {pattern : BazelPattern} {ws : Workspace.Map} {found : List Str} {files : Loaded}
    (hs : Starts m flags .dwyu pattern ws found files) (hg : Grown m ws pattern (limit flags) files (trees files))
    (hall : ∀ f ∈ files, ∀ t : BazelTarget, t.package = f.1 → pattern.matchTarget t = true)
    (hf : StableSpec.Sound (trees files)) (hmain : ∀ f ∈ files, f.1.project = []) {edits : List Edit}
    (hc : Dwyu.createDependencyEdits (sourcesFor m ws flags) pattern (trees files) = some edits)
    (hco : CarriedOut edits true m m' ws pattern found)
    (hcm : ∀ files', Starts m' flags .dwyu pattern ws found files' →
      CommentsIn (sourcesFor m ws flags) (sourcesFor m' ws flags) (trees files) (trees files'))
    (hread : SourcesStay (sourcesFor m ws flags) (sourcesFor m' ws flags) (trees files)) :
    Suggests m' flags .dwyu pattern (note found) [] := by
  obtain ⟨hsearch, _⟩ := C93_dwyu hh hs hg
  obtain ⟨files', hs', hkeys, hed⟩ := carried_out hh' hs (by simp [needsProject]) (by
    simpa [evaluates, searched] using hco)
  have hmain' : ∀ x ∈ DwyuSpec.selected (trees files) pattern, x.1.project = [] := by
    rintro ⟨pkg, r, t⟩ hx
    obtain ⟨⟨ast, h, _⟩, _⟩ := selected_iff.1 hx
    obtain ⟨g, hg, _⟩ := mem_trees.1 h
    exact hmain _ hg
  have hnd : ((trees files).map (·.1)).Nodup := by rw [trees_keys]; exact Ascending.nodup hs.opened.order
  have hnd' : ((trees files').map (·.1)).Nodup := by rw [trees_keys]; exact Ascending.nodup hs'.opened.order
  -- nothing else is loaded
  have hin : ∀ n t, ReachIn (world m' ws) pattern (trees files') n t →
      t.package ∈ files.map (·.1) ∨ DepGraph.load (world m' ws) t.package = some none := by
    intro n t h
    induction h with
    | @root t h =>
      obtain ⟨f, hfm, r, _, hq, _⟩ := h
      rw [qualifiedTarget_package hq, ← hkeys, ← trees_keys]
      exact .inl (List.mem_map.2 ⟨f, hfm, rfl⟩)
    | @step n t u _ he ih =>
      obtain ⟨r', ⟨ast', before, after, ht, hsplit, hq', _⟩, hu⟩ := he
      have hmem : (t.package, ast') ∈ trees files' := by
        refine (mem_lookup hnd').2 ?_
        unfold GraphSpec.treeOf at ht
        cases hl : lookup (trees files') t.package with
        | some a => rw [hl] at ht; exact ht
        | none =>
          rw [hl] at ht
          rcases ih with h | h
          · rw [lookup_none, trees_keys, hkeys] at hl
            exact absurd h hl
          · rw [h] at ht; cases ht
      obtain ⟨⟨pkg, ast⟩, hm, hpk, hp⟩ := pairs_right hed hmem
      simp only [] at hpk hp
      subst hpk
      obtain ⟨r, hr, hedr⟩ := pairs_right hp (show r' ∈ rulesOf [] ast' by rw [hsplit]; simp)
      have hq : t.package.qualifiedTarget r.name = some t := by rw [← hedr.same.name]; exact hq'
      have hold : ∀ d, d ∈ stringsOf r.deps ++ (if r.actual = [] then [] else [r.actual]) →
          BazelTarget.parseFrom d t.package = some u →
          u.package ∈ files.map (·.1) ∨ DepGraph.load (world m' ws) u.package = some none := by
        intro d hd hpar
        have hdef : Defines (world m ws) (trees files) t r := by
          obtain ⟨b, a, hb⟩ := List.append_of_mem hr
          refine ⟨ast, b, a, grown_tree hs.opened.order hg hm, hb, hq, fun r2 hr2 h2 => ?_⟩
          have h1 := hf.rules _ hm
          simp only [hb, List.filterMap_append, List.filterMap_cons, hq] at h1
          exact (List.nodup_append.1 h1).2.2 t (List.mem_filterMap.2 ⟨r2, hr2, h2⟩) t (by simp) rfl
        have hroot : ReachIn (world m ws) pattern (trees files) 0 t := by
          obtain ⟨g, hgm, _⟩ := mem_trees.1 hm
          exact .root ⟨_, hm, r, hr, hq, hall _ hgm t rfl⟩
        have hre : Reached m ws pattern (limit flags) files u :=
          ⟨1, (dwyu_depth flags).2.2, .step hroot ⟨r, hdef, List.mem_filterMap.2 ⟨d, hd, hpar⟩⟩⟩
        obtain ⟨tree, hl, _⟩ := loadsWell_of (w := world m ws) hh.readable hh.usable u.package
        cases tree with
        | none => exact .inr (load_same hco.readable hl)
        | some a =>
          by_cases hk : u.package ∈ files.map (·.1)
          · exact .inl hk
          · have := (hg.each u.package a).2 (.inr ⟨hk, hl, u, hre, rfl⟩)
            rw [← trees_keys]
            exact .inl (List.mem_map.2 ⟨_, this, rfl⟩)
      obtain ⟨d, hd, hpar⟩ := List.mem_filterMap.1 hu
      rw [hedr.same.actual, List.mem_append] at hd
      rcases hd with hd | hd
      · rcases (hedr.deps t hq d).1 hd with ⟨h1, _⟩ | h | ⟨old, _, h⟩
        · exact hold d (List.mem_append_left _ h1) hpar
        · obtain ⟨l, h1, _, f, hfm, r2, _, h3⟩ := C94_added_partial hsearch hf hc hmain' h rfl
          simp only [] at h1
          rw [h1] at hpar
          cases hpar
          rw [qualifiedTarget_package h3, ← trees_keys]
          exact .inl (List.mem_map.2 ⟨f, hfm, rfl⟩)
        · obtain ⟨_, _, _, _, _, removed, libs, _, _, ha, h⟩ := edit_account hsearch hc h
          rw [ha.emitted, List.mem_append, List.mem_map, List.mem_map] at h
          rcases h with ⟨_, _, h⟩ | ⟨_, _, h⟩ <;> cases h
      · exact hold d (List.mem_append_right _ hd) hpar
  have hg' : Grown m' ws pattern (limit flags) files' (trees files') := by
    refine ⟨by rw [trees_keys]; exact hs'.opened.order, fun pkg ast => ⟨.inl, ?_⟩⟩
    rintro (h | ⟨h1, h2, t, ⟨n, _, h3⟩, rfl⟩)
    · exact h
    · rcases hin n t h3 with h | h
      · exact absurd (hkeys ▸ h) h1
      · rw [h2] at h; cases h
  refine C93_command_partial hh hh' hs hg hs' hg' ?_ hf hmain' hc ?_ (hcm files' hs') hread
  · intro pkg
    rw [trees_keys, trees_keys, hkeys]
  · intro pkg hpkg
    rw [trees_keys, trees_keys, hkeys, or_self, ← trees_keys] at hpkg
    obtain ⟨⟨pkg, ast⟩, hm, rfl⟩ := List.mem_map.1 hpkg
    obtain ⟨⟨pkg', ast'⟩, hm', hpk, hp⟩ := pairs_left hed hm
    simp only [] at hpk hp
    subst hpk
    exact ⟨ast, ast', grown_tree hs.opened.order hg hm, grown_tree hs'.opened.order hg' hm', hp⟩

/-! ### Examples -/

/-- What can be computed of the assumptions of `C93`. -/
def checkEdits (m m' : Machine) (flags : Flags) (pattern : BazelPattern) : Option (List Edit × Bool) :=
  (opened m [] flags .dwyu pattern).bind fun o => (opened m' [] flags .dwyu pattern).bind fun o' =>
    (follow m [] flags .dwyu pattern o.1).bind fun r => (follow m' [] flags .dwyu pattern o'.1).bind fun r' =>
      (Dwyu.createDependencyEdits (sourcesFor m [] flags) pattern (trees r.1)).map fun es =>
        (es, packagesB es m m' [] o.1 o'.1 (trees r.1) (trees r'.1) && (soundB (trees r.1) && (soundB (trees r'.1) &&
          ((DwyuSpec.selected (trees r.1) pattern).all fun x => x.1.project = []))))

/-- Two states of a project in which the edits are carried out. -/
structure Example (m m' : Machine) (flags : Flags) (pattern : BazelPattern) (found : List Str) (files files' : Loaded)
    (now now' : Files) (edits : List Edit) : Prop where
  healthy : Healthy m
  healthy' : Healthy m'
  starts : Starts m flags .dwyu pattern [] found files
  grown : Grown m [] pattern (limit flags) files now
  starts' : Starts m' flags .dwyu pattern [] found files'
  grown' : Grown m' [] pattern (limit flags) files' now'
  sound : StableSpec.Sound now
  sound' : StableSpec.Sound now'
  main : ∀ x ∈ DwyuSpec.selected now pattern, x.1.project = []
  created : Dwyu.createDependencyEdits (sourcesFor m [] flags) pattern now = some edits
  edited : EditedPackages edits m m' [] files files' now now'
  comments : CommentsIn (sourcesFor m [] flags) (sourcesFor m' [] flags) now now'

theorem example_of {texts texts' : List (Str × Str)} {flags : Flags} {pattern : BazelPattern} {es : List Edit}
    (hc : ∀ e ∈ texts, cleanText e.2 = true) (hc' : ∀ e ∈ texts', cleanText e.2 = true)
    (hw : workspaceOf (disk texts) = some []) (hw' : workspaceOf (disk texts') = some [])
    (hf : (Collect.collectBuildFiles (disk texts).tree (disk texts).symlink [] pattern 9).isSome = true)
    (hf' : Collect.collectBuildFiles (disk texts').tree (disk texts').symlink [] pattern 9 =
      Collect.collectBuildFiles (disk texts).tree (disk texts).symlink [] pattern 9)
    (hk : checkEdits (disk texts) (disk texts') flags pattern = some (es, true)) :
    ∃ found files files' now now', Example (disk texts) (disk texts') flags pattern found files files' now now' es := by
  obtain ⟨found, files, hs, ho⟩ := disk_starts hc hw flags .dwyu pattern hf rfl
  obtain ⟨found', files', hs', ho'⟩ := disk_starts hc' hw' flags .dwyu pattern (by
    show (Collect.collectBuildFiles (disk texts').tree (disk texts').symlink [] pattern 9).isSome = true
    rw [hf']; exact hf) rfl
  have hfd : found' = found := by
    have h1 := hs.opened.files
    have h2 : Collect.collectBuildFiles (disk texts').tree (disk texts').symlink [] pattern 9 = some found' :=
      hs'.opened.files
    rw [hf'] at h2
    exact Option.some.inj (h2.symm.trans h1)
  subst hfd
  obtain ⟨hd1, hd2, _⟩ := dwyu_depth flags
  obtain ⟨l, now, g, hl, hfo⟩ := follow_spec (disk_healthy hc) ho (by rfl) hd1
  obtain ⟨l', now', g', hl', hfo'⟩ := follow_spec (disk_healthy hc') ho' (by rfl) hd1
  unfold checkEdits at hk
  rw [ho, ho'] at hk
  simp only [Option.bind_some, hl, hl', hfo.same, hfo'.same] at hk
  obtain ⟨es', he, hk⟩ := Option.map_eq_some_iff.1 hk
  simp only [Prod.mk.injEq, Bool.and_eq_true, List.all_eq_true, decide_eq_true_eq] at hk
  obtain ⟨rfl, h1, h2, h3, h4⟩ := hk
  have hg := hfo.grown
  have hg' := hfo'.grown
  rw [hd2] at hg hg'
  refine ⟨found', files, files', now, now', disk_healthy hc, disk_healthy hc', hs, hg, hs', hg', soundB_sound h2,
    soundB_sound h3, h4, he, packagesB_sound h1, ?_⟩
  intro pkg ast ast' hm hm'
  obtain ⟨a, a', t1, t2, t3⟩ := packagesB_sound h1 pkg (.inl (List.mem_map.2 ⟨_, hm, rfl⟩))
  rw [grown_tree hs.opened.order hg hm] at t1
  rw [grown_tree hs'.opened.order hg' hm'] at t2
  cases t1
  cases t2
  exact comments_of (fun _ _ _ => rfl) t3

/-- A rule includes two headers, and one of the libraries depends on the other. -/
def chain (deps : Str) : List (Str × Str) :=
  [(c!"p/BUILD", c!"cc_library(name=\"a\",srcs=[\"a.cc\"],deps=[" ++ deps ++ c!"])"),
   (c!"p/a.cc", c!"#include \"q/y.h\"\n#include \"r/z.h\"\n"),
   (c!"q/BUILD", c!"cc_library(name=\"x\",hdrs=[\"x.h\"])\ncc_library(name=\"y\",hdrs=[\"y.h\"],deps=[\"//r:z\"])"),
   (c!"r/BUILD", c!"cc_library(name=\"z\",hdrs=[\"z.h\"])")]

/-- Files that are not for Bazel are the same. -/
theorem chain_content {deps deps' path : Str} (h : ¬ IsBuild path) :
    (disk (chain deps')).fs.content path = (disk (chain deps)).fs.content path := by
  simp only [disk]
  split
  · rfl
  · have hp : plainPath path ≠ c!"p/BUILD" := by
      intro he
      apply h
      refine ⟨c!"BUILD", by simp, .inr ?_⟩
      unfold plainPath at he
      split at he
      · exact ⟨c!"./p", by rw [he]; rfl⟩
      · exact ⟨c!"p", by rw [he]; rfl⟩
    have hne : ∀ (text : Str) (l : List (Str × Str)), lookup ((c!"p/BUILD", text) :: l) (plainPath path) =
        lookup l (plainPath path) := by
      intro text l
      unfold lookup
      rw [List.find?_cons, decide_eq_false (p := c!"p/BUILD" = plainPath path) fun h => hp h.symm]
    rw [chain, chain, hne, hne]

/-- Only the first edit makes the second library known. -/
theorem C93_counterexample : ¬ C93_statement := by
  intro h
  obtain ⟨found, files, files', now, now', he⟩ := example_of (texts := chain c!"\"//q:x\"")
    (texts' := chain c!"\"//q:x\",\"//q:y\"") (flags := {}) (pattern := pat c!"//p:a")
    (es := [⟨.add, ⟨⟨[], c!"p"⟩, c!"a"⟩, [], c!"//q:y"⟩])
    (by decide +kernel) (by decide +kernel) (by decide +kernel) (by decide +kernel) (by decide +kernel)
    (by decide +kernel) (by decide +kernel)
  have := h _ _ _ _ _ _ _ _ _ _ _ he.healthy he.healthy' he.starts he.grown he.starts' he.grown' he.sound he.sound'
    he.main he.created he.edited he.comments (fun _ => chain_content)
  have hrun : (runCommand (disk (chain c!"\"//q:x\",\"//q:y\"")) {} .dwyu (pat c!"//p:a")).map (·.status) = some 3 := by
    decide +kernel
  unfold Suggests at this
  rw [this] at hrun
  cases hrun

/-- With everything opened, it is enough to carry out the edits once. -/
example : runCommand (disk (chain c!"\"//q:x\"")) {} .dwyu everything =
    some ⟨3, c!"buildozer 'remove deps //q:x' //p:a\nbuildozer 'add deps //q:y' //p:a\nbuildozer 'add deps //r:z' //p:a\n",
      []⟩ := by decide +kernel
example : runCommand (disk (chain c!"\"//q:y\",\"//r:z\"")) {} .dwyu everything = some ⟨0, [], []⟩ := by decide +kernel

/-- The edits for the example. -/
def chainEdits : List Edit :=
  [⟨.remove, ⟨⟨[], c!"p"⟩, c!"a"⟩, c!"//q:x", []⟩, ⟨.add, ⟨⟨[], c!"p"⟩, c!"a"⟩, [], c!"//q:y"⟩,
    ⟨.add, ⟨⟨[], c!"p"⟩, c!"a"⟩, [], c!"//r:z"⟩]

/-- The assumptions of `C93_command_partial` hold for the example. -/
theorem chain_example : ∃ found files files' now now',
    Example (disk (chain c!"\"//q:x\"")) (disk (chain c!"\"//q:y\",\"//r:z\"")) {} everything found files files' now now'
      chainEdits :=
  example_of (by decide +kernel) (by decide +kernel) (by decide +kernel) (by decide +kernel) (by decide +kernel)
    (by decide +kernel) (by decide +kernel)

/-- So do those of `C93_whole_partial` about the files. -/
example : CarriedOut chainEdits true (disk (chain c!"\"//q:x\"")) (disk (chain c!"\"//q:y\",\"//r:z\"")) [] everything
    [c!"./p/BUILD", c!"./q/BUILD", c!"./r/BUILD"] :=
  disk_carried rfl (by decide +kernel) (by decide +kernel)
example {t : BazelTarget} (h : t.package.project = []) : everything.matchTarget t = true := by
  simp [everything, BazelPattern.matchTarget, BazelPattern.matchPackage, h]

/-- A rule with a dependency that is not needed. -/
def spelled (dep : Str) : Str :=
  c!"cc_library(name=\"l\",srcs=[\"l.cc\"],deps=[\"" ++ dep ++ c!"\"])\ncc_library(name=\"x\",hdrs=[\"x.h\"])"

/-- The assumptions of `C94_spelling` hold for two ways to write it. -/
example : Respelled (envOf [(c!"p/l.cc", [])] [] false) (envOf [(c!"p/l.cc", [])] [] false)
    (projectOf (spelled c!":x")) (projectOf (spelled c!"//p:x")) :=
  respelledB_sound (fun _ _ _ => rfl) (fun _ _ _ => rfl) (by decide +kernel)
example : editsOf (spelled c!":x") [] [] = some [⟨.remove, ⟨⟨[], c!"p"⟩, c!"l"⟩, c!":x", []⟩] ∧
    editsOf (spelled c!"//p:x") [] [] = some [⟨.remove, ⟨⟨[], c!"p"⟩, c!"l"⟩, c!"//p:x", []⟩] := by
  exact ⟨by decide +kernel, by decide +kernel⟩

/-- A rule of another project that includes a header of the main project. -/
def away : Files :=
  [(⟨[], c!"q"⟩, Props.treeOf c!"cc_library(name=\"y\",hdrs=[\"y.h\"])"),
   (⟨c!"@e", c!"p"⟩, Props.treeOf c!"cc_library(name=\"a\",srcs=[\"a.cc\"])")]

def awayEnv : Dwyu.Env :=
  ⟨fun p => if p = c!"ext/e/p/a.cc" then some c!"#include \"q/y.h\"\n" else none, [(⟨c!"e", []⟩, c!"ext/e")],
    fun _ _ _ => [], false⟩

/-- In the other project, the name of the library means something else. -/
theorem C94_counterexample : ¬ C94_statement := by
  intro h
  have hs : ∀ f ∈ away, Searchable f.2 := by
    intro f hf
    simp only [away, List.mem_cons, List.not_mem_nil, or_false] at hf
    rcases hf with rfl | rfl
    · exact projectOf_searchable (text := c!"cc_library(name=\"y\",hdrs=[\"y.h\"])") (by decide +kernel)
        (somePkg, _) (by simp [projectOf])
    · exact projectOf_searchable (text := c!"cc_library(name=\"a\",srcs=[\"a.cc\"])") (by decide +kernel)
        (somePkg, _) (by simp [projectOf])
  have hsound : StableSpec.Sound away := by
    refine ⟨by decide, ?_, by decide +kernel, ?_⟩
    · intro f hf
      simp only [away, List.mem_cons, List.not_mem_nil, or_false] at hf
      rcases hf with rfl | rfl
      · exact plainB_sound (by decide)
      · exact ⟨.inr ⟨c!"e", rfl, by simp, by decide, by decide, by decide⟩, [c!"p"],
          by simp [Spec.WfComponent], by simp [Spec.joinPath]⟩
    · have : (away.all fun f => (rulesOf [] f.2).all fun r => (f.1.qualifiedTarget r.name).all fun t => ':' ∉ t.name) =
          true := by decide +kernel
      intro f hf r hr t ht
      have := List.all_eq_true.1 (List.all_eq_true.1 this f hf) r hr
      rw [ht] at this
      simpa using this
  have hc : Dwyu.createDependencyEdits awayEnv .always away = some [⟨.add, ⟨⟨c!"@e", c!"p"⟩, c!"a"⟩, [], c!"//q:y"⟩] := by
    decide +kernel
  obtain ⟨l, h1, _, f, hf, r, _, h2⟩ := h away awayEnv .always _ hs hsound hc _ (List.mem_singleton.2 rfl) rfl
  have hp : BazelTarget.parseFrom c!"//q:y" ⟨c!"@e", c!"p"⟩ = some ⟨⟨c!"@e", c!"q"⟩, c!"y"⟩ := by decide +kernel
  simp only [] at h1
  rw [hp] at h1
  cases h1
  have := qualifiedTarget_package h2
  simp only [away, List.mem_cons, List.not_mem_nil, or_false] at hf
  rcases hf with rfl | rfl <;> exact absurd this (by decide)

end Props
end Bant
