import Verif.Lemmas.CompDb
import Verif.Lemmas.Script

/-! Lemmas on the directories for headers. -/
namespace Bant
namespace CompDb
open Query Rules CompDbSpec

theorem contains_iff {w s : Str} : contains w s = true ↔ w <:+: s := by
  induction s with
  | nil => simp [contains]
  | cons c s ih =>
    rw [contains, Bool.or_eq_true, ih, List.infix_cons_iff]
    exact or_congr List.isPrefixOf_iff_prefix Iff.rfl

/-! ### Folds -/

/-- What each step establishes holds at the end. -/
theorem fold_covers {α : Type} {I : Once → Prop} {C : α → Once → Prop} {f : Once → α → Once}
    (mono : ∀ x o o', (∀ d ∈ o.result, d ∈ o'.result) → C x o → C x o') (l : List α)
    (step : ∀ x ∈ l, ∀ o, I o → I (f o x) ∧ C x (f o x) ∧ ∀ d ∈ o.result, d ∈ (f o x).result) :
    ∀ o, I o → I (l.foldl f o) ∧ (∀ x ∈ l, C x (l.foldl f o)) ∧ ∀ d ∈ o.result, d ∈ (l.foldl f o).result := by
  induction l with
  | nil => intro o h; exact ⟨h, by simp, fun _ h => h⟩
  | cons x l ih =>
    intro o h
    obtain ⟨h1, h2, h3⟩ := step x (by simp) o h
    obtain ⟨i1, i2, i3⟩ := ih (fun y hy => step y (by simp [hy])) _ h1
    refine ⟨i1, ?_, fun d hd => i3 d (h3 d hd)⟩
    intro y hy
    rcases List.mem_cons.1 hy with rfl | hy
    · exact mono y _ _ i3 h2
    · exact i2 y hy

theorem foldM_covers {α : Type} {I : Once → Prop} {C : α → Once → Prop} {f : Once → α → Option Once}
    (mono : ∀ x o o', (∀ d ∈ o.result, d ∈ o'.result) → C x o → C x o') (l : List α)
    (step : ∀ x ∈ l, ∀ o, I o → ∃ o', f o x = some o' ∧ I o' ∧ C x o' ∧ ∀ d ∈ o.result, d ∈ o'.result) :
    ∀ o, I o → ∃ o', l.foldlM f o = some o' ∧ I o' ∧ (∀ x ∈ l, C x o') ∧ ∀ d ∈ o.result, d ∈ o'.result := by
  induction l with
  | nil => intro o h; exact ⟨o, rfl, h, by simp, fun _ h => h⟩
  | cons x l ih =>
    intro o h
    obtain ⟨o1, h0, h1, h2, h3⟩ := step x (by simp) o h
    obtain ⟨o2, i0, i1, i2, i3⟩ := ih (fun y hy => step y (by simp [hy])) _ h1
    refine ⟨o2, by rw [List.foldlM_cons, h0]; exact i0, i1, ?_, fun d hd => i3 d (h3 d hd)⟩
    intro y hy
    rcases List.mem_cons.1 hy with rfl | hy
    · exact mono y _ _ i3 h2
    · exact i2 y hy

/-! ### The invariant -/

def hack : Str := c!"protobuf-extra-include-hack"

/-- Directories for projects called something with protobuf. -/
def protoDir (project : Str) (t : Str × Str) : Str :=
  generated project ++ c!"/src/google/protobuf/" ++ t.1 ++ c!"_virtual_includes/" ++ t.2

/-- What is known of the set and of the result. `proto`: the project called something with protobuf; `full`: its
directories are known to be there if its key is. -/
structure Good (ws : Workspace.Map) (files : List (BazelPackage × Node)) (proto : Str)
    (full : Prop) (o : Once) : Prop where
  sound : ∀ d ∈ o.result, Dir ws files d
  paths : ∀ k ∈ o.seen, k.head? ≠ some '@' → k ≠ hack → k ∈ o.result
  projects : ∀ k ∈ o.seen, k.head? = some '@' → ∀ dir, Workspace.findPath ws k = some dir →
    dir ∈ o.result ∧ generated k ∈ o.result
  protobuf : full → hack ∈ o.seen → ∀ t ∈ protoTargets, protoDir proto t ∈ o.result

variable {ws : Workspace.Map} {files : List (BazelPackage × Node)} {proto : Str} {full : Prop}

theorem add_mono (o : Once) (k : Str) (vs : List Str) : ∀ d ∈ o.result, d ∈ (o.add k vs).result := by
  intro d hd
  unfold Once.add
  split
  · exact hd
  · exact List.mem_append_left _ hd

/-- A directory that is its own key. -/
theorem add_dir {o : Once} (h : Good ws files proto full o) {d : Str} (hd : Dir ws files d) (h1 : d.head? ≠ some '@')
    (h2 : d ≠ hack) : Good ws files proto full (o.add d [d]) ∧ d ∈ (o.add d [d]).result := by
  unfold Once.add
  split
  · rename_i hs
    exact ⟨h, h.paths d hs h1 h2⟩
  · refine ⟨⟨?_, ?_, ?_, ?_⟩, by simp⟩
    · intro x hx
      rcases List.mem_append.1 hx with hx | hx
      · exact h.sound x hx
      · rw [List.mem_singleton.1 hx]; exact hd
    · intro k hk hk1 hk2
      rcases List.mem_cons.1 hk with rfl | hk
      · simp
      · exact List.mem_append_left _ (h.paths k hk hk1 hk2)
    · intro k hk hk1 dir hdir
      rcases List.mem_cons.1 hk with rfl | hk
      · exact absurd hk1 h1
      · obtain ⟨a, b⟩ := h.projects k hk hk1 dir hdir
        exact ⟨List.mem_append_left _ a, List.mem_append_left _ b⟩
    · intro hfull hk t ht
      rcases List.mem_cons.1 hk with hk | hk
      · exact absurd hk.symm h2
      · exact List.mem_append_left _ (h.protobuf hfull hk t ht)

/-- Another project. -/
theorem add_project {o : Once} (h : Good ws files proto full o) {p : Str} (hp : DependsOnProject files p)
    (h1 : p.head? = some '@') :
    let o' := o.add p (match Workspace.findPath ws p with
      | none => []
      | some dir => [dir, c!"bazel-bin/external/" ++ p.drop 1])
    Good ws files proto full o' ∧ ∀ dir, Workspace.findPath ws p = some dir → dir ∈ o'.result ∧ generated p ∈ o'.result := by
  intro o'
  have hne : p ≠ hack := by rintro rfl; revert h1; decide
  have own : ∀ dir, Workspace.findPath ws p = some dir → p ∉ o.seen →
      o' = ⟨p :: o.seen, o.result ++ [dir, generated p]⟩ := by
    intro dir hdir hs
    simp only [o', Once.add, hs, hdir, if_false]
    rfl
  have none_ : Workspace.findPath ws p = none → p ∉ o.seen → o' = ⟨p :: o.seen, o.result ++ []⟩ := by
    intro hdir hs
    simp only [o', Once.add, hs, hdir, if_false]
  by_cases hs : p ∈ o.seen
  · have : o' = o := by simp only [o', Once.add, hs, if_true]
    rw [this]
    exact ⟨h, fun dir hdir => h.projects p hs h1 dir hdir⟩
  · have key : ∃ vs, o' = ⟨p :: o.seen, o.result ++ vs⟩ ∧ (∀ v ∈ vs, Dir ws files v) ∧
        ∀ dir, Workspace.findPath ws p = some dir → dir ∈ vs ∧ generated p ∈ vs := by
      cases hf : Workspace.findPath ws p with
      | none => exact ⟨[], none_ hf hs, by simp, by simp⟩
      | some dir =>
        refine ⟨_, own dir hf hs, ?_, ?_⟩
        · intro v hv
          simp only [List.mem_cons, List.not_mem_nil, or_false] at hv
          rcases hv with rfl | rfl
          · exact .project hp hf
          · exact .generatedFor hp hf
        · intro dir' hd; cases hd; simp
    obtain ⟨vs, e, hv, hd⟩ := key
    rw [e]
    refine ⟨⟨?_, ?_, ?_, ?_⟩, ?_⟩
    · intro x hx
      rcases List.mem_append.1 hx with hx | hx
      · exact h.sound x hx
      · exact hv x hx
    · intro k hk hk1 hk2
      rcases List.mem_cons.1 hk with rfl | hk
      · exact absurd h1 hk1
      · exact List.mem_append_left _ (h.paths k hk hk1 hk2)
    · intro k hk hk1 dir hdir
      rcases List.mem_cons.1 hk with rfl | hk
      · exact ⟨List.mem_append_right _ (hd dir hdir).1, List.mem_append_right _ (hd dir hdir).2⟩
      · obtain ⟨a, b⟩ := h.projects k hk hk1 dir hdir
        exact ⟨List.mem_append_left _ a, List.mem_append_left _ b⟩
    · intro hfull hk t ht
      rcases List.mem_cons.1 hk with hk | hk
      · exact absurd hk.symm hne
      · exact List.mem_append_left _ (h.protobuf hfull hk t ht)
    · intro dir hdir
      exact ⟨List.mem_append_right _ (hd dir hdir).1, List.mem_append_right _ (hd dir hdir).2⟩

/-- Directories in the output do not begin with `@`. -/
theorem generated_start (p s : Str) : (generated p ++ s).head? ≠ some '@' ∧ generated p ++ s ≠ hack := by
  constructor
  · simp [generated]
  · intro h
    have : (generated p ++ s).head? = hack.head? := by rw [h]
    simp [generated, hack] at this

/-- The hack, if it has not been done. -/
theorem add_protos {project : Str} (hd : ∀ t ∈ protoTargets, Dir ws files (protoDir project t)) :
    ∀ (ts : List (Str × Str)), (∀ t ∈ ts, t ∈ protoTargets) → ∀ o, Good ws files proto full o →
    let o' := ts.foldl (fun o t => o.add (protoDir project t) [protoDir project t]) o
    Good ws files proto full o' ∧ (∀ t ∈ ts, protoDir project t ∈ o'.result) ∧ ∀ d ∈ o.result, d ∈ o'.result := by
  intro ts hts o ho
  refine fold_covers (I := Good ws files proto full) (C := fun t o => protoDir project t ∈ o.result)
    (fun x o o' hm h => hm _ h) ts ?_ o ho
  intro t ht o h
  have hs : (protoDir project t).head? ≠ some '@' ∧ protoDir project t ≠ hack := by
    unfold protoDir
    rw [List.append_assoc, List.append_assoc, List.append_assoc]
    exact generated_start project _
  obtain ⟨a, b⟩ := add_dir h (hd t (hts t ht)) hs.1 hs.2
  exact ⟨a, b, add_mono o _ _⟩

theorem Good.weaken {o : Once} (h : Good ws files proto True o) : Good ws files proto False o :=
  ⟨h.sound, h.paths, h.projects, False.elim⟩

theorem Good.strengthen {o : Once} (h : Good ws files proto False o) (hp : ∀ t ∈ protoTargets, protoDir proto t ∈ o.result) :
    Good ws files proto True o :=
  ⟨h.sound, h.paths, h.projects, fun _ _ => hp⟩

/-- What a rule in a project called something with protobuf contributes. -/
theorem hack_good {pkg : BazelPackage} {r : Result} {t : BazelTarget} (hr : CcRule files pkg r)
    (ht : pkg.qualifiedTarget r.name = some t) (hpr : c!"protobuf" <:+: pkg.project → pkg.project = proto)
    {o : Once} (h : Good ws files proto True o) :
    let o' := protobufHack t (r.rule = c!"proto_library") o
    Good ws files proto True o' ∧ (∀ d ∈ o.result, d ∈ o'.result) ∧
      (c!"protobuf" <:+: pkg.project →
        (∀ x ∈ protoTargets, protoDir pkg.project x ∈ o'.result) ∧
        (r.rule = c!"proto_library" →
          generated pkg.project ++ c!"/src/google/protobuf/_virtual_includes/" ++ t.name ∈ o'.result)) := by
  have hpk : t.package = pkg := by
    unfold BazelPackage.qualifiedTarget at ht
    split at ht
    · cases ht
    · simp only [Option.ite_none_left_eq_some] at ht
      obtain ⟨_, ht⟩ := ht
      cases ht; rfl
  intro o'
  by_cases hc : c!"protobuf" <:+: pkg.project
  · have hcb : contains c!"protobuf" t.package.project = true := by rw [hpk]; exact contains_iff.2 hc
    have hproto : pkg.project = proto := hpr hc
    have hdir : ∀ x ∈ protoTargets, Dir ws files (protoDir pkg.project x) := fun x hx => .protobuf hr hc hx
    obtain ⟨o1, ho1, g1, m1, c1⟩ : ∃ o1, (if hack ∈ o.seen then o
        else protoTargets.foldl (fun o x => o.add (protoDir pkg.project x) [protoDir pkg.project x]) (o.add hack [])) = o1 ∧
        Good ws files proto True o1 ∧ (∀ d ∈ o.result, d ∈ o1.result) ∧
        ∀ x ∈ protoTargets, protoDir pkg.project x ∈ o1.result := by
      by_cases hk : hack ∈ o.seen
      · refine ⟨o, if_pos hk, h, fun _ h => h, ?_⟩
        rw [hproto]
        exact h.protobuf trivial hk
      · refine ⟨_, if_neg hk, ?_⟩
        have h0 : Good ws files proto False (o.add hack []) := by
          simp only [Once.add, hk, if_false, List.append_nil]
          refine ⟨h.sound, ?_, ?_, False.elim⟩
          · intro k hm h1 h2
            rcases List.mem_cons.1 hm with rfl | hm
            · exact absurd rfl h2
            · exact h.paths k hm h1 h2
          · intro k hm h1
            rcases List.mem_cons.1 hm with rfl | hm
            · exact absurd h1 (by decide)
            · exact h.projects k hm h1
        obtain ⟨a, b, c⟩ := add_protos hdir protoTargets (fun _ h => h) _ h0
        refine ⟨a.strengthen (by rw [← hproto]; exact b), fun d hd => c d (add_mono o _ _ d hd), b⟩
    have e : o' = if r.rule = c!"proto_library" then
        o1.add (generated pkg.project ++ c!"/src/google/protobuf/_virtual_includes/" ++ t.name)
          [generated pkg.project ++ c!"/src/google/protobuf/_virtual_includes/" ++ t.name] else o1 := by
      rw [← ho1, ← hpk]
      simp only [o', protobufHack, hcb, not_true, if_false, decide_eq_true_eq]
      simp only [generated, protoDir, hack, List.append_assoc, List.cons_append, List.nil_append]
    rw [e]
    split
    · rename_i hrule
      have hs : (generated pkg.project ++ c!"/src/google/protobuf/_virtual_includes/" ++ t.name).head? ≠ some '@' ∧
          generated pkg.project ++ c!"/src/google/protobuf/_virtual_includes/" ++ t.name ≠ hack := by
        rw [List.append_assoc]; exact generated_start _ _
      obtain ⟨a, b⟩ := add_dir g1 (.protoLibrary hr hc hrule ht) hs.1 hs.2
      exact ⟨a, fun d hd => add_mono _ _ _ d (m1 d hd), fun _ => ⟨fun x hx => add_mono _ _ _ _ (c1 x hx), fun _ => b⟩⟩
    · rename_i hrule
      exact ⟨g1, m1, fun _ => ⟨c1, fun hr => absurd hr hrule⟩⟩
  · have hcb : contains c!"protobuf" t.package.project = false := by
      rw [hpk]
      cases hx : contains c!"protobuf" pkg.project with
      | false => rfl
      | true => exact absurd (contains_iff.1 hx) hc
    have e : o' = o := by simp only [o', protobufHack, hcb]; simp
    rw [e]
    exact ⟨h, fun _ h => h, fun h => absurd h hc⟩

/-- All that a rule contributes. -/
structure Covers (ws : Workspace.Map) (pkg : BazelPackage) (r : Result) (o : Once) : Prop where
  includes : ∀ d ∈ stringsOf r.includes, pkg.fullyQualifiedFile ws d ∈ o.result
  virtual : r.includePrefix ≠ [] → ∀ t, pkg.qualifiedTarget r.name = some t →
    generated pkg.project ++ c!"/" ++ pkg.path ++ c!"/_virtual_includes/" ++ t.name ∈ o.result
  deps : ∀ d ∈ stringsOf r.deps, ∀ t, BazelTarget.parseFrom d pkg = some t → t.package.project ≠ [] →
    ∀ dir, Workspace.findPath ws t.package.project = some dir → dir ∈ o.result ∧ generated t.package.project ∈ o.result
  protos : c!"protobuf" <:+: pkg.project → ∀ x ∈ protoTargets, protoDir pkg.project x ∈ o.result
  protoLibrary : c!"protobuf" <:+: pkg.project → r.rule = c!"proto_library" → ∀ t, pkg.qualifiedTarget r.name = some t →
    generated pkg.project ++ c!"/src/google/protobuf/_virtual_includes/" ++ t.name ∈ o.result

theorem Covers.mono {pkg : BazelPackage} {r : Result} {o o' : Once} (hm : ∀ d ∈ o.result, d ∈ o'.result)
    (h : Covers ws pkg r o) : Covers ws pkg r o' :=
  ⟨fun d hd => hm _ (h.includes d hd), fun h1 t ht => hm _ (h.virtual h1 t ht),
    fun d hd t ht h1 dir hdir => ⟨hm _ (h.deps d hd t ht h1 dir hdir).1, hm _ (h.deps d hd t ht h1 dir hdir).2⟩,
    fun h1 x hx => hm _ (h.protos h1 x hx), fun h1 h2 t ht => hm _ (h.protoLibrary h1 h2 t ht)⟩

/-- A rule that can be handled. -/
def Handled (pkg : BazelPackage) (r : Result) : Prop :=
  (pkg.qualifiedTarget r.name).isSome = true ∧ (r.includePrefix ≠ [] → pkg.project ≠ [])

theorem qualified_package {pkg : BazelPackage} {name : Str} {t : BazelTarget} (ht : pkg.qualifiedTarget name = some t) :
    t.package = pkg := by
  unfold BazelPackage.qualifiedTarget at ht
  split at ht
  · cases ht
  · simp only [Option.ite_none_left_eq_some] at ht
    obtain ⟨_, ht⟩ := ht
    cases ht; rfl

/-- One rule that can be handled, in parts. -/
theorem addRule_eq {pkg : BazelPackage} {r : Result} {t : BazelTarget}
    (hi : stringList r.includes = some (stringsOf r.includes)) (hd : stringList r.deps = some (stringsOf r.deps))
    (ht : pkg.qualifiedTarget r.name = some t) (hp : r.includePrefix ≠ [] → pkg.project ≠ []) (o : Once) :
    addRule ws pkg o r = some ((stringsOf r.deps).foldl (addDep ws pkg)
      (protobufHack t (r.rule = c!"proto_library")
        (let o1 := (stringsOf r.includes).foldl
          (fun o d => o.add (pkg.fullyQualifiedFile ws d) [pkg.fullyQualifiedFile ws d]) o
        if r.includePrefix = [] then o1 else
          o1.add (generated pkg.project ++ c!"/" ++ pkg.path ++ c!"/_virtual_includes/" ++ t.name)
            [generated pkg.project ++ c!"/" ++ pkg.path ++ c!"/_virtual_includes/" ++ t.name]))) := by
  have hpk := qualified_package ht
  unfold addRule
  simp only [hi, hd, ht, Option.bind_eq_bind, Option.bind_some]
  by_cases h : r.includePrefix = []
  · simp [h]
  · have := hp h
    simp [h, virtualDir, hpk, this, generated]

theorem addRule_none {pkg : BazelPackage} {r : Result}
    (hi : stringList r.includes = some (stringsOf r.includes)) (h : ¬ Handled pkg r) (o : Once) :
    addRule ws pkg o r = none := by
  unfold addRule
  simp only [hi, Option.bind_eq_bind, Option.bind_some]
  cases ht : pkg.qualifiedTarget r.name with
  | none =>
    by_cases hp : r.includePrefix = []
    · simp [hp]
    · simp [hp, virtualDir]
  | some t =>
    have hpk := qualified_package ht
    have hp : r.includePrefix ≠ [] ∧ pkg.project = [] := by
      refine Classical.byContradiction fun hn => h ⟨by rw [ht]; rfl, fun h1 h2 => hn ⟨h1, h2⟩⟩
    simp [hp.1, virtualDir, hpk, hp.2]

theorem addDep_good {pkg : BazelPackage} {r : Result} (hr : CcRule files pkg r)
    (hn : pkg.project = [] ∨ pkg.project.head? = some '@') {d : Str} (hd : d ∈ stringsOf r.deps) {o : Once}
    (h : Good ws files proto full o) :
    Good ws files proto full (addDep ws pkg o d) ∧
    (∀ t, BazelTarget.parseFrom d pkg = some t → t.package.project ≠ [] →
      ∀ dir, Workspace.findPath ws t.package.project = some dir →
        dir ∈ (addDep ws pkg o d).result ∧ generated t.package.project ∈ (addDep ws pkg o d).result) ∧
    ∀ x ∈ o.result, x ∈ (addDep ws pkg o d).result := by
  unfold addDep
  split
  · rename_i hp
    refine ⟨h, fun t ht => ?_, fun _ h => h⟩
    rw [hp] at ht; cases ht
  · rename_i t hp
    by_cases hne : t.package.project = []
    · simp only [hne, if_true]
      refine ⟨h, fun t' ht h1 => ?_, fun _ h => h⟩
      rw [hp] at ht; cases ht
      exact absurd hne h1
    · simp only [hne, if_false]
      have hat : t.package.project.head? = some '@' := by
        rcases (ScriptSpec.parseTarget_subset hp).2.2.2 with h1 | h1 | h1
        · exact absurd h1 hne
        · exact h1
        · rcases hn with h2 | h2
          · exact absurd (h1.trans h2) hne
          · rw [h1]; exact h2
      obtain ⟨a, b⟩ := add_project h ⟨pkg, r, d, t, hr, hd, hp, rfl, hne⟩ hat
      refine ⟨a, fun t' ht _ dir hdir => ?_, add_mono _ _ _⟩
      rw [hp] at ht; cases ht
      exact b dir hdir

theorem addRule_good {pkg : BazelPackage} {r : Result} (hc : NoClash ws files) (hr : CcRule files pkg r)
    (hpr : c!"protobuf" <:+: pkg.project → pkg.project = proto)
    (hi : stringList r.includes = some (stringsOf r.includes)) (hd : stringList r.deps = some (stringsOf r.deps))
    (hh : Handled pkg r) (o : Once) (h : Good ws files proto True o) :
    ∃ o', addRule ws pkg o r = some o' ∧ Good ws files proto True o' ∧ Covers ws pkg r o' ∧
      ∀ d ∈ o.result, d ∈ o'.result := by
  obtain ⟨t, ht⟩ := Option.isSome_iff_exists.1 hh.1
  refine ⟨_, addRule_eq hi hd ht hh.2 o, ?_⟩
  have hn : pkg.project = [] ∨ pkg.project.head? = some '@' := by
    obtain ⟨ast, hf, _⟩ := hr
    exact hc.named _ hf
  -- includes
  obtain ⟨a1, a2, a3⟩ := fold_covers (I := Good ws files proto True)
    (C := fun d o => pkg.fullyQualifiedFile ws d ∈ o.result)
    (f := fun o d => o.add (pkg.fullyQualifiedFile ws d) [pkg.fullyQualifiedFile ws d])
    (fun x o o' hm h => hm _ h) (stringsOf r.includes)
    (by
      intro d hd o h
      obtain ⟨h1, h2⟩ := hc.dirs pkg r d hr hd
      obtain ⟨g1, g2⟩ := add_dir h (.declared hr hd) h1 h2
      exact ⟨g1, g2, add_mono _ _ _⟩) o h
  revert a1 a2 a3
  generalize (stringsOf r.includes).foldl
    (fun o d => o.add (pkg.fullyQualifiedFile ws d) [pkg.fullyQualifiedFile ws d]) o = o1
  intro a1 a2 a3
  simp only []
  -- the virtual directory
  have vs : ∀ o2, o2 = (if r.includePrefix = [] then o1 else
          o1.add (generated pkg.project ++ c!"/" ++ pkg.path ++ c!"/_virtual_includes/" ++ t.name)
            [generated pkg.project ++ c!"/" ++ pkg.path ++ c!"/_virtual_includes/" ++ t.name]) →
      Good ws files proto True o2 ∧ (r.includePrefix ≠ [] →
        generated pkg.project ++ c!"/" ++ pkg.path ++ c!"/_virtual_includes/" ++ t.name ∈ o2.result) ∧
      ∀ d ∈ o1.result, d ∈ o2.result := by
    rintro o2 rfl
    split
    · rename_i hp
      exact ⟨a1, fun h => absurd hp h, fun _ h => h⟩
    · rename_i hp
      have hs : (generated pkg.project ++ c!"/" ++ pkg.path ++ c!"/_virtual_includes/" ++ t.name).head? ≠ some '@' ∧
          generated pkg.project ++ c!"/" ++ pkg.path ++ c!"/_virtual_includes/" ++ t.name ≠ hack := by
        rw [List.append_assoc, List.append_assoc, List.append_assoc]; exact generated_start _ _
      obtain ⟨g1, g2⟩ := add_dir a1 (.virtual hr hp ht) hs.1 hs.2
      exact ⟨g1, fun _ => g2, add_mono _ _ _⟩
  obtain ⟨b1, b2, b3⟩ := vs _ rfl
  clear vs
  revert b1 b2 b3
  generalize (if r.includePrefix = [] then o1 else
          o1.add (generated pkg.project ++ c!"/" ++ pkg.path ++ c!"/_virtual_includes/" ++ t.name)
            [generated pkg.project ++ c!"/" ++ pkg.path ++ c!"/_virtual_includes/" ++ t.name]) = o2
  intro b1 b2 b3
  -- protobuf
  obtain ⟨c1, c2, c3⟩ := hack_good hr ht hpr b1
  revert c1 c2 c3
  generalize protobufHack t (r.rule = c!"proto_library") o2 = o3
  intro c1 c2 c3
  -- dependencies
  obtain ⟨d1, d2, d3⟩ := fold_covers (I := Good ws files proto True)
    (C := fun d o => ∀ t, BazelTarget.parseFrom d pkg = some t → t.package.project ≠ [] →
      ∀ dir, Workspace.findPath ws t.package.project = some dir →
        dir ∈ o.result ∧ generated t.package.project ∈ o.result)
    (f := addDep ws pkg)
    (fun x o o' hm h t ht h1 dir hdir => ⟨hm _ (h t ht h1 dir hdir).1, hm _ (h t ht h1 dir hdir).2⟩) (stringsOf r.deps)
    (fun d hd o h => addDep_good hr hn hd h) o3 c1
  refine ⟨d1, ⟨?_, ?_, d2, ?_, ?_⟩, ?_⟩
  · intro d hd; exact d3 _ (c2 _ (b3 _ (a2 d hd)))
  · intro hp t' ht'
    rw [ht] at ht'; cases ht'
    exact d3 _ (c2 _ (b2 hp))
  · intro hp x hx; exact d3 _ ((c3 hp).1 x hx)
  · intro hp hrule t' ht'
    rw [ht] at ht'; cases ht'
    exact d3 _ ((c3 hp).2 hrule)
  · intro d hd; exact d3 _ (c2 _ (b3 _ (a3 d hd)))

/-! ### All files -/

theorem rule_lists {ast : Node} (h : Searchable ast) {kinds : List Str} {r : Result} (hr : r ∈ rulesOf kinds ast) :
    stringList r.includes = some (stringsOf r.includes) ∧ stringList r.deps = some (stringsOf r.deps) :=
  ⟨stringList_rule h hr (by simp [listsOf]), stringList_rule h hr (by simp [listsOf])⟩

theorem addFile_eq {f : BazelPackage × Node} (h : Searchable f.2) (o : Once) :
    addFile ws o f = (rulesOf [c!"cc_library", c!"cc_binary", c!"cc_test", c!"proto_library"] f.2).foldlM
      (addRule ws f.1) o := by
  unfold addFile
  rw [findTargets_report _ h.proper]
  rfl

theorem foldlM_none {α σ : Type} {f : σ → α → Option σ} {l : List α} (h : ∃ x ∈ l, ∀ s, f s x = none) (s : σ) :
    l.foldlM f s = none := by
  induction l generalizing s with
  | nil => obtain ⟨_, h, _⟩ := h; cases h
  | cons y l ih =>
    rw [List.foldlM_cons]
    obtain ⟨x, hx, hn⟩ := h
    rcases List.mem_cons.1 hx with rfl | hx
    · rw [hn]; rfl
    · cases f s y with
      | none => rfl
      | some s' => exact ih ⟨x, hx, hn⟩ s'

theorem incDirs_none (hs : ∀ f ∈ files, Searchable f.2) (h : ∃ pkg r, CcRule files pkg r ∧ ¬ Handled pkg r) :
    incDirs ws files = none := by
  obtain ⟨pkg, r, ⟨ast, hf, hr⟩, hn⟩ := h
  unfold incDirs
  rw [foldlM_none ⟨(pkg, ast), hf, fun s => ?_⟩]
  · rfl
  · rw [addFile_eq (hs _ hf)]
    exact foldlM_none ⟨r, hr, fun s => addRule_none (rule_lists (hs _ hf) hr).1 hn s⟩ s

/-- It is known whether the directories can be found, also if there are clashes. -/
theorem incDirs_some (hs : ∀ f ∈ files, Searchable f.2) (h : ∀ pkg r, CcRule files pkg r → Handled pkg r) :
    ∃ dirs, incDirs ws files = some dirs := by
  obtain ⟨o, ho, _⟩ := foldM_covers (I := fun _ => True) (C := fun _ _ => True) (f := addFile ws)
    (fun _ _ _ _ h => h) files
    (by
      intro f hf o _
      rw [addFile_eq (hs f hf)]
      obtain ⟨o', h1, _⟩ := foldM_covers (I := fun _ => True) (C := fun _ _ => True) (f := addRule ws f.1)
        (fun _ _ _ _ h => h) (rulesOf [c!"cc_library", c!"cc_binary", c!"cc_test", c!"proto_library"] f.2)
        (by
          intro r hr o _
          have hh := h f.1 r ⟨f.2, hf, hr⟩
          obtain ⟨t, ht⟩ := Option.isSome_iff_exists.1 hh.1
          obtain ⟨hi, hd⟩ := rule_lists (hs f hf) hr
          refine ⟨_, addRule_eq hi hd ht hh.2 o, trivial, trivial, ?_⟩
          intro d hd
          have m1 : ∀ (l : List Str) (o : Once), d ∈ o.result → d ∈ (l.foldl
              (fun o d => o.add (f.1.fullyQualifiedFile ws d) [f.1.fullyQualifiedFile ws d]) o).result := by
            intro l
            induction l with
            | nil => intro o h; exact h
            | cons x l ih => intro o h; exact ih _ (add_mono _ _ _ _ h)
          have m2 : ∀ (l : List Str) (o : Once), d ∈ o.result → d ∈ (l.foldl (addDep ws f.1) o).result := by
            intro l
            induction l with
            | nil => intro o h; exact h
            | cons x l ih =>
              intro o h
              refine ih _ ?_
              unfold addDep
              split
              · exact h
              · simp only []
                split
                · exact h
                · exact add_mono _ _ _ _ h
          have m3 : ∀ o : Once, d ∈ o.result → d ∈ (protobufHack t (r.rule = c!"proto_library") o).result := by
            intro o h
            unfold protobufHack
            simp only []
            split
            · exact h
            · have : ∀ (l : List (Str × Str)) (g : Str × Str → Str) (o : Once), d ∈ o.result →
                  d ∈ (l.foldl (fun o x => o.add (g x) [g x]) o).result := by
                intro l g
                induction l with
                | nil => intro o h; exact h
                | cons x l ih => intro o h; exact ih _ (add_mono _ _ _ _ h)
              have base : d ∈ (if c!"protobuf-extra-include-hack" ∈ o.seen then o
                  else protoTargets.foldl (fun o x => o.add (c!"bazel-bin/external/" ++ t.package.project.drop 1 ++
                    c!"/src/google/protobuf/" ++ x.1 ++ c!"_virtual_includes/" ++ x.2) [c!"bazel-bin/external/" ++
                    t.package.project.drop 1 ++ c!"/src/google/protobuf/" ++ x.1 ++ c!"_virtual_includes/" ++ x.2])
                    (o.add c!"protobuf-extra-include-hack" [])).result := by
                split
                · exact h
                · exact this _ _ _ (add_mono _ _ _ _ h)
              split
              · exact add_mono _ _ _ _ base
              · exact base
          refine m2 _ _ (m3 _ ?_)
          simp only []
          split
          · exact m1 _ _ hd
          · exact add_mono _ _ _ _ (m1 _ _ hd)) o trivial
      obtain ⟨h2, _, h3⟩ := ‹_ ∧ _›
      exact ⟨o', h1, trivial, trivial, h3⟩) {} trivial
  exact ⟨_, by rw [incDirs, ho]; rfl⟩

theorem incDirs_spec (hs : ∀ f ∈ files, Searchable f.2) (h : ∀ pkg r, CcRule files pkg r → Handled pkg r)
    (hc : NoClash ws files) : ∃ dirs, incDirs ws files = some dirs ∧ ∀ d, d ∈ dirs ↔ Dir ws files d := by
  obtain ⟨proto, hproto⟩ : ∃ proto, ∀ pkg r, CcRule files pkg r → c!"protobuf" <:+: pkg.project → pkg.project = proto := by
    by_cases hx : ∃ pkg r, CcRule files pkg r ∧ c!"protobuf" <:+: pkg.project
    · obtain ⟨pkg, r, h1, h2⟩ := hx
      exact ⟨pkg.project, fun pkg' r' h1' h2' => hc.one _ _ _ _ h1' h1 h2' h2⟩
    · exact ⟨[], fun pkg r h1 h2 => absurd ⟨pkg, r, h1, h2⟩ hx⟩
  obtain ⟨o, ho, hg, hcov, _⟩ := foldM_covers (I := Good ws files proto True)
    (C := fun (f : BazelPackage × Node) o => ∀ r ∈ rulesOf [c!"cc_library", c!"cc_binary", c!"cc_test", c!"proto_library"] f.2, Covers ws f.1 r o)
    (f := addFile ws) (by intro _ _ _ hm h r hr; exact (h r hr).mono hm) files
    (by
      intro f hf o ho
      rw [addFile_eq (hs f hf)]
      exact foldM_covers (I := Good ws files proto True) (C := fun r o => Covers ws f.1 r o)
        (fun _ _ _ hm h => h.mono hm) _
        (by
          intro r hr o ho
          have hcc : CcRule files f.1 r := ⟨f.2, hf, hr⟩
          obtain ⟨hi, hd⟩ := rule_lists (hs f hf) hr
          exact addRule_good hc hcc (hproto f.1 r hcc) hi hd (h f.1 r hcc) o ho) o ho)
    {} ⟨by simp, by simp, by simp, by simp⟩
  refine ⟨_, by rw [incDirs, ho]; rfl, fun d => ?_⟩
  have cov : ∀ {pkg r}, CcRule files pkg r → Covers ws pkg r o := by
    rintro pkg r ⟨ast, hf, hr⟩
    exact hcov _ hf r hr
  simp only [List.mem_cons]
  constructor
  · rintro (rfl | rfl | h)
    · exact .here
    · exact .output
    · exact hg.sound d h
  · intro h
    cases h with
    | here => simp
    | output => simp
    | declared hr hd => exact .inr (.inr ((cov hr).includes _ hd))
    | virtual hr hp ht => exact .inr (.inr ((cov hr).virtual hp _ ht))
    | project hp hf =>
      obtain ⟨pkg, r, d, t, hr, hd, ht, rfl, hne⟩ := hp
      exact .inr (.inr ((cov hr).deps d hd t ht hne _ hf).1)
    | generatedFor hp hf =>
      obtain ⟨pkg, r, d, t, hr, hd, ht, rfl, hne⟩ := hp
      exact .inr (.inr ((cov hr).deps d hd t ht hne _ hf).2)
    | protobuf hr hp hx => exact .inr (.inr ((cov hr).protos hp _ hx))
    | protoLibrary hr hp hrule ht => exact .inr (.inr ((cov hr).protoLibrary hp hrule _ ht))

end CompDb
end Bant
