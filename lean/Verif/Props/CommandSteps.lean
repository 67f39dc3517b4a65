import Verif.Props.Commands

/-! How the output of a command changes with the number of steps that dependencies are followed, and with the
pattern (C90, C91). -/
namespace Bant
namespace Props
open Commands CommandSpec Cli Query Rules Headers GraphSpec Table

/-- The same options, but dependencies are followed further. -/
def further (flags : Flags) (d : Int) : Flags := { flags with depth := d }

theorem starts_further {m : Machine} {flags : Flags} {cmd : Command} {pattern : BazelPattern} {ws : Workspace.Map}
    {found : List Str} {files : Loaded} (d : Int) (h : Starts m flags cmd pattern ws found files) :
    Starts m (further flags d) cmd pattern ws found files := ⟨h.workspace, h.roots, h.opened⟩

theorem reached_further {m : Machine} {ws : Workspace.Map} {pattern : BazelPattern} {n k : Nat} (hn : n ≤ k)
    {files : Loaded} {t : BazelTarget} (h : Reached m ws pattern n files t) : Reached m ws pattern k files t :=
  let ⟨i, h1, h2⟩ := h
  ⟨i, Nat.le_trans h1 hn, h2⟩

theorem grown_further {m : Machine} {ws : Workspace.Map} {pattern : BazelPattern} {n k : Nat} (hn : n ≤ k)
    {files : Loaded} {now now' : Files} (h : Grown m ws pattern n files now) (h' : Grown m ws pattern k files now')
    {x : BazelPackage × Node} (hx : x ∈ now) : x ∈ now' := by
  refine (h'.each x.1 x.2).2 ?_
  rcases (h.each x.1 x.2).1 hx with h1 | ⟨h1, h2, t, h3, h4⟩
  · exact .inl h1
  · exact .inr ⟨h1, h2, t, reached_further hn h3, h4⟩

theorem shown_further {flags : Flags} {d : Int} (h : flags.depth ≤ d) {pattern : BazelPattern} {t : BazelTarget}
    (hs : shown flags pattern t = true) : shown (further flags d) pattern t = true := by
  unfold shown at *
  simp only [Bool.or_eq_true, decide_eq_true_eq, further] at *
  rcases hs with hs | hs
  · exact .inl (decide_eq_true (show 0 < d by omega))
  · exact .inr hs

theorem provides_mono {files files' : Files} (h : ∀ f ∈ files, f ∈ files') {p : Str} {t : BazelTarget}
    (hp : HeaderSpec.Provides files p t) : HeaderSpec.Provides files' p t := by
  cases hp with
  | library h1 h2 h3 h4 h5 h6 h7 h8 =>
    refine .library (h _ h1) h2 h3 h4 h5 h6 h7 ?_
    rcases h8 with h8 | ⟨pkg, ast, r, h9, h10⟩
    · exact .inl h8
    · exact .inr ⟨pkg, ast, r, h _ h9, h10⟩
  | proto h1 h2 h3 h4 h5 h6 h7 => exact .proto (h _ h1) h2 h3 h4 h5 h6 h7

/-! ## C90: more steps -/

/-- **C90**, full statement for `genrule-outputs`: what is printed for a generated file stays when dependencies are
followed further. -/
def C90_statement : Prop :=
  ∀ (m : Machine) (flags : Flags) (d : Int) (pattern : BazelPattern) (ran ran' : Ran), Healthy m →
    flags.format = .json → 0 ≤ flags.depth → flags.depth ≤ d →
    runCommand m flags .genruleOutputs pattern = some ran →
    runCommand m (further flags d) .genruleOutputs pattern = some ran' →
    ∀ (p : Str) (t : BazelTarget),
      (c!"{\"generated-file\": \"" ++ p ++ c!"\", \"providing-rule\": \"" ++ t.toString ++ c!"\"}\n") <:+: ran.out →
      (c!"{\"generated-file\": \"" ++ p ++ c!"\", \"providing-rule\": \"" ++ t.toString ++ c!"\"}\n") <:+: ran'.out

/-- Two packages with a rule for the same file. -/
def sameFile : List (Str × Str) :=
  [(c!"p/BUILD", c!"genrule(name=\"h\",outs=[\"q/x\"])"),
   (c!"p/q/BUILD", c!"genrule(name=\"g\",outs=[\"x\"],deps=[\"//p:h\"])")]

theorem C90_counterexample : ¬ C90_statement := by
  intro h
  have hc : ∀ e ∈ sameFile, cleanText e.2 = true := by decide +kernel
  have h1 : runCommand (disk sameFile) { steps 0 with format := .json } .genruleOutputs (pat c!"//p/q:all") =
      some ⟨0, c!"{\"generated-file\": \"p/q/x\", \"providing-rule\": \"//p/q:g\"}\n", []⟩ := by decide +kernel
  have h2 : runCommand (disk sameFile) (further { steps 0 with format := .json } 1) .genruleOutputs
      (pat c!"//p/q:all") =
      some ⟨0, c!"{\"generated-file\": \"p/q/x\", \"providing-rule\": \"//p:h\"}\n", []⟩ := by decide +kernel
  have := h _ _ 1 _ _ _ (disk_healthy hc) rfl (by decide) (by decide) h1 h2 c!"p/q/x" ⟨⟨[], c!"p/q"⟩, c!"g"⟩
    (List.isInfixOf_internal_iff_isInfix.1 (by decide +kernel))
  have := List.isInfixOf_internal_iff_isInfix.2 this
  revert this
  decide +kernel

/-- **C90** for `depends-on`: if dependencies are followed further, then targets are added, with their
dependencies; nothing else changes. -/
theorem C90_depends_on_partial {m : Machine} (hh : Healthy m) {flags : Flags} {d : Int} {pattern : BazelPattern}
    {ws : Workspace.Map} {found : List Str} {files : Loaded} (hs : Starts m flags .dependsOn pattern ws found files)
    (h0 : 0 ≤ flags.depth) (hd : flags.depth ≤ d) :
    ∃ es es', Prints m flags .dependsOn pattern (note found) [c!"library", c!"depends-on"] (grouped es) ∧
      Prints m (further flags d) .dependsOn pattern (note found) [c!"library", c!"depends-on"] (grouped es') ∧
      ∀ e ∈ es, e ∈ es' := by
  obtain ⟨es, h1, _, h2⟩ := C82_depends_on hh hs h0
  obtain ⟨es', h3, _, h4⟩ := C82_depends_on hh (starts_further d hs) (show 0 ≤ d by omega)
  refine ⟨es, es', h1, h3, fun e he => ?_⟩
  obtain ⟨h5, h6⟩ := (h2 e.1 e.2).1 he
  exact (h4 e.1 e.2).2 ⟨reached_further (show flags.depth.toNat ≤ d.toNat by omega) h5, h6⟩

/-- **C90** for `list-packages`. -/
theorem C90_list_packages_partial {m : Machine} (hh : Healthy m) {flags : Flags} {d : Int} {pattern : BazelPattern}
    {ws : Workspace.Map} {found : List Str} {files : Loaded}
    (hs : Starts m flags .listPackages pattern ws found files) (h0 : 0 ≤ flags.depth) (hd : flags.depth ≤ d) :
    ∃ rows rows' : List (BazelPackage × Str),
      Prints m flags .listPackages pattern (note found) [c!"bazel-file", c!"package"]
        (rows.map fun e => .row [e.2, e.1.toString]) ∧
      Prints m (further flags d) .listPackages pattern (note found) [c!"bazel-file", c!"package"]
        (rows'.map fun e => .row [e.2, e.1.toString]) ∧ ∀ e ∈ rows, e ∈ rows' := by
  obtain ⟨es, h1, _, h2⟩ := C85_list_packages_partial hh hs h0
  obtain ⟨es', h3, _, h4⟩ := C85_list_packages_partial hh (starts_further d hs) (show 0 ≤ d by omega)
  refine ⟨es, es', h1, h3, fun e he => (h4 e.1 e.2).2 ?_⟩
  rcases (h2 e.1 e.2).1 he with h5 | ⟨h5, ⟨t, h6, h7⟩, h8⟩
  · exact .inl h5
  · exact .inr ⟨h5, ⟨t, reached_further (show flags.depth.toNat ≤ d.toNat by omega) h6, h7⟩, h8⟩

/-- **C90** for `list-targets`. -/
theorem C90_list_targets_partial {m : Machine} (hh : Healthy m) {flags : Flags} {d : Int} {pattern : BazelPattern}
    {ws : Workspace.Map} {found : List Str} {files : Loaded}
    (hs : Starts m flags .listTargets pattern ws found files) (h0 : 0 ≤ flags.depth) (hd : flags.depth ≤ d) :
    ∃ rows rows' : List Op,
      Prints m flags .listTargets pattern (note found) [c!"file-location", c!"rule", c!"target"] rows ∧
      Prints m (further flags d) .listTargets pattern (note found) [c!"file-location", c!"rule", c!"target"] rows' ∧
      ∀ e ∈ rows, e ∈ rows' := by
  obtain ⟨now, h1, h2⟩ := C86_list_targets_partial hh hs h0
  obtain ⟨now', h3, h4⟩ := C86_list_targets_partial hh (starts_further d hs) (show 0 ≤ d by omega)
  refine ⟨_, _, h2, h4, fun op hop => ?_⟩
  obtain ⟨f, hf, h5⟩ := List.mem_flatMap.1 hop
  obtain ⟨e, he, h6⟩ := List.mem_map.1 h5
  obtain ⟨h7, h8⟩ := List.mem_filter.1 he
  exact List.mem_flatMap.2 ⟨f, grown_further (show flags.depth.toNat ≤ d.toNat by omega) h1 h3 hf,
    List.mem_map.2 ⟨e, List.mem_filter.2 ⟨h7, shown_further hd h8⟩, h6⟩⟩

/-- **C90** for `lib-headers`: headers are added, and libraries that provide one. -/
theorem C90_lib_headers_partial {m : Machine} (hh : Healthy m) {flags : Flags} {d : Int} {pattern : BazelPattern}
    {ws : Workspace.Map} {found : List Str} {files : Loaded}
    (hs : Starts m flags .libraryHeaders pattern ws found files) (h0 : 0 ≤ flags.depth) (hd : flags.depth ≤ d) :
    ∃ rows rows' : List (Str × List BazelTarget),
      Prints m flags .libraryHeaders pattern (note found) [c!"header", c!"providing-rule"]
        (rows.map fun e => .repeated [e.1] (e.2.map BazelTarget.toString)) ∧
      Prints m (further flags d) .libraryHeaders pattern (note found) [c!"header", c!"providing-rule"]
        (rows'.map fun e => .repeated [e.1] (e.2.map BazelTarget.toString)) ∧
      ∀ e ∈ rows, ∃ e' ∈ rows', e'.1 = e.1 ∧ ∀ t ∈ e.2, t ∈ e'.2 := by
  obtain ⟨now, h1, rows, h2, _, _, h3, h4⟩ := C87_lib_headers_partial hh hs h0
  obtain ⟨now', h5, rows', h6, _, _, h7, h8⟩ := C87_lib_headers_partial hh (starts_further d hs) (show 0 ≤ d by omega)
  have hsub : ∀ f ∈ now, f ∈ now' := fun f hf =>
    grown_further (show flags.depth.toNat ≤ d.toNat by omega) h1 h5 hf
  refine ⟨rows, rows', h2, h6, fun e he => ?_⟩
  obtain ⟨t, ht⟩ := (h3 e.1).1 ⟨e.2, he⟩
  obtain ⟨ts', hts'⟩ := (h7 e.1).2 ⟨t, provides_mono hsub ht⟩
  refine ⟨_, hts', rfl, fun u hu => ?_⟩
  obtain ⟨h9, h10⟩ := (h4 e.1 e.2 he u).1 hu
  exact (h8 _ _ hts' u).2 ⟨provides_mono hsub h9, shown_further hd h10⟩

theorem find_flatMap_filter {α β : Type} (k : α → Bool) (g : α → List β) (p : β → Bool) {b : β} :
    ∀ l : List α, (l.flatMap g).find? p = some b →
      (∃ a ∈ l, b ∈ g a ∧ k a = false) ∨ ((l.filter k).flatMap g).find? p = some b
  | [], h => by cases h
  | a :: l, h => by
    rw [List.flatMap_cons, List.find?_append] at h
    by_cases hk : k a = true
    · rw [List.filter_cons_of_pos hk, List.flatMap_cons, List.find?_append]
      cases hg : (g a).find? p with
      | some x => rw [hg] at h; exact .inr h
      | none =>
        rw [hg] at h
        rcases find_flatMap_filter k g p l h with ⟨x, h1, h2⟩ | h1
        · exact .inl ⟨x, List.mem_cons_of_mem _ h1, h2⟩
        · exact .inr h1
    · rw [List.filter_cons_of_neg hk]
      cases hg : (g a).find? p with
      | some x =>
        rw [hg] at h
        cases h
        exact .inl ⟨a, List.mem_cons_self, List.mem_of_find?_eq_some hg, by simpa using hk⟩
      | none =>
        rw [hg] at h
        rcases find_flatMap_filter k g p l h with ⟨x, h1, h2⟩ | h1
        · exact .inl ⟨x, List.mem_cons_of_mem _ h1, h2⟩
        · exact .inr h1

theorem outputs_further {m : Machine} {ws : Workspace.Map} {pattern : BazelPattern} {n k : Nat} (hn : n ≤ k)
    {files : Loaded} {now now' : Files} (h : Grown m ws pattern n files now) (h' : Grown m ws pattern k files now')
    {p : Str} {t : BazelTarget} (ht : ((HeaderSpec.outputs now').find? (·.1 = p)).map (·.2) = some t) :
    ((HeaderSpec.outputs now).find? (·.1 = p)).map (·.2) = some t ∨ t.package ∉ now.map (·.1) := by
  obtain ⟨e, he, rfl⟩ := Option.map_eq_some_iff.1 ht
  have hsub : now = now'.filter fun f => decide (f.1 ∈ now.map (·.1)) := by
    refine sorted_ext h.order (List.pairwise_map.2 ((List.pairwise_map.1 h'.order).filter _)) fun x => ?_
    rw [List.mem_filter]
    constructor
    · intro hx
      exact ⟨grown_further hn h h' hx, decide_eq_true (List.mem_map.2 ⟨x, hx, rfl⟩)⟩
    · rintro ⟨hx, hk⟩
      obtain ⟨y, hy, hxy⟩ := List.mem_map.1 (of_decide_eq_true hk)
      have h1 := (mem_lookup (Ascending.nodup h'.order)).1 (show (x.1, y.2) ∈ now' by
        rw [← hxy]; exact grown_further hn h h' hy)
      have h2 := (mem_lookup (Ascending.nodup h'.order)).1 (show (x.1, x.2) ∈ now' from hx)
      rw [h1] at h2
      cases x; cases y
      simp only [Option.some.injEq] at h2 hxy
      subst h2; subst hxy
      exact hy
  rcases find_flatMap_filter (fun f : BazelPackage × Node => decide (f.1 ∈ now.map (·.1))) _ _ now' he with ⟨f, h1, h2, h3⟩ | h1
  · refine .inr ?_
    obtain ⟨r, _, h4⟩ := List.mem_flatMap.1 h2
    cases hq : f.1.qualifiedTarget r.name with
    | none => rw [hq] at h4; cases h4
    | some u =>
      rw [hq] at h4
      obtain ⟨o, _, rfl⟩ := List.mem_map.1 h4
      rw [qualifiedTarget_package hq]
      exact of_decide_eq_false h3
  · refine .inl ?_
    rw [← hsub] at h1
    change (HeaderSpec.outputs now).find? _ = _ at h1
    rw [h1]
    rfl

/-- **C90** for `genrule-outputs`: the file is still printed; for another rule only if that is in a package that is
found because dependencies are followed further. -/
theorem C90_genrule_outputs_partial {m : Machine} (hh : Healthy m) {flags : Flags} {d : Int}
    {pattern : BazelPattern} {ws : Workspace.Map} {found : List Str} {files : Loaded}
    (hs : Starts m flags .genruleOutputs pattern ws found files) (h0 : 0 ≤ flags.depth) (hd : flags.depth ≤ d) :
    ∃ now, Grown m ws pattern flags.depth.toNat files now ∧
    ∃ rows rows' : List (Str × BazelTarget),
      Prints m flags .genruleOutputs pattern (note found) [c!"generated-file", c!"providing-rule"]
        (rows.map fun e => .row [e.1, e.2.toString]) ∧
      Prints m (further flags d) .genruleOutputs pattern (note found) [c!"generated-file", c!"providing-rule"]
        (rows'.map fun e => .row [e.1, e.2.toString]) ∧
      ∀ p t, (p, t) ∈ rows → ∃ t', (p, t') ∈ rows' ∧ (t' = t ∨ t'.package ∉ now.map (·.1)) := by
  obtain ⟨now, h1, rows, h2, _, h3⟩ := C88_genrule_outputs hh hs h0
  obtain ⟨now', h4, rows', h5, _, h6⟩ := C88_genrule_outputs hh (starts_further d hs) (show 0 ≤ d by omega)
  have hn : flags.depth.toNat ≤ d.toNat := by omega
  refine ⟨now, h1, rows, rows', h2, h5, fun p t hp => ?_⟩
  obtain ⟨h7, h8⟩ := (h3 p t).1 hp
  by_cases hpos : 0 < d
  · have hex : ∃ e, (HeaderSpec.outputs now').find? (·.1 = p) = some e := by
      obtain ⟨e, he, _⟩ := Option.map_eq_some_iff.1 h7
      have hm := List.mem_of_find?_eq_some he
      have : e ∈ HeaderSpec.outputs now' := by
        unfold HeaderSpec.outputs at hm ⊢
        obtain ⟨f, hf, h9⟩ := List.mem_flatMap.1 hm
        exact List.mem_flatMap.2 ⟨f, grown_further hn h1 h4 hf, h9⟩
      exact Option.isSome_iff_exists.1 (List.find?_isSome.2 ⟨e, this, (List.find?_some he : _)⟩)
    obtain ⟨e, he⟩ := hex
    refine ⟨e.2, (h6 p e.2).2 ⟨by rw [he]; rfl, by simp [shown, further, hpos]⟩, ?_⟩
    rcases outputs_further hn h1 h4 (p := p) (t := e.2) (by rw [he]; rfl) with h9 | h9
    · rw [h7] at h9; exact .inl (Option.some.inj h9).symm
    · exact .inr h9
  · have heq : flags.depth = d := by omega
    have h4' : Grown m ws pattern flags.depth.toNat files now' := heq ▸ h4
    have := grown_unique h1 h4'
    subst this
    exact ⟨t, (h6 p t).2 ⟨h7, shown_further hd h8⟩, .inl rfl⟩

example : runCommand (disk twoPackages) (steps 0) .dependsOn (pat c!"//p:all") =
    some ⟨0, c!"//p:a //q:b\n//p:a //p:c\n", []⟩ := by decide +kernel
example : runCommand (disk twoPackages) (steps 0) .listPackages (pat c!"//p:all") =
    some ⟨0, c!"p/BUILD //p\n", []⟩ := by decide +kernel

/-! ## C91: another pattern -/

/-- A record of `depends-on`. -/
def record (t : BazelTarget) (ds : List BazelTarget) : Str :=
  c!"{\"library\": \"" ++ t.toString ++ c!"\", \"depends-on\": [" ++
    (c!", ").intercalate (ds.map fun d => c!"\"" ++ d.toString ++ c!"\"") ++ c!"]}\n"

/-- **C91**, full statement: what a target depends on is the same, however it is found. -/
def C91_statement : Prop :=
  ∀ (m : Machine) (flags : Flags) (pattern pattern' : BazelPattern) (ran ran' : Ran), Healthy m →
    flags.format = .json → 0 ≤ flags.depth → runCommand m flags .dependsOn pattern = some ran →
    runCommand m flags .dependsOn pattern' = some ran' →
    ∀ t ds ds', record t ds <:+: ran.out → record t ds' <:+: ran'.out → ds = ds'

/-- Dependencies that are the result of an operator. -/
def computed : List (Str × Str) :=
  [(c!"p/BUILD", c!"cc_library(name=\"a\",deps=[\"//q:b\"])"),
   (c!"q/BUILD", c!"cc_library(name=\"b\",deps=[\":x\"] + [\":y\"])")]

theorem C91_counterexample : ¬ C91_statement := by
  intro h
  have hc : ∀ e ∈ computed, cleanText e.2 = true := by decide +kernel
  have h1 : runCommand (disk computed) { steps 1 with format := .json } .dependsOn (pat c!"//p:all") =
      some ⟨0, record ⟨⟨[], c!"p"⟩, c!"a"⟩ [⟨⟨[], c!"q"⟩, c!"b"⟩] ++
        record ⟨⟨[], c!"q"⟩, c!"b"⟩ [⟨⟨[], c!"q"⟩, c!"x"⟩, ⟨⟨[], c!"q"⟩, c!"y"⟩], []⟩ := by decide +kernel
  have h2 : runCommand (disk computed) { steps 1 with format := .json } .dependsOn (pat c!"//q:all") =
      some ⟨0, record ⟨⟨[], c!"q"⟩, c!"b"⟩ [], []⟩ := by decide +kernel
  have := h _ _ _ _ _ _ (disk_healthy hc) rfl (by decide) h1 h2 ⟨⟨[], c!"q"⟩, c!"b"⟩ _ _
    (List.suffix_append _ _).isInfix List.infix_rfl
  revert this
  decide

/-- Each opened file has the content of the one that is loaded for the package if a dependency leads there: in
particular if it is that file. -/
def Agrees (m : Machine) (ws : Workspace.Map) (files : Loaded) : Prop :=
  ∀ pkg file, (pkg, file) ∈ files → ∃ path, DepGraph.pathForPackage (world m ws) pkg = some path ∧
    m.fs.content path = m.fs.content file.name

theorem firstReadable_content {m : Machine} {ws : Workspace.Map} {project : Str} {pkg : BazelPackage}
    {name content : Str} : ∀ {l : List Str}, firstReadable m ws project pkg l = some (name, content) →
      m.fs.content name = some content
  | [], h => by cases h
  | f :: fs, h => by
    rw [firstReadable] at h
    split at h
    · split at h
      · rename_i hc; cases h; exact hc
      · exact firstReadable_content h
    · exact firstReadable_content h

theorem treeOf_opened {m : Machine} {ws : Workspace.Map} {pattern : BazelPattern} {found : List Str} {files : Loaded}
    (h : OpenedFor m ws true pattern found files) (ha : Agrees m ws files) (pkg : BazelPackage) :
    GraphSpec.treeOf (world m ws) (trees files) pkg = GraphSpec.treeOf (world m ws) [] pkg := by
  unfold GraphSpec.treeOf
  cases hl : lookup (trees files) pkg with
  | none => rfl
  | some ast =>
    obtain ⟨file, h1, h2⟩ := mem_trees.1 (lookup_mem hl)
    obtain ⟨path, h3, h4⟩ := ha pkg file h1
    obtain ⟨name, content, h5, ast', st, h6, h7, _, h8⟩ := (h.each pkg file).1 h1
    have h9 := firstReadable_content h5
    rw [if_pos rfl] at h8
    have : DepGraph.load (world m ws) pkg = some (some ast) := by
      unfold DepGraph.load
      rw [h3]
      simp only []
      rw [show (world m ws).fs = m.fs from rfl, h4, h7, h9]
      simp only [h6]
      rw [show (world m ws).glob = m.glob from rfl, h8, h2]
      rfl
    simp [lookup, this]

/-- **C91**, with `-e`, and if there is one file for each package: what a target depends on is the same, however it
is found. Without `-e`, expressions are evaluated only in the files of dependencies. -/
theorem C91_pattern_partial {m : Machine} (hh : Healthy m) {flags : Flags} {pattern pattern' : BazelPattern}
    {ws : Workspace.Map} {found found' : List Str} {files files' : Loaded}
    (hs : Starts m flags .dependsOn pattern ws found files)
    (hs' : Starts m flags .dependsOn pattern' ws found' files') (he : flags.elaborate = true)
    (ha : Agrees m ws files) (ha' : Agrees m ws files') (h0 : 0 ≤ flags.depth) :
    ∃ es es', Prints m flags .dependsOn pattern (note found) [c!"library", c!"depends-on"] (grouped es) ∧
      Prints m flags .dependsOn pattern' (note found') [c!"library", c!"depends-on"] (grouped es') ∧
      ∀ t ds ds', (t, ds) ∈ es → (t, ds') ∈ es' → ds = ds' := by
  obtain ⟨es, h1, _, h2⟩ := C82_depends_on hh hs h0
  obtain ⟨es', h3, _, h4⟩ := C82_depends_on hh hs' h0
  refine ⟨es, es', h1, h3, fun t ds ds' h5 h6 => ?_⟩
  have hev : evaluates flags .dependsOn = true := by simp [evaluates, he]
  have e1 := defn_iff.2 ((h2 t ds).1 h5).2
  have e2 := defn_iff.2 ((h4 t ds').1 h6).2
  have ho := hs.opened
  have ho' := hs'.opened
  rw [hev] at ho ho'
  have : defn (world m ws) (trees files) t = defn (world m ws) (trees files') t := by
    unfold defn
    rw [treeOf_opened ho ha, treeOf_opened ho' ha']
  rw [e1, e2] at this
  exact Option.some.inj this

/-- There is nothing to evaluate in the files that are opened for the package. -/
def Settled (m : Machine) (files : Loaded) (pkg : BazelPackage) : Prop :=
  ∀ file, (pkg, file) ∈ files → Elab.elabFile (m.glob pkg) file.ast = some file.ast

theorem treeOf_settled {m : Machine} {ws : Workspace.Map} {ev : Bool} {pattern : BazelPattern} {found : List Str}
    {files : Loaded} (h : OpenedFor m ws ev pattern found files) (ha : Agrees m ws files) {pkg : BazelPackage}
    (hset : Settled m files pkg) : GraphSpec.treeOf (world m ws) (trees files) pkg = GraphSpec.treeOf (world m ws) [] pkg := by
  unfold GraphSpec.treeOf
  cases hl : lookup (trees files) pkg with
  | none => rfl
  | some ast =>
    obtain ⟨file, h1, h2⟩ := mem_trees.1 (lookup_mem hl)
    cases ev with
    | true =>
      have := treeOf_opened h ha pkg
      unfold GraphSpec.treeOf at this
      rwa [hl] at this
    | false =>
      obtain ⟨path, h3, h4⟩ := ha pkg file h1
      obtain ⟨name, content, h5, ast', st, h6, h7, _, h8⟩ := (h.each pkg file).1 h1
      have h9 := firstReadable_content h5
      rw [if_neg (by decide)] at h8
      have hset := hset file h1
      rw [h8] at hset
      have : DepGraph.load (world m ws) pkg = some (some ast) := by
        unfold DepGraph.load
        rw [h3]
        simp only []
        rw [show (world m ws).fs = m.fs from rfl, h4, h7, h9]
        simp only [h6]
        rw [show (world m ws).glob = m.glob from rfl, hset, ← h8]
        exact congrArg (fun x => some (some x)) h2
      simp [lookup, this]

theorem treeOf_both {m : Machine} {ws : Workspace.Map} {ev : Bool} {pattern pattern' : BazelPattern}
    {found found' : List Str} {files files' : Loaded} (h : OpenedFor m ws ev pattern found files)
    (h' : OpenedFor m ws ev pattern' found' files') (ha : Agrees m ws files) (ha' : Agrees m ws files')
    {pkg : BazelPackage} (hb : pkg ∈ files.map (·.1) ↔ pkg ∈ files'.map (·.1)) :
    GraphSpec.treeOf (world m ws) (trees files) pkg = GraphSpec.treeOf (world m ws) (trees files') pkg := by
  have side : ∀ {fs : Loaded} {ast : Node}, lookup (trees fs) pkg = some ast → pkg ∈ fs.map (·.1) := by
    intro fs ast hl
    obtain ⟨file, h1, _⟩ := mem_trees.1 (lookup_mem hl)
    exact List.mem_map.2 ⟨_, h1, rfl⟩
  have none_of : ∀ {fs : Loaded}, lookup (trees fs) pkg = none → pkg ∉ fs.map (·.1) := by
    intro fs hl hm
    obtain ⟨⟨p, file⟩, h1, rfl⟩ := List.mem_map.1 hm
    have : (p, file.ast) ∈ trees fs := mem_trees.2 ⟨file, h1, rfl⟩
    exact lookup_none.1 hl (List.mem_map.2 ⟨_, this, rfl⟩)
  unfold GraphSpec.treeOf
  cases hl : lookup (trees files) pkg with
  | none =>
    cases hl' : lookup (trees files') pkg with
    | none => rfl
    | some ast => exact absurd (hb.2 (side hl')) (none_of hl)
  | some ast =>
    cases hl' : lookup (trees files') pkg with
    | none => exact absurd (hb.1 (side hl)) (none_of hl')
    | some ast' =>
      obtain ⟨file, h1, h2⟩ := mem_trees.1 (lookup_mem hl)
      obtain ⟨file', h1', h2'⟩ := mem_trees.1 (lookup_mem hl')
      obtain ⟨path, h3, h4⟩ := ha pkg file h1
      obtain ⟨path', h3', h4'⟩ := ha' pkg file' h1'
      rw [h3] at h3'
      cases h3'
      obtain ⟨name, content, h5, a, st, h6, h7, _, h8⟩ := (h.each pkg file).1 h1
      obtain ⟨name', content', h5', a', st', h6', h7', _, h8'⟩ := (h'.each pkg file').1 h1'
      have h9 := firstReadable_content h5
      have h9' := firstReadable_content h5'
      rw [h7, h9] at h4
      rw [h7', h9', h4] at h4'
      cases h4'
      rw [h6] at h6'
      cases h6'
      have : file.ast = file'.ast := by
        cases ev with
        | true =>
          rw [if_pos rfl] at h8 h8'
          rw [h8] at h8'
          exact Option.some.inj h8'
        | false =>
          rw [if_neg (by decide)] at h8 h8'
          rw [h8, h8']
      exact congrArg some ((h2.symm.trans this).trans h2')

/-- **C91**, with or without `-e`, if there is one file for each package: what a target depends on is the same for two
patterns if its package belongs to both or to none of them, or if there is nothing to evaluate in its file. -/
theorem C91_same_way_partial {m : Machine} (hh : Healthy m) {flags : Flags} {pattern pattern' : BazelPattern}
    {ws : Workspace.Map} {found found' : List Str} {files files' : Loaded}
    (hs : Starts m flags .dependsOn pattern ws found files)
    (hs' : Starts m flags .dependsOn pattern' ws found' files')
    (ha : Agrees m ws files) (ha' : Agrees m ws files') (h0 : 0 ≤ flags.depth) :
    ∃ es es', Prints m flags .dependsOn pattern (note found) [c!"library", c!"depends-on"] (grouped es) ∧
      Prints m flags .dependsOn pattern' (note found') [c!"library", c!"depends-on"] (grouped es') ∧
      ∀ t ds ds', (t, ds) ∈ es → (t, ds') ∈ es' →
        (t.package ∈ files.map (·.1) ↔ t.package ∈ files'.map (·.1)) ∨
          (Settled m files t.package ∧ Settled m files' t.package) → ds = ds' := by
  obtain ⟨es, h1, _, h2⟩ := C82_depends_on hh hs h0
  obtain ⟨es', h3, _, h4⟩ := C82_depends_on hh hs' h0
  refine ⟨es, es', h1, h3, fun t ds ds' h5 h6 h7 => ?_⟩
  have e1 := defn_iff.2 ((h2 t ds).1 h5).2
  have e2 := defn_iff.2 ((h4 t ds').1 h6).2
  have : defn (world m ws) (trees files) t = defn (world m ws) (trees files') t := by
    unfold defn
    rcases h7 with h7 | ⟨h7, h8⟩
    · rw [treeOf_both hs.opened hs'.opened ha ha' h7]
    · rw [treeOf_settled hs.opened ha h7, treeOf_settled hs'.opened ha' h8]
  rw [e1, e2] at this
  exact Option.some.inj this

example : runCommand (disk computed) { steps 1 with elaborate := true } .dependsOn (pat c!"//q:all") =
    some ⟨0, c!"//q:b //q:x\n//q:b //q:y\n", []⟩ := by decide +kernel
/-- Without `-e`: for two patterns to which the package belongs, and for one where there is nothing to evaluate. -/
example : runCommand (disk computed) (steps 1) .dependsOn (pat c!"//q:b") =
      runCommand (disk computed) (steps 1) .dependsOn (pat c!"//q:all") ∧
    Elab.elabFile (fun _ _ => []) (.list .list [.call (.ident c!"cc_library") (.list .tuple
      [.assign (.ident c!"name") (.str c!"a" false false), .assign (.ident c!"deps") (.list .list [.str c!"//q:b" false false])])]) =
      some (.list .list [.call (.ident c!"cc_library") (.list .tuple
      [.assign (.ident c!"name") (.str c!"a" false false), .assign (.ident c!"deps") (.list .list [.str c!"//q:b" false false])])]) :=
  ⟨by decide +kernel, rfl⟩
/-- The assumption holds for a package with one file. -/
example : ∃ found files, Starts (disk computed) { steps 1 with elaborate := true } .dependsOn everything [] found files ∧
    files ≠ [] ∧ Agrees (disk computed) [] files := by
  have hc : ∀ e ∈ computed, cleanText e.2 = true := by decide +kernel
  obtain ⟨found, files, hs, ho⟩ := disk_starts hc (by decide +kernel) { steps 1 with elaborate := true } .dependsOn
    everything (by decide +kernel) (by decide)
  have h1 : ((opened (disk computed) [] { steps 1 with elaborate := true } .dependsOn everything).map fun r =>
      r.1.map fun f => (f.1, f.2.name)) =
        some [(⟨[], c!"p"⟩, c!"./p/BUILD"), (⟨[], c!"q"⟩, c!"./q/BUILD")] := by decide +kernel
  rw [ho] at h1
  simp only [Option.map_some, Option.some.injEq] at h1
  refine ⟨found, files, hs, (fun h => by subst h; cases h1), fun pkg file hf => ?_⟩
  have : (pkg, file.name) ∈ files.map fun f => (f.1, f.2.name) := List.mem_map.2 ⟨_, hf, rfl⟩
  rw [h1] at this
  simp only [List.mem_cons, List.not_mem_nil, or_false, Prod.mk.injEq] at this
  rcases this with ⟨rfl, h2⟩ | ⟨rfl, h2⟩
  · exact ⟨c!"p/BUILD", by decide +kernel, by rw [h2]; decide +kernel⟩
  · exact ⟨c!"q/BUILD", by decide +kernel, by rw [h2]; decide +kernel⟩

end Props
end Bant
