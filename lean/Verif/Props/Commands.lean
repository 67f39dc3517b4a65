import Verif.Lemmas.CommandRows
import Verif.Props.Cli

/-! # Commands (C81 and following) -/
namespace Bant
namespace Props
open Commands CommandSpec Cli Query Rules Headers GraphSpec Table TableSpec

/-! ## What a run begins with -/

theorem sorted_ext {α β : Type} [Ordered α] [LawfulOrdered α] {l l' : List (α × β)} (h : Ascending (l.map (·.1)))
    (h' : Ascending (l'.map (·.1))) (hm : ∀ x, x ∈ l ↔ x ∈ l') : l = l' := by
  have hn : ∀ {l : List (α × β)}, Ascending (l.map (·.1)) → l.Nodup := fun h =>
    (List.pairwise_map.1 h.nodup).imp fun hne he => hne (by rw [he])
  refine List.Perm.eq_of_pairwise (le := fun a b => Ordered.lt a.1 b.1 = true) ?_ (List.pairwise_map.1 h)
    (List.pairwise_map.1 h') ((List.perm_ext_iff_of_nodup (hn h) (hn h')).2 hm)
  intro a b _ _ h1 h2
  have := LawfulOrdered.trans h1 h2
  rw [LawfulOrdered.irrefl] at this
  cases this

theorem openedFor_unique {m : Machine} {ws : Workspace.Map} {evaluate : Bool} {pattern : BazelPattern}
    {found found' : List Str} {l l' : Loaded} (h : OpenedFor m ws evaluate pattern found l)
    (h' : OpenedFor m ws evaluate pattern found' l') : found = found' ∧ l = l' := by
  have hf : found = found' := Option.some.inj (h.files.symm.trans h'.files)
  subst hf
  exact ⟨rfl, sorted_ext h.order h'.order fun x => (h.each x.1 x.2).trans (h'.each x.1 x.2).symm⟩

theorem starts_opened {m : Machine} (hh : Healthy m) {flags : Flags} {cmd : Command} {pattern : BazelPattern}
    {ws : Workspace.Map} {found : List Str} {files : Loaded} (hs : Starts m flags cmd pattern ws found files)
    (hneed : needsProject cmd pattern = true) : opened m ws flags cmd pattern = some (files, note found) := by
  obtain ⟨l, msg, h⟩ := opened_total hh hs.roots flags hs.opened.files
  obtain ⟨found', h1, h2⟩ := opened_spec hneed h
  obtain ⟨rfl, rfl⟩ := openedFor_unique h1 hs.opened
  rw [h, h2]; rfl

/-- What is opened, and that there is only one possibility. -/
theorem C85_opened {m : Machine} (hh : Healthy m) {ws : Workspace.Map} (hw : workspaceOf m = some ws)
    (hr : CollectSpec.Roots ws) (flags : Flags) (cmd : Command) (pattern : BazelPattern) {found : List Str}
    (hc : Collect.collectBuildFiles m.tree m.symlink ws (searched cmd pattern) m.steps = some found)
    (hneed : needsProject cmd pattern = true) :
    ∃ files, Starts m flags cmd pattern ws found files ∧
      ∀ files', Starts m flags cmd pattern ws found files' → files' = files := by
  obtain ⟨l, msg, h⟩ := opened_total hh hr flags hc
  obtain ⟨found', h1, h2⟩ := opened_spec hneed h
  have : found' = found := Option.some.inj (h1.files.symm.trans hc)
  subst this
  exact ⟨l, ⟨hw, hr, h1⟩, fun files' h' => (openedFor_unique h'.opened h1).2⟩

theorem prints_of {m : Machine} (hh : Healthy m) {flags : Flags} {cmd : Command} {pattern : BazelPattern}
    {ws : Workspace.Map} {found : List Str} {files l : Loaded} {g : DepGraph.Graph}
    (hs : Starts m flags cmd pattern ws found files) (hneed : needsProject cmd pattern = true)
    (hf : follow m ws flags cmd pattern files = some (l, g)) {headers : List Str} (hne : headers ≠ []) {ops : List Op}
    (hp : perform m flags cmd pattern ⟨ws, l, g, note found⟩ = table flags headers (some ops))
    (hfit : ∀ op ∈ ops, Fits headers op) : Prints m flags cmd pattern (note found) headers ops := by
  obtain ⟨out, h1, h2⟩ := table_total (flags := flags) hne hfit
  exact ⟨out, run_of hs.workspace (starts_opened hh hs hneed) hf (hp.trans h1), h2⟩

theorem grouped_fits (es : List (BazelTarget × List BazelTarget)) (a b : Str) :
    ∀ op ∈ grouped es, Fits [a, b] op := by
  intro op hop
  obtain ⟨e, _, rfl⟩ := List.mem_map.1 hop
  simp [Fits]

/-! ## A project for examples -/

/-- A path without `./` at its begin. -/
def plainPath : Str → Str
  | '.' :: '/' :: p => p
  | p => p

/-- What is before the last slash. -/
def dirName (path : Str) : Str := ((splitLast '/' path).map (·.1)).getD []

/-- A project with the given files. There is a workspace without external projects. The directories with files are
in the top directory, if there is no slash in their names. -/
def disk (texts : List (Str × Str)) : Machine where
  fs := ⟨fun _ => false, fun p => (lookup texts (plainPath p)).isSome,
    fun p => if p = c!"WORKSPACE" then some [] else lookup texts (plainPath p), fun _ => []⟩
  tree := ⟨fun d =>
    if d = c!"." then some (((texts.map fun e => dirName e.1).eraseDups.zipIdx.filter fun x => '/' ∉ x.1).map
      fun x => ⟨x.1, x.2 + 1, .dir⟩)
    else some ((texts.filter fun e => dirName e.1 = plainPath d).map fun e =>
      ⟨e.1.drop ((dirName e.1).length + 1), 99, .other⟩), fun _ => none⟩
  symlink := fun _ => false
  steps := 9
  base := fun _ => 0
  glob := fun _ _ _ => []
  cwd := c!"/w"
  regex := fun _ => none
  color := false
  nameLoc := fun pkg k => pkg.path ++ c!"/BUILD:" ++ [Char.ofNat (49 + k)]
  callLoc := fun _ _ => []
  line := fun _ _ _ => []

/-- The pattern for a text. -/
def pat (s : Str) : BazelPattern := (BazelPattern.parse globCompile s).getD .always

/-- Given a number of steps. -/
def steps (n : Int) : Flags := { ({} : Flags) with depth := n }

theorem disk_healthy {texts : List (Str × Str)} (h : ∀ e ∈ texts, cleanText e.2 = true) : Healthy (disk texts) := by
  constructor
  · intro path _ hr
    simp only [disk] at hr ⊢
    split
    · simp
    · intro hn; rw [hn] at hr; cases hr
  · intro path text _ hc
    simp only [disk] at hc
    split at hc
    · cases hc; exact cleanText_of (by decide +kernel)
    · have : cleanText text = true := h (plainPath path, text) (lookup_mem hc)
      exact cleanText_of this

theorem disk_starts {texts : List (Str × Str)} (h : ∀ e ∈ texts, cleanText e.2 = true)
    (hw : workspaceOf (disk texts) = some []) (flags : Flags) (cmd : Command) (pattern : BazelPattern)
    (hc : (Collect.collectBuildFiles (disk texts).tree (disk texts).symlink [] (searched cmd pattern) 9).isSome = true)
    (hneed : needsProject cmd pattern = true) :
    ∃ found files, Starts (disk texts) flags cmd pattern [] found files ∧
      opened (disk texts) [] flags cmd pattern = some (files, note found) := by
  obtain ⟨found, hf⟩ := Option.isSome_iff_exists.1 hc
  obtain ⟨files, hs, _⟩ := C85_opened (disk_healthy h) hw
    (by intro p r h; simp [Workspace.findPath, Workspace.findEntry, Workspace.lowerBound] at h) flags cmd pattern hf hneed
  exact ⟨found, files, hs, starts_opened (disk_healthy h) hs hneed⟩

/-- Two packages that depend on each other. -/
def twoPackages : List (Str × Str) :=
  [(c!"p/BUILD", c!"cc_library(name=\"a\",deps=[\"//q:b\",\":c\"])\ncc_library(name=\"c\")"),
   (c!"q/BUILD", c!"cc_library(name=\"b\",deps=[\"//p:c\"])\ncc_library(name=\"d\",hdrs=[\"d.h\"])")]

theorem twoPackages_clean : ∀ e ∈ twoPackages, cleanText e.2 = true := by decide +kernel

/-! ## C81: the status -/

theorem script_nil (es : List Edit) : buildozerScript es = [] ↔ es = [] := by
  cases es with
  | nil => simp [buildozerScript]
  | cons e es =>
    simp only [buildozerScript, List.map_cons, List.flatten_cons, List.append_eq_nil_iff, reduceCtorEq, iff_false]
    rintro ⟨h, _⟩
    unfold buildozerLine at h
    split at h <;> simp at h

theorem edits_status {l : Option (List Edit)} {st : Nat} {out : Str} (h : Commands.edits l = some (st, out)) :
    (st = 0 ∧ out = []) ∨ (st = 3 ∧ out ≠ []) := by
  unfold Commands.edits at h
  cases l with
  | none => cases h
  | some es =>
    simp only [Option.map_some, Option.some.injEq, Prod.mk.injEq] at h
    obtain ⟨rfl, rfl⟩ := h
    cases es with
    | nil => exact .inl ⟨rfl, rfl⟩
    | cons e es => exact .inr ⟨by simp, fun h => absurd ((script_nil _).1 h) (by simp)⟩

theorem table_status {flags : Flags} {headers : List Str} {rows : Option (List Op)} {st : Nat} {out : Str}
    (h : table flags headers rows = some (st, out)) : st = 0 := by
  unfold table at h
  obtain ⟨r, _, h⟩ := Option.bind_eq_some_iff.1 h
  obtain ⟨s, _, h⟩ := Option.map_eq_some_iff.1 h
  cases h; rfl

theorem perform_status {m : Machine} {flags : Flags} {cmd : Command} {pattern : BazelPattern} {p : Prepared} {st : Nat}
    {out : Str} (h : perform m flags cmd pattern p = some (st, out)) :
    if cmd = .dwyu ∨ cmd = .canonicalizeDeps then (st = 0 ∧ out = []) ∨ (st = 3 ∧ out ≠ []) else st = 0 := by
  have hm : ∀ {o : Option Str}, o.map (fun s => ((0, s) : Commands.Result)) = some (st, out) → st = 0 := by
    intro o h
    obtain ⟨s, _, h⟩ := Option.map_eq_some_iff.1 h
    cases h; rfl
  cases cmd <;> simp only [perform, reduceCtorEq, or_self, if_false, or_true, true_or, if_true] at h ⊢
  case parse =>
    split at h
    · exact hm h
    · cases h; rfl
  case print => exact hm h
  case dwyu => exact edits_status h
  case canonicalizeDeps => exact edits_status h
  case listWorkspace => exact hm h
  case compilationDB => exact hm h
  case compileFlags => exact hm h
  all_goals exact table_status h

theorem run_inv {m : Machine} {flags : Flags} {cmd : Command} {pattern : BazelPattern} {ran : Ran}
    (h : runCommand m flags cmd pattern = some ran) :
    (workspaceOf m = none ∧ ran = ⟨1, [], noWorkspace⟩) ∨
      ∃ ws p, workspaceOf m = some ws ∧ prepareIn m ws flags cmd pattern = some p ∧
        perform m flags cmd pattern p = some (ran.status, ran.out) ∧ ran.err = p.message := by
  cases hw : workspaceOf m with
  | some ws =>
    rw [run_eq hw] at h
    obtain ⟨p, h1, h2⟩ := Option.bind_eq_some_iff.1 h
    obtain ⟨r, h3, h4⟩ := Option.map_eq_some_iff.1 h2
    subst h4
    exact .inr ⟨ws, p, rfl, h1, h3, rfl⟩
  | none =>
    unfold workspaceOf at hw
    unfold runCommand prepare at h
    cases hl : Workspace.load m.fs with
    | none => rw [hl] at h; cases h
    | some o =>
      cases o with
      | none => rw [hl] at h; cases h; exact .inl ⟨rfl, rfl⟩
      | some w => rw [hl] at hw; cases hw

/-- **C81**, full statement: the status is 1 if there is no workspace, and 3 if something is to be cleaned up; if it
is 0 for `parse`, then no file that was opened has syntax errors. -/
def C81_statement : Prop :=
  ∀ (m : Machine) (flags : Flags) (cmd : Command) (pattern : BazelPattern) (ran : Ran),
    runCommand m flags cmd pattern = some ran →
    (ran.status = 1 ↔ workspaceOf m = none) ∧
    (ran.status = 3 ↔ (cmd = .dwyu ∨ cmd = .canonicalizeDeps) ∧ ran.out ≠ []) ∧
    (cmd = .parse → ran.status = 0 → ∀ ws found files, Starts m flags cmd pattern ws found files →
      ∀ f ∈ files, f.2.hasErrors = false)

/-- Files with syntax errors. -/
def broken : Machine := disk [(c!"p/BUILD", c!"cc_library(name=\"a\"")]

theorem C81_counterexample : ¬ C81_statement := by
  intro h
  have h1 : runCommand broken {} .parse everything = some ⟨0, [], []⟩ := by decide +kernel
  have hw : workspaceOf broken = some [] := by decide +kernel
  have hr : CollectSpec.Roots [] := by
    intro p r h; simp [Workspace.findPath, Workspace.findEntry, Workspace.lowerBound] at h
  have he : ((opened broken [] {} .parse everything).map fun r => r.1.any fun f => f.2.hasErrors) = some true := by
    decide +kernel
  obtain ⟨⟨l, msg⟩, ho, hany⟩ := Option.map_eq_some_iff.1 he
  obtain ⟨found, h2, _⟩ := opened_spec (by decide) ho
  obtain ⟨f, hf, hf'⟩ := List.any_eq_true.1 hany
  have := (h broken {} .parse everything _ h1).2.2 rfl rfl [] found l ⟨hw, hr, h2⟩ f hf
  rw [this] at hf'
  cases hf'

/-- **C81** but for syntax errors: the status is 1 exactly if there is no workspace (and then there is a message, and
nothing else); 3 exactly if edits are printed; otherwise 0. -/
theorem C81_status_partial {m : Machine} {flags : Flags} {cmd : Command} {pattern : BazelPattern} {ran : Ran}
    (h : runCommand m flags cmd pattern = some ran) :
    (ran.status = 1 ↔ workspaceOf m = none) ∧ (ran.status = 1 → ran.out = [] ∧ ran.err ≠ []) ∧
    (ran.status = 3 ↔ (cmd = .dwyu ∨ cmd = .canonicalizeDeps) ∧ ran.out ≠ []) ∧
    (ran.status ≠ 1 → ran.status ≠ 3 → ran.status = 0) := by
  rcases run_inv h with ⟨h1, rfl⟩ | ⟨ws, p, h1, _, h3, _⟩
  · simp [h1, noWorkspace]
  · have := perform_status h3
    rw [h1]
    split at this
    · next hc =>
      rcases this with ⟨h4, h5⟩ | ⟨h4, h5⟩ <;> simp [h4, h5, hc]
    · next hc => simp [this, hc]

/-- **C81** for the program: as above if a command is run; 0, 1 or 2 otherwise. -/
theorem C81_program_partial {env : Env} {m : List Str → Machine} {args : List Str} {r : Outcome}
    (hr : bant env m args = some r) {flags : Flags} {cmd : Command} {pattern : BazelPattern}
    (hran : r.ran = some (flags, cmd, pattern)) :
    ∃ cd, (r.status = 1 ↔ workspaceOf (m cd) = none) ∧
      (r.status = 3 ↔ (cmd = .dwyu ∨ cmd = .canonicalizeDeps) ∧ r.out ≠ []) ∧
      (r.status ≠ 1 → r.status ≠ 3 → r.status = 0) := by
  obtain ⟨cd, res, h1, h2, h3⟩ := C70_command hr hran
  obtain ⟨h4, _, h5, h6⟩ := C81_status_partial h1
  rw [h2, h3]
  exact ⟨cd, h4, h5, h6⟩

theorem lookup_filter {α β : Type} [DecidableEq α] (p : α → Bool) (l : List (α × β)) {a : α} (ha : p a = true) :
    lookup (l.filter fun e => p e.1) a = lookup l a := by
  induction l with
  | nil => rfl
  | cons e l ih =>
    by_cases he : e.1 = a
    · subst he
      rw [List.filter_cons_of_pos (by exact ha), lookup_cons, lookup_cons, if_pos rfl, if_pos rfl]
    · rw [lookup_cons, if_neg he, ← ih, List.filter_cons]
      split
      · rw [lookup_cons, if_neg he]
      · rfl

/-! ## C82: `depends-on` -/

theorem reached_zero {m : Machine} {ws : Workspace.Map} {pattern : BazelPattern} {files : Loaded} {t : BazelTarget}
    (h : Reached m ws pattern 0 files t) : pattern.matchTarget t = true ∧ t.package ∈ files.map (·.1) := by
  obtain ⟨n, hn, hr⟩ := h
  cases hr with
  | step h _ => omega
  | root h =>
    obtain ⟨f, hf, r, _, h1, h2⟩ := h
    refine ⟨h2, ?_⟩
    rw [qualifiedTarget_package h1, ← trees_keys]
    exact List.mem_map.2 ⟨f, hf, rfl⟩

/-- **C82**: `depends-on` prints exactly the targets that are reached within the given number of steps from those
that match, each with exactly what its rule depends on (in the order of the rule), in the order of targets. -/
theorem C82_depends_on {m : Machine} (hh : Healthy m) {flags : Flags} {pattern : BazelPattern} {ws : Workspace.Map}
    {found : List Str} {files : Loaded} (hs : Starts m flags .dependsOn pattern ws found files)
    (hd : 0 ≤ flags.depth) :
    ∃ es, Prints m flags .dependsOn pattern (note found) [c!"library", c!"depends-on"] (grouped es) ∧
      (es.map (·.1)).Pairwise (fun a b => Ordered.lt a b = true) ∧
      ∀ t ds, (t, ds) ∈ es ↔ Reached m ws pattern flags.depth.toNat files t ∧
        ∃ r, Defines (world m ws) (trees files) t r ∧ ds = depsOf t.package r := by
  have hdep : depthOf flags .dependsOn = flags.depth := by simp [depthOf]
  obtain ⟨l, now, g, h1, h2⟩ := follow_spec hh (starts_opened hh hs (by simp [needsProject])) rfl
    (by rw [hdep]; exact hd)
  rw [hdep, show searched .dependsOn pattern = pattern from rfl] at h2
  refine ⟨g.dependsOn, ?_, h2.sorted.keys, h2.value⟩
  refine prints_of hh hs (by simp [needsProject]) h1 (by simp) ?_ (grouped_fits _ _ _)
  have : oneToN (printPattern flags .dependsOn pattern) g.dependsOn = grouped g.dependsOn := by
    unfold oneToN grouped
    rw [List.filter_eq_self.2]
    intro e he
    unfold printPattern
    rw [hdep]
    split
    · rfl
    · have h0 : flags.depth.toNat = 0 := by omega
      have := ((h2.value e.1 e.2).1 he).1
      rw [h0] at this
      exact (reached_zero this).1
  simp only [perform, this]

example : runCommand (disk twoPackages) (steps 1) .dependsOn (pat c!"//p:all") =
    some ⟨0, c!"//p:a //q:b\n//p:a //p:c\n//q:b //p:c\n", []⟩ := by decide +kernel
example : runCommand (disk twoPackages) (steps 0) .dependsOn (pat c!"//q:b") =
    some ⟨0, c!"//q:b //p:c\n", []⟩ := by decide +kernel
example : runCommand (disk twoPackages) (steps 0) .dependsOn (pat c!"//x:b") =
    some ⟨0, [], c!"Pattern did not match any dir with BUILD file.\n"⟩ := by decide +kernel
/-- The assumptions hold for the example. -/
example : ∃ found files, Starts (disk twoPackages) (steps 1) .dependsOn (pat c!"//p:all") [] found files ∧ found ≠ [] := by
  obtain ⟨found, files, h, _⟩ := disk_starts twoPackages_clean (by decide +kernel) (steps 1) .dependsOn (pat c!"//p:all")
    (by decide +kernel) (by decide)
  refine ⟨found, files, h, ?_⟩
  have := h.opened.files
  rintro rfl
  revert this
  decide +kernel

/-- With a negative number of steps, nothing is printed, whatever matches. -/
theorem C82_negative {m : Machine} (hh : Healthy m) {flags : Flags} {pattern : BazelPattern} {ws : Workspace.Map}
    {found : List Str} {files : Loaded} (hs : Starts m flags .dependsOn pattern ws found files)
    (hd : flags.depth < 0) :
    Prints m flags .dependsOn pattern (note found) [c!"library", c!"depends-on"] [] := by
  have hdep : depthOf flags .dependsOn = flags.depth := by simp [depthOf]
  refine prints_of hh hs (by simp [needsProject]) (l := files) (g := {}) ?_ (by simp) rfl (by simp)
  unfold follow
  rw [hdep, if_neg (by simp [hd])]

/-! ## C83: `has-dependents` -/

/-- **C83**: `has-dependents` prints exactly the matching targets that something depends on, of all that can be
reached from the project; each with those that depend on it, as often as they do. -/
theorem C83_has_dependents {m : Machine} (hh : Healthy m) {flags : Flags} {pattern : BazelPattern} {ws : Workspace.Map}
    {found : List Str} {files : Loaded} (hs : Starts m flags .hasDependents pattern ws found files) :
    ∃ es, Prints m flags .hasDependents pattern (note found) [c!"library", c!"has-dependent"] (grouped es) ∧
      (es.map (·.1)).Pairwise (fun a b => Ordered.lt a b = true) ∧
      (∀ t, t ∈ es.map (·.1) ↔ pattern.matchTarget t = true ∧
        ∃ b, Reached m ws .always (limit flags) files b ∧ Edge (world m ws) (trees files) b t) ∧
      ∀ t bs, (t, bs) ∈ es → ∀ b,
        (b ∈ bs ↔ Reached m ws .always (limit flags) files b ∧ Edge (world m ws) (trees files) b t) ∧
        ∀ r, Reached m ws .always (limit flags) files b → Defines (world m ws) (trees files) b r →
          bs.count b = (depsOf b.package r).count t := by
  have hdep : 0 ≤ depthOf flags .hasDependents ∧ (depthOf flags .hasDependents).toNat = limit flags := by
    unfold depthOf limit intMax
    by_cases h : flags.depth ≤ 0
    · simp [h]
    · simp only [h, false_and, if_false, and_true]; omega
  obtain ⟨l, now, g, h1, h2⟩ := follow_spec hh (starts_opened hh hs (by simp [needsProject])) rfl hdep.1
  rw [hdep.2, show searched .hasDependents pattern = .always from rfl] at h2
  have hval : ∀ t bs, (t, bs) ∈ g.hasDependents → ∀ b,
        (b ∈ bs ↔ Reached m ws .always (limit flags) files b ∧ Edge (world m ws) (trees files) b t) ∧
        ∀ r, Reached m ws .always (limit flags) files b → Defines (world m ws) (trees files) b r →
          bs.count b = (depsOf b.package r).count t := by
    intro t bs hbs b
    have hc := h2.symmetric t b
    have e1 : dependents g t = bs := by
      simp [dependents, (mem_lookup h2.sorted.keys'.nodup).1 hbs]
    rw [e1] at hc
    have key : ∀ r, Reached m ws .always (limit flags) files b → Defines (world m ws) (trees files) b r →
          bs.count b = (depsOf b.package r).count t := by
      intro r hr hd
      rw [hc]
      have := (h2.value b _).2 ⟨hr, r, hd, rfl⟩
      simp [dependencies, (mem_lookup h2.sorted.keys.nodup).1 this]
    refine ⟨⟨fun hb => ?_, ?_⟩, key⟩
    · have hpos : 0 < (dependencies g b).count t := by rw [← hc]; exact List.count_pos_iff.2 hb
      have hmem := List.count_pos_iff.1 hpos
      unfold dependencies at hmem
      cases hl : lookup g.dependsOn b with
      | none => rw [hl] at hmem; cases hmem
      | some ds =>
        rw [hl] at hmem
        obtain ⟨h3, r, h4, h5⟩ := (h2.value b ds).1 (lookup_mem hl)
        exact ⟨h3, r, h4, h5 ▸ hmem⟩
    · rintro ⟨hr, r, hd, hm⟩
      have := key r hr hd
      exact List.count_pos_iff.1 (by rw [this]; exact List.count_pos_iff.2 hm)
  have hkeys : ∀ t, t ∈ g.hasDependents.map (·.1) ↔
      ∃ b, Reached m ws .always (limit flags) files b ∧ Edge (world m ws) (trees files) b t := by
    intro t
    constructor
    · intro ht
      obtain ⟨⟨t', bs⟩, he, rfl⟩ := List.mem_map.1 ht
      obtain ⟨b, hb⟩ := List.exists_mem_of_ne_nil _ (h2.sorted.some _ he)
      exact ⟨b, (hval t' bs he b).1.1 hb⟩
    · rintro ⟨b, hr, r, hd, hm⟩
      have h3 := (h2.value b _).2 ⟨hr, r, hd, rfl⟩
      have hc := h2.symmetric t b
      have : 0 < (dependents g t).count b := by
        rw [hc]
        simp only [dependencies, (mem_lookup h2.sorted.keys.nodup).1 h3, Option.getD_some]
        exact List.count_pos_iff.2 hm
      have hmem := List.count_pos_iff.1 this
      unfold dependents at hmem
      cases hl : lookup g.hasDependents t with
      | none => rw [hl] at hmem; cases hmem
      | some bs => exact List.mem_map.2 ⟨_, lookup_mem hl, rfl⟩
  refine ⟨g.hasDependents.filter fun e => pattern.matchTarget e.1, ?_, ?_, ?_, ?_⟩
  · exact prints_of hh hs (by simp [needsProject]) h1 (by simp) rfl (grouped_fits _ _ _)
  · exact List.pairwise_map.2 ((List.pairwise_map.1 h2.sorted.keys').filter _)
  · intro t
    rw [← hkeys]
    simp only [List.mem_map, List.mem_filter]
    constructor
    · rintro ⟨e, ⟨h3, h4⟩, rfl⟩; exact ⟨h4, e, h3, rfl⟩
    · rintro ⟨h3, e, h4, rfl⟩; exact ⟨e, ⟨h4, h3⟩, rfl⟩
  · intro t bs hbs
    exact hval t bs (List.mem_filter.1 hbs).1

example : runCommand (disk twoPackages) (steps 0) .hasDependents (pat c!"//p:c") =
    some ⟨0, c!"//p:c //p:a\n//p:c //q:b\n", []⟩ := by decide +kernel

/-! ## C84: one is the converse of the other -/

/-- **C84**: without a pattern for `depends-on`, and with the same number of steps: a target is listed as dependent
as often as the other is listed as dependency; in any project. -/
theorem C84_converse {m : Machine} {flags : Flags} {pattern : BazelPattern} {ws : Workspace.Map} {r r' : Ran}
    (hw : workspaceOf m = some ws) (hd : 0 < flags.depth)
    (h : runCommand m flags .dependsOn .always = some r) (h' : runCommand m flags .hasDependents pattern = some r') :
    ∃ es es', Table.output flags.format [c!"library", c!"depends-on"] (grouped es) = some r.out ∧
      Table.output flags.format [c!"library", c!"has-dependent"] (grouped es') = some r'.out ∧
      (es.map (·.1)).Pairwise (fun a b => Ordered.lt a b = true) ∧
      (es'.map (·.1)).Pairwise (fun a b => Ordered.lt a b = true) ∧
      (∀ t ∈ es'.map (·.1), pattern.matchTarget t = true) ∧
      ∀ a b, pattern.matchTarget a = true →
        ((lookup es' a).getD []).count b = ((lookup es b).getD []).count a := by
  have hdep : depthOf flags .dependsOn = flags.depth := by simp [depthOf]
  have hdep' : depthOf flags .hasDependents = flags.depth := by
    unfold depthOf; rw [if_neg]; omega
  rcases run_inv h with ⟨h1, _⟩ | ⟨ws1, p, h1, h2, h3, _⟩
  · rw [hw] at h1; cases h1
  rcases run_inv h' with ⟨h1', _⟩ | ⟨ws2, p', h1', h2', h3', _⟩
  · rw [hw] at h1'; cases h1'
  rw [hw] at h1 h1'
  cases h1; cases h1'
  have same : prepareIn m ws flags .hasDependents pattern = prepareIn m ws flags .dependsOn .always := by
    unfold prepareIn opened fill follow
    rw [hdep, hdep']
    rfl
  rw [same, h2] at h2'
  cases h2'
  have hg : ∃ w files now, DepGraph.build w .always flags.depth files = some (now, p.graph) := by
    unfold prepareIn at h2
    obtain ⟨o, _, h4⟩ := Option.bind_eq_some_iff.1 h2
    obtain ⟨q, h5, h6⟩ := Option.map_eq_some_iff.1 h4
    unfold follow at h5
    rw [hdep, if_pos (by simp [usesGraph]; omega)] at h5
    obtain ⟨x, h7, h8⟩ := Option.map_eq_some_iff.1 h5
    subst h8
    subst h6
    exact ⟨_, _, x.1, h7⟩
  obtain ⟨w, files, now, hb⟩ := hg
  obtain ⟨hk, hk', hinv⟩ := C31_inverse _ _ _ _ _ _ hb
  have hsort := (build_sorted hb).1
  refine ⟨p.graph.dependsOn, p.graph.hasDependents.filter fun e => pattern.matchTarget e.1, ?_, ?_, hsort.keys,
    List.pairwise_map.2 ((List.pairwise_map.1 hsort.keys').filter _), ?_, ?_⟩
  · simp only [perform, table, Option.bind_some] at h3
    obtain ⟨s, h4, h5⟩ := Option.map_eq_some_iff.1 h3
    rw [show r.out = s from (congrArg Prod.snd h5).symm, ← h4]
    have : printPattern flags .dependsOn .always = .always := by unfold printPattern; split <;> rfl
    rw [this]
    unfold oneToN grouped
    have hall : (p.graph.dependsOn.filter fun d => BazelPattern.always.matchTarget d.1) = p.graph.dependsOn :=
      List.filter_eq_self.2 fun _ _ => rfl
    rw [hall]
  · simp only [perform, table, Option.bind_some] at h3'
    obtain ⟨s, h4, h5⟩ := Option.map_eq_some_iff.1 h3'
    rw [show r'.out = s from (congrArg Prod.snd h5).symm]
    exact h4
  · intro t ht
    obtain ⟨e, he, rfl⟩ := List.mem_map.1 ht
    exact (List.mem_filter.1 he).2
  · intro a b hm
    rw [lookup_filter _ _ hm]
    exact hinv a b

/-! ## C85: `list-packages` -/

/-- The files when dependencies have been followed. -/
theorem grown_lookup {m : Machine} {ws : Workspace.Map} {pattern : BazelPattern} {depth : Nat} {files : Loaded}
    {now : Files} (h : Grown m ws pattern depth files now) {pkg : BazelPackage}
    {ast : Node} (hm : (pkg, ast) ∈ now) :
    (∃ file, (pkg, file) ∈ files ∧ lookup files pkg = some file) ∨
      (lookup files pkg = none ∧ DepGraph.load (world m ws) pkg = some (some ast)) := by
  cases hl : lookup files pkg with
  | some f => exact .inl ⟨f, lookup_mem hl, rfl⟩
  | none =>
    rcases (h.each pkg ast).1 hm with h1 | ⟨_, h1, _⟩
    · obtain ⟨f, h2, _⟩ := mem_trees.1 h1
      exact absurd (List.mem_map.2 ⟨_, h2, rfl⟩) (lookup_none.1 hl)
    · exact .inr ⟨rfl, h1⟩

theorem load_path {w : DepGraph.World} {pkg : BazelPackage} {ast : Node} (h : DepGraph.load w pkg = some (some ast)) :
    ∃ name, DepGraph.pathForPackage w pkg = some name := by
  unfold DepGraph.load at h
  cases hp : DepGraph.pathForPackage w pkg with
  | none => rw [hp] at h; cases h
  | some name => exact ⟨name, rfl⟩

theorem path_load {m : Machine} (hh : Healthy m) {ws : Workspace.Map} {pkg : BazelPackage} {name : Str}
    (h : DepGraph.pathForPackage (world m ws) pkg = some name) :
    ∃ ast, DepGraph.load (world m ws) pkg = some (some ast) := by
  obtain ⟨tree, h1, _⟩ := loadsWell_of (w := world m ws) hh.readable hh.usable pkg
  cases tree with
  | some ast => exact ⟨ast, h1⟩
  | none =>
    exfalso
    unfold DepGraph.load at h1
    rw [h] at h1
    simp only [] at h1
    split at h1
    · cases h1
    · split at h1
      · cases h1
      · simp at h1

/-- **C85**, which of two files is opened apart: `list-packages` prints exactly the packages of the files that are opened for the pattern, with the
names of these files, and those of targets that are reached within the given number of steps, if they have a BUILD
file; in the order of packages. -/
theorem C85_list_packages_partial {m : Machine} (hh : Healthy m) {flags : Flags} {pattern : BazelPattern} {ws : Workspace.Map}
    {found : List Str} {files : Loaded} (hs : Starts m flags .listPackages pattern ws found files)
    (hd : 0 ≤ flags.depth) :
    ∃ rows : List (BazelPackage × Str),
      Prints m flags .listPackages pattern (note found) [c!"bazel-file", c!"package"]
        (rows.map fun e => .row [e.2, e.1.toString]) ∧
      (rows.map (·.1)).Pairwise (fun a b => Ordered.lt a b = true) ∧
      ∀ pkg name, (pkg, name) ∈ rows ↔ (∃ file, (pkg, file) ∈ files ∧ file.name = name) ∨
        (pkg ∉ files.map (·.1) ∧ (∃ t, Reached m ws pattern flags.depth.toNat files t ∧ t.package = pkg) ∧
          DepGraph.pathForPackage (world m ws) pkg = some name) := by
  have hdep : depthOf flags .listPackages = flags.depth := by simp [depthOf]
  have ho := starts_opened hh hs (by simp [needsProject])
  have ha := opened_ascending ho
  obtain ⟨l, now, g, h1, h2⟩ := follow_spec hh ho rfl (by rw [hdep]; exact hd)
  rw [hdep, show searched .listPackages pattern = pattern from rfl] at h2
  refine ⟨l.map fun f => (f.1, f.2.name), ?_, ?_, ?_⟩
  · rw [List.map_map]
    refine prints_of hh hs (by simp [needsProject]) h1 (by simp) rfl ?_
    intro op hop
    obtain ⟨e, _, rfl⟩ := List.mem_map.1 hop
    simp [Fits]
  · rw [List.map_map]
    have : (l.map ((·.1) ∘ fun f => (f.1, f.2.name))) = now.map (·.1) := by
      rw [← h2.same, trees_keys]; rfl
    rw [this]
    exact h2.grown.order
  · intro pkg name
    have hnod := ha.nodup
    rw [h2.listed]
    have : (pkg, name) ∈ (expanded (world m ws) files now).map (fun f => (f.1, f.2.name)) ↔
        ∃ e ∈ now, e.1 = pkg ∧ ((lookup files e.1).getD (added (world m ws) e.1 e.2)).name = name := by
      simp [expanded]
    rw [this]
    constructor
    · rintro ⟨⟨pkg', ast⟩, hm, rfl, rfl⟩
      rcases grown_lookup h2.grown hm with ⟨file, h3, h4⟩ | ⟨h3, h4⟩
      · exact .inl ⟨file, h3, by simp [h4]⟩
      · rcases (h2.grown.each pkg' ast).1 hm with h5 | ⟨h5, _, h6⟩
        · obtain ⟨f, h6, _⟩ := mem_trees.1 h5
          exact absurd (List.mem_map.2 ⟨_, h6, rfl⟩) (lookup_none.1 h3)
        · obtain ⟨name, h7⟩ := load_path h4
          exact .inr ⟨h5, h6, by simp [h3, added, h7]⟩
    · rintro (⟨file, h3, rfl⟩ | ⟨h3, h4, h5⟩)
      · exact ⟨(pkg, file.ast), (h2.grown.each _ _).2 (.inl (mem_trees.2 ⟨file, h3, rfl⟩)), rfl,
          by simp [(mem_lookup hnod).1 h3]⟩
      · obtain ⟨ast, h6⟩ := path_load hh h5
        exact ⟨(pkg, ast), (h2.grown.each _ _).2 (.inr ⟨h3, h6, h4⟩), rfl,
          by simp [lookup_none.2 h3, added, h5]⟩

/-- **C85**, full statement: if there are two BUILD files for a package, then the one is opened that Bazel uses. -/
def C85_statement : Prop :=
  ∀ (m : Machine) (flags : Flags) (pattern : BazelPattern) (ws : Workspace.Map) (found : List Str) (files : Loaded),
    Healthy m → Starts m flags .listPackages pattern ws found files →
    ∀ f ∈ files, ∀ dir, f.2.name = dir ++ c!"/BUILD" → m.fs.content (dir ++ c!"/BUILD.bazel") = none

/-- A package with two files. -/
def twoFiles : List (Str × Str) := [(c!"p/BUILD", []), (c!"p/BUILD.bazel", [])]

theorem C85_counterexample : ¬ C85_statement := by
  intro h
  have hc : ∀ e ∈ twoFiles, cleanText e.2 = true := by decide +kernel
  obtain ⟨found, files, hs, ho⟩ := disk_starts hc (by decide +kernel) {} .listPackages everything (by decide +kernel)
    (by decide)
  have he : ((opened (disk twoFiles) [] {} .listPackages everything).map fun r => r.1.map (·.2.name)) =
      some [c!"./p/BUILD"] := by decide +kernel
  rw [ho] at he
  simp only [Option.map_some, Option.some.injEq] at he
  have : ∃ f ∈ files, f.2.name = c!"./p/BUILD" := by
    have : c!"./p/BUILD" ∈ files.map (·.2.name) := by rw [he]; simp
    obtain ⟨f, h1, h2⟩ := List.mem_map.1 this
    exact ⟨f, h1, h2⟩
  obtain ⟨f, h1, h2⟩ := this
  have := h _ _ _ _ _ _ (disk_healthy hc) hs f h1 c!"./p" h2
  revert this
  decide +kernel

example : runCommand (disk twoPackages) (steps 0) .listPackages everything =
    some ⟨0, c!"./p/BUILD //p\n./q/BUILD //q\n", []⟩ := by decide +kernel
example : runCommand (disk twoPackages) (steps 1) .listPackages (pat c!"//p:all") =
    some ⟨0, c!"p/BUILD //p\nq/BUILD //q\n", []⟩ := by decide +kernel

/-! ## C86: `list-targets` -/

theorem printPattern_shown {flags : Flags} {cmd : Command} (hdep : depthOf flags cmd = flags.depth)
    (pattern : BazelPattern) : (printPattern flags cmd pattern).matchTarget = shown flags pattern := by
  funext t
  unfold printPattern shown
  rw [hdep]
  by_cases h : 0 < flags.depth
  · rw [if_pos h]; simp [h]; rfl
  · rw [if_neg h]; simp [h]

theorem reached_cases {m : Machine} {ws : Workspace.Map} {pattern : BazelPattern} {depth : Nat} {files : Loaded}
    {es : List (BazelTarget × List BazelTarget)}
    (hv : ∀ t ds, (t, ds) ∈ es ↔ Reached m ws pattern depth files t ∧
      ∃ r, Defines (world m ws) (trees files) t r ∧ ds = depsOf t.package r)
    {t : BazelTarget} (h : Reached m ws pattern depth files t) :
    pattern.matchTarget t = true ∨ ∃ e ∈ es, t ∈ e.2 := by
  obtain ⟨n, hn, hr⟩ := h
  cases hr with
  | root h =>
    obtain ⟨_, _, _, _, _, h⟩ := h
    exact .inl h
  | @step k u _ h1 h2 =>
    obtain ⟨r, h3, h4⟩ := h2
    exact .inr ⟨_, (hv u _).2 ⟨⟨k, by omega, h1⟩, r, h3, rfl⟩, h4⟩

/-- **C86**, full statement: the targets that `list-targets` prints match the pattern, or are reached from those. -/
def C86_statement : Prop :=
  ∀ (m : Machine) (flags : Flags) (pattern : BazelPattern) (ws : Workspace.Map) (found : List Str) (files : Loaded)
    (ran : Ran), Healthy m → Starts m flags .listTargets pattern ws found files → 0 ≤ flags.depth →
    runCommand m flags .listTargets pattern = some ran → flags.format = .json →
    ∀ t : BazelTarget, (c!"\"target\": \"" ++ t.toString ++ c!"\"}") <:+: ran.out →
      Reached m ws pattern flags.depth.toNat files t

/-- Two libraries that have nothing to do with each other. -/
def unrelated : List (Str × Str) := [(c!"p/BUILD", c!"cc_library(name=\"a\")\ncc_library(name=\"c\")")]

theorem C86_counterexample : ¬ C86_statement := by
  intro h
  have hc : ∀ e ∈ unrelated, cleanText e.2 = true := by decide +kernel
  obtain ⟨found, files, hs, ho⟩ := disk_starts hc (by decide +kernel) { steps 1 with format := .json } .listTargets
    (pat c!"//p:a") (by decide +kernel) (by decide)
  have hrun : runCommand (disk unrelated) { steps 1 with format := .json } .listTargets (pat c!"//p:a") =
      some ⟨0, c!"{\"file-location\": \"p/BUILD:1\", \"rule\": \"cc_library\", \"target\": \"//p:a\"}\n{\"file-location\": \"p/BUILD:2\", \"rule\": \"cc_library\", \"target\": \"//p:c\"}\n", []⟩ := by
    decide +kernel
  have hreach := h _ _ _ _ _ _ _ (disk_healthy hc) hs (by decide) hrun rfl ⟨⟨[], c!"p"⟩, c!"c"⟩
    (List.isInfixOf_internal_iff_isInfix.1 (by decide +kernel))
  obtain ⟨l, now, g, h1, h2⟩ := follow_spec (disk_healthy hc) ho (by decide) (by decide)
  have hg : ((prepareIn (disk unrelated) [] { steps 1 with format := .json } .listTargets (pat c!"//p:a")).map
      fun p => p.graph.dependsOn) = some [(⟨⟨[], c!"p"⟩, c!"a"⟩, [])] := by decide +kernel
  rw [prepareIn, ho, Option.bind_some, h1] at hg
  have hg : g.dependsOn = [(⟨⟨[], c!"p"⟩, c!"a"⟩, [])] := Option.some.inj hg
  rcases reached_cases h2.value hreach with h3 | ⟨e, h3, h4⟩
  · revert h3; decide +kernel
  · rw [hg] at h3
    simp only [List.mem_singleton] at h3
    subst h3
    cases h4

/-- **C86**, what holds: `list-targets` prints the rules of the files that are opened or loaded for dependencies: those that
match, or (with `-r`) all. -/
theorem C86_list_targets_partial {m : Machine} (hh : Healthy m) {flags : Flags} {pattern : BazelPattern} {ws : Workspace.Map}
    {found : List Str} {files : Loaded} (hs : Starts m flags .listTargets pattern ws found files)
    (hd : 0 ≤ flags.depth) :
    ∃ now, Grown m ws pattern flags.depth.toNat files now ∧
      Prints m flags .listTargets pattern (note found) [c!"file-location", c!"rule", c!"target"]
        (now.flatMap fun f => ((targetsOf f).filter fun e => shown flags pattern e.2.2).map fun e =>
          .row [m.nameLoc f.1 e.1, e.2.1, e.2.2.toString]) := by
  have hdep : depthOf flags .listTargets = flags.depth := by simp [depthOf]
  obtain ⟨l, now, g, h1, h2⟩ := follow_spec hh (starts_opened hh hs (by simp [needsProject])) rfl
    (by rw [hdep]; exact hd)
  rw [hdep, show searched .listTargets pattern = pattern from rfl] at h2
  refine ⟨now, h2.grown, prints_of hh hs (by simp [needsProject]) h1 (by simp) ?_ ?_⟩
  · simp only [perform, h2.same, allTargetRows_eq h2.searchable, printPattern_shown hdep]
  · intro op hop
    obtain ⟨f, _, h3⟩ := List.mem_flatMap.1 hop
    obtain ⟨e, _, rfl⟩ := List.mem_map.1 h3
    simp [Fits]

example : runCommand (disk twoPackages) (steps 0) .listTargets (pat c!"//q:b") =
    some ⟨0, c!"q/BUILD:1 cc_library //q:b\n", []⟩ := by decide +kernel
example : runCommand (disk twoPackages) (steps 1) .listTargets (pat c!"//q:b") =
    some ⟨0, c!"p/BUILD:1 cc_library //p:a\np/BUILD:2 cc_library //p:c\nq/BUILD:1 cc_library //q:b\nq/BUILD:2 cc_library //q:d\n",
      []⟩ := by decide +kernel

/-! ## C87: `lib-headers` -/

theorem grown_unique {m : Machine} {ws : Workspace.Map} {pattern : BazelPattern} {depth : Nat} {files : Loaded}
    {now now' : Files} (h : Grown m ws pattern depth files now) (h' : Grown m ws pattern depth files now') :
    now = now' :=
  sorted_ext h.order h'.order fun x => (h.each x.1 x.2).trans (h'.each x.1 x.2).symm

/-- **C87**, full statement: only headers of libraries that match (or, with `-r`, of any that are found) are
printed. -/
def C87_statement : Prop :=
  ∀ (m : Machine) (flags : Flags) (pattern : BazelPattern) (ws : Workspace.Map) (found : List Str) (files : Loaded)
    (now : Files) (ran : Ran), Healthy m → Starts m flags .libraryHeaders pattern ws found files → 0 ≤ flags.depth →
    Grown m ws pattern flags.depth.toNat files now →
    runCommand m flags .libraryHeaders pattern = some ran → flags.format = .json →
    ∀ p : Str, (c!"{\"header\": \"" ++ p ++ c!"\"") <:+: ran.out →
      ∃ t, HeaderSpec.Provides now p t ∧ shown flags pattern t = true

theorem C87_counterexample : ¬ C87_statement := by
  intro h
  obtain ⟨found, files, hs, ho⟩ := disk_starts twoPackages_clean (by decide +kernel)
    { steps 0 with format := .json } .libraryHeaders (pat c!"//q:b") (by decide +kernel) (by decide)
  have hrun : runCommand (disk twoPackages) { steps 0 with format := .json } .libraryHeaders (pat c!"//q:b") =
      some ⟨0, c!"{\"header\": \"q/d.h\", \"providing-rule\": []}\n", []⟩ := by decide +kernel
  obtain ⟨l, now, g, h1, h2⟩ := follow_spec (disk_healthy twoPackages_clean) ho (by decide) (by decide)
  obtain ⟨t, ht, hm⟩ := h _ _ _ _ _ _ now _ (disk_healthy twoPackages_clean) hs (by decide) h2.grown hrun rfl c!"q/d.h"
    (List.isInfixOf_internal_iff_isInfix.1 (by decide +kernel))
  have hp : ((prepareIn (disk twoPackages) [] { steps 0 with format := .json } .libraryHeaders (pat c!"//q:b")).bind
      fun p => headerMap (trees p.files)) = some [(c!"q/d.h", [⟨⟨[], c!"q"⟩, c!"d"⟩])] := by decide +kernel
  rw [prepareIn, ho, Option.bind_some, h1, Option.map_some, Option.bind_some] at hp
  simp only [h2.same] at hp
  obtain ⟨hm', h3, _, _, _, h4⟩ := headerMap_spec h2.searchable
  rw [h3] at hp
  cases hp
  have := (h4 c!"q/d.h" _ (List.mem_singleton.2 rfl) t).2 ht
  simp only [List.mem_singleton] at this
  subst this
  revert hm
  decide +kernel

/-- **C87**, what holds: `lib-headers` prints each header that is provided by a library in the files, sorted, with those of
the providing libraries that match, or (with `-r`) all. -/
theorem C87_lib_headers_partial {m : Machine} (hh : Healthy m) {flags : Flags} {pattern : BazelPattern} {ws : Workspace.Map}
    {found : List Str} {files : Loaded} (hs : Starts m flags .libraryHeaders pattern ws found files)
    (hd : 0 ≤ flags.depth) :
    ∃ now, Grown m ws pattern flags.depth.toNat files now ∧
    ∃ rows : List (Str × List BazelTarget),
      Prints m flags .libraryHeaders pattern (note found) [c!"header", c!"providing-rule"]
        (rows.map fun e => .repeated [e.1] (e.2.map BazelTarget.toString)) ∧
      SortedKeys rows ∧ (∀ e ∈ rows, e.2.Pairwise fun a b => Ordered.lt a b = true) ∧
      (∀ p, (∃ ts, (p, ts) ∈ rows) ↔ ∃ t, HeaderSpec.Provides now p t) ∧
      ∀ p ts, (p, ts) ∈ rows → ∀ t, t ∈ ts ↔ HeaderSpec.Provides now p t ∧ shown flags pattern t = true := by
  have hdep : depthOf flags .libraryHeaders = flags.depth := by simp [depthOf]
  obtain ⟨l, now, g, h1, h2⟩ := follow_spec hh (starts_opened hh hs (by simp [needsProject])) rfl
    (by rw [hdep]; exact hd)
  rw [hdep, show searched .libraryHeaders pattern = pattern from rfl] at h2
  obtain ⟨hm, h3, h4, h5, h6, h7⟩ := headerMap_spec h2.searchable
  refine ⟨now, h2.grown, hm.map fun e => (e.1, e.2.filter (shown flags pattern)), ?_, ?_, ?_, ?_, ?_⟩
  · refine prints_of hh hs (by simp [needsProject]) h1 (by simp) ?_ ?_
    · simp only [perform, h2.same, h3, Option.map_some, headerRows, printPattern_shown hdep, List.map_map]
      rfl
    · intro op hop
      obtain ⟨e, _, rfl⟩ := List.mem_map.1 hop
      simp [Fits]
  · exact List.pairwise_map.2 h4
  · intro e he
    obtain ⟨x, hx, rfl⟩ := List.mem_map.1 he
    exact (h5 x hx).filter _
  · intro p
    rw [← h6]
    simp only [List.mem_map, Prod.mk.injEq]
    constructor
    · rintro ⟨ts, e, he, rfl, _⟩; exact ⟨e.2, he⟩
    · rintro ⟨ts, he⟩; exact ⟨_, (p, ts), he, rfl, rfl⟩
  · intro p ts hp t
    obtain ⟨e, he, h8⟩ := List.mem_map.1 hp
    cases h8
    rw [List.mem_filter, h7 _ _ he]

example : runCommand (disk twoPackages) (steps 0) .libraryHeaders everything =
    some ⟨0, c!"q/d.h //q:d\n", []⟩ := by decide +kernel

/-! ## C88: `genrule-outputs` -/

/-- **C88**: `genrule-outputs` prints the outputs of the rules in the files, sorted, each with the first rule that
lists it, if that matches, or (with `-r`) any. -/
theorem C88_genrule_outputs {m : Machine} (hh : Healthy m) {flags : Flags} {pattern : BazelPattern}
    {ws : Workspace.Map} {found : List Str} {files : Loaded}
    (hs : Starts m flags .genruleOutputs pattern ws found files) (hd : 0 ≤ flags.depth) :
    ∃ now, Grown m ws pattern flags.depth.toNat files now ∧
    ∃ rows : List (Str × BazelTarget),
      Prints m flags .genruleOutputs pattern (note found) [c!"generated-file", c!"providing-rule"]
        (rows.map fun e => .row [e.1, e.2.toString]) ∧
      SortedKeys rows ∧
      ∀ p t, (p, t) ∈ rows ↔ ((HeaderSpec.outputs now).find? (·.1 = p)).map (·.2) = some t ∧
        shown flags pattern t = true := by
  have hdep : depthOf flags .genruleOutputs = flags.depth := by simp [depthOf]
  obtain ⟨l, now, g, h1, h2⟩ := follow_spec hh (starts_opened hh hs (by simp [needsProject])) rfl
    (by rw [hdep]; exact hd)
  rw [hdep, show searched .genruleOutputs pattern = pattern from rfl] at h2
  obtain ⟨gm, h3, h4, h5⟩ := genruleMap_spec h2.searchable
  refine ⟨now, h2.grown, gm.filter fun e => shown flags pattern e.2, ?_, ?_, ?_⟩
  · refine prints_of hh hs (by simp [needsProject]) h1 (by simp) ?_ ?_
    · simp only [perform, h2.same, h3, Option.map_some, genruleRows, printPattern_shown hdep]
    · intro op hop
      obtain ⟨e, _, rfl⟩ := List.mem_map.1 hop
      simp [Fits]
  · exact h4.filter _
  · intro p t
    rw [List.mem_filter, h5]

/-- Generated files; one with an alias. -/
def generated : List (Str × Str) :=
  [(c!"p/BUILD", c!"genrule(name=\"g\",outs=[\"x.h\"])\ngenrule(name=\"h\",outs=[\"x.h\",\"a.h\"])\nalias(name=\"l\",actual=\":g\")\ncc_library(name=\"u\",deps=[\"//q:m\"])"),
   (c!"q/BUILD", c!"alias(name=\"m\",actual=\"//p:g\")")]

example : runCommand (disk generated) (steps 0) .genruleOutputs everything =
    some ⟨0, c!"p/a.h //p:h\np/x.h //p:g\n", []⟩ := by decide +kernel
example : runCommand (disk generated) (steps 0) .genruleOutputs (pat c!"//p:h") =
    some ⟨0, c!"p/a.h //p:h\n", []⟩ := by decide +kernel

/-! ## C89: `aliased-by` -/

/-- **C89**, full statement: with `-r`, also the aliases in files of dependencies are printed. -/
def C89_statement : Prop :=
  ∀ (m : Machine) (flags : Flags) (pattern : BazelPattern) (ws : Workspace.Map) (found : List Str) (files : Loaded)
    (now : Files) (ran : Ran), Healthy m → Starts m flags .aliasedBy pattern ws found files → 0 ≤ flags.depth →
    Grown m ws pattern flags.depth.toNat files now → runCommand m flags .aliasedBy pattern = some ran →
    ∀ t a, HeaderSpec.Alias now t a → shown flags pattern t = true → a.toString <:+: ran.out

theorem C89_counterexample : ¬ C89_statement := by
  intro h
  have hc : ∀ e ∈ generated, cleanText e.2 = true := by decide +kernel
  obtain ⟨found, files, hs, ho⟩ := disk_starts hc (by decide +kernel) (steps 1) .aliasedBy (pat c!"//p:u")
    (by decide +kernel) (by decide)
  have hrun : runCommand (disk generated) (steps 1) .aliasedBy (pat c!"//p:u") =
      some ⟨0, c!"//p:g //p:l\n", []⟩ := by decide +kernel
  have ho' : opened (disk generated) [] (steps 1) .dependsOn (pat c!"//p:u") = some (files, note found) := ho
  obtain ⟨l, now, g, h1, h2⟩ := follow_spec (disk_healthy hc) ho' (by decide) (by decide)
  obtain ⟨al, h3, h4⟩ := extractAliasedBy_spec h2.searchable
  have hp : ((prepareIn (disk generated) [] (steps 1) .dependsOn (pat c!"//p:u")).bind
      fun p => extractAliasedBy (trees p.files)) =
        some [(⟨⟨[], c!"p"⟩, c!"g"⟩, ⟨⟨[], c!"p"⟩, c!"l"⟩), (⟨⟨[], c!"p"⟩, c!"g"⟩, ⟨⟨[], c!"q"⟩, c!"m"⟩)] := by
    decide +kernel
  rw [prepareIn, ho', Option.bind_some, h1, Option.map_some, Option.bind_some] at hp
  simp only [h2.same] at hp
  rw [h3] at hp
  cases hp
  have := h _ _ _ _ _ _ now _ (disk_healthy hc) hs (by decide) h2.grown hrun ⟨⟨[], c!"p"⟩, c!"g"⟩ ⟨⟨[], c!"q"⟩, c!"m"⟩
    ((h4 _ _).1 (by simp)) rfl
  have := List.isInfixOf_internal_iff_isInfix.2 this
  revert this
  decide +kernel

/-- **C89**, what holds: `aliased-by` prints the targets that a rule in the opened files is an alias for, sorted, each with
its aliases in the order of packages and rules: those that match, or (with `-r`) all. -/
theorem C89_aliased_by_partial {m : Machine} (hh : Healthy m) {flags : Flags} {pattern : BazelPattern}
    {ws : Workspace.Map} {found : List Str} {files : Loaded}
    (hs : Starts m flags .aliasedBy pattern ws found files) :
    ∃ es, Prints m flags .aliasedBy pattern (note found) [c!"actual", c!"aliased-by"] (grouped es) ∧
      (es.map (·.1)).Pairwise (fun a b => Ordered.lt a b = true) ∧
      ∀ t as, (t, as) ∈ es ↔ as = aliasesFor (trees files) t ∧ as ≠ [] ∧ shown flags pattern t = true := by
  have hdep : depthOf flags .aliasedBy = flags.depth := by simp [depthOf]
  have ho := starts_opened hh hs (by simp [needsProject])
  obtain ⟨am, h1, h2, h3⟩ := aliasMap_spec (opened_searchable hh ho)
  refine ⟨am.filter fun e => shown flags pattern e.1, ?_, ?_, ?_⟩
  · refine prints_of hh hs (by simp [needsProject]) (l := files) (g := {}) (by simp [follow, usesGraph]) (by simp)
      ?_ (grouped_fits _ _ _)
    simp only [perform, h1, Option.map_some, oneToN, printPattern_shown hdep]
    rfl
  · exact List.pairwise_map.2 ((List.pairwise_map.1 h2).filter _)
  · intro t as
    rw [List.mem_filter, h3, and_assoc]

example : runCommand (disk generated) (steps 0) .aliasedBy everything =
    some ⟨0, c!"//p:g //p:l\n//p:g //q:m\n", []⟩ := by decide +kernel

end Props
end Bant
