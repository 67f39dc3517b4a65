import Verif.Lemmas.Stats
import Verif.Lemmas.Commands
import Verif.Lemmas.StderrGraph
import Verif.Lemmas.DepGraphOrder
import Verif.Lemmas.LocatedCommands
import Verif.Lemmas.DwyuRule
import Verif.Lemmas.Stable

/-! Helper lemmas: the statistics of a command. -/
namespace Bant
namespace Stats
open StatsSpec Commands Cli Query Headers CommandSpec

theorem lookedAll_defined {t : FileUtils.Tree} {wantDir wantFile : Str → Bool} (n : Nat) {st : FileUtils.Walk}
    {out : List Str} (h : FileUtils.walk t wantDir wantFile n st = some out) :
    ∃ k, lookedAll t wantDir wantFile n st = some k := by
  induction n generalizing st with
  | zero =>
    rw [FileUtils.walk] at h
    rw [lookedAll]
    split at h
    · rename_i hw
      exact ⟨0, by rw [if_pos hw]⟩
    · cases h
  | succ n ih =>
    rw [FileUtils.walk] at h
    rw [lookedAll]
    cases hw : st.work with
    | nil => exact ⟨0, rfl⟩
    | cons dir rest =>
      rw [hw] at h
      obtain ⟨k, hk⟩ := ih h
      exact ⟨_, by simp only [hk, Option.map_some]; rfl⟩

theorem fill_counted {m : Machine} {ws : Workspace.Map} {cmd : Command} {pattern : BazelPattern} {r : Loaded × Str}
    (hneed : needsProject cmd pattern = true) (h : Commands.fill m ws cmd pattern = some r) :
    ∃ n found, fill m ws cmd pattern = some (⟨walkKey, c!"files/directories", n, none⟩ ::
        (sizes m ws (searched cmd pattern).pattern.package.project [] found).flatMap addFile) ∧
      walk m ws (searched cmd pattern) = some [⟨walkKey, c!"files/directories", n, none⟩] ∧
      Collect.collectBuildFiles m.tree m.symlink ws (searched cmd pattern) m.steps = some found ∧
      ∀ f ∈ found, ∃ pkg, Collect.packageOf ws f (searched cmd pattern).pattern.package.project = some (some pkg) := by
  unfold Commands.fill at h
  rw [if_pos hneed] at h
  obtain ⟨⟨p, k⟩, h1, h2⟩ := Option.map_eq_some_iff.1 h
  unfold Collect.fillFromPattern at h1
  change (match Collect.collectBuildFiles m.tree m.symlink ws (searched cmd pattern) m.steps with
    | none => none
    | some files => Option.map _ (files.foldlM (Collect.addFound ws (searched cmd pattern).pattern.package.project
        m.fs.content m.base) {})) = _ at h1
  cases hc : Collect.collectBuildFiles m.tree m.symlink ws (searched cmd pattern) m.steps with
  | none => rw [hc] at h1; cases h1
  | some found =>
    rw [hc] at h1
    simp only at h1
    obtain ⟨q, h3, h4⟩ := Option.map_eq_some_iff.1 h1
    have hpkg : ∀ f ∈ found, Collect.packageOf ws f (searched cmd pattern).pattern.package.project ≠ none := by
      intro f hf hn
      clear h4 hc h1
      revert h3
      generalize ({} : Project.State) = start
      induction found generalizing start with
      | nil => cases hf
      | cons g found ih =>
        intro h3
        rw [List.foldlM_cons] at h3
        obtain ⟨p', h5, h6⟩ := Option.bind_eq_some_iff.1 h3
        rcases List.mem_cons.1 hf with rfl | hf
        · simp [Collect.addFound, hn] at h5
        · exact ih hf p' h6
    have hknown := Stderr.found_packages hc hpkg
    have hadd := addAll_counted (m := m) (ws := ws) (project := (searched cmd pattern).pattern.package.project)
      (before := []) (p := {}) rfl h3 hknown
    have hwalk : ∃ n, walk m ws (searched cmd pattern) = some [⟨walkKey, c!"files/directories", n, none⟩] := by
      unfold walk
      unfold Collect.collectBuildFiles at hc
      cases hd : Collect.searchDir ws (searched cmd pattern) with
      | none => exact ⟨0, rfl⟩
      | some dir =>
        rw [hd] at hc
        obtain ⟨n, hn⟩ := lookedAll_defined m.steps hc
        exact ⟨n, by simp only [hn, Option.map_some]⟩
    obtain ⟨n, hn⟩ := hwalk
    refine ⟨n, found, ?_, hn, rfl, hknown⟩
    unfold fill
    rw [if_pos hneed]
    change (match walk m ws (searched cmd pattern),
      (Collect.collectBuildFiles m.tree m.symlink ws (searched cmd pattern) m.steps).bind
        (addAll m ws (searched cmd pattern).pattern.package.project {}) with
      | some a, some b => some (a ++ b)
      | _, _ => none) = _
    rw [hn, hc]
    simp only [Option.bind_some, hadd]
    rfl

/-! ### Definedness of the events of commands -/

theorem mapAll_defined {α β γ : Type} {f : α → Option (List β)} {g : α → Option (List γ)} {l : List α}
    (h : ∀ x ∈ l, (f x).isSome = true → (g x).isSome = true) (hf : (mapAll f l).isSome = true) :
    (mapAll g l).isSome = true := by
  induction l with
  | nil => rfl
  | cons x l ih =>
    rw [mapAll] at hf ⊢
    cases hx : f x with
    | none => rw [hx] at hf; cases hf
    | some y =>
      rw [hx] at hf
      have h1 := h x (.head _) (by rw [hx]; rfl)
      cases hg : g x with
      | none => rw [hg] at h1; cases h1
      | some z =>
        simp only [Option.isSome_map] at hf ⊢
        exact ih (fun y hy => h y (.tail _ hy)) hf

theorem forTargets_defined {β γ : Type} {ast : Node} {rules : List Str} {f : Query.Result → Option (List β)}
    {g : Query.Result → Option (List γ)} (h : ∀ x, (f x).isSome = true → (g x).isSome = true)
    (hf : (forTargets ast rules f).isSome = true) : (forTargets ast rules g).isSome = true := by
  unfold forTargets at hf ⊢
  cases ht : findTargets false ast rules with
  | none => rw [ht] at hf; cases hf
  | some rs =>
    rw [ht] at hf
    exact mapAll_defined (fun x _ => h x) hf

theorem canonicalize_defined {pattern : BazelPattern} {files : Files} {es : List Edit}
    (h : canonEdits pattern files = some es) : ∃ l, canonicalize pattern files = some l := by
  have h0 : (canonEdits pattern files).isSome = true := by rw [h]; rfl
  rw [← Option.isSome_iff_exists]
  unfold canonicalize
  rw [Option.isSome_map]
  unfold canonEdits at h0
  refine mapAll_defined (fun f _ => ?_) h0
  split
  · exact fun _ => rfl
  · refine forTargets_defined fun r => ?_
    cases f.1.qualifiedTarget r.name with
    | none => exact fun _ => rfl
    | some self =>
      cases hm : pattern.matchTarget self with
      | false => simp only [hm]; exact fun _ => rfl
      | true =>
        simp only [hm, Bool.not_true, Bool.false_eq_true, if_false, Option.isSome_map]
        exact id

theorem dwyu_defined {env : Dwyu.Env} {pattern : BazelPattern} {files : Files} {es : List Edit}
    (h : Dwyu.createDependencyEdits env pattern files = some es) : ∃ l, dwyu env pattern files = some l := by
  unfold Dwyu.createDependencyEdits at h
  obtain ⟨gen, h1, h2⟩ := Option.bind_eq_some_iff.1 h
  have h0 : (Dwyu.createEditsForPattern env gen pattern files).isSome = true := by rw [h2]; rfl
  rw [← Option.isSome_iff_exists]
  unfold dwyu
  rw [h1, Option.bind_some, Option.isSome_map]
  unfold Dwyu.createEditsForPattern at h0
  refine mapAll_defined (fun f _ => ?_) h0
  split
  · exact fun _ => rfl
  · refine forTargets_defined fun r => ?_
    cases f.1.qualifiedTarget r.name with
    | none => exact fun _ => rfl
    | some self =>
      cases hm : pattern.matchTarget self with
      | false => simp only [hm]; exact fun _ => rfl
      | true =>
        simp only [hm, Bool.not_true, Bool.false_eq_true, if_false]
        unfold Dwyu.createEditsForTarget
        cases stringList r.srcs with
        | none => exact fun h => by cases h
        | some a =>
          cases stringList r.hdrs with
          | none => exact fun h => by cases h
          | some b => exact fun _ => rfl

theorem perform_defined {m : Machine} {flags : Flags} {cmd : Command} {pattern : BazelPattern} {p : Prepared}
    {r : Commands.Result} (h : Commands.perform m flags cmd pattern p = some r) :
    ∃ l, perform m flags cmd pattern p.workspace (trees p.files) = some l := by
  cases cmd
  case dwyu =>
    obtain ⟨es, h1, _⟩ := Option.map_eq_some_iff.1 h
    exact dwyu_defined h1
  case canonicalizeDeps =>
    obtain ⟨es, h1, _⟩ := Option.map_eq_some_iff.1 h
    exact canonicalize_defined h1
  all_goals exact ⟨[], rfl⟩

/-! ### The graph -/

/-- What is counted for a command that builds the graph. -/
structure Counted (m : Machine) (globs : BazelPackage → Option Nat) (ws : Workspace.Map) (files files' : Loaded)
    (l : List Event) (news : List BazelPackage) : Prop where
  once : news.Nodup
  new : ∀ pkg, pkg ∈ news ↔ pkg ∈ files'.map (·.1) ∧ pkg ∉ files.map (·.1)
  length : files'.length = files.length + news.length
  keys : (files'.map (·.1)).Nodup
  keeps : ∀ x ∈ files, x ∈ files'
  names : ∀ x ∈ files', x ∈ files ∨
    (x.1 ∈ news ∧ DepGraph.pathForPackage ⟨m.fs, ws, m.glob⟩ x.1 = some x.2.name)
  events : ∀ k, k ≠ existKey → k ≠ roundKey → ofKey l k = ofKey (news.flatMap (loaded ⟨m.fs, ws, m.glob⟩ globs)) k

theorem graph_counted {m : Machine} (globs : BazelPackage → Option Nat) {ws : Workspace.Map} {flags : Flags}
    {cmd : Command} {pattern : BazelPattern} {files files' : Loaded} {g : DepGraph.Graph}
    (ha : Ascending (files.map (·.1))) (h : follow m ws flags cmd pattern files = some (files', g)) :
    ∃ l news, graph m globs ws flags cmd pattern (trees files) = some l ∧
      Counted m globs ws files files' l news := by
  unfold follow at h
  unfold graph
  cases hu : usesGraph cmd && decide (depthOf flags cmd ≥ 0) with
  | false =>
    rw [hu] at h
    cases h
    refine ⟨[], [], rfl, List.nodup_nil, fun pkg => ?_, rfl, ha.nodup, fun x hx => hx, fun x hx => .inl hx, fun k _ _ => rfl⟩
    simp
  | true =>
    rw [hu] at h
    simp only [if_true] at h ⊢
    obtain ⟨⟨now, g'⟩, h1, h2⟩ := Option.map_eq_some_iff.1 h
    cases h2
    have hs := (Bant.build_sorted h1).2 (by rw [trees_keys]; exact ha)
    have hgrew := Located.build_grew h1
    unfold DepGraph.build at h1
    have h1' : (DepGraph.initial (depPattern cmd pattern) (trees files)).bind (fun todo =>
        DepGraph.rounds ⟨m.fs, ws, m.glob⟩ (trees files) {} todo (depthOf flags cmd).toNat) = some (now, g') := by
      cases hi : DepGraph.initial (depPattern cmd pattern) (trees files) with
      | none => rw [hi] at h1; cases h1
      | some todo => rw [hi] at h1; exact h1
    obtain ⟨todo, h3, h4⟩ := Option.bind_eq_some_iff.1 h1'
    obtain ⟨l, h5, news, h6, h7, h8, h9⟩ := rounds_counted globs _ h4
    rw [h3]
    simp only [Option.bind_some, h5, Option.map_some]
    have hkeys : (expanded ⟨m.fs, ws, m.glob⟩ files now).map (·.1) = now.map (·.1) := by
      rw [expanded, List.map_map]; rfl
    have hnew : ∀ pkg, pkg ∈ news ↔ pkg ∈ now.map (·.1) ∧ pkg ∉ files.map (·.1) := by
      intro pkg
      rw [h7, lookup_none, trees_keys, and_comm]
      refine and_congr_left fun _ => ?_
      cases hl : lookup now pkg with
      | none => simpa using lookup_none.1 hl
      | some v =>
        refine ⟨fun _ => ?_, fun _ => rfl⟩
        exact Classical.byContradiction fun hn => by rw [lookup_none.2 hn] at hl; cases hl
    have hold : ∀ pkg, pkg ∈ files.map (·.1) → pkg ∈ now.map (·.1) := by
      intro pkg hp
      refine Classical.byContradiction fun hn => ?_
      have := h8 pkg
      rw [lookup_none.2 hn] at this
      cases hl : lookup (trees files) pkg with
      | none => exact lookup_none.1 hl (by rw [trees_keys]; exact hp)
      | some v => simp [hl] at this
    refine ⟨_, news, rfl, h6, fun pkg => ?_, ?_, by rw [hkeys]; exact hs.nodup, fun x hx => ?_, fun x hx => ?_,
      fun k hk hk' => ?_⟩
    · rw [hkeys]; exact hnew pkg
    · have hperm : (now.map (·.1)).Perm (files.map (·.1) ++ news) := by
        refine (List.perm_ext_iff_of_nodup hs.nodup ?_).2 fun pkg => ?_
        · refine List.nodup_append.2 ⟨ha.nodup, h6, fun x hx y hy e => ?_⟩
          subst e
          exact ((hnew x).1 hy).2 hx
        · rw [List.mem_append, hnew]
          constructor
          · intro hp
            by_cases hf : pkg ∈ files.map (·.1)
            · exact .inl hf
            · exact .inr ⟨hp, hf⟩
          · rintro (hp | hp)
            · exact hold pkg hp
            · exact hp.1
      have := hperm.length_eq
      rw [← hkeys] at this
      simpa using this
    · obtain ⟨⟨pkg, ast⟩, hy, e⟩ := List.mem_map.1 (hold x.1 (List.mem_map.2 ⟨x, hx, rfl⟩))
      refine List.mem_map.2 ⟨_, hy, ?_⟩
      simp only at e ⊢
      rw [e, (mem_lookup ha.nodup).1 (show (x.1, x.2) ∈ files from hx)]
      rfl
    · obtain ⟨⟨pkg, ast⟩, hy, rfl⟩ := List.mem_map.1 hx
      simp only
      cases hl : lookup files pkg with
      | some f => exact .inl ((mem_lookup ha.nodup).2 hl)
      | none =>
        refine .inr ⟨(hnew pkg).2 ⟨List.mem_map.2 ⟨_, hy, rfl⟩, lookup_none.1 hl⟩, ?_⟩
        have hload : DepGraph.load ⟨m.fs, ws, m.glob⟩ pkg = some (some ast) := by
          rcases hgrew pkg ast ((mem_lookup hs.nodup).1 hy) with h | h
          · have : lookup (trees files) pkg = none := by
              rw [lookup_none, trees_keys]; exact lookup_none.1 hl
            rw [this] at h; cases h
          · exact h.2
        simp only [Option.getD_none, added]
        unfold DepGraph.load at hload
        cases hp : DepGraph.pathForPackage ⟨m.fs, ws, m.glob⟩ pkg with
        | none => rw [hp] at hload; cases hload
        | some path => rfl
    · rw [ofKey_cons_ne hk']
      exact h9 k hk hk'

/-! ### All of it -/

theorem fill_nothing {m : Machine} {ws : Workspace.Map} {cmd : Command} {pattern : BazelPattern}
    (h : needsProject cmd pattern = false) : fill m ws cmd pattern = some [] := by
  unfold fill
  rw [if_neg (by simp [h])]

theorem prepare_steps {m : Machine} {flags : Flags} {cmd : Command} {pattern : BazelPattern} {p : Prepared}
    (h : prepare m flags cmd pattern = some (some p)) :
    ∃ files g, opened m p.workspace flags cmd pattern = some (files, p.message) ∧
      follow m p.workspace flags cmd pattern files = some (p.files, g) := by
  unfold prepare at h
  split at h
  · cases h
  · cases h
  · rename_i ws _
    obtain ⟨p', h1, h2⟩ := Option.map_eq_some_iff.1 h
    cases h2
    unfold prepareIn at h1
    obtain ⟨⟨files, msg⟩, h3, h4⟩ := Option.bind_eq_some_iff.1 h1
    obtain ⟨⟨now, g⟩, h5, h6⟩ := Option.map_eq_some_iff.1 h4
    subst h6
    exact ⟨files, g, h3, h5⟩

theorem runCommand_defined {m : Machine} (globs : BazelPackage → Option Nat) {flags : Flags} {cmd : Command}
    {pattern : BazelPattern} (h0 : prepare m flags cmd pattern ≠ none)
    (h : ∀ p, prepare m flags cmd pattern = some (some p) →
      ∃ d, perform m flags cmd pattern p.workspace (trees p.files) = some d) :
    ∃ l, runCommand m globs flags cmd pattern = some l := by
  unfold runCommand
  cases hp : prepare m flags cmd pattern with
  | none => exact absurd hp h0
  | some o =>
    cases o with
    | none => exact ⟨[], rfl⟩
    | some p =>
      obtain ⟨d, hd⟩ := h p hp
      obtain ⟨files, g, ho, hf⟩ := prepare_steps hp
      obtain ⟨c, news, hc, _⟩ := graph_counted globs (opened_ascending ho) hf
      have hfill : ∃ a, fill m p.workspace cmd pattern = some a := by
        cases hneed : needsProject cmd pattern with
        | false => exact ⟨[], fill_nothing hneed⟩
        | true =>
          unfold opened at ho
          obtain ⟨r, h2, _⟩ := Option.bind_eq_some_iff.1 ho
          obtain ⟨n, found, h3, _⟩ := fill_counted hneed h2
          exact ⟨_, h3⟩
      obtain ⟨a, ha⟩ := hfill
      simp only [ha, ho, Option.bind_some, hc, hd]
      exact ⟨_, rfl⟩

/-- There are statistics whenever the command ends. -/
theorem runCommand_ends {m : Machine} (globs : BazelPackage → Option Nat) {flags : Flags} {cmd : Command}
    {pattern : BazelPattern} {ran : Ran} (h : Located.runCommand m flags cmd pattern = some ran) :
    ∃ l, runCommand m globs flags cmd pattern = some l := by
  unfold Located.runCommand at h
  rcases Located.prepare_plain m flags cmd pattern with ⟨h1, h2⟩ | ⟨h1, h2⟩ | ⟨p, h1, h2, h3⟩
  · rw [h1] at h; cases h
  · refine runCommand_defined globs (by rw [h2]; simp) fun p hp => ?_
    rw [h2] at hp; cases hp
  · rw [h1] at h
    obtain ⟨r, h4, _⟩ := Option.map_eq_some_iff.1 h
    refine runCommand_defined globs (by rw [h2]; simp) fun p' hp => ?_
    rw [h2] at hp
    cases hp
    by_cases hc : cmd = .dwyu
    · subst hc
      obtain ⟨es, h5, _⟩ := Option.map_eq_some_iff.1 h4
      have h6 := Located.dependencyEdits_ends (m := m) (files := p.files)
        (fun f hf => (h3.files f hf).imp fun _ h => h.1) flags p.workspace pattern m.line
      rw [h5] at h6
      obtain ⟨es', h7⟩ := Option.isSome_iff_exists.1 h6.symm
      exact dwyu_defined h7
    · by_cases hc' : cmd = .canonicalizeDeps
      · subst hc'
        exact perform_defined (p := p.plain) h4
      · refine ⟨[], ?_⟩
        cases cmd <;> simp_all [perform]

theorem located_status {m : Machine} {flags : Flags} {cmd : Command} {pattern : BazelPattern} {p : Located.Ready}
    {r : Commands.Result} (h : Located.perform m flags cmd pattern p = some r) : r.1 = 0 ∨ r.1 = 3 := by
  have htable : ∀ {hs rows}, table flags hs rows = some r → r.1 = 0 ∨ r.1 = 3 := by
    intro hs rows h
    obtain ⟨_, _, h⟩ := Option.bind_eq_some_iff.1 h
    obtain ⟨_, _, rfl⟩ := Option.map_eq_some_iff.1 h
    exact .inl rfl
  have hedits : ∀ {l}, edits l = some r → r.1 = 0 ∨ r.1 = 3 := by
    intro l h
    obtain ⟨es, _, rfl⟩ := Option.map_eq_some_iff.1 h
    simp only
    split
    · exact .inr rfl
    · exact .inl rfl
  have hmap : ∀ {o : Option Str}, o.map (fun s => ((0, s) : Commands.Result)) = some r → r.1 = 0 ∨ r.1 = 3 := by
    intro o h
    obtain ⟨_, _, rfl⟩ := Option.map_eq_some_iff.1 h
    exact .inl rfl
  cases cmd <;> simp only [Located.perform, Commands.perform] at h
  all_goals first
    | exact htable h
    | exact hedits h
    | exact hmap h
    | (split at h
       · exact hmap h
       · cases h; exact .inl rfl)

/-- What the statistics are made of. -/
theorem runCommand_counted {m : Machine} {globs : BazelPackage → Option Nat} {flags : Flags} {cmd : Command}
    {pattern : BazelPattern} {p : Prepared} {l : List Event} (hneed : needsProject cmd pattern = true)
    (hp : prepare m flags cmd pattern = some (some p)) (h : runCommand m globs flags cmd pattern = some l) :
    ∃ files n found news c d, opened m p.workspace flags cmd pattern = some (files, p.message) ∧
      Collect.collectBuildFiles m.tree m.symlink p.workspace (searched cmd pattern) m.steps = some found ∧
      (∀ f ∈ found, ∃ pkg,
        Collect.packageOf p.workspace f (searched cmd pattern).pattern.package.project = some (some pkg)) ∧
      walk m p.workspace (searched cmd pattern) = some [⟨walkKey, c!"files/directories", n, none⟩] ∧
      graph m globs p.workspace flags cmd pattern (trees files) = some c ∧
      Counted m globs p.workspace files p.files c news ∧
      perform m flags cmd pattern p.workspace (trees p.files) = some d ∧
      l = ⟨walkKey, c!"files/directories", n, none⟩ ::
        (sizes m p.workspace (searched cmd pattern).pattern.package.project [] found).flatMap addFile ++
        (if elaborates flags cmd then files.flatMap fun f => elaborate globs f.1 else []) ++ c ++ d := by
  unfold runCommand at h
  rw [hp] at h
  simp only at h
  obtain ⟨files, g, ho, hf⟩ := prepare_steps hp
  obtain ⟨c, news, hc, hcount⟩ := graph_counted globs (opened_ascending ho) hf
  have ho' := ho
  unfold opened at ho'
  obtain ⟨r, h2, _⟩ := Option.bind_eq_some_iff.1 ho'
  obtain ⟨n, found, h3, h4, h5, h6⟩ := fill_counted hneed h2
  rw [h3, ho] at h
  simp only [Option.bind_some, hc] at h
  split at h
  · rename_i a o c' d e1 e2 e3 e4
    cases e1
    cases e2
    cases e3
    simp only [Option.some.injEq] at h
    exact ⟨files, n, found, news, c, d, ho, h5, h6, h4, hc, hcount, e4, h.symm⟩
  · cases h

/-! ### Numbers -/

theorem total_congr {l l' : List Event} {k : Str} (h : ofKey l k = ofKey l' k) : total l k = total l' k := by
  unfold total; rw [h]

theorem volume_congr {l l' : List Event} {k : Str} (h : ofKey l k = ofKey l' k) : volume l k = volume l' k := by
  unfold volume; rw [h]

theorem total_append (l l' : List Event) (k : Str) : total (l ++ l') k = total l k + total l' k := by
  unfold total
  rw [ofKey_append, List.map_append, List.sum_append]

/-- The sum, if there is anything. -/
def sumOf : List Nat → Option Nat
  | [] => none
  | n :: ns => some (n :: ns).sum

theorem volume_eq (l : List Event) (k : Str) : volume l k = sumOf ((ofKey l k).filterMap (·.bytes)) := by
  unfold volume
  cases (ofKey l k).filterMap (·.bytes) <;> rfl

theorem addFile_read (S : List (Option Nat)) : total (S.flatMap addFile) readKey = S.length ∧
    (ofKey (S.flatMap addFile) readKey).filterMap (·.bytes) = S.filterMap id := by
  have hk : parseKey ≠ readKey := by decide
  induction S with
  | nil => exact ⟨rfl, rfl⟩
  | cons x S ih =>
    rw [List.flatMap_cons, total_append, ofKey_append, List.filterMap_append, ih.1, ih.2]
    cases x with
    | none => simp [addFile, total, ofKey, hk, Nat.add_comm]
    | some n => simp [addFile, total, ofKey, hk, Nat.add_comm]

theorem addFile_parse (S : List (Option Nat)) : total (S.flatMap addFile) parseKey = (S.filterMap id).length ∧
    (ofKey (S.flatMap addFile) parseKey).filterMap (·.bytes) = S.filterMap id := by
  have hk : readKey ≠ parseKey := by decide
  induction S with
  | nil => exact ⟨rfl, rfl⟩
  | cons x S ih =>
    rw [List.flatMap_cons, total_append, ofKey_append, List.filterMap_append, ih.1, ih.2]
    cases x with
    | none => simp [addFile, total, ofKey, hk]
    | some n => simp [addFile, total, ofKey, hk, Nat.add_comm]

theorem ofKey_none {l : List Event} {k : Str} (h : ∀ e ∈ l, e.key ≠ k) : ofKey l k = [] := by
  unfold ofKey
  rw [List.filter_eq_nil_iff]
  intro e he
  simpa using h e he

theorem elaborate_keys {globs : BazelPackage → Option Nat} {pkg : BazelPackage} :
    ∀ e ∈ elaborate globs pkg, e.key = elabKey ∨ e.key = globKey := by
  intro e he
  unfold elaborate at he
  rcases List.mem_cons.1 he with rfl | he
  · exact .inl rfl
  · cases hg : globs pkg with
    | none => rw [hg] at he; cases he
    | some n =>
      rw [hg] at he
      simp only [List.mem_singleton] at he
      subst he
      exact .inr rfl

theorem sources_keys (contents : List Str) : ∀ e ∈ sources contents, e.key = sourceKey ∨ e.key = grepKey := by
  intro e he
  unfold sources at he
  simp only [List.mem_append, List.mem_cons, List.not_mem_nil, or_false, List.mem_flatMap] at he
  rcases he with ((rfl | rfl) | ⟨_, _, rfl | rfl⟩) | rfl | rfl
  all_goals first | exact .inl rfl | exact .inr rfl

theorem forTargets_mem {β : Type} {ast : Node} {rules : List Str} {f : Query.Result → Option (List β)} {ys : List β}
    (h : forTargets ast rules f = some ys) : ∀ y ∈ ys, ∃ r zs, f r = some zs ∧ y ∈ zs := by
  unfold forTargets at h
  cases ht : findTargets false ast rules with
  | none => rw [ht] at h; cases h
  | some rs =>
    rw [ht] at h
    intro y hy
    obtain ⟨r, _, zs, h1, h2⟩ := Located.mapAll_mem h y hy
    exact ⟨r, zs, h1, h2⟩

theorem perform_keys {m : Machine} {flags : Flags} {cmd : Command} {pattern : BazelPattern} {ws : Workspace.Map}
    {files : Files} {d : List Event} (h : perform m flags cmd pattern ws files = some d) :
    ∀ e ∈ d, e.key ∈ [canonKey, prepareKey, sourceKey, grepKey] := by
  intro e he
  cases cmd
  case dwyu =>
    simp only [perform, dwyu] at h
    obtain ⟨gen, _, h1⟩ := Option.bind_eq_some_iff.1 h
    obtain ⟨l, h2, rfl⟩ := Option.map_eq_some_iff.1 h1
    rcases List.mem_cons.1 he with rfl | he
    · simp
    · obtain ⟨f, _, zs, h3, h4⟩ := Located.mapAll_mem h2 e he
      split at h3
      · cases h3; cases h4
      · obtain ⟨r, ws, h5, h6⟩ := forTargets_mem h3 e h4
        split at h5
        · cases h5; cases h6
        · split at h5
          · cases h5; cases h6
          · split at h5
            · cases h5
              rcases sources_keys _ e h6 with h | h <;> simp [h]
            · cases h5
  case canonicalizeDeps =>
    simp only [perform, canonicalize] at h
    obtain ⟨l, h2, rfl⟩ := Option.map_eq_some_iff.1 h
    rcases List.mem_cons.1 he with rfl | he
    · simp
    · obtain ⟨f, _, zs, h3, h4⟩ := Located.mapAll_mem h2 e he
      split at h3
      · cases h3; cases h4
      · obtain ⟨r, ws, h5, h6⟩ := forTargets_mem h3 e h4
        split at h5
        · cases h5; cases h6
        · split at h5
          · cases h5; cases h6
          · obtain ⟨_, _, rfl⟩ := Option.map_eq_some_iff.1 h5
            obtain ⟨_, _, rfl⟩ := List.mem_map.1 h6
            simp
  all_goals
    cases h
    cases he

theorem loaded_files {w : DepGraph.World} (globs : BazelPackage → Option Nat) (news : List BazelPackage) {k : Str}
    (h1 : k ≠ elabKey) (h2 : k ≠ globKey) :
    ofKey (news.flatMap (loaded w globs)) k = ofKey ((news.map fun pkg => some (sizeOf w pkg)).flatMap addFile) k := by
  induction news with
  | nil => rfl
  | cons pkg news ih =>
    rw [List.flatMap_cons, List.map_cons, List.flatMap_cons, ofKey_append, ofKey_append, ih, loaded, ofKey_append,
      ofKey_none (l := elaborate globs pkg), List.append_nil]
    intro e he
    rcases elaborate_keys e he with h | h <;> rw [h]
    · exact h1.symm
    · exact h2.symm

theorem elaborate_count (globs : BazelPackage → Option Nat) (pkg : BazelPackage) :
    total (elaborate globs pkg) elabKey = 1 := by
  have hk : globKey ≠ elabKey := by decide
  cases hg : globs pkg <;> simp [elaborate, total, ofKey, hg, hk]

theorem total_flatMap_one {α : Type} (l : List α) {f : α → List Event} {k : Str} (h : ∀ x ∈ l, total (f x) k = 1) :
    total (l.flatMap f) k = l.length := by
  induction l with
  | nil => rfl
  | cons x l ih =>
    rw [List.flatMap_cons, total_append, h x (.head _), ih fun y hy => h y (.tail _ hy)]
    simp [Nat.add_comm]

theorem total_none {l : List Event} {k : Str} (h : ∀ e ∈ l, e.key ≠ k) : total l k = 0 := by
  unfold total
  rw [ofKey_none h]
  rfl

theorem loaded_count {w : DepGraph.World} (globs : BazelPackage → Option Nat) (news : List BazelPackage) :
    total (news.flatMap (loaded w globs)) elabKey = news.length := by
  refine total_flatMap_one news fun pkg _ => ?_
  have h1 : readKey ≠ elabKey := by decide
  have h2 : parseKey ≠ elabKey := by decide
  rw [loaded, total_append, elaborate_count, total_none, Nat.zero_add]
  simp [addFile, h1, h2]

/-- The numbers of BUILD files, and how many are evaluated. -/
theorem runCommand_files {m : Machine} {globs : BazelPackage → Option Nat} {flags : Flags} {cmd : Command}
    {pattern : BazelPattern} {p : Prepared} {l : List Event} (hneed : needsProject cmd pattern = true)
    (hp : prepare m flags cmd pattern = some (some p)) (h : runCommand m globs flags cmd pattern = some l) :
    ∃ files found, ∃ news : List BazelPackage, opened m p.workspace flags cmd pattern = some (files, p.message) ∧
      Collect.collectBuildFiles m.tree m.symlink p.workspace (searched cmd pattern) m.steps = some found ∧
      (∀ f ∈ found, ∃ pkg,
        Collect.packageOf p.workspace f (searched cmd pattern).pattern.package.project = some (some pkg)) ∧
      news.Nodup ∧ (∀ pkg, pkg ∈ news ↔ pkg ∈ p.files.map (·.1) ∧ pkg ∉ files.map (·.1)) ∧
      p.files.length = files.length + news.length ∧ (p.files.map (·.1)).Nodup ∧ (∀ x ∈ files, x ∈ p.files) ∧
      (∀ x ∈ p.files, x ∈ files ∨
        (x.1 ∈ news ∧ DepGraph.pathForPackage ⟨m.fs, p.workspace, m.glob⟩ x.1 = some x.2.name)) ∧
      (∀ k, k = readKey ∨ k = parseKey → ofKey l k =
        ofKey ((sizes m p.workspace (searched cmd pattern).pattern.package.project [] found ++
          news.map fun pkg => some (sizeOf ⟨m.fs, p.workspace, m.glob⟩ pkg)).flatMap addFile) k) ∧
      total l elabKey = (if elaborates flags cmd then files.length else 0) + news.length := by
  obtain ⟨files, n, found, news, c, d, h1, h2, h3, h4, h5, h6, h7, rfl⟩ := runCommand_counted hneed hp h
  refine ⟨files, found, news, h1, h2, h3, h6.once, h6.new, h6.length, h6.keys, h6.keeps, h6.names, ?_, ?_⟩
  · intro k hk
    have hne : k ≠ walkKey ∧ k ≠ elabKey ∧ k ≠ globKey ∧ k ≠ existKey ∧ k ≠ roundKey ∧
        k ∉ [canonKey, prepareKey, sourceKey, grepKey] := by
      rcases hk with rfl | rfl <;> decide
    obtain ⟨k1, k2, k3, k4, k5, k6⟩ := hne
    rw [List.cons_append, List.cons_append, List.cons_append, ofKey_cons_ne k1, ofKey_append, ofKey_append,
      ofKey_append, List.flatMap_append, ofKey_append, ofKey_none (l := d), List.append_nil, h6.events k k4 k5,
      loaded_files globs news k2 k3]
    · congr 1
      split
      · rw [ofKey_none (l := files.flatMap fun f => elaborate globs f.1), List.append_nil]
        intro e he
        obtain ⟨f, _, he⟩ := List.mem_flatMap.1 he
        rcases elaborate_keys e he with h | h <;> rw [h]
        · exact k2.symm
        · exact k3.symm
      · rw [show ofKey [] k = [] from rfl, List.append_nil]
    · intro e he e'
      exact k6 (e' ▸ perform_keys h7 e he)
  · have k1 : elabKey ≠ existKey := by decide
    have k2 : elabKey ≠ roundKey := by decide
    have k3 : walkKey ≠ elabKey := by decide
    have k4 : readKey ≠ elabKey := by decide
    have k5 : parseKey ≠ elabKey := by decide
    rw [total_append, total_append, total_append, total_none (l := d), total_congr (h6.events _ k1 k2), loaded_count,
      total_none, Nat.zero_add, Nat.add_zero]
    · congr 1
      split
      · exact total_flatMap_one files fun f _ => elaborate_count globs f.1
      · rfl
    · intro e he
      rcases List.mem_cons.1 he with rfl | he
      · exact k3
      · obtain ⟨s, _, he⟩ := List.mem_flatMap.1 he
        unfold addFile at he
        cases s <;> simp at he
        · rcases he with rfl | rfl
          · exact k4
          · exact k5
        · rcases he with rfl | rfl | rfl | rfl
          · exact k4
          · exact k5
          · exact k5
          · exact k4
    · intro e he e'
      have := perform_keys h7 e he
      rw [e'] at this
      revert this
      decide

theorem sizes_length (m : Machine) (ws : Workspace.Map) (project : Str) (before files : List Str) :
    (sizes m ws project before files).length = files.length := by
  induction files generalizing before with
  | nil => rfl
  | cons f files ih => rw [sizes, List.length_cons, List.length_cons, ih]

theorem sizes_readable {m : Machine} {ws : Workspace.Map} {project : Str} (before : List Str) {files : List Str}
    (h : ∀ f ∈ files, ∃ pkg, Collect.packageOf ws f project = some (some pkg)) :
    ((sizes m ws project before files).filterMap id).length =
      (files.filter fun f => (m.fs.content f).isSome).length := by
  induction files generalizing before with
  | nil => rfl
  | cons f files ih =>
    obtain ⟨pkg, hp⟩ := h f (.head _)
    have ih := ih (before ++ [f]) fun g hg => h g (.tail _ hg)
    rw [sizes, List.filterMap_cons, List.filter_cons]
    simp only [hp]
    cases hc : m.fs.content f with
    | none => simpa [hc] using ih
    | some content =>
      simp only [Option.bind_some, id, Option.isSome_some, if_true, List.length_cons, ← ih]
      cases firstReadable m ws project pkg before <;> rfl

theorem firstReadable_none {m : Machine} {ws : Workspace.Map} {project : Str} {pkg : BazelPackage} {files : List Str}
    (h : ∀ f ∈ files, Collect.packageOf ws f project ≠ some (some pkg)) :
    firstReadable m ws project pkg files = none := by
  induction files with
  | nil => rfl
  | cons f files ih =>
    rw [firstReadable, if_neg (h f (.head _)), ih fun g hg => h g (.tail _ hg)]

theorem sizes_apart {m : Machine} {ws : Workspace.Map} {project : Str} (before files : List Str)
    (hp : ∀ f ∈ files, ∃ pkg, Collect.packageOf ws f project = some (some pkg))
    (h : ((before ++ files).map fun f => Collect.packageOf ws f project).Nodup) :
    sizes m ws project before files = files.map fun f => (m.fs.content f).map List.length := by
  induction files generalizing before with
  | nil => rfl
  | cons f files ih =>
    have ih := ih (before ++ [f]) (fun g hg => hp g (.tail _ hg)) (by simpa using h)
    obtain ⟨pkg, hpkg⟩ := hp f (.head _)
    have hn : firstReadable m ws project pkg before = none := by
      refine firstReadable_none fun g hg e => ?_
      rw [List.map_append] at h
      exact (List.nodup_append.1 h).2.2 _ (List.mem_map.2 ⟨g, hg, rfl⟩) _ (List.mem_map.2 ⟨f, .head _, rfl⟩)
        (by rw [e, hpkg])
    rw [sizes, ih, List.map_cons]
    simp only [hpkg, hn]
    cases m.fs.content f <;> rfl

theorem firstReadable_apart {m : Machine} {ws : Workspace.Map} {project : Str} {pkg : BazelPackage} {files : List Str}
    {f content : Str} (hf : f ∈ files) (hp : Collect.packageOf ws f project = some (some pkg))
    (hc : m.fs.content f = some content) (h : (files.map fun f => Collect.packageOf ws f project).Nodup) :
    firstReadable m ws project pkg files = some (f, content) := by
  induction files with
  | nil => cases hf
  | cons g files ih =>
    rw [List.map_cons, List.nodup_cons] at h
    rw [firstReadable]
    rcases List.mem_cons.1 hf with rfl | hf
    · rw [if_pos hp, hc]
    · rw [if_neg, ih hf h.2]
      intro e
      exact h.1 (List.mem_map.2 ⟨f, hf, by rw [hp, e]⟩)

theorem firstReadable_spec {m : Machine} {ws : Workspace.Map} {project : Str} {pkg : BazelPackage} {files : List Str}
    {x : Str × Str} (h : firstReadable m ws project pkg files = some x) :
    x.1 ∈ files ∧ Collect.packageOf ws x.1 project = some (some pkg) ∧ m.fs.content x.1 = some x.2 := by
  induction files with
  | nil => cases h
  | cons f files ih =>
    rw [firstReadable] at h
    split at h
    · rename_i hp
      split at h
      · rename_i content hc
        cases h
        exact ⟨.head _, hp, hc⟩
      · exact (ih h).imp (.tail _) id
    · exact (ih h).imp (.tail _) id

/-- With one file for each package, files and packages are the same. -/
theorem found_opened {m : Machine} {ws : Workspace.Map} {evaluate : Bool} {pattern : BazelPattern} {found : List Str}
    {files : Loaded} (ho : OpenedFor m ws evaluate pattern found files) (hc : AllClear m ws pattern found)
    (hp : ∀ f ∈ found, ∃ pkg, Collect.packageOf ws f pattern.pattern.package.project = some (some pkg))
    (hmem : ∀ pkg x, firstReadable m ws pattern.pattern.package.project pkg found = some x →
      ∃ file, (pkg, file) ∈ files) :
    (files.map fun x => x.2.name).Perm found := by
  have hn : (files.map fun x => x.2.name).Nodup := by
    have h1 : (files.map fun x => Collect.packageOf ws x.2.name pattern.pattern.package.project) =
        (files.map (·.1)).map fun pkg => some (some pkg) := by
      rw [List.map_map]
      refine List.map_congr_left fun x hx => ?_
      obtain ⟨name, content, h2, ast, st, _, h3, _⟩ := (ho.each x.1 x.2).1 hx
      rw [h3]
      exact (firstReadable_spec h2).2.1
    have h2 : ((files.map fun x => x.2.name).map fun f =>
        Collect.packageOf ws f pattern.pattern.package.project).Nodup := by
      rw [List.map_map]
      show (files.map fun x => Collect.packageOf ws x.2.name pattern.pattern.package.project).Nodup
      rw [h1]
      have h3 : (files.map (·.1)).Nodup := Ascending.nodup ho.order
      exact (List.pairwise_map.2 (h3.imp fun h e => h (by cases e; rfl)))
    exact (List.pairwise_map.1 h2).imp fun h e => h (by rw [e])
  have hn' : found.Nodup := (List.pairwise_map.1 hc.apart).imp fun h e => h (by rw [e])
  refine (List.perm_ext_iff_of_nodup hn hn').2 fun f => ?_
  rw [List.mem_map]
  constructor
  · rintro ⟨x, hx, rfl⟩
    obtain ⟨name, content, h2, ast, st, _, h3, _⟩ := (ho.each x.1 x.2).1 hx
    rw [h3]
    exact (firstReadable_spec h2).1
  · intro hf
    obtain ⟨pkg, hpkg⟩ := hp f hf
    cases hcont : m.fs.content f with
    | none => exact absurd hcont (hc.readable f hf)
    | some content =>
      have h1 := firstReadable_apart hf hpkg hcont hc.apart
      obtain ⟨file, h2⟩ := hmem pkg _ h1
      refine ⟨_, h2, ?_⟩
      obtain ⟨name, content', h3, ast, st, _, h4, _⟩ := (ho.each pkg file).1 h2
      rw [h1] at h3
      cases h3
      exact h4

theorem opened_has {m : Machine} {ws : Workspace.Map} {flags : Flags} {cmd : Command} {pattern : BazelPattern}
    {files : Loaded} {msg : Str} {found : List Str} (hneed : needsProject cmd pattern = true)
    (h : opened m ws flags cmd pattern = some (files, msg))
    (hfound : Collect.collectBuildFiles m.tree m.symlink ws (searched cmd pattern) m.steps = some found)
    (pkg : BazelPackage) (x : Str × Str)
    (hx : firstReadable m ws (searched cmd pattern).pattern.package.project pkg found = some x) :
    ∃ file, (pkg, file) ∈ files := by
  unfold opened at h
  obtain ⟨⟨l, msg'⟩, h1, h2⟩ := Option.bind_eq_some_iff.1 h
  have hl : ∃ file, (pkg, file) ∈ l := by
    unfold Commands.fill at h1
    rw [if_pos hneed] at h1
    unfold Collect.fillFromPattern at h1
    change Option.map _ (match Collect.collectBuildFiles m.tree m.symlink ws (searched cmd pattern) m.steps with
      | none => none
      | some files => Option.map _ (files.foldlM (Collect.addFound ws (searched cmd pattern).pattern.package.project
          m.fs.content m.base) {})) = _ at h1
    rw [hfound] at h1
    simp only at h1
    cases hf : found.foldlM (Collect.addFound ws (searched cmd pattern).pattern.package.project
        m.fs.content m.base) {} with
    | none => rw [hf] at h1; cases h1
    | some p =>
      rw [hf] at h1
      simp only [Option.map_some, Option.some.injEq, Prod.mk.injEq] at h1
      obtain ⟨rfl, rfl⟩ := h1
      obtain ⟨h1, _⟩ := addFound_spec m ws _ found {} p (by simp) hf
      obtain ⟨_, h4⟩ := inOrder_spec p h1
      have h5 := Stderr.find_name hf pkg
      rw [hx] at h5
      obtain ⟨f, h6, _⟩ := Option.map_eq_some_iff.1 h5
      exact ⟨fileOf f, (h4 pkg _).2 (by rw [h6]; rfl)⟩
  split at h2
  · obtain ⟨l', h3, h4⟩ := Option.map_eq_some_iff.1 h2
    cases h4
    obtain ⟨file, hm⟩ := hl
    have h5 : pkg ∈ files.map (·.1) := by
      rw [(elaborateAll_spec h3).1]
      exact List.mem_map.2 ⟨_, hm, rfl⟩
    obtain ⟨⟨_, f⟩, h6, rfl⟩ := List.mem_map.1 h5
    exact ⟨f, h6⟩
  · cases h2
    exact hl

theorem filterMap_some {α : Type} (l : List α) (f : α → Nat) : (l.map fun x => some (f x)).filterMap id = l.map f := by
  induction l with
  | nil => rfl
  | cons x l ih => simp

theorem perm_sum {l l' : List Nat} (h : l.Perm l') : l.sum = l'.sum := by
  induction h with
  | nil => rfl
  | cons x _ ih => simp [ih]
  | swap x y l => simp; omega
  | trans _ _ h1 h2 => rw [h1, h2]

/-! ### What commands count themselves -/

/-- What is counted by the command itself. -/
theorem runCommand_own {m : Machine} {globs : BazelPackage → Option Nat} {flags : Flags} {cmd : Command}
    {pattern : BazelPattern} {p : Prepared} {l : List Event} (hneed : needsProject cmd pattern = true)
    (hp : prepare m flags cmd pattern = some (some p)) (h : runCommand m globs flags cmd pattern = some l) {k : Str}
    (hk : k ∈ [canonKey, prepareKey, sourceKey, grepKey]) :
    ∃ d, perform m flags cmd pattern p.workspace (trees p.files) = some d ∧ ofKey l k = ofKey d k := by
  obtain ⟨files, n, found, news, c, d, _, _, _, _, _, h6, h7, rfl⟩ := runCommand_counted hneed hp h
  refine ⟨d, h7, ?_⟩
  have hall : ∀ k ∈ [canonKey, prepareKey, sourceKey, grepKey],
      walkKey ≠ k ∧ k ≠ existKey ∧ k ≠ roundKey ∧ k ≠ elabKey ∧ k ≠ globKey ∧ readKey ≠ k ∧ parseKey ≠ k := by decide
  obtain ⟨k1, k2, k3, k4, k5, k6, k7⟩ := hall k hk
  have hfile : ∀ S : List (Option Nat), ofKey (S.flatMap addFile) k = [] := by
    intro S
    refine ofKey_none fun e he => ?_
    obtain ⟨x, _, hx⟩ := List.mem_flatMap.1 he
    cases x <;> simp [addFile] at hx <;> rcases hx with hx | hx <;> simp_all
    all_goals (rcases hx with rfl | rfl | rfl <;> assumption)
  rw [List.cons_append, List.cons_append, List.cons_append, ofKey_cons_ne (Ne.symm k1), ofKey_append,
    ofKey_append, ofKey_append,
    h6.events k k2 k3, loaded_files globs news k4 k5, hfile, hfile, ofKey_none]
  · rfl
  · intro e he
    split at he
    · obtain ⟨f, _, hf⟩ := List.mem_flatMap.1 he
      rcases elaborate_keys e hf with h | h <;> rw [h]
      · exact k4.symm
      · exact k5.symm
    · cases he

theorem insertAll_keys {α β : Type} [DecidableEq α] (l m : List (α × β)) (hm : (m.map (·.1)).Nodup) :
    ((insertAll m l).map (·.1)).Nodup ∧ ∀ k, k ∈ (insertAll m l).map (·.1) ↔ k ∈ (m ++ l).map (·.1) := by
  induction l generalizing m with
  | nil => rw [insertAll, List.append_nil]; exact ⟨hm, fun _ => Iff.rfl⟩
  | cons e l ih =>
    rw [insertAll]
    split
    · rename_i h
      refine ⟨(ih m hm).1, fun k => ?_⟩
      rw [(ih m hm).2 k]
      obtain ⟨x, hx, hk⟩ := List.any_eq_true.1 h
      have hk : x.1 = e.1 := by simpa using hk
      simp only [List.map_append, List.map_cons, List.mem_append, List.mem_cons]
      constructor
      · rintro (h | h)
        · exact .inl h
        · exact .inr (.inr h)
      · rintro (h | h | h)
        · exact .inl h
        · exact .inl (List.mem_map.2 ⟨x, hx, by rw [hk, h]⟩)
        · exact .inr h
    · rename_i h
      have hn : ((m ++ [e]).map (·.1)).Nodup := by
        rw [List.map_append, List.nodup_append]
        refine ⟨hm, by simp, ?_⟩
        intro a ha b hb hab
        simp only [List.map_cons, List.map_nil, List.mem_singleton] at hb
        obtain ⟨x, hx, rfl⟩ := List.mem_map.1 ha
        exact h (List.any_eq_true.2 ⟨x, hx, by simp [hab, hb]⟩)
      refine ⟨(ih _ hn).1, fun k => ?_⟩
      rw [(ih _ hn).2 k]
      simp

/-- As many as there are different names. -/
theorem insertAll_length {α β : Type} [DecidableEq α] (l : List (α × β)) :
    (insertAll [] l).length = ((l.map (·.1)).eraseDups).length := by
  obtain ⟨h1, h2⟩ := insertAll_keys l [] (by simp)
  have h : ((insertAll [] l).map (·.1)).Perm ((l.map (·.1)).eraseDups) := by
    refine (List.perm_ext_iff_of_nodup h1 (nodup_eraseDups _)).2 fun k => ?_
    rw [h2 k, List.nil_append, List.mem_eraseDups]
  simpa using h.length_eq

theorem prepare_of {m : Machine} {ws : Workspace.Map} (hw : workspaceOf m = some ws) {flags : Flags} {cmd : Command}
    {pattern : BazelPattern} {files l : Loaded} {msg : Str} {g : DepGraph.Graph}
    (ho : opened m ws flags cmd pattern = some (files, msg))
    (hf : follow m ws flags cmd pattern files = some (l, g)) :
    prepare m flags cmd pattern = some (some ⟨ws, l, g, msg⟩) := by
  unfold workspaceOf at hw
  unfold prepare
  cases hl : Workspace.load m.fs with
  | none => rw [hl] at hw; cases hw
  | some o =>
    cases o with
    | none => rw [hl] at hw; cases hw
    | some w0 =>
      rw [hl] at hw
      have hw : (Workspace.augment m.fs w0).2 = ws := by simpa using hw
      simp only []
      rw [hw, prepareIn, ho, Option.bind_some, hf]
      rfl

theorem reads_filterMap (env : Dwyu.Env) (l : List (BazelPackage × Str)) :
    ReadsAll env l (l.filterMap fun x => Dwyu.tryOpenFile env.read (x.1.fullyQualifiedFile env.workspace x.2)) := by
  induction l with
  | nil => exact .nil
  | cons x l ih =>
    rw [List.filterMap_cons]
    cases h : Dwyu.tryOpenFile env.read (x.1.fullyQualifiedFile env.workspace x.2) with
    | none =>
      refine .skip (fun content hc => ?_) ih
      rw [← Dwyu.tryOpenFile_iff, h] at hc
      cases hc
    | some content => exact .read (Dwyu.tryOpenFile_iff.1 h) ih

theorem reads_unique {env : Dwyu.Env} {l : List (BazelPackage × Str)} {a b : List Str} (h : ReadsAll env l a)
    (h' : ReadsAll env l b) : a = b := by
  induction h generalizing b with
  | nil => cases h'; rfl
  | read hc _ ih =>
    cases h' with
    | read hc' h' =>
      have := Dwyu.tryOpenFile_iff.2 hc
      rw [Dwyu.tryOpenFile_iff.2 hc'] at this
      cases this
      rw [ih h']
    | skip hn _ => exact absurd hc (hn _)
  | skip hn _ ih =>
    cases h' with
    | read hc' _ => exact absurd hc' (hn _)
    | skip _ h' => exact ih h'

theorem sources_source (contents : List Str) : total (sources contents) sourceKey = contents.length ∧
    (ofKey (sources contents) sourceKey).filterMap (·.bytes) = [(contents.map List.length).sum] := by
  have hk : grepKey ≠ sourceKey := by decide
  have h : ∀ l : List Str, ofKey (l.flatMap fun _ =>
      [(⟨sourceKey, c!"sources", 1, none⟩ : Event), ⟨grepKey, c!"sources", 1, none⟩]) sourceKey =
      l.map fun _ => ⟨sourceKey, c!"sources", 1, none⟩ := by
    intro l
    induction l with
    | nil => rfl
    | cons x l ih =>
      rw [List.flatMap_cons, ofKey_append, ih]
      simp [ofKey, hk]
  unfold sources total
  rw [ofKey_append, ofKey_append, h]
  constructor
  · simp [ofKey, hk, Function.comp_def, List.map_const']
  · simp [ofKey, hk, List.filterMap_map, Function.comp_def]

theorem sources_grep (contents : List Str) : total (sources contents) grepKey = contents.length ∧
    (ofKey (sources contents) grepKey).filterMap (·.bytes) = [(contents.map List.length).sum] := by
  have hk : sourceKey ≠ grepKey := by decide
  have h : ∀ l : List Str, ofKey (l.flatMap fun _ =>
      [(⟨sourceKey, c!"sources", 1, none⟩ : Event), ⟨grepKey, c!"sources", 1, none⟩]) grepKey =
      l.map fun _ => ⟨grepKey, c!"sources", 1, none⟩ := by
    intro l
    induction l with
    | nil => rfl
    | cons x l ih =>
      rw [List.flatMap_cons, ofKey_append, ih]
      simp [ofKey, hk]
  unfold sources total
  rw [ofKey_append, ofKey_append, h]
  constructor
  · simp [ofKey, hk, Function.comp_def, List.map_const']
  · simp [ofKey, hk, List.filterMap_map, Function.comp_def]

/-- For all rules. -/
theorem sources_all {α : Type} (f : α → List Str) {k : Str} (hk : k = sourceKey ∨ k = grepKey) (l : List α) :
    total (l.flatMap fun x => sources (f x)) k = (l.flatMap f).length ∧
      (ofKey (l.flatMap fun x => sources (f x)) k).filterMap (·.bytes) = l.map fun x => ((f x).map List.length).sum := by
  have h : ∀ contents : List Str, total (sources contents) k = contents.length ∧
      (ofKey (sources contents) k).filterMap (·.bytes) = [(contents.map List.length).sum] := by
    rcases hk with rfl | rfl
    · exact sources_source
    · exact sources_grep
  induction l with
  | nil => exact ⟨rfl, rfl⟩
  | cons x l ih =>
    rw [List.flatMap_cons, List.flatMap_cons, total_append, ofKey_append, List.filterMap_append, ih.1, ih.2, (h _).1,
      (h _).2, List.length_append]
    exact ⟨rfl, rfl⟩

theorem sum_flatMap {α : Type} (f : α → List Str) (l : List α) :
    (l.map fun x => ((f x).map List.length).sum).sum = ((l.flatMap f).map List.length).sum := by
  induction l with
  | nil => rfl
  | cons x l ih => rw [List.map_cons, List.sum_cons, ih, List.flatMap_cons, List.map_append, List.sum_append]

theorem canonicalize_eq {pattern : BazelPattern} {files : Files} (hs : ∀ f ∈ files, Rules.Searchable f.2) :
    canonicalize pattern files = some (⟨canonKey, c!"dependencies", 0, none⟩ ::
      (matchingDeps pattern files).map fun _ => ⟨canonKey, c!"dependencies", 1, none⟩) := by
  unfold canonicalize matchingDeps
  rw [List.map_flatMap, Rules.mapAll_eq (g := fun f => ((Rules.rulesOf [] f.2).flatMap fun r =>
    match f.1.qualifiedTarget r.name with
    | none => []
    | some t => if pattern.matchTarget t then (Rules.stringsOf r.deps).map fun dep => (t, dep) else []).map
      fun _ => (⟨canonKey, c!"dependencies", 1, none⟩ : Event))]
  · rfl
  rintro ⟨pkg, ast⟩ hf
  simp only []
  rw [List.map_flatMap]
  split
  · rename_i hp
    congr 1
    symm
    rw [List.flatMap_eq_nil_iff]
    intro r _
    cases hq : pkg.qualifiedTarget r.name with
    | none => rfl
    | some t =>
      have : pattern.matchTarget t = false := by
        cases ht : pattern.matchTarget t with
        | false => rfl
        | true =>
          have := Props.C01_match_target_implies_package _ _ ht
          rw [qualifiedTarget_package hq] at this
          simp [this] at hp
      simp [this]
  · refine Rules.forTargets_eq (hs _ hf).proper ?_
    intro r hr
    cases hq : pkg.qualifiedTarget r.name with
    | none => rfl
    | some t =>
      cases ht : pattern.matchTarget t with
      | false => simp [ht]
      | true =>
        simp only [ht, Bool.not_true, Bool.false_eq_true, if_false, (Stable.lists (hs _ hf) hr).2.2.2.2.1, Option.map_some,
          if_true, List.map_map]
        rfl

theorem dwyu_eq {env : Dwyu.Env} {pattern : BazelPattern} {files : Files} (hs : ∀ f ∈ files, Rules.Searchable f.2) :
    dwyu env pattern files = some (⟨prepareKey, c!"indexed targets",
        (((DwyuSpec.libraries files).map (·.1)).eraseDups).length, none⟩ ::
      (DwyuSpec.selected files pattern).flatMap fun x => sources (((DwyuSpec.sourcesOf x.2.1).map fun src =>
        (x.1, src)).filterMap fun x => Dwyu.tryOpenFile env.read (x.1.fullyQualifiedFile env.workspace x.2))) := by
  obtain ⟨index, hi, _⟩ := Props.C56_lookup files hs
  obtain ⟨gr, hg, _⟩ := Props.C57_genrules files hs
  have hk := Dwyu.knownAdds_eq hs
  unfold dwyu DwyuSpec.selected
  rw [show Dwyu.Generator.create files = some ⟨index, insertAll [] (DwyuSpec.libraries files)⟩ by
    simp [Dwyu.Generator.create, hi, hg, hk], Option.bind_some, List.flatMap_assoc,
    Rules.mapAll_eq (g := fun f => ((Rules.rulesOf [c!"cc_library", c!"cc_binary", c!"cc_test"] f.2).flatMap fun r =>
      match f.1.qualifiedTarget r.name with
      | none => []
      | some t => if pattern.matchTarget t then [(f.1, r, t)] else []).flatMap fun x =>
        sources (((DwyuSpec.sourcesOf x.2.1).map fun src =>
          (x.1, src)).filterMap fun x => Dwyu.tryOpenFile env.read (x.1.fullyQualifiedFile env.workspace x.2)))]
  · rw [Option.map_some, insertAll_length]
    rfl
  rintro ⟨pkg, ast⟩ hf
  simp only []
  rw [List.flatMap_assoc]
  split
  · rename_i hp
    congr 1
    symm
    rw [List.flatMap_eq_nil_iff]
    intro r _
    cases hq : pkg.qualifiedTarget r.name with
    | none => rfl
    | some t =>
      have : pattern.matchTarget t = false := by
        cases ht : pattern.matchTarget t with
        | false => rfl
        | true =>
          have := Props.C01_match_target_implies_package _ _ ht
          rw [qualifiedTarget_package hq] at this
          simp [this] at hp
      simp [this]
  · refine Rules.forTargets_eq (hs _ hf).proper ?_
    intro r hr
    cases hq : pkg.qualifiedTarget r.name with
    | none => rfl
    | some t =>
      cases ht : pattern.matchTarget t with
      | false => simp [ht]
      | true =>
        simp only [ht, Bool.not_true, Bool.false_eq_true, if_false, (Stable.lists (hs _ hf) hr).1, (Stable.lists (hs _ hf) hr).2.1,
          if_true, List.flatMap_cons, List.flatMap_nil, List.append_nil, DwyuSpec.sourcesOf, List.filterMap_map,
          Function.comp_def]

theorem lookup_record_of {l : List Event} {k s : Str} (hne : ofKey l k ≠ [])
    (h : ∀ e ∈ ofKey l k, e.subject = s) : lookup (record l) k = some ⟨s, total l k, volume l k⟩ := by
  rw [lookup_record]
  cases ho : ofKey l k with
  | nil => exact absurd ho hne
  | cons e es => simp [h e (by rw [ho]; exact .head _)]

theorem sources_subject (contents : List Str) : ∀ e ∈ sources contents, e.subject = c!"sources" := by
  intro e he
  unfold sources at he
  simp only [List.mem_append, List.mem_cons, List.not_mem_nil, or_false, List.mem_flatMap] at he
  rcases he with ((rfl | rfl) | ⟨_, _, rfl | rfl⟩) | rfl | rfl
  all_goals rfl

end Stats
end Bant
