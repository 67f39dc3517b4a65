import Verif.Lemmas.Commands
import Verif.Lemmas.Workspace
import Verif.Props.Collect
import Verif.Props.DepGraph

/-! Lemmas about the commands: if all BUILD files are good, everything is defined. -/
namespace Bant
namespace Commands
open Query Headers Cli Rules GraphSpec CommandSpec Props FileUtils FileSpec CollectSpec

theorem isBuild_of {path : Str} (h : Collect.isBuildFile path = true) : IsBuild path := by
  unfold Collect.isBuildFile at h
  simp only [Bool.decide_or, Bool.or_eq_true, decide_eq_true_eq] at h
  have key : ∀ name ∈ [c!"BUILD", c!"BUILD.bazel"], Workspace.filename path = name → IsBuild path := by
    intro name hn h
    obtain ⟨up, h1 | ⟨_, h1⟩, _⟩ := Workspace.filename_iff.1 h
    · exact ⟨name, hn, .inr ⟨up, by rw [h1]; simp⟩⟩
    · exact ⟨name, hn, .inl h1⟩
  rcases h with h | h
  · exact key _ (by simp) h
  · exact key _ (by simp) h

theorem found_build {m : Machine} {ws : Workspace.Map} {pattern : BazelPattern} {found : List Str}
    (h : Collect.collectBuildFiles m.tree m.symlink ws pattern m.steps = some found) :
    ∀ f ∈ found, IsBuild f := by
  intro f hf
  unfold Collect.collectBuildFiles at h
  cases hs : Collect.searchDir ws pattern with
  | none => rw [hs] at h; cases h; cases hf
  | some start =>
    rw [hs] at h
    obtain ⟨dir, e, _, _, _, hw⟩ := (C33_sound _ _ _ _ _ _ h).1 f hf
    exact isBuild_of hw

theorem firstReadable_mem {m : Machine} {ws : Workspace.Map} {project : Str} {pkg : BazelPackage} {files : List Str}
    {name content : Str} (h : firstReadable m ws project pkg files = some (name, content)) :
    name ∈ files ∧ m.fs.content name = some content ∧ Collect.packageOf ws name project = some (some pkg) := by
  induction files with
  | nil => cases h
  | cons f files ih =>
    rw [firstReadable] at h
    have next : firstReadable m ws project pkg files = some (name, content) →
        name ∈ f :: files ∧ m.fs.content name = some content ∧ Collect.packageOf ws name project = some (some pkg) := by
      intro h
      obtain ⟨h1, h2⟩ := ih h
      exact ⟨by simp [h1], h2⟩
    split at h
    · next hp =>
      cases hc : m.fs.content f with
      | none => rw [hc] at h; exact next h
      | some c => rw [hc] at h; cases h; exact ⟨by simp, hc, hp⟩
    · exact next h

/-! ### Trees -/

theorem mem_trees {l : Loaded} {e : BazelPackage × Node} :
    e ∈ trees l ↔ ∃ f, (e.1, f) ∈ l ∧ f.ast = e.2 := by
  unfold trees
  simp only [List.mem_map]
  constructor
  · rintro ⟨⟨p, f⟩, h, rfl⟩; exact ⟨f, h, rfl⟩
  · rintro ⟨f, h, h'⟩; exact ⟨_, h, by rw [h']⟩

theorem trees_keys (l : Loaded) : (trees l).map (·.1) = l.map (·.1) := by
  simp [trees]

theorem lookup_trees (l : Loaded) (pkg : BazelPackage) : lookup (trees l) pkg = (lookup l pkg).map (·.ast) := by
  induction l with
  | nil => rfl
  | cons e l ih =>
    rw [show trees (e :: l) = (e.1, e.2.ast) :: trees l from rfl, lookup_cons, lookup_cons, ih]
    split <;> rfl

theorem openedFor_complete {m : Machine} (hh : Healthy m) {ws : Workspace.Map} {evaluate : Bool}
    {pattern : BazelPattern} {found : List Str} {l : Loaded} (h : OpenedFor m ws evaluate pattern found l) :
    ∀ f ∈ trees l, Complete f.2 := by
  intro e he
  obtain ⟨f, hf, h'⟩ := mem_trees.1 he
  rw [← h']
  obtain ⟨n, c, h1, ast, st, h2, _, h3, h4⟩ := (h.each e.1 f).1 hf
  obtain ⟨h5, h6, _⟩ := firstReadable_mem h1
  obtain ⟨ast', st', h7, h8, h9⟩ := hh.usable n c (found_build h.files n h5) h6
  rw [h2] at h7
  cases h7
  cases evaluate with
  | false => simp only [Bool.false_eq_true, if_false] at h4; rw [h4]; exact h8
  | true =>
    simp only [if_true] at h4
    obtain ⟨out, h12, h13⟩ := h9 (m.glob e.1)
    rw [h4] at h12
    cases h12
    exact h13

/-- Without a project, nothing is opened. -/
theorem opened_nothing {m : Machine} {ws : Workspace.Map} {flags : Flags} {cmd : Command} {pattern : BazelPattern}
    {l : Loaded} {msg : Str} (hneed : needsProject cmd pattern = false)
    (h : opened m ws flags cmd pattern = some (l, msg)) : l = [] := by
  unfold opened fill at h
  rw [hneed, if_neg (by simp)] at h
  simp only [Option.bind_some, elaborateAll] at h
  split at h <;> · cases h; rfl

theorem opened_complete {m : Machine} (hh : Healthy m) {ws : Workspace.Map} {flags : Flags} {cmd : Command}
    {pattern : BazelPattern} {l : Loaded} {msg : Str} (h : opened m ws flags cmd pattern = some (l, msg)) :
    ∀ f ∈ trees l, Complete f.2 := by
  cases hneed : needsProject cmd pattern with
  | false => rw [opened_nothing hneed h]; simp [trees]
  | true =>
    obtain ⟨found, h1, _⟩ := opened_spec hneed h
    exact openedFor_complete hh h1

theorem opened_searchable {m : Machine} (hh : Healthy m) {ws : Workspace.Map} {flags : Flags} {cmd : Command}
    {pattern : BazelPattern} {l : Loaded} {msg : Str} (h : opened m ws flags cmd pattern = some (l, msg)) :
    ∀ f ∈ trees l, Searchable f.2 := fun f hf => (opened_complete hh h f hf).toSearchable

theorem opened_ascending {m : Machine} {ws : Workspace.Map} {flags : Flags} {cmd : Command}
    {pattern : BazelPattern} {l : Loaded} {msg : Str} (h : opened m ws flags cmd pattern = some (l, msg)) :
    Ascending (l.map (·.1)) := by
  cases hneed : needsProject cmd pattern with
  | false => rw [opened_nothing hneed h]; exact List.Pairwise.nil
  | true =>
    obtain ⟨found, h1, _⟩ := opened_spec hneed h
    exact h1.order

theorem healthy_sound {m : Machine} (hh : Healthy m) {ws : Workspace.Map} {flags : Flags} {cmd : Command}
    {pattern : BazelPattern} {l : Loaded} {msg : Str} (h : opened m ws flags cmd pattern = some (l, msg))
    (pattern' : BazelPattern) (depth : Nat) : Sound (world m ws) pattern' depth (trees l) :=
  ⟨opened_searchable hh h, fun _ t _ _ _ => loadsWell_of hh.readable hh.usable t.package⟩

/-! ### Everything can be opened -/

theorem stripBack_prefix {root x : Str} (hr : root.getLast? ≠ some '/') (h : root <+: x) :
    root <+: stripBack '/' x := by
  obtain ⟨n, hn⟩ := stripBack_split '/' x
  rw [hn] at h
  obtain ⟨y, hy⟩ := h
  rcases List.append_eq_append_iff.1 hy with ⟨a, h1, _⟩ | ⟨c, h1, h2⟩
  · exact ⟨a, h1.symm⟩
  · cases hc : c.getLast? with
    | none =>
      rw [List.getLast?_eq_none_iff.1 hc, List.append_nil] at h1
      exact h1 ▸ List.prefix_rfl
    | some ch =>
      have hm : ch ∈ List.replicate n '/' := by rw [h2]; simp [List.mem_of_getLast? hc]
      rw [List.eq_of_mem_replicate hm] at hc
      rw [h1, List.getLast?_append, hc] at hr
      exact absurd rfl hr

theorem entered_prefix {t : Tree} {wantDir : Str → Bool} {root start d : Str} (hr : root.getLast? ≠ some '/')
    (hs : root <+: start) (h : Entered t wantDir start d) : root <+: d := by
  induction h with
  | start => exact hs
  | sub _ hin _ _ ih =>
    obtain ⟨_, _, rfl⟩ := in_iff.1 hin
    exact (stripBack_prefix hr ih).trans (List.prefix_append _ _)

theorem packageOf_defined {m : Machine} {ws : Workspace.Map} (hroots : Roots ws) {pattern : BazelPattern}
    {found : List Str} (h : Collect.collectBuildFiles m.tree m.symlink ws pattern m.steps = some found) :
    ∀ f ∈ found, Collect.packageOf ws f pattern.pattern.package.project ≠ none := by
  intro f hf
  unfold Collect.packageOf
  split
  · simp
  · next hp =>
    cases hr : Workspace.findPath ws pattern.pattern.package.project with
    | none => simp
    | some root =>
      simp only []
      unfold Collect.collectBuildFiles Collect.searchDir at h
      simp only [hr] at h
      rw [if_pos hp] at h
      simp only [List.append_eq_nil_iff, List.cons_ne_self, and_false, false_and, if_false] at h
      obtain ⟨dir, e, hd, hin, _⟩ := (C33_sound _ _ _ _ _ _ h).1 f hf
      have hl := hroots _ _ hr
      have h1 := entered_prefix hl (by rw [List.append_assoc]; exact List.prefix_append _ _) hd
      obtain ⟨_, _, rfl⟩ := in_iff.1 hin
      have h2 : root <+: Workspace.join dir e.name := (stripBack_prefix hl h1).trans (List.prefix_append _ _)
      rw [if_pos h2.length_le]
      simp

theorem foldlM_addFound (m : Machine) (ws : Workspace.Map) (project : Str) (files : List Str) (p : Project.State)
    (hn : (p.files.map (·.1)).Nodup) (h : ∀ f ∈ files, Collect.packageOf ws f project ≠ none) :
    ∃ q, files.foldlM (Collect.addFound ws project m.fs.content m.base) p = some q := by
  induction files generalizing p with
  | nil => exact ⟨p, rfl⟩
  | cons f files ih =>
    have ih := fun p hp => ih p hp (fun g hg => h g (by simp [hg]))
    have hf := h f (by simp)
    rw [List.foldlM_cons]
    unfold Collect.addFound
    cases hpk : Collect.packageOf ws f project with
    | none => exact absurd hpk hf
    | some o =>
      cases o with
      | none => exact ih p hn
      | some pkg =>
        simp only [Project.State.addFile]
        cases hc : m.fs.content f with
        | none => exact ih _ (by exact hn)
        | some content =>
          obtain ⟨file, p2, e1, e2, _⟩ := addContent_spec p pkg f content (m.base f) hn
          simp only [e1]
          exact ih _ e2

theorem elaborateAll_total {glob : BazelPackage → Elab.GlobFn} {l : Loaded}
    (h : ∀ f ∈ l, ∃ ast, Elab.elabFile (glob f.1) f.2.ast = some ast) : ∃ l', elaborateAll glob l = some l' := by
  induction l with
  | nil => exact ⟨[], rfl⟩
  | cons e l ih =>
    obtain ⟨ast, h1⟩ := h e (by simp)
    obtain ⟨l', h2⟩ := ih fun f hf => h f (by simp [hf])
    exact ⟨_, by rw [elaborateAll, h1, h2]⟩

theorem opened_total {m : Machine} (hh : Healthy m) {ws : Workspace.Map} (hroots : Roots ws) (flags : Flags)
    {cmd : Command} {pattern : BazelPattern} {found : List Str}
    (hc : Collect.collectBuildFiles m.tree m.symlink ws (searched cmd pattern) m.steps = some found) :
    ∃ l msg, opened m ws flags cmd pattern = some (l, msg) := by
  have hfill : ∃ l msg, fill m ws cmd pattern = some (l, msg) := by
    unfold fill
    split
    · obtain ⟨q, hq⟩ := foldlM_addFound m ws _ found {} (by simp) (packageOf_defined hroots hc)
      change ∃ l msg, Option.map _ (Collect.fillFromPattern m.tree m.symlink ws m.fs.content m.base {}
        (searched cmd pattern) m.steps) = _
      unfold Collect.fillFromPattern
      simp only [hc, hq]
      exact ⟨_, _, rfl⟩
    · exact ⟨_, _, rfl⟩
  obtain ⟨l, msg, h1⟩ := hfill
  unfold opened
  rw [h1, Option.bind_some]
  split
  · next he =>
    have : ∀ f ∈ l, ∃ ast, Elab.elabFile (m.glob f.1) f.2.ast = some ast := by
      intro f hf
      cases hneed : needsProject cmd pattern with
      | false =>
        unfold fill at h1
        rw [hneed, if_neg (by simp)] at h1
        cases h1
        cases hf
      | true =>
        obtain ⟨found', h2, _⟩ := fill_spec hneed h1
        obtain ⟨n, c, h3, ast, st, h4, _, _, h5⟩ := (h2.each f.1 f.2).1 hf
        obtain ⟨h6, h7, _⟩ := firstReadable_mem h3
        obtain ⟨ast', st', h8, _, h10⟩ := hh.usable n c (found_build h2.files n h6) h7
        rw [h4] at h8
        cases h8
        obtain ⟨out, h11, _⟩ := h10 (m.glob f.1)
        simp only [Bool.false_eq_true, if_false] at h5
        exact ⟨out, by rw [h5]; exact h11⟩
    obtain ⟨l', h2⟩ := elaborateAll_total this
    exact ⟨l', msg, by rw [h2]; rfl⟩
  · exact ⟨l, msg, rfl⟩

/-! ### The graph -/

theorem expanded_trees {w : DepGraph.World} {l : Loaded} {now : Files}
    (h : ∀ pkg ast, lookup (trees l) pkg = some ast → lookup now pkg = some ast)
    (hn : (now.map (·.1)).Nodup) : trees (expanded w l now) = now := by
  unfold trees expanded
  rw [List.map_map]
  conv => rhs; rw [← List.map_id now]
  refine List.map_congr_left ?_
  rintro ⟨pkg, ast⟩ hm
  simp only [Function.comp_apply, id]
  cases hl : lookup l pkg with
  | none => simp only [Option.getD_none, added]; split <;> rfl
  | some f =>
    have := h pkg f.ast (by rw [lookup_trees, hl]; rfl)
    rw [(mem_lookup hn).1 hm] at this
    cases this
    rfl

end Commands
end Bant
