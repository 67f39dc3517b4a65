import Verif.Model.LocatedCommands
import Verif.Lemmas.LocatedQuery
import Verif.Lemmas.LocatedElab
import Verif.Lemmas.Project
import Verif.Lemmas.CommandFiles
import Verif.Lemmas.SameRulesCommand
import Verif.Lemmas.DepGraphOrder
import Verif.Lemmas.LocatedRules

/-! The commands with places are the commands. -/
namespace Bant
namespace Located
open Commands Headers Cli
open Query (mapAll)
open Parser (PState)

/-! ### Lists -/

theorem each_some {α β : Type} {f : α → Option β} {l : List α} (h : ∀ x ∈ l, ∃ y, f x = some y) :
    ∃ r, each f l = some r := by
  induction l with
  | nil => exact ⟨[], rfl⟩
  | cons x l ih =>
    obtain ⟨y, hy⟩ := h x (.head _)
    obtain ⟨r, hr⟩ := ih fun z hz => h z (.tail _ hz)
    exact ⟨y :: r, by simp [each, hy, hr]⟩

theorem each_map {α β γ : Type} {f : α → Option β} {g : β → γ} {k : α → γ} {l : List α} {r : List β}
    (hr : each f l = some r) (h : ∀ x ∈ l, ∀ y, f x = some y → g y = k x) : r.map g = l.map k := by
  induction l generalizing r with
  | nil => cases hr; rfl
  | cons x l ih =>
    rw [each] at hr
    cases hx : f x with
    | none => rw [hx] at hr; cases hr
    | some y =>
      cases hl : each f l with
      | none => rw [hx, hl] at hr; cases hr
      | some ys =>
        rw [hx, hl] at hr
        cases hr
        simp only [List.map_cons]
        rw [h x (.head _) y hx, ih hl fun z hz => h z (.tail _ hz)]

theorem each_mem {α β : Type} {f : α → Option β} {l : List α} {r : List β} (hr : each f l = some r) :
    ∀ y, y ∈ r → ∃ x ∈ l, f x = some y := by
  induction l generalizing r with
  | nil => cases hr; intro y hy; cases hy
  | cons x l ih =>
    rw [each] at hr
    cases hx : f x with
    | none => rw [hx] at hr; cases hr
    | some y =>
      cases hl : each f l with
      | none => rw [hx, hl] at hr; cases hr
      | some ys =>
        rw [hx, hl] at hr
        cases hr
        intro z hz
        rcases List.mem_cons.1 hz with rfl | hz
        · exact ⟨x, .head _, hx⟩
        · obtain ⟨w, hw, he⟩ := ih hl z hz
          exact ⟨w, .tail _ hw, he⟩

theorem each_getElem {α β : Type} {f : α → Option β} {l : List α} {r : List β} (hr : each f l = some r) (n : Nat) :
    r[n]? = l[n]?.bind f := by
  induction l generalizing r n with
  | nil => cases hr; rfl
  | cons x l ih =>
    rw [each] at hr
    cases hx : f x with
    | none => rw [hx] at hr; cases hr
    | some y =>
      cases hl : each f l with
      | none => rw [hx, hl] at hr; cases hr
      | some ys =>
        rw [hx, hl] at hr
        cases hr
        cases n with
        | zero => simp [hx]
        | succ n => simpa using ih hl n

/-! ### Files -/

/-- What is known of a file that has been loaded: its content has been read, the lines are those that the scanner has
found, and the tree is that of the content, evaluated or not. -/
structure From (m : Machine) (evaluated : Bool) (pkg : BazelPackage) (f : Held) : Prop where
  content : m.fs.content f.source.name = some f.source.content
  lines : f.source.lines = Project.linesOf f.source.content
  tree : ∃ t st, parseFile f.source.content = some (t, st) ∧ f.hasErrors = !st.errs.isEmpty ∧
    if evaluated then elabFile (m.glob pkg) t = some f.tree else f.tree = t

/-- The files of a project are as they were read. -/
def ReadIn (m : Machine) (p : Project.State) : Prop :=
  ∀ f ∈ p.files, m.fs.content f.2.source.name = some f.2.source.content ∧
    f.2.source.lines = Project.linesOf f.2.source.content ∧
    ∃ st, Parser.parseFile f.2.source.content = some (f.2.ast, st) ∧ f.2.errors = st.errs

theorem addFound_read {m : Machine} {ws : Workspace.Map} {project file : Str} {p q : Project.State} (h : ReadIn m p)
    (he : Collect.addFound ws project m.fs.content m.base p file = some q) : ReadIn m q := by
  unfold Collect.addFound at he
  split at he
  · cases he
  · cases he; exact h
  · rename_i pkg _
    obtain ⟨⟨b, q'⟩, h1, rfl⟩ := Option.map_eq_some_iff.1 he
    unfold Project.State.addFile at h1
    cases hc : m.fs.content file with
    | none => rw [hc] at h1; cases h1; exact h
    | some content =>
      rw [hc] at h1
      simp only at h1
      unfold Project.State.addContent at h1
      cases hf : p.find pkg with
      | some e => rw [hf] at h1; cases h1; exact h
      | none =>
        rw [hf] at h1
        simp only at h1
        cases hp : Parser.parseFile content with
        | none => rw [hp] at h1; cases h1
        | some r =>
          obtain ⟨ast, st⟩ := r
          rw [hp] at h1
          cases h1
          intro f hf
          rcases List.mem_append.1 hf with hf | hf
          · exact h f hf
          · cases List.mem_singleton.1 hf
            exact ⟨hc, by simp [Project.linesOf, hp], st, hp, rfl⟩

theorem foldlM_read {m : Machine} {ws : Workspace.Map} {project : Str} {files : List Str} {p q : Project.State}
    (h : ReadIn m p) (he : files.foldlM (Collect.addFound ws project m.fs.content m.base) p = some q) :
    ReadIn m q := by
  induction files generalizing p with
  | nil => cases he; exact h
  | cons f files ih =>
    rw [List.foldlM_cons] at he
    obtain ⟨p', h1, h2⟩ := Option.bind_eq_some_iff.1 he
    exact ih (addFound_read h h1) h2

theorem placed_map (l : List (BazelPackage × Project.BuildFile)) (acc : List (BazelPackage × Project.BuildFile)) :
    (l.foldl (fun l f => place (·.1) f l) acc).map (fun f => (f.1, fileOf f.2)) =
      l.foldl (fun l f => place (·.1) (f.1, fileOf f.2) l) (acc.map fun f => (f.1, fileOf f.2)) := by
  induction l generalizing acc with
  | nil => rfl
  | cons f l ih =>
    rw [List.foldl_cons, List.foldl_cons, ih,
      RulesSpec.place_map (fun f : BazelPackage × Project.BuildFile => (f.1, fileOf f.2)) fun _ => rfl]

theorem placed_mem (l acc : List (BazelPackage × Project.BuildFile)) (f : BazelPackage × Project.BuildFile) :
    f ∈ l.foldl (fun l f => place (·.1) f l) acc ↔ f ∈ acc ∨ f ∈ l := by
  induction l generalizing acc with
  | nil => simp
  | cons x l ih =>
    rw [List.foldl_cons, ih, mem_place]
    simp only [List.mem_cons]
    constructor
    · rintro ((h | h) | h)
      · exact .inr (.inl h)
      · exact .inl h
      · exact .inr (.inr h)
    · rintro (h | h | h)
      · exact .inl (.inr h)
      · exact .inl (.inl h)
      · exact .inr h

theorem inOrder_plain {m : Machine} {p : Project.State} (h : ReadIn m p) :
    ∃ l, inOrder p = some l ∧ plainOf l = Commands.inOrder p ∧ ∀ f ∈ l, From m false f.1 f.2 := by
  have hheld : ∀ f ∈ p.files, ∃ y, held f = some y ∧ (y.1, y.2.plain) = (f.1, fileOf f.2) ∧ From m false y.1 y.2 := by
    intro f hf
    obtain ⟨h1, h2, st, h3, h4⟩ := h f hf
    obtain ⟨t, h5, h6, _⟩ := parseFile_same h3
    have h7 : held f = some (f.1, ⟨⟨f.2.source.name, f.2.source.content, f.2.source.lines⟩, t, !f.2.errors.isEmpty⟩) := by
      unfold held; rw [h5]; rfl
    refine ⟨_, h7, ?_, ?_⟩
    · simp only [Held.plain, fileOf, h6]
    · exact ⟨h1, h2, t, st, h5, congrArg (fun e => !List.isEmpty e) h4, rfl⟩
  have hmem : ∀ f, f ∈ p.files.foldl (fun l f => place (·.1) f l) [] ↔ f ∈ p.files := fun f => by
    rw [placed_mem]; simp
  obtain ⟨l, hl⟩ := each_some (f := held) (l := p.files.foldl (fun l f => place (·.1) f l) []) (by
    intro f hf
    obtain ⟨y, hy, _⟩ := hheld f ((hmem f).1 hf)
    exact ⟨y, hy⟩)
  refine ⟨l, hl, ?_, ?_⟩
  · have := each_map (g := fun f => (f.1, f.2.plain)) (k := fun f => (f.1, fileOf f.2)) hl (by
      intro f hf y hy
      obtain ⟨y', hy', h1, _⟩ := hheld f ((hmem f).1 hf)
      rw [hy] at hy'
      cases hy'
      exact h1)
    rw [plainOf, this, placed_map]
    rfl
  · intro y hy
    obtain ⟨f, hf, he⟩ := each_mem hl y hy
    obtain ⟨y', hy', _, h1⟩ := hheld f ((hmem f).1 hf)
    rw [he] at hy'
    cases hy'
    exact h1

theorem fill_plain (m : Machine) (ws : Workspace.Map) (cmd : Command) (pattern : BazelPattern) :
    (fill m ws cmd pattern = none ∧ Commands.fill m ws cmd pattern = none) ∨
    ∃ l msg, fill m ws cmd pattern = some (l, msg) ∧ Commands.fill m ws cmd pattern = some (plainOf l, msg) ∧
      ∀ f ∈ l, From m false f.1 f.2 := by
  unfold fill Commands.fill
  by_cases hn : needsProject cmd pattern = true
  · rw [if_pos hn, if_pos hn]
    unfold Collect.fillFromPattern
    cases hc : Collect.collectBuildFiles m.tree m.symlink ws (depPattern cmd pattern) m.steps with
    | none => exact .inl ⟨rfl, rfl⟩
    | some files =>
      simp only
      cases hf : files.foldlM (Collect.addFound ws (depPattern cmd pattern).pattern.package.project m.fs.content m.base)
          {} with
      | none => exact .inl ⟨rfl, rfl⟩
      | some p =>
        obtain ⟨l, h1, h2, h3⟩ := inOrder_plain (foldlM_read (m := m) (fun f hf => by cases hf) hf)
        refine .inr ⟨l, if files.length = 0 then noBuildFile else [], ?_, ?_, h3⟩
        · simp only [Option.map_some, Option.bind_some, h1]
        · simp only [Option.map_some, h2]
  · rw [if_neg hn, if_neg hn]
    exact .inr ⟨[], [], rfl, rfl, by simp⟩

theorem elaborateAll_plain (m : Machine) {l : Holding} (h : ∀ f ∈ l, From m false f.1 f.2) :
    (elaborateAll m.glob l = none ∧ Commands.elaborateAll m.glob (plainOf l) = none) ∨
    ∃ l', elaborateAll m.glob l = some l' ∧ Commands.elaborateAll m.glob (plainOf l) = some (plainOf l') ∧
      ∀ f ∈ l', From m true f.1 f.2 := by
  induction l with
  | nil => exact .inr ⟨[], rfl, rfl, by simp⟩
  | cons f l ih =>
    have hp := elabFile_plain (m.glob f.1) f.2.tree
    have hcons : plainOf (f :: l) = (f.1, f.2.plain) :: plainOf l := rfl
    rw [hcons]
    unfold elaborateAll each Commands.elaborateAll
    have hfp : f.2.plain.ast = f.2.tree.plain := rfl
    simp only [hfp, hp]
    cases he : elabFile (m.glob f.1) f.2.tree with
    | none => exact .inl ⟨rfl, rfl⟩
    | some t =>
      rcases ih fun g hg => h g (.tail _ hg) with ⟨h1, h2⟩ | ⟨l', h1, h2, h3⟩
      · unfold elaborateAll at h1
        exact .inl ⟨by simp [h1], by simp [h2]⟩
      · unfold elaborateAll at h1
        refine .inr ⟨(f.1, { f.2 with tree := t }) :: l', by simp [h1], by simp only [h2, Option.map_some]; rfl, ?_⟩
        intro g hg
        rcases List.mem_cons.1 hg with rfl | hg
        · obtain ⟨h4, h5, t0, st, h6, h7, h8⟩ := h f (.head _)
          exact ⟨h4, h5, t0, st, h6, h7, by rw [if_neg (by simp)] at h8; rw [if_pos rfl, ← h8]; exact he⟩
        · exact h3 g hg

theorem opened_plain (m : Machine) (ws : Workspace.Map) (flags : Flags) (cmd : Command) (pattern : BazelPattern) :
    (opened m ws flags cmd pattern = none ∧ Commands.opened m ws flags cmd pattern = none) ∨
    ∃ l msg, opened m ws flags cmd pattern = some (l, msg) ∧ Commands.opened m ws flags cmd pattern = some (plainOf l, msg) ∧
      ∀ f ∈ l, From m (elaborates flags cmd) f.1 f.2 := by
  unfold opened Commands.opened
  rcases fill_plain m ws cmd pattern with ⟨h1, h2⟩ | ⟨l, msg, h1, h2, h3⟩
  · exact .inl ⟨by rw [h1]; rfl, by rw [h2]; rfl⟩
  · rw [h1, h2]
    simp only [Option.bind_some]
    cases he : elaborates flags cmd with
    | false => exact .inr ⟨l, msg, rfl, rfl, h3⟩
    | true =>
      simp only [if_true]
      rcases elaborateAll_plain m h3 with ⟨h4, h5⟩ | ⟨l', h4, h5, h6⟩
      · exact .inl ⟨by rw [h4]; rfl, by rw [h5]; rfl⟩
      · exact .inr ⟨l', msg, by rw [h4]; rfl, by rw [h5]; rfl, h6⟩

/-! ### The graph -/

/-- Where the trees after building the graph are from. -/
def Grew (w : DepGraph.World) (files now : Files) : Prop :=
  ∀ pkg ast, lookup now pkg = some ast → lookup files pkg = some ast ∨
    (lookup files pkg = none ∧ DepGraph.load w pkg = some (some ast))

theorem parseMissing_grew {w : DepGraph.World} {files now now' : Files} {ps : List BazelPackage} (h : Grew w files now)
    (hsub : ∀ pkg, (lookup now pkg).isNone → (lookup files pkg).isNone)
    (he : DepGraph.parseMissing w now ps = some now') : Grew w files now' ∧
      ∀ pkg, (lookup now' pkg).isNone → (lookup files pkg).isNone := by
  induction ps generalizing now with
  | nil => cases he; exact ⟨h, hsub⟩
  | cons p ps ih =>
    rw [DepGraph.parseMissing] at he
    cases hl : lookup now p with
    | some a => rw [hl] at he; exact ih h hsub he
    | none =>
      rw [hl] at he
      simp only at he
      cases ht : DepGraph.load w p with
      | none => rw [ht] at he; cases he
      | some r =>
        rw [ht] at he
        cases r with
        | none => exact ih h hsub he
        | some ast =>
          refine ih ?_ ?_ he
          · intro pkg a ha
            rw [lookup_insertNew] at ha
            by_cases e : pkg = p
            · subst e
              rw [if_pos rfl, hl] at ha
              cases ha
              exact .inr ⟨by simpa using hsub pkg (by rw [hl]; rfl), ht⟩
            · rw [if_neg e] at ha
              exact h pkg a ha
          · intro pkg ha
            rw [lookup_insertNew] at ha
            by_cases e : pkg = p
            · subst e
              rw [if_pos rfl, hl] at ha
              cases ha
            · rw [if_neg e] at ha
              exact hsub pkg ha

theorem round_grew {w : DepGraph.World} {files now now' : Files} {g : DepGraph.Graph} {todo : List BazelTarget}
    {st : DepGraph.Round} (h : Grew w files now) (hsub : ∀ pkg, (lookup now pkg).isNone → (lookup files pkg).isNone)
    (he : DepGraph.round w now g todo = some (now', st)) : Grew w files now' ∧
      ∀ pkg, (lookup now' pkg).isNone → (lookup files pkg).isNone := by
  unfold DepGraph.round at he
  generalize todo.foldl (fun s t => add t.package s) [] = ps at he
  simp only at he
  cases hp : DepGraph.parseMissing w now ps with
  | none => rw [hp] at he; cases he
  | some mid =>
    rw [hp] at he
    simp only at he
    obtain ⟨st', _, h2⟩ := Option.map_eq_some_iff.1 he
    cases h2
    exact parseMissing_grew h hsub hp

theorem rounds_grew {w : DepGraph.World} {files now now' : Files} {g g' : DepGraph.Graph} {todo : List BazelTarget}
    (n : Nat) (h : Grew w files now) (hsub : ∀ pkg, (lookup now pkg).isNone → (lookup files pkg).isNone)
    (he : DepGraph.rounds w now g todo n = some (now', g')) : Grew w files now' := by
  induction n generalizing now g todo with
  | zero =>
    rw [DepGraph.rounds] at he
    obtain ⟨⟨x, st⟩, h1, h2⟩ := Option.map_eq_some_iff.1 he
    cases h2
    exact (round_grew h hsub h1).1
  | succ n ih =>
    rw [DepGraph.rounds] at he
    cases hr : DepGraph.round w now g todo with
    | none => rw [hr] at he; cases he
    | some r =>
      obtain ⟨x, st⟩ := r
      rw [hr] at he
      simp only at he
      obtain ⟨h1, h2⟩ := round_grew h hsub hr
      split at he
      · cases he; exact h1
      · exact ih h1 h2 he

theorem build_grew {w : DepGraph.World} {pattern : BazelPattern} {depth : Int} {files now : Files} {g : DepGraph.Graph}
    (h : DepGraph.build w pattern depth files = some (now, g)) : Grew w files now := by
  unfold DepGraph.build at h
  cases hi : DepGraph.initial pattern files with
  | none => rw [hi] at h; cases h
  | some todo =>
    rw [hi] at h
    exact rounds_grew _ (fun _ _ h => .inl h) (fun _ h => h) h

theorem lookup_plainOf (l : Holding) (pkg : BazelPackage) : lookup (plainOf l) pkg = (lookup l pkg).map Held.plain := by
  induction l with
  | nil => rfl
  | cons f l ih =>
    unfold plainOf lookup at ih ⊢
    rw [List.map_cons, List.find?_cons, List.find?_cons]
    by_cases e : f.1 = pkg
    · simp [e]
    · simpa [e] using ih

theorem keys_plainOf (l : Holding) : (plainOf l).map (·.1) = l.map (·.1) := by simp [plainOf]

theorem added_plain {m : Machine} {ws : Workspace.Map} {pkg : BazelPackage} {ast : Node}
    (h : DepGraph.load ⟨m.fs, ws, m.glob⟩ pkg = some (some ast)) :
    ∃ f, added ⟨m.fs, ws, m.glob⟩ pkg = some f ∧ f.plain = Commands.added ⟨m.fs, ws, m.glob⟩ pkg ast ∧
      From m true pkg f := by
  unfold DepGraph.load at h
  unfold added Commands.added
  cases hn : DepGraph.pathForPackage ⟨m.fs, ws, m.glob⟩ pkg with
  | none => rw [hn] at h; cases h
  | some name =>
    rw [hn] at h
    simp only at h
    cases hc : m.fs.content name with
    | none => rw [hc] at h; cases h
    | some content =>
      rw [hc] at h
      simp only at h
      cases hp : Parser.parseFile content with
      | none => rw [hp] at h; cases h
      | some r =>
        obtain ⟨ast0, st⟩ := r
        rw [hp] at h
        simp only at h
        obtain ⟨a, h1, h2⟩ := Option.map_eq_some_iff.1 h
        cases h2
        obtain ⟨t, h3, h4, _⟩ := parseFile_same hp
        subst h4
        rw [elabFile_plain] at h1
        obtain ⟨u, h5, rfl⟩ := Option.map_eq_some_iff.1 h1
        refine ⟨⟨⟨name, content, (Project.scanTimes st.scans (Scanner.init content)).lines⟩, u, !st.errs.isEmpty⟩, ?_, ?_, ?_⟩
        · simp only [Option.bind_some, hc, h3, h5, Option.map_some]
        · simp only [Held.plain, hc, hp]
        · exact ⟨hc, by simp [Project.linesOf, hp], t, st, h3, rfl, h5⟩

theorem expanded_plain {m : Machine} {ws : Workspace.Map} {l : Holding} {now : Files} (hn : (now.map (·.1)).Nodup)
    (h : Grew ⟨m.fs, ws, m.glob⟩ (trees (plainOf l)) now) :
    ∃ l', expanded ⟨m.fs, ws, m.glob⟩ l (now.map (·.1)) = some l' ∧
      plainOf l' = Commands.expanded ⟨m.fs, ws, m.glob⟩ (plainOf l) now ∧
      ∀ f ∈ l', lookup l f.1 = some f.2 ∨ From m true f.1 f.2 := by
  have hone : ∀ e ∈ now, ∃ y, (match lookup l e.1 with
        | some f => some (e.1, f)
        | none => (added ⟨m.fs, ws, m.glob⟩ e.1).map (e.1, ·)) = some y ∧
      (y.1, y.2.plain) = (e.1, (lookup (plainOf l) e.1).getD (Commands.added ⟨m.fs, ws, m.glob⟩ e.1 e.2)) ∧
      (lookup l y.1 = some y.2 ∨ From m true y.1 y.2) := by
    rintro ⟨pkg, ast⟩ he
    cases hl : lookup l pkg with
    | some f => exact ⟨(pkg, f), rfl, by simp [lookup_plainOf, hl], .inl hl⟩
    | none =>
      rcases h pkg ast ((mem_lookup hn).1 he) with h1 | ⟨_, h1⟩
      · rw [lookup_trees, lookup_plainOf, hl] at h1
        cases h1
      · obtain ⟨f, h2, h3, h4⟩ := added_plain h1
        exact ⟨(pkg, f), by simp only [h2]; rfl, by simp [lookup_plainOf, hl, h3], .inr h4⟩
  obtain ⟨l', hl'⟩ := each_some (f := fun pkg => match lookup l pkg with
        | some f => some (pkg, f)
        | none => (added ⟨m.fs, ws, m.glob⟩ pkg).map (pkg, ·)) (l := now.map (·.1)) (by
    intro pkg hpkg
    obtain ⟨e, he, rfl⟩ := List.mem_map.1 hpkg
    obtain ⟨y, hy, _⟩ := hone e he
    exact ⟨y, hy⟩)
  refine ⟨l', hl', ?_, ?_⟩
  · have := each_map (g := fun f => (f.1, f.2.plain))
      (k := fun pkg => (pkg, (lookup (plainOf l) pkg).getD
        (Commands.added ⟨m.fs, ws, m.glob⟩ pkg ((lookup now pkg).getD .null)))) hl' (by
      intro pkg hpkg y hy
      obtain ⟨e, he, rfl⟩ := List.mem_map.1 hpkg
      obtain ⟨y', hy', h1, _⟩ := hone e he
      rw [hy] at hy'
      cases hy'
      rw [h1, (mem_lookup hn).1 he]
      rfl)
    rw [plainOf, this, Commands.expanded, List.map_map]
    refine List.map_congr_left fun e he => ?_
    simp only [Function.comp_apply, (mem_lookup hn).1 he, Option.getD_some]
  · intro y hy
    obtain ⟨pkg, hpkg, he⟩ := each_mem hl' y hy
    obtain ⟨e, he', rfl⟩ := List.mem_map.1 hpkg
    obtain ⟨y', hy', _, h1⟩ := hone e he'
    rw [he] at hy'
    cases hy'
    exact h1

theorem follow_plain {m : Machine} {ws : Workspace.Map} {flags : Flags} {cmd : Command} {pattern : BazelPattern}
    {l : Holding} (ha : Ascending (l.map (·.1))) :
    (follow m ws flags cmd pattern l = none ∧ Commands.follow m ws flags cmd pattern (plainOf l) = none) ∨
    ∃ l' g, follow m ws flags cmd pattern l = some (l', g) ∧
      Commands.follow m ws flags cmd pattern (plainOf l) = some (plainOf l', g) ∧ Ascending (l'.map (·.1)) ∧
      ∀ f ∈ l', f ∈ l ∨ (usesGraph cmd && decide (depthOf flags cmd ≥ 0)) = true ∧ From m true f.1 f.2 := by
  unfold follow Commands.follow
  cases hu : usesGraph cmd && decide (depthOf flags cmd ≥ 0) with
  | false => exact .inr ⟨l, {}, rfl, rfl, ha, fun f hf => .inl hf⟩
  | true =>
    simp only [if_true]
    cases hb : DepGraph.build ⟨m.fs, ws, m.glob⟩ (depPattern cmd pattern) (depthOf flags cmd) (trees (plainOf l)) with
    | none => exact .inl ⟨rfl, rfl⟩
    | some r =>
      obtain ⟨now, g⟩ := r
      have hn := (Bant.build_sorted hb).2 (by rw [trees_keys, keys_plainOf]; exact ha)
      obtain ⟨l', h1, h2, h3⟩ := expanded_plain hn.nodup (build_grew hb)
      refine .inr ⟨l', g, ?_, ?_, ?_, ?_⟩
      · simp only [Option.bind_some, h1, Option.map_some]
      · simp only [Option.map_some, h2]
      · rw [← keys_plainOf, h2, Commands.expanded, List.map_map]
        exact hn
      · intro f hf
        rcases h3 f hf with h | h
        · exact .inl ((mem_lookup ha.nodup).2 h)
        · exact .inr ⟨trivial, h⟩

/-- What holds of the files when the command begins. -/
structure AllFrom (m : Machine) (flags : Flags) (cmd : Command) (l : Holding) : Prop where
  order : Ascending (l.map (·.1))
  files : ∀ f ∈ l, ∃ evaluated, From m evaluated f.1 f.2 ∧ (elaborates flags cmd = true → evaluated = true) ∧
    (evaluated = true → elaborates flags cmd = true ∨ (usesGraph cmd && decide (depthOf flags cmd ≥ 0)) = true)

theorem prepareIn_plain (m : Machine) (ws : Workspace.Map) (flags : Flags) (cmd : Command) (pattern : BazelPattern) :
    (prepareIn m ws flags cmd pattern = none ∧ Commands.prepareIn m ws flags cmd pattern = none) ∨
    ∃ p, prepareIn m ws flags cmd pattern = some p ∧ Commands.prepareIn m ws flags cmd pattern = some p.plain ∧
      p.workspace = ws ∧ AllFrom m flags cmd p.files := by
  unfold prepareIn Commands.prepareIn
  rcases opened_plain m ws flags cmd pattern with ⟨h1, h2⟩ | ⟨l, msg, h1, h2, h3⟩
  · exact .inl ⟨by rw [h1]; rfl, by rw [h2]; rfl⟩
  · rw [h1, h2]
    simp only [Option.bind_some]
    have ha : Ascending (l.map (·.1)) := by rw [← keys_plainOf]; exact opened_ascending h2
    rcases follow_plain (m := m) (ws := ws) (flags := flags) (cmd := cmd) (pattern := pattern) ha with
      ⟨h4, h5⟩ | ⟨l', g, h4, h5, h6, h7⟩
    · exact .inl ⟨by rw [h4]; rfl, by rw [h5]; rfl⟩
    · refine .inr ⟨⟨ws, l', g, msg⟩, by rw [h4]; rfl, by rw [h5]; rfl, rfl, h6, fun f hf => ?_⟩
      rcases h7 f hf with h | h
      · exact ⟨_, h3 f h, id, .inl⟩
      · exact ⟨true, h.2, fun _ => rfl, fun _ => .inr h.1⟩

theorem prepare_plain (m : Machine) (flags : Flags) (cmd : Command) (pattern : BazelPattern) :
    (prepare m flags cmd pattern = none ∧ Commands.prepare m flags cmd pattern = none) ∨
    (prepare m flags cmd pattern = some none ∧ Commands.prepare m flags cmd pattern = some none) ∨
    ∃ p, prepare m flags cmd pattern = some (some p) ∧ Commands.prepare m flags cmd pattern = some (some p.plain) ∧
      AllFrom m flags cmd p.files := by
  unfold prepare Commands.prepare
  cases hw : Workspace.load m.fs with
  | none => exact .inl ⟨rfl, rfl⟩
  | some ws =>
    cases ws with
    | none => exact .inr (.inl ⟨rfl, rfl⟩)
    | some ws =>
      simp only
      rcases prepareIn_plain m (Workspace.augment m.fs ws).2 flags cmd pattern with ⟨h1, h2⟩ | ⟨p, h1, h2, _, h3⟩
      · exact .inl ⟨by rw [h1]; rfl, by rw [h2]; rfl⟩
      · exact .inr (.inr ⟨p, by rw [h1]; rfl, by rw [h2]; rfl, h3⟩)

/-! ### Locations -/

theorem parseFile_located {content : Str} {t : Tree} {st : PState} (h : parseFile content = some (t, st)) :
    Parser.parseFile content = some (t.plain, st) ∧ t.All (InFile content) (RangeIn content) (InFile content) := by
  obtain ⟨ast, st', hp, _⟩ := Parser.parseFile_total content
  obtain ⟨t', h1, h2, h3⟩ := parseFile_same hp
  rw [h] at h1
  cases h1
  exact ⟨by rw [hp, h2], h3⟩

theorem From.fine {m : Machine} {evaluated : Bool} {pkg : BazelPackage} {f : Held} (h : From m evaluated pkg f) :
    f.tree.All (Fine f.source.content) (RangeIn f.source.content) (InFile f.source.content) := by
  obtain ⟨_, _, t, st, h1, _, h2⟩ := h
  have h3 : t.All (InFile f.source.content) (RangeIn f.source.content) (InFile f.source.content) := by
    exact (parseFile_located h1).2
  cases evaluated with
  | true => exact elabFile_fine h3 h2
  | false => rw [if_neg (by simp)] at h2; rw [h2]; exact h3.imp fun v => .inl

theorem From.inFile {m : Machine} {pkg : BazelPackage} {f : Held} (h : From m false pkg f) :
    f.tree.All (InFile f.source.content) (RangeIn f.source.content) (InFile f.source.content) := by
  obtain ⟨_, _, t, st, h1, _, h2⟩ := h
  rw [if_neg (by simp)] at h2
  rw [h2]
  exact (parseFile_located h1).2

theorem getLocation_known {content : Str} {b e : Nat} (he : e ≤ content.length) :
    ∃ r, getLocation content (Project.linesOf content) b e = some r := by
  obtain ⟨l, hl⟩ := Project.linesOf_zero content
  obtain ⟨x, hx⟩ := Project.getPos_some l b
  obtain ⟨y, hy⟩ := Project.getPos_some l e
  exact ⟨⟨x, y⟩, by simp only [getLocation, if_pos he, hl, LineMap.getRange, hx, hy]⟩

theorem From.loc {m : Machine} {evaluated : Bool} {pkg : BazelPackage} {f : Held} (h : From m evaluated pkg f) {v : View}
    (hv : Fine f.source.content v) : ∃ l, f.source.loc v = some l := by
  unfold Source.loc
  rw [h.lines]
  rcases hv with ⟨pos, h1, h2, _⟩ | ⟨b, e, h1, h2, h3, _⟩
  · obtain ⟨r, hr⟩ := getLocation_known (b := pos) h2
    exact ⟨_, by rw [h1]; simp only [hr]; rfl⟩
  · obtain ⟨r, hr⟩ := getLocation_known (b := b) h3
    exact ⟨_, by rw [h1]; simp only [hr]; rfl⟩

theorem fine_line {s : Source} {v : View} (hv : Fine s.content v) : ∃ l, s.line v = some l := by
  unfold Source.line
  rcases hv with ⟨pos, h1, h2, _⟩ | ⟨b, e, h1, _⟩
  · exact ⟨_, by rw [h1]; simp only [getSurroundingLine, if_pos h2]; rfl⟩
  · exact ⟨_, by rw [h1]⟩

/-! ### `list-targets` and `print` -/

/-- The machine, with the locations that are found in the files. -/
def placed (files : Holding) (m : Machine) : Machine :=
  { m with
    nameLoc := fun pkg k => ((lookup files pkg).bind fun f => (findTargets false f.tree []).bind fun rs =>
      rs[k]?.bind fun r => f.source.loc r.name).getD []
    callLoc := fun pkg k => ((lookup files pkg).bind fun f => (findTargets true f.tree []).bind fun rs =>
      rs[k]?.bind fun r => (kindOf r).bind f.source.loc).getD []
    line := fun r target n => ((lookup files target.package).bind fun f =>
      (findTargets false f.tree [c!"cc_library", c!"cc_binary", c!"cc_test"]).bind fun rs =>
        (rs.find? fun x => decide (x.plain = r)).bind fun x => (depLines f.source x).bind (·[n]?)).getD [] }

theorem targetRows_placed {s : Source} {pattern : BazelPattern} {pkg : BazelPackage} {rs : List Rule} {loc : Nat → Str}
    {k : Nat} (h : ∀ i r, rs[i]? = some r → s.loc r.name = some (loc (k + i))) :
    targetRows s pattern pkg rs = some (Commands.targetRows loc pattern pkg k (rs.map Rule.plain)) := by
  induction rs generalizing k with
  | nil => rfl
  | cons r rs ih =>
    have ih := ih (k := k + 1) fun i r' hr => by rw [h (i + 1) r' (by simpa using hr)]; congr 2; omega
    have h0 : s.loc r.name = some (loc k) := h 0 r rfl
    rw [targetRows, List.map_cons, Commands.targetRows]
    show _ = some ((match BazelTarget.parseFrom (':' :: r.name.text) pkg with
      | none => []
      | some t => if pattern.matchTarget t then [Table.Op.row [loc k, r.rule, t.toString]] else []) ++ _)
    cases BazelTarget.parseFrom (':' :: r.name.text) pkg with
    | none => simp only [ih, List.nil_append]
    | some t =>
      cases hm : pattern.matchTarget t with
      | false => simp [hm, ih]
      | true => simp [hm, ih, h0]

theorem allTargetRows_placed {m : Machine} {files : Holding} (pattern : BazelPattern)
    (hn : (files.map (·.1)).Nodup) (hf : ∀ f ∈ files, ∃ evaluated, From m evaluated f.1 f.2) :
    allTargetRows pattern files =
      Commands.allTargetRows (placed files m).nameLoc pattern (trees (plainOf files)) := by
  suffices ∀ l : Holding, (∀ f ∈ l, lookup files f.1 = some f.2 ∧ ∃ evaluated, From m evaluated f.1 f.2) →
      allTargetRows pattern l = Commands.allTargetRows (placed files m).nameLoc pattern (trees (plainOf l)) from
    this files fun f h => ⟨(mem_lookup hn).1 h, hf f h⟩
  intro l
  induction l with
  | nil => intro _; rfl
  | cons f l ih =>
    intro hl
    obtain ⟨h1, ev, h2⟩ := hl f (.head _)
    have ih := ih fun g hg => hl g (.tail _ hg)
    show allTargetRows pattern (f :: l) =
      Commands.allTargetRows (placed files m).nameLoc pattern ((f.1, f.2.tree.plain) :: trees (plainOf l))
    rw [allTargetRows, Commands.allTargetRows, ih]
    simp only [findTargets_plain]
    cases ht : findTargets false f.2.tree [] with
    | none => rfl
    | some rs =>
      simp only [Option.bind_some, Option.map_some]
      suffices h : ∀ i r, rs[i]? = some r → f.2.source.loc r.name = some ((placed files m).nameLoc f.1 (0 + i)) by
        rw [targetRows_placed h]
        cases Commands.allTargetRows (placed files m).nameLoc pattern (trees (plainOf l)) <;> rfl
      intro i r hr
      obtain ⟨loc, hloc⟩ := h2.loc ((findTargets_all h2.fine ht r (List.mem_of_getElem? hr)).name (by
        obtain ⟨_, _, _, _, _, _, _, _, _, h⟩ := findTargets_sites ht r (List.mem_of_getElem? hr)
        exact h rfl))
      rw [Nat.zero_add]
      simp only [placed, h1, ht, hr, Option.bind_some, hloc, Option.getD_some]

theorem printRules_placed {o : Print.Options} {s : Source} {pattern : BazelPattern} {pkg : BazelPackage}
    {rs : List Rule} {loc : Nat → Str} {k : Nat}
    (h : ∀ i r, rs[i]? = some r → (kindOf r).bind s.loc = some (loc (k + i))) :
    printRules o s pattern pkg rs = Print.printRules o pattern pkg loc k (rs.map Rule.plain) := by
  induction rs generalizing k with
  | nil => rfl
  | cons r rs ih =>
    have ih := ih (k := k + 1) fun i r' hr => by rw [h (i + 1) r' (by simpa using hr)]; congr 2; omega
    have h0 : (kindOf r).bind s.loc = some (loc k) := h 0 r rfl
    rw [printRules, List.map_cons, Print.printRules, ih, h0]
    cases hw : Print.wanted pattern pkg r.plain with
    | false =>
      simp only [Bool.not_false, if_true, Print.printRule, hw, Bool.false_eq_true, if_false]
      cases Print.printRules o pattern pkg loc (k + 1) (rs.map Rule.plain) <;> rfl
    | true =>
      simp only [Bool.not_true, Bool.false_eq_true, if_false, Option.bind_some]
      split <;> simp_all

theorem printProject_placed {m : Machine} {files : Holding} (o : Print.Options) (pattern : BazelPattern)
    (hn : (files.map (·.1)).Nodup) (hf : ∀ f ∈ files, ∃ evaluated, From m evaluated f.1 f.2) :
    printProject o pattern files = Print.printProject o pattern
      ((plainOf files).map fun f => ⟨f.1, f.2.ast, f.2.hasErrors, (placed files m).callLoc f.1⟩) := by
  suffices ∀ l : Holding, (∀ f ∈ l, lookup files f.1 = some f.2 ∧ ∃ evaluated, From m evaluated f.1 f.2) →
      printProject o pattern l = Print.printProject o pattern
        ((plainOf l).map fun f => ⟨f.1, f.2.ast, f.2.hasErrors, (placed files m).callLoc f.1⟩) from
    this files fun f h => ⟨(mem_lookup hn).1 h, hf f h⟩
  intro l
  induction l with
  | nil => intro _; rfl
  | cons f l ih =>
    intro hl
    obtain ⟨h1, ev, h2⟩ := hl f (.head _)
    have ih := ih fun g hg => hl g (.tail _ hg)
    show printProject o pattern (f :: l) = Print.printProject o pattern
      (⟨f.1, f.2.tree.plain, f.2.hasErrors, (placed files m).callLoc f.1⟩ ::
        (plainOf l).map fun f => ⟨f.1, f.2.ast, f.2.hasErrors, (placed files m).callLoc f.1⟩)
    rw [printProject, Print.printProject, ih]
    simp only [findTargets_plain]
    split
    · rfl
    · cases ht : findTargets true f.2.tree [] with
      | none => rfl
      | some rs =>
        simp only [Option.bind_some, Option.map_some]
        suffices h : ∀ i r, rs[i]? = some r →
            (kindOf r).bind f.2.source.loc = some ((placed files m).callLoc f.1 (0 + i)) by
          rw [printRules_placed h]
          split <;> simp_all
        intro i r hr
        have hall := (findTargets_all h2.fine ht r (List.mem_of_getElem? hr)).node
        obtain ⟨kind, ty, xs, _, hnode, _⟩ := findTargets_sites ht r (List.mem_of_getElem? hr)
        rw [hnode] at hall
        obtain ⟨loc, hloc⟩ := h2.loc (v := kind) (.inl hall.1)
        rw [Nat.zero_add]
        have hk : kindOf r = some kind := by rw [kindOf, hnode]
        simp only [placed, h1, ht, hr, Option.bind_some, hk, hloc, Option.getD_some]

theorem printed_placed {m : Machine} {files : Holding} (flags : Flags) (pattern : BazelPattern)
    (hn : (files.map (·.1)).Nodup) (hf : ∀ f ∈ files, ∃ evaluated, From m evaluated f.1 f.2) :
    printed m flags pattern files = Commands.printed (placed files m) flags pattern (plainOf files) := by
  unfold printed Commands.printed
  simp only [printProject_placed _ _ hn hf]
  rfl

theorem AllFrom.nodup {m : Machine} {flags : Flags} {cmd : Command} {l : Holding} (h : AllFrom m flags cmd l) :
    (l.map (·.1)).Nodup := h.order.nodup

theorem AllFrom.each {m : Machine} {flags : Flags} {cmd : Command} {l : Holding} (h : AllFrom m flags cmd l) :
    ∀ f ∈ l, ∃ evaluated, From m evaluated f.1 f.2 := fun f hf => (h.files f hf).imp fun _ h => h.1

theorem perform_placed {m : Machine} {flags : Flags} {cmd : Command} {pattern : BazelPattern} {p : Ready}
    (hcmd : cmd ≠ .dwyu) (h : AllFrom m flags cmd p.files) :
    perform m flags cmd pattern p = Commands.perform (placed p.files m) flags cmd pattern p.plain := by
  cases cmd <;> try rfl
  · unfold perform Commands.perform
    rw [printed_placed flags pattern h.nodup h.each]
    rfl
  · unfold perform Commands.perform
    rw [printed_placed flags pattern h.nodup h.each]
    rfl
  · unfold perform Commands.perform
    rw [allTargetRows_placed (m := m) _ h.nodup h.each]
    rfl
  · exact absurd rfl hcmd

/-! ### `dwyu` -/

theorem lookAtDeps_lines {env env' : Dwyu.Env} {gen : Dwyu.Generator} {target : BazelTarget} {r : Query.Result}
    (hi : env'.ignoreKeep = env.ignoreKeep) (hl : ∀ n, env'.line r target n = env.line r target n) (accounted : Bool)
    (l : List Str) : ∀ n needed off, Dwyu.lookAtDeps env' gen target r accounted n needed off l =
      Dwyu.lookAtDeps env gen target r accounted n needed off l := by
  induction l with
  | nil => intros; rfl
  | cons dep l ih =>
    intro n needed off
    rw [Dwyu.lookAtDeps, Dwyu.lookAtDeps]
    simp only [ih, hi, hl]

theorem neededBySources_lines {env env' : Dwyu.Env} {gen : Dwyu.Generator} {target : BazelTarget} {pkg : BazelPackage}
    (hr : env'.read = env.read) (hw : env'.workspace = env.workspace) (sources l : List Str) :
    Dwyu.neededBySources env' gen target pkg sources l = Dwyu.neededBySources env gen target pkg sources l := by
  induction l with
  | nil => rfl
  | cons src l ih =>
    rw [Dwyu.neededBySources, Dwyu.neededBySources]
    simp only [ih, hr, hw]

theorem createEditsForTarget_lines {env env' : Dwyu.Env} {gen : Dwyu.Generator} {target : BazelTarget}
    {r : Query.Result} {pkg : BazelPackage} (hr : env'.read = env.read) (hw : env'.workspace = env.workspace)
    (hi : env'.ignoreKeep = env.ignoreKeep) (hl : ∀ n, env'.line r target n = env.line r target n) :
    Dwyu.createEditsForTarget env' gen target r pkg = Dwyu.createEditsForTarget env gen target r pkg := by
  unfold Dwyu.createEditsForTarget
  simp only [neededBySources_lines hr hw, lookAtDeps_lines hi hl]

theorem mapAll_congr {α β : Type} {f g : α → Option (List β)} {l : List α} (h : ∀ x ∈ l, f x = g x) :
    mapAll f l = mapAll g l := by
  induction l with
  | nil => rfl
  | cons x l ih => rw [mapAll, mapAll, h x (.head _), ih fun y hy => h y (.tail _ hy)]

theorem mapAll_map {α β γ : Type} (f : β → Option (List γ)) (k : α → β) (l : List α) :
    mapAll f (l.map k) = mapAll (fun x => f (k x)) l := by
  induction l with
  | nil => rfl
  | cons x l ih => rw [List.map_cons, mapAll, mapAll, ih]

theorem depLines_known {s : Source} {r : Rule} {q : TokenType → Nat × Nat → Prop} {i : View → Prop} (h : RuleAll (Fine s.content) q i r) :
    (stringList r.deps = none ∧ depLines s r = none) ∨
    ∃ vs lines, stringList r.deps = some vs ∧ depLines s r = some lines ∧ each s.line vs = some lines := by
  unfold depLines
  cases hs : stringList r.deps with
  | none => exact .inl ⟨rfl, rfl⟩
  | some vs =>
    obtain ⟨lines, hl⟩ := each_some (f := s.line) (l := vs) fun v hv => fine_line (stringList_all h.deps hs v hv)
    exact .inr ⟨vs, lines, rfl, hl, hl⟩

/-- No two rules of a file are the same. -/
def NoTwins (files : Holding) : Prop :=
  ∀ f ∈ files, ∀ rs, findTargets false f.2.tree [c!"cc_library", c!"cc_binary", c!"cc_test"] = some rs →
    (rs.map Rule.plain).Nodup

theorem find_self {rs : List Rule} (hn : (rs.map Rule.plain).Nodup) {r : Rule} (hr : r ∈ rs) :
    (rs.find? fun x => decide (x.plain = r.plain)) = some r := by
  induction rs with
  | nil => cases hr
  | cons x rs ih =>
    rw [List.map_cons, List.nodup_cons] at hn
    rw [List.find?_cons]
    rcases List.mem_cons.1 hr with rfl | h
    · simp
    · have hne : x.plain ≠ r.plain := fun e => hn.1 (e ▸ List.mem_map.2 ⟨r, h, rfl⟩)
      simp only [hne, decide_false]
      exact ih hn.2 h

theorem editsForFile_placed {m : Machine} {files : Holding} (hn : (files.map (·.1)).Nodup) {f : BazelPackage × Held}
    (hf : f ∈ files) {evaluated : Bool} (h : From m evaluated f.1 f.2) (hd : NoTwins files) (flags : Flags)
    (ws : Workspace.Map) (gen : Dwyu.Generator) (pattern : BazelPattern) :
    editsForFile m flags ws gen pattern f =
      if !pattern.matchPackage f.1 then some []
      else Query.forTargets f.2.tree.plain [c!"cc_library", c!"cc_binary", c!"cc_test"] fun details =>
        match f.1.qualifiedTarget details.name with
        | none => some []
        | some target =>
          if !pattern.matchTarget target then some []
          else Dwyu.createEditsForTarget ⟨m.fs.content, ws, (placed files m).line, flags.ignoreKeep⟩ gen target
            details f.1 := by
  unfold editsForFile
  split
  · rfl
  · unfold Query.forTargets
    rw [findTargets_plain]
    cases ht : findTargets false f.2.tree [c!"cc_library", c!"cc_binary", c!"cc_test"] with
    | none => rfl
    | some rs =>
      simp only [Option.map_some, Option.bind_some]
      rw [mapAll_map]
      refine mapAll_congr fun r hr => ?_
      unfold editsForRule
      show _ = match f.1.qualifiedTarget r.name.text with
        | none => some []
        | some target => _
      cases hq : f.1.qualifiedTarget r.name.text with
      | none => rfl
      | some target =>
        simp only
        split
        · rfl
        · rcases depLines_known (findTargets_all h.fine ht r hr) with ⟨h1, h2⟩ | ⟨vs, lines, h1, h2, _⟩
          · rw [h2]
            unfold Dwyu.createEditsForTarget
            rw [show r.plain.deps = plainRef r.deps from rfl, stringList_plain, h1]
            simp
          · rw [h2, Option.bind_some]
            refine createEditsForTarget_lines rfl rfl rfl fun n => ?_
            simp only [placed, qualifiedTarget_package hq, (mem_lookup hn).1 hf, Option.bind_some, ht,
              find_self (hd f hf rs ht) hr, h2]
            exact List.getD_eq_getElem?_getD ..

theorem dependencyEdits_placed {m : Machine} {files : Holding} (hn : (files.map (·.1)).Nodup)
    (hf : ∀ f ∈ files, ∃ evaluated, From m evaluated f.1 f.2) (hd : NoTwins files) (flags : Flags)
    (ws : Workspace.Map) (pattern : BazelPattern) :
    dependencyEdits m flags ws pattern files =
      Dwyu.createDependencyEdits ⟨m.fs.content, ws, (placed files m).line, flags.ignoreKeep⟩ pattern
        (trees (plainOf files)) := by
  unfold dependencyEdits Dwyu.createDependencyEdits Dwyu.createEditsForPattern
  cases Dwyu.Generator.create (trees (plainOf files)) with
  | none => rfl
  | some gen =>
    simp only [Option.bind_some]
    rw [show trees (plainOf files) = files.map fun f => (f.1, f.2.tree.plain) from by
      simp [trees, plainOf, Held.plain], mapAll_map]
    refine mapAll_congr fun f h => ?_
    obtain ⟨ev, h1⟩ := hf f h
    exact editsForFile_placed hn h h1 hd flags ws gen pattern

/-- Whether there is a result does not depend on the lines. -/
theorem createEditsForTarget_ends {env env' : Dwyu.Env} {gen : Dwyu.Generator} {target : BazelTarget}
    {r : Query.Result} {pkg : BazelPackage} (hr : env'.read = env.read) (hw : env'.workspace = env.workspace) :
    (Dwyu.createEditsForTarget env' gen target r pkg).isSome = (Dwyu.createEditsForTarget env gen target r pkg).isSome := by
  have hfst : ∀ (accounted : Bool) (l : List Str) n needed off,
      (Dwyu.lookAtDeps env' gen target r accounted n needed off l).1 =
        (Dwyu.lookAtDeps env gen target r accounted n needed off l).1 := by
    intro accounted l
    induction l with
    | nil => intros; rfl
    | cons dep l ih =>
      intro n needed off
      rw [Dwyu.lookAtDeps, Dwyu.lookAtDeps]
      cases BazelTarget.parseFrom dep target.package with
      | none => exact ih ..
      | some t =>
        simp only
        cases Dwyu.checkOff t needed with
        | some x => exact ih ..
        | none =>
          simp only
          by_cases ho : t ∈ off
          · simp only [if_pos ho]; exact ih ..
          · simp only [if_neg ho]
            repeat' split
            all_goals exact ih ..
  unfold Dwyu.createEditsForTarget
  cases Query.stringList r.srcs with
  | none => rfl
  | some srcs =>
    cases Query.stringList r.hdrs with
    | none => rfl
    | some hdrs =>
      cases Query.stringList r.deps with
      | none => rfl
      | some deps =>
        simp only [neededBySources_lines hr hw]
        repeat' split
        all_goals first | rfl | simp only [Option.isSome_map, hfst]

theorem mapAll_ends {α β γ : Type} {f : α → Option (List β)} {g : α → Option (List γ)} {l : List α}
    (h : ∀ x ∈ l, (f x).isSome = (g x).isSome) : (mapAll f l).isSome = (mapAll g l).isSome := by
  induction l with
  | nil => rfl
  | cons x l ih =>
    have h1 := h x (.head _)
    have h2 := ih fun y hy => h y (.tail _ hy)
    rw [mapAll, mapAll]
    cases hf : f x with
    | none => rw [hf] at h1; cases hg : g x with
      | none => rfl
      | some y => rw [hg] at h1; cases h1
    | some y => rw [hf] at h1; cases hg : g x with
      | none => rw [hg] at h1; cases h1
      | some z => simp only [Option.isSome_map, h2]

theorem dependencyEdits_ends {m : Machine} {files : Holding}
    (hf : ∀ f ∈ files, ∃ evaluated, From m evaluated f.1 f.2) (flags : Flags)
    (ws : Workspace.Map) (pattern : BazelPattern) (line : Query.Result → BazelTarget → Nat → Str) :
    (dependencyEdits m flags ws pattern files).isSome =
      (Dwyu.createDependencyEdits ⟨m.fs.content, ws, line, flags.ignoreKeep⟩ pattern (trees (plainOf files))).isSome := by
  unfold dependencyEdits Dwyu.createDependencyEdits Dwyu.createEditsForPattern
  cases Dwyu.Generator.create (trees (plainOf files)) with
  | none => rfl
  | some gen =>
    simp only [Option.bind_some]
    rw [show trees (plainOf files) = files.map fun f => (f.1, f.2.tree.plain) from by
      simp [trees, plainOf, Held.plain], mapAll_map]
    refine mapAll_ends fun f h => ?_
    obtain ⟨ev, h1⟩ := hf f h
    unfold editsForFile
    split
    · rfl
    · unfold Query.forTargets
      rw [findTargets_plain]
      cases ht : findTargets false f.2.tree [c!"cc_library", c!"cc_binary", c!"cc_test"] with
      | none => rfl
      | some rs =>
        simp only [Option.map_some, Option.bind_some]
        rw [mapAll_map]
        refine mapAll_ends fun r hr => ?_
        unfold editsForRule
        show _ = (match f.1.qualifiedTarget r.name.text with
          | none => some []
          | some target => _ : Option _).isSome
        cases hq : f.1.qualifiedTarget r.name.text with
        | none => rfl
        | some target =>
          simp only
          split
          · rfl
          · rcases depLines_known (findTargets_all h1.fine ht r hr) with ⟨h1, h2⟩ | ⟨vs, lines, h1, h2, _⟩
            · rw [h2]
              unfold Dwyu.createEditsForTarget
              rw [show r.plain.deps = plainRef r.deps from rfl, stringList_plain, h1]
              simp
            · rw [h2, Option.bind_some]
              exact createEditsForTarget_ends rfl rfl

/-! ### Which dependencies are removed -/

theorem lookAtDeps_removed {env : Dwyu.Env} {gen : Dwyu.Generator} {target : BazelTarget} {r : Query.Result}
    {accounted : Bool} (l : List Str) : ∀ n needed off, ∀ e ∈ (Dwyu.lookAtDeps env gen target r accounted n needed off l).2,
      e.target = target ∧ ∃ i, l[i]? = some e.before ∧
        (env.ignoreKeep = true ∨ Dwyu.hasKeepComment (env.line r target (n + i)) = false) := by
  induction l with
  | nil => intro _ _ _ e he; cases he
  | cons dep l ih =>
    intro n needed off e he
    have step : ∀ needed off, e ∈ (Dwyu.lookAtDeps env gen target r accounted (n + 1) needed off l).2 →
        e.target = target ∧ ∃ i, (dep :: l)[i]? = some e.before ∧
          (env.ignoreKeep = true ∨ Dwyu.hasKeepComment (env.line r target (n + i)) = false) := by
      intro needed off h
      obtain ⟨h1, i, h2, h3⟩ := ih (n + 1) needed off e h
      refine ⟨h1, i + 1, by simpa using h2, ?_⟩
      rw [show n + (i + 1) = n + 1 + i by omega]
      exact h3
    rw [Dwyu.lookAtDeps] at he
    cases hp : BazelTarget.parseFrom dep target.package with
    | none => rw [hp] at he; exact step _ _ he
    | some t =>
      rw [hp] at he
      simp only at he
      cases hc : Dwyu.checkOff t needed with
      | some x => rw [hc] at he; exact step _ _ he
      | none =>
        rw [hc] at he
        simp only at he
        split at he
        · exact step _ _ he
        · split at he
          · rename_i hcond
            rcases List.mem_cons.1 he with rfl | he
            · refine ⟨rfl, 0, rfl, ?_⟩
              simp only [Bool.and_eq_true, Bool.or_eq_true, Bool.not_eq_true'] at hcond
              exact hcond.2
            · exact step _ _ he
          · exact step _ _ he

theorem addNeeded_add {gen : Dwyu.Generator} {target : BazelTarget} {l : List (List BazelTarget)} {es : List Edit}
    (h : Dwyu.addNeeded gen target l = some es) : ∀ e ∈ es, e.op = .add := by
  induction l generalizing es with
  | nil => cases h; simp
  | cons x l ih =>
    rw [Dwyu.addNeeded] at h
    cases hl : Dwyu.addNeeded gen target l with
    | none => rw [hl] at h; cases h
    | some es' =>
      rw [hl] at h
      simp only at h
      have ih := ih hl
      repeat' split at h
      all_goals cases h
      · intro e he
        rcases List.mem_cons.1 he with rfl | he
        · rfl
        · exact ih e he
      · exact ih
      · exact ih

theorem createEdits_removed {env : Dwyu.Env} {gen : Dwyu.Generator} {target : BazelTarget} {r : Query.Result}
    {pkg : BazelPackage} {es : List Edit} (h : Dwyu.createEditsForTarget env gen target r pkg = some es) :
    ∀ e ∈ es, e.op = .remove → e.target = target ∧ ∃ deps i, Query.stringList r.deps = some deps ∧
      deps[i]? = some e.before ∧ (env.ignoreKeep = true ∨ Dwyu.hasKeepComment (env.line r target i) = false) := by
  unfold Dwyu.createEditsForTarget at h
  split at h
  · rename_i srcs hdrs deps _ _ hd
    simp only at h
    split at h
    · cases h
    · split at h
      · cases h
      · obtain ⟨adds, ha, rfl⟩ := Option.map_eq_some_iff.1 h
        intro e he hop
        rcases List.mem_append.1 he with he | he
        · obtain ⟨h1, i, h2, h3⟩ := lookAtDeps_removed _ _ _ _ e he
          rw [Nat.zero_add] at h3
          exact ⟨h1, deps, i, hd, h2, h3⟩
        · rw [addNeeded_add ha e he] at hop; cases hop
  · cases h

theorem mapAll_mem {α β : Type} {f : α → Option (List β)} {l : List α} {ys : List β} (h : mapAll f l = some ys) :
    ∀ y ∈ ys, ∃ x ∈ l, ∃ zs, f x = some zs ∧ y ∈ zs := by
  induction l generalizing ys with
  | nil => cases h; simp
  | cons x l ih =>
    rw [mapAll] at h
    cases hx : f x with
    | none => rw [hx] at h; cases h
    | some zs =>
      rw [hx] at h
      obtain ⟨rest, h1, rfl⟩ := Option.map_eq_some_iff.1 h
      intro y hy
      rcases List.mem_append.1 hy with hy | hy
      · exact ⟨x, .head _, zs, hx, hy⟩
      · obtain ⟨x', h2, h3⟩ := ih h1 y hy
        exact ⟨x', .tail _ h2, h3⟩

/-! ### Running commands -/

theorem prepare_placed (m : Machine) (files : Holding) (flags : Flags) (cmd : Command) (pattern : BazelPattern) :
    Commands.prepare (placed files m) flags cmd pattern = Commands.prepare m flags cmd pattern := rfl

/-- The commands with places are the commands, with the locations that are found in the files. For `dwyu`, no two
rules of a file must be the same. -/
theorem runCommand_placed (m : Machine) (flags : Flags) (cmd : Command) (pattern : BazelPattern) :
    (Commands.prepare m flags cmd pattern = none ∧ runCommand m flags cmd pattern = none) ∨
    (Commands.prepare m flags cmd pattern = some none ∧ runCommand m flags cmd pattern = some ⟨1, [], noWorkspace⟩) ∨
    ∃ p, prepare m flags cmd pattern = some (some p) ∧ Commands.prepare m flags cmd pattern = some (some p.plain) ∧
      AllFrom m flags cmd p.files ∧
      ((cmd = .dwyu → NoTwins p.files) →
        runCommand m flags cmd pattern = Commands.runCommand (placed p.files m) flags cmd pattern) := by
  rcases prepare_plain m flags cmd pattern with ⟨h1, h2⟩ | ⟨h1, h2⟩ | ⟨p, h1, h2, h3⟩
  · exact .inl ⟨h2, by rw [runCommand, h1]⟩
  · exact .inr (.inl ⟨h2, by rw [runCommand, h1]⟩)
  · refine .inr (.inr ⟨p, h1, h2, h3, fun hd => ?_⟩)
    rw [runCommand, h1, Commands.runCommand, prepare_placed, h2]
    simp only
    suffices h : perform m flags cmd pattern p = Commands.perform (placed p.files m) flags cmd pattern p.plain by
      rw [h]; rfl
    by_cases hcmd : cmd = .dwyu
    · subst hcmd
      unfold perform Commands.perform
      rw [dependencyEdits_placed h3.nodup h3.each (hd rfl)]
      rfl
    · exact perform_placed hcmd h3

end Located
end Bant
