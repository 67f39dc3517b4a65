import Verif.Spec.StatsTitles
import Verif.Props.Stats

/-! Which lines there are in the statistics (C128). -/
namespace Bant
namespace Props
open Stats StatsSpec Commands Cli Query Headers

/-- Everything counted has a title. -/
def Titled (cmd : Command) (l : List Event) : Prop := ∀ e ∈ l, (e.key, e.subject) ∈ titles cmd

theorem titled_append {cmd : Command} {l l' : List Event} (h : Titled cmd l) (h' : Titled cmd l') : Titled cmd (l ++ l') := by
  intro e he
  rcases List.mem_append.1 he with he | he
  · exact h e he
  · exact h' e he

theorem titled_cons {cmd : Command} {e : Event} {l : List Event} (h : (e.key, e.subject) ∈ titles cmd) (h' : Titled cmd l) :
    Titled cmd (e :: l) := by
  intro x hx
  rcases List.mem_cons.1 hx with rfl | hx
  · exact h
  · exact h' x hx

theorem titled_nil {cmd : Command} : Titled cmd [] := fun _ h => nomatch h

theorem titled_walk (cmd : Command) {m : Machine} {ws : Workspace.Map} {pattern : BazelPattern} {l : List Event}
    (h : walk m ws pattern = some l) : Titled cmd l := by
  have key : ∀ n, Titled cmd [⟨walkKey, c!"files/directories", n, none⟩] := fun n =>
    titled_cons (by simp [titles, walkKey]) titled_nil
  unfold walk at h
  split at h
  · cases h; exact key 0
  · obtain ⟨n, _, rfl⟩ := Option.map_eq_some_iff.1 h
    exact key n

theorem titled_addFile (cmd : Command) (size : Option Nat) : Titled cmd (addFile size) := by
  have h1 : (readKey, c!"BUILD files") ∈ titles cmd := by simp [titles, readKey]
  have h2 : (parseKey, c!"BUILD files") ∈ titles cmd := by simp [titles, parseKey]
  unfold addFile
  refine titled_append (titled_cons h1 (titled_cons h2 titled_nil)) ?_
  cases size with
  | none => exact titled_nil
  | some n => exact titled_cons h2 (titled_cons h1 titled_nil)

theorem titled_addAll (cmd : Command) {m : Machine} {ws : Workspace.Map} {project : Str} :
    ∀ {files : List Str} {p : Project.State} {l : List Event}, addAll m ws project p files = some l → Titled cmd l
  | [], p, l, h => by rw [addAll] at h; cases h; exact titled_nil
  | file :: files, p, l, h => by
    rw [addAll] at h
    split at h
    · next a q h1 h2 =>
      obtain ⟨b, h3, rfl⟩ := Option.map_eq_some_iff.1 h
      refine titled_append ?_ (titled_addAll cmd h3)
      unfold addFound at h1
      split at h1
      · cases h1
      · cases h1; exact titled_nil
      · cases h1; exact titled_addFile cmd _
    · cases h

theorem titled_fill {m : Machine} {ws : Workspace.Map} {cmd : Command} {pattern : BazelPattern} {l : List Event}
    (h : Stats.fill m ws cmd pattern = some l) : Titled cmd l := by
  unfold Stats.fill at h
  split at h
  · simp only at h
    split at h
    · next a b h1 h2 =>
      cases h
      obtain ⟨found, _, h3⟩ := Option.bind_eq_some_iff.1 h2
      exact titled_append (titled_walk cmd h1) (titled_addAll cmd h3)
    · cases h
  · cases h; exact titled_nil

theorem titled_elaborate (cmd : Command) (globs : BazelPackage → Option Nat) (pkg : BazelPackage) :
    Titled cmd (elaborate globs pkg) := by
  unfold elaborate
  refine titled_cons (by simp [titles, elabKey]) ?_
  split
  · exact titled_nil
  · exact titled_cons (by simp [titles, globKey]) titled_nil

theorem titled_missing {cmd : Command} (hg : usesGraph cmd = true) {w : DepGraph.World} {globs : BazelPackage → Option Nat} :
    ∀ {pkgs : List BazelPackage} {files : Files} {l : List Event}, missing w globs files pkgs = some l → Titled cmd l
  | [], files, l, h => by rw [missing] at h; cases h; exact titled_nil
  | pkg :: rest, files, l, h => by
    have he : ∀ n, ((⟨existKey, c!"BUILD files", n, none⟩ : Event).key, c!"BUILD files") ∈ titles cmd := by
      intro n
      cases cmd <;> first | (cases hg; done) | simp [titles, existKey]
    rw [missing] at h
    split at h
    · exact titled_missing hg h
    · simp only at h
      split at h
      · obtain ⟨b, h3, rfl⟩ := Option.map_eq_some_iff.1 h
        exact titled_cons (he _) (titled_missing hg h3)
      · split at h
        · obtain ⟨b, h3, rfl⟩ := Option.map_eq_some_iff.1 h
          exact titled_cons (he _) (titled_append (titled_append (titled_addFile cmd _) (titled_elaborate cmd globs pkg))
            (titled_missing hg h3))
        · cases h

theorem titled_rounds {cmd : Command} (hg : usesGraph cmd = true) {w : DepGraph.World} {globs : BazelPackage → Option Nat}
    (hr : (roundKey, c!"rounds") ∈ titles cmd) :
    ∀ {n : Nat} {files : Files} {graph : DepGraph.Graph} {todo : List BazelTarget} {l : List Event},
      rounds w globs files graph todo n = some l → Titled cmd l
  | 0, files, graph, todo, l, h => by
    rw [rounds] at h
    obtain ⟨b, h3, rfl⟩ := Option.map_eq_some_iff.1 h
    exact titled_cons hr (titled_missing hg h3)
  | n + 1, files, graph, todo, l, h => by
    rw [rounds] at h
    split at h
    · next a files' st h1 h2 =>
      obtain ⟨b, h3, rfl⟩ := Option.map_eq_some_iff.1 h
      refine titled_cons hr (titled_append (titled_missing hg h1) ?_)
      split at h3
      · cases h3; exact titled_nil
      · exact titled_rounds hg hr h3
    · cases h

theorem titled_graph {m : Machine} {globs : BazelPackage → Option Nat} {ws : Workspace.Map} {flags : Flags} {cmd : Command}
    {pattern : BazelPattern} {files : Files} {l : List Event} (h : Stats.graph m globs ws flags cmd pattern files = some l) :
    Titled cmd l := by
  unfold Stats.graph at h
  split at h
  · next hg =>
    rw [Bool.and_eq_true] at hg
    have hr : (roundKey, c!"rounds") ∈ titles cmd := by
      have := hg.1
      cases cmd <;> first | (cases this; done) | simp [titles, roundKey]
    obtain ⟨b, h3, rfl⟩ := Option.map_eq_some_iff.1 h
    obtain ⟨todo, _, h4⟩ := Option.bind_eq_some_iff.1 h3
    exact titled_cons hr (titled_rounds hg.1 hr h4)
  · cases h; exact titled_nil

theorem titled_sources (contents : List Str) : Titled .dwyu (sources contents) := by
  have h1 : (sourceKey, c!"sources") ∈ titles .dwyu := by simp [titles, sourceKey]
  have h2 : (grepKey, c!"sources") ∈ titles .dwyu := by simp [titles, grepKey]
  intro e he
  unfold sources at he
  simp only [List.mem_append, List.mem_cons, List.not_mem_nil, or_false, List.mem_flatMap] at he
  rcases he with ((rfl | rfl) | ⟨_, _, rfl | rfl⟩) | rfl | rfl
  all_goals first | exact h1 | exact h2

theorem titled_perform {m : Machine} {flags : Flags} {cmd : Command} {pattern : BazelPattern} {ws : Workspace.Map}
    {files : Files} {d : List Event} (h : Stats.perform m flags cmd pattern ws files = some d) : Titled cmd d := by
  intro e he
  cases cmd
  case dwyu =>
    simp only [Stats.perform, dwyu] at h
    obtain ⟨gen, _, h1⟩ := Option.bind_eq_some_iff.1 h
    obtain ⟨l, h2, rfl⟩ := Option.map_eq_some_iff.1 h1
    rcases List.mem_cons.1 he with rfl | he
    · simp [titles, prepareKey]
    · obtain ⟨f, _, zs, h3, h4⟩ := Located.mapAll_mem h2 e he
      split at h3
      · cases h3; cases h4
      · obtain ⟨r, ws, h5, h6⟩ := forTargets_mem h3 e h4
        split at h5
        · cases h5; cases h6
        · split at h5
          · cases h5; cases h6
          · split at h5
            · cases h5
              exact titled_sources _ e h6
            · cases h5
  case canonicalizeDeps =>
    have hc : (canonKey, c!"dependencies") ∈ titles .canonicalizeDeps := by simp [titles, canonKey]
    simp only [Stats.perform, canonicalize] at h
    obtain ⟨l, h2, rfl⟩ := Option.map_eq_some_iff.1 h
    rcases List.mem_cons.1 he with rfl | he
    · exact hc
    · obtain ⟨f, _, zs, h3, h4⟩ := Located.mapAll_mem h2 e he
      split at h3
      · cases h3; cases h4
      · obtain ⟨r, ws, h5, h6⟩ := forTargets_mem h3 e h4
        split at h5
        · cases h5; cases h6
        · split at h5
          · cases h5; cases h6
          · obtain ⟨_, _, rfl⟩ := Option.map_eq_some_iff.1 h5
            obtain ⟨_, _, rfl⟩ := List.mem_map.1 h6
            exact hc
  all_goals
    cases h
    cases he

/-- **C128**: which lines there are: each is about something that the command does, and says what is counted. -/
theorem C128_titles {m : Machine} {globs : BazelPackage → Option Nat} {flags : Flags} {cmd : Command}
    {pattern : BazelPattern} {l : List Event} (h : Stats.runCommand m globs flags cmd pattern = some l) :
    ∀ x ∈ record l, (x.1, x.2.subject) ∈ titles cmd := by
  have hl : Titled cmd l := by
    unfold Stats.runCommand at h
    split at h
    · cases h
    · cases h; exact titled_nil
    · split at h
      · next a o c d h1 h2 h3 h4 =>
        cases h
        obtain ⟨_, _, h5⟩ := Option.bind_eq_some_iff.1 h3
        refine titled_append (titled_append (titled_append (titled_fill h1) ?_) (titled_graph h5)) (titled_perform h4)
        split
        · intro e he
          obtain ⟨f, _, hf⟩ := List.mem_flatMap.1 he
          exact titled_elaborate cmd globs f.1 e hf
        · exact titled_nil
      · cases h
  intro x hx
  obtain ⟨_, _, h3⟩ := (C128_record l).each x hx
  obtain ⟨e, he, hs⟩ := Option.map_eq_some_iff.1 h3
  have hm := List.mem_of_head? he
  unfold ofKey at hm
  rw [List.mem_filter, decide_eq_true_iff] at hm
  rw [← hs, ← hm.2]
  exact hl e hm.1

/-- All of them, but for `glob()`, in a run of `dwyu`. -/
example : ((Stats.runCommand (disk follows) (fun _ => none) {} .dwyu (pat c!"//p/...")).map fun l =>
      (record l).map fun x => (x.1, x.2.subject)) =
    some ((titles .dwyu).filter fun x => x.1 ≠ c!"  - of which glob() walking") := by decide +kernel

example : (titles .dwyu).length = 10 ∧ (titles .canonicalizeDeps).length = 6 ∧ (titles .print).length = 5 := by decide

end Props
end Bant
