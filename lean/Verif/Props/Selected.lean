import Verif.Props.SameRules

/-! `select()`, or the value for the default condition (C144). -/
namespace Bant
namespace Props
open Commands Cli Query Rules Headers GraphSpec CommandSpec RulesSpec Parser

/-- **C144**: `select()` is the same as its value for the default condition: evaluated, it is the same tree. -/
theorem C144_rules {t t' : Node} {glob : Elab.GlobFn} (h : Selected t t') (hs : c!"select" ∉ bound t)
    (he : Elab.elabFile glob t ≠ none) : Elab.elabFile glob t' = Elab.elabFile glob t :=
  elab_selected h hs he

/-- **C144**, full statement: it does not matter for commands. -/
def C144_statement : Prop :=
  ∀ (m m' : Machine) (flags : Flags) (cmd : Command) (pattern : BazelPattern), SameButSelect cmd m m' → cmd ≠ .print →
    (cmd = .parse → flags.printAst = false ∧ flags.onlyErrors = false) →
      runCommand m' flags cmd pattern = runCommand m flags cmd pattern

/-- **C144** for the commands that evaluate files. -/
theorem C144_commands_partial {m m' : Machine} {flags : Flags} {cmd : Command} {pattern : BazelPattern}
    (h : SameButSelect cmd m m') (heval : elaborates flags cmd = true) (hprint : cmd ≠ .print)
    (hparse : cmd = .parse → flags.printAst = false ∧ flags.onlyErrors = false) :
    runCommand m' flags cmd pattern = runCommand m flags cmd pattern := by
  refine C103_commands_partial ⟨h.rest, h.missing, ?_, h.settings, h.includes, h.keeps, h.places⟩ heval hprint hparse
  intro name c c' t st t' st' h1 h2 h3 h4
  obtain ⟨h5, h6⟩ := h.files name c c' t st t' st' h1 h2 h3 h4
  refine ⟨fun hb pkg hp => ?_, fun hw => ?_⟩
  · rcases h5 hb pkg hp with rfl | ⟨a, b, c⟩
    · exact .joined (.refl _)
    · exact .selected a b c
  · rw [h6 hw]
    exact restyled_refl t

/-! ### Examples -/

def withSelect : Str :=
  c!"cc_library(name=\"a\",hdrs=select({\"//:win\":[\"w.h\"],\"//conditions:default\":[\"a.h\",\"u.h\"]},no_match_error=\"\"))\n"
def withDefault : Str := c!"cc_library(name=\"a\",hdrs=[\"a.h\",\"u.h\"])\n"

theorem withSelect_tree : (parseFile withSelect).map (·.1) = some (.list .list [library [kwName false,
    kwHdrs (.call (.ident c!"select") (.list .tuple [
      .list .map ([.binop (.op ':') (word c!"//:win") (.list .list [word c!"w.h"])] ++
        .binop (.op ':') (.str defaultCondition false false) (.list .list [word c!"a.h", word c!"u.h"]) :: []),
      .assign (.ident c!"no_match_error") (word [])]))]]) := by decide +kernel

theorem withDefault_tree : (parseFile withDefault).map (·.1) = some (.list .list [library [kwName false,
    kwHdrs (.list .list [word c!"a.h", word c!"u.h"])]]) := by decide +kernel

def selectProject : Machine := disk [(c!"p/BUILD", withSelect)]

theorem select_same (cmd : Command) : SameButSelect cmd selectProject (replacedOn selectProject withSelect withDefault) := by
  refine replaced_same withSelect_tree withDefault_tree (fun _ t => ⟨fun _ _ => .inl rfl, rfl⟩)
    (fun name h => ⟨fun _ pkg _ => .inr ⟨?_, by decide, ?_⟩, ?_⟩) (by decide +kernel) rfl (by decide +kernel)
  · intro hw
    have e : ∀ n ∈ Workspace.wsFiles, selectProject.fs.content n ≠ some withSelect := by decide +kernel
    exact absurd h (e name hw)
  · refine .list _ (.cons (.call (.refl _) (.list _ (.cons (.refl _) (.cons (.assign _ 
      (.default _ _ _ _ _ ?_ rfl (.refl _))) .nil)))) .nil)
    intro e he
    rw [List.mem_singleton.1 he]
    exact ⟨_, _, _, _, rfl, by decide⟩
  · intro hn
    have := congrArg Option.isSome hn
    revert this
    simp only [selectProject, disk]
    decide +kernel

/-- The commands print the same with `-e`, if the value for the default condition is written instead. -/
example : (∀ flags cmd pattern, flags.elaborate = true → cmd ≠ .print → cmd ≠ .parse →
      runCommand (replacedOn selectProject withSelect withDefault) flags cmd pattern =
        runCommand selectProject flags cmd pattern) ∧
    (replacedOn selectProject withSelect withDefault).fs.content c!"p/BUILD" = some withDefault ∧
    (runCommand selectProject { ({} : Flags) with format := .csv, elaborate := true } .libraryHeaders
      everything).map (·.out) =
      some c!"\"header\",\"providing-rule\"\n\"p/a.h\",\"//p:a\"\n\"p/u.h\",\"//p:a\"\n" :=
  ⟨fun _ cmd _ h0 h1 h2 => C144_commands_partial (select_same cmd) (by simp only [elaborates, h0, Bool.true_or]) h1
    (fun h => absurd h h2), by decide +kernel, by decide +kernel⟩

/-- Without `-e`, headers of a library are not found if there is `select()`. -/
theorem C144_counterexample : ¬ C144_statement := by
  intro h
  have h := h _ _ { ({} : Flags) with format := .csv } .libraryHeaders everything (select_same _) (by decide)
    (fun h => nomatch h)
  have h1 : (runCommand selectProject { ({} : Flags) with format := .csv } .libraryHeaders everything).map
      (·.out.length) = some 26 := by decide +kernel
  have h2 : (runCommand (replacedOn selectProject withSelect withDefault) { ({} : Flags) with format := .csv }
      .libraryHeaders everything).map (·.out.length) = some 58 := by decide +kernel
  rw [h, h1] at h2
  cases h2

/-- Selecting in a value that is selected, next to other files. -/
example : Selected (.binop (.op '+') (.list .list [word c!"x.h"]) (.call (.ident c!"select") (.list .tuple [.list .map
      ([] ++ .binop (.op ':') (.str defaultCondition false false) (.call (.ident c!"select") (.list .tuple [.list .map
        ([] ++ .binop (.op ':') (.str defaultCondition false false) (.list .list [word c!"y.h"]) :: [])])) :: [])])))
    (.binop (.op '+') (.list .list [word c!"x.h"]) (.list .list [word c!"y.h"])) :=
  .binop _ (.refl _) (.default _ _ _ _ _ (by simp) rfl (.default _ _ _ _ _ (by simp) rfl (.refl _)))

end Props
end Bant
