import Verif.Lemmas.Nameless
import Verif.Props.SameRules

/-! Calls without name, like `load()`, do not matter (C145). -/
namespace Bant
namespace Props
open Commands Cli Query Rules Headers GraphSpec CommandSpec RulesSpec Parser

/-- **C145**: calls without name, of constants, can be added and left out anywhere at the top of files: the same rules
with names are found, as they are and after evaluation. -/
theorem C145_rules {t t' : Node} (h : SameEssentials t t') (glob : Elab.GlobFn) :
    SameRulesFor false (fun _ _ _ => false) (fun _ _ _ => false) t t' ∧
      SameEvaluatedFor false (fun _ _ _ => false) (fun _ _ _ => false) glob t t' :=
  ⟨sameRulesFor_essentials h, sameEvaluatedFor_essentials h⟩

/-- **C145** for the commands: all but `print`, `parse` if it is to print something, and `workspace`, that lists what is
loaded. -/
theorem C145_commands {m m' : Machine} {flags : Flags} {cmd : Command} {pattern : BazelPattern}
    (h : SameButNameless cmd m m') (hws : cmd ≠ .listWorkspace) (hprint : cmd ≠ .print)
    (hparse : cmd = .parse → flags.printAst = false ∧ flags.onlyErrors = false) :
    runCommand m' flags cmd pattern = runCommand m flags cmd pattern := by
  have hu : asksUnnamed cmd = false := by simpa [asksUnnamed] using hws
  refine C101_rules ⟨h.rest, h.missing, ?_, ?_, h.settings, h.includes, h.places⟩ hprint hparse
  · intro name c c' h1 h2 hb t st t' st' h3 h4
    have hr := (h.files name c c' t st t' st' h1 h2 h3 h4).1 hb
    have hk := keepOf_same (flags := flags) h.keeps
    rw [hu]
    exact ⟨fun _ => sameRulesFor_keep hk (sameRulesFor_essentials hr),
      fun _ _ => sameEvaluatedFor_keep hk (sameEvaluatedFor_essentials hr)⟩
  · intro name c c' h1 h2 hb t st t' st' h3 h4
    exact sameRulesFor_essentials ((h.files name c c' t st t' st' h1 h2 h3 h4).2 hb)

/-! ### Examples -/

def withLoads : Str :=
  c!"load(\"@x//:y.bzl\",\"f\",g=\"h\")\nlicenses([\"notice\"])\ncc_library(name=\"a\",hdrs=[\"a.h\"])\nexports_files([\"e\"],visibility=[\"//v\"])\n"
def withoutLoads : Str := c!"cc_library(name=\"a\",hdrs=[\"a.h\"])\nf(1)\n"

/-- The statements of a file. -/
def statementsOf (c : Str) : List Node :=
  match parseFile c with
  | some (.list _ xs, _) => xs
  | _ => []

/-- A project with that file, and an external project. -/
def loadProject : Machine :=
  { disk [(c!"p/BUILD", withLoads)] with
    fs := ⟨fun d => d.head? = some 'b', fun _ => true, fun p =>
      if p = c!"MODULE.bazel" then some c!"bazel_dep(name=\"x\",version=\"1\")\nbazel_dep(name=\"z\")"
      else if plainPath p = c!"p/BUILD" then some withLoads else none, fun _ => []⟩ }

theorem loads_same (cmd : Command) : SameButNameless cmd loadProject (replacedOn loadProject withLoads withoutLoads) := by
  have h : SameEssentials (.list .list (statementsOf withLoads)) (.list .list (statementsOf withoutLoads)) :=
    .inr ⟨_, _, rfl, rfl, by decide +kernel⟩
  exact replaced_same (ta := .list .list (statementsOf withLoads)) (tb := .list .list (statementsOf withoutLoads))
    (by decide +kernel) (by decide +kernel) (fun _ t => ⟨.inl rfl, .inl rfl⟩) (fun _ _ => ⟨fun _ => h, fun _ => h⟩)
    (by decide +kernel) rfl (by decide +kernel)

/-- Four statements here and two there, one of which is the same. -/
example : (∀ flags cmd pattern, cmd ≠ .listWorkspace → cmd ≠ .print → cmd ≠ .parse →
      runCommand (replacedOn loadProject withLoads withoutLoads) flags cmd pattern =
        runCommand loadProject flags cmd pattern) ∧
    (replacedOn loadProject withLoads withoutLoads).fs.content c!"p/BUILD" = some withoutLoads ∧
    (statementsOf withLoads).length = 4 ∧ (statementsOf withoutLoads).length = 2 ∧
    (essential (statementsOf withLoads)).length = 1 ∧
    (runCommand loadProject { ({} : Flags) with format := .csv } .libraryHeaders everything).map (·.out) =
      some c!"\"header\",\"providing-rule\"\n\"p/a.h\",\"//p:a\"\n" :=
  ⟨fun _ cmd _ h0 h1 h2 => C145_commands (loads_same cmd) h0 h1 (fun h => absurd h h2), by decide +kernel,
    by decide +kernel, by decide +kernel, by decide +kernel, by decide +kernel⟩

/-- For `workspace` it does matter: the project is used that something is loaded from. -/
theorem C145_workspace : ¬ ∀ (m m' : Machine) (flags : Flags) (pattern : BazelPattern), SameButNameless .listWorkspace m m' →
    runCommand m' flags .listWorkspace pattern = runCommand m flags .listWorkspace pattern := by
  intro h
  have h := h _ _ {} (pat c!"//p:a") (loads_same _)
  have h1 : (runCommand loadProject {} .listWorkspace (pat c!"//p:a")).map (·.out) =
      some c!"x 1 bazel-out/../../../external/x~1\n" := by decide +kernel
  have h2 : (runCommand (replacedOn loadProject withLoads withoutLoads) {} .listWorkspace (pat c!"//p:a")).map (·.out) =
      some [] := by decide +kernel
  rw [h, h1] at h2
  cases h2

/-- With a name, it is another rule; and the name of a variable is not called. -/
example : nameless [] (.call (.ident c!"f") (.list .tuple [.assign (.ident c!"name") (word c!"x")])) = false ∧
    nameless [c!"f"] (.call (.ident c!"f") (.list .tuple [])) = false ∧
    nameless [] (.call (.ident c!"package") (.list .tuple [])) = false ∧
    nameless [c!"f"] (.call (.ident c!"load") (.list .tuple [word c!"//x:y.bzl"])) = true := by decide

end Props
end Bant
