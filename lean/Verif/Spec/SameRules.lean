import Verif.Spec.SameProject
import Verif.Spec.Rules

/-! Specification of projects whose BUILD files have the same rules, written in whatever way (C101). -/
namespace Bant
namespace RulesSpec
open Commands Cli Query Rules LayoutSpec

/-- The elements of a list that count: strings, and numbers as they are written. (A missing element counts, too.) -/
def texts (xs : List Node) : List Node :=
  xs.filterMap fun
    | .null => some .null
    | .str t _ _ => some (.str t false false)
    | .int rep _ => some (.str rep false false)
    | _ => none

/-- The texts of a list. -/
def textsOf (l : Option ListRef) : Option ListRef := l.map fun l => (.list, texts l.2)

/-- What can be told about a rule: its kind and its attributes, for lists the texts that are in there; for `load()`
also the arguments. -/
def told (r : Query.Result) : Query.Result :=
  { r with
    node :=
      if r.rule = c!"load" then
        match r.node with
        | .call _ (.list _ args) => .call .null (.list .list (texts args))
        | _ => .null
      else .null
    srcs := textsOf r.srcs
    hdrs := textsOf r.hdrs
    textualHdrs := textsOf r.textualHdrs
    publicHdrs := textsOf r.publicHdrs
    deps := textsOf r.deps
    outs := textsOf r.outs
    visibility := textsOf r.visibility
    includes := textsOf r.includes }

/-- The rules of a tree. `keep` tells which of their dependencies are to be kept. -/
def rulesIn (keep : Query.Result → BazelTarget → Nat → Bool) (t : Node) : List (Query.Result × (BazelTarget → Nat → Bool)) :=
  (report kwArgsIn [] true none (sites t)).map fun r => (told r, keep r)

/-- The trees have the same rules in the same order. -/
def SameRules (keep keep' : Query.Result → BazelTarget → Nat → Bool) (t t' : Node) : Prop :=
  rulesIn keep' t' = rulesIn keep t

/-- The same after evaluation. -/
def SameEvaluated (keep keep' : Query.Result → BazelTarget → Nat → Bool) (glob : Elab.GlobFn) (t t' : Node) : Prop :=
  (Elab.elabFile glob t = none ∧ Elab.elabFile glob t' = none) ∨
    ∃ u u', Elab.elabFile glob t = some u ∧ Elab.elabFile glob t' = some u' ∧ SameRules keep keep' u u'

/-- The trees have the same rules in the same order, but for rules without name, which are of no interest unless
`unnamed` is set. -/
def SameRulesFor (unnamed : Bool) (keep keep' : Query.Result → BazelTarget → Nat → Bool) (t t' : Node) : Prop :=
  (rulesIn keep' t').filter (fun x => unnamed || x.1.name ≠ []) = (rulesIn keep t).filter (fun x => unnamed || x.1.name ≠ [])

/-- The same after evaluation. -/
def SameEvaluatedFor (unnamed : Bool) (keep keep' : Query.Result → BazelTarget → Nat → Bool) (glob : Elab.GlobFn)
    (t t' : Node) : Prop :=
  (Elab.elabFile glob t = none ∧ Elab.elabFile glob t' = none) ∨
    ∃ u u', Elab.elabFile glob t = some u ∧ Elab.elabFile glob t' = some u' ∧ SameRulesFor unnamed keep keep' u u'

/-- The command is interested in calls without name. -/
def asksUnnamed (cmd : Command) : Bool := cmd = .listWorkspace

/-- Which dependencies of a rule have a `keep` comment; only `dwyu` looks for these, and only if it is not told to
ignore them. -/
def keepOf (flags : Flags) (cmd : Command) (m : Machine) (r : Query.Result) (t : BazelTarget) (n : Nat) : Bool :=
  cmd = .dwyu && !flags.ignoreKeep && Dwyu.hasKeepComment (m.line r t n)

/-- A file is read for a package: it is found in the search for BUILD files, or it is the file of a package that
something depends on. -/
def ReadFor (m : Machine) (pkg : BazelPackage) (name : Str) : Prop :=
  ∃ ws, CommandSpec.workspaceOf m = some ws ∧ (Collect.packageOf ws name pkg.project = some (some pkg) ∨
    DepGraph.pathForPackage (CommandSpec.world m ws) pkg = some name)

/-- The same machine, but BUILD files and workspace files are written differently, with the same rules in them
(rules with a name; in BUILD files also others, if the command asks for these):
once they are evaluated (for the packages they are read for), and as they are if the command does not evaluate them. Sources include the same files, if
the command is `dwyu`; other files (but for `.bazelrc`) are different in whatever way. The names of targets are at
the same place, if the command is `list-targets`. -/
structure SameMeaning (flags : Flags) (cmd : Command) (m m' : Machine) : Prop where
  rest : m' = { m with fs := { m.fs with content := m'.fs.content }, base := m'.base, nameLoc := m'.nameLoc,
                       callLoc := m'.callLoc, line := m'.line }
  missing : ∀ name, m'.fs.content name = none ↔ m.fs.content name = none
  builds : ∀ name c c', m.fs.content name = some c → m'.fs.content name = some c' → GraphSpec.IsBuild name →
    ∀ t st t' st', Parser.parseFile c = some (t, st) → Parser.parseFile c' = some (t', st') →
      (elaborates flags cmd = false → SameRulesFor (asksUnnamed cmd) (keepOf flags cmd m) (keepOf flags cmd m') t t') ∧
        ∀ pkg, ReadFor m pkg name → SameEvaluatedFor (asksUnnamed cmd) (keepOf flags cmd m) (keepOf flags cmd m') (m.glob pkg) t t'
  workspace : ∀ name c c', m.fs.content name = some c → m'.fs.content name = some c' → name ∈ Workspace.wsFiles →
    ∀ t st t' st', Parser.parseFile c = some (t, st) → Parser.parseFile c' = some (t', st') →
      SameRulesFor false (fun _ _ _ => false) (fun _ _ _ => false) t t'
  settings : m'.fs.content c!".bazelrc" = m.fs.content c!".bazelrc"
  includes : cmd = .dwyu → ∀ name c c', m.fs.content name = some c → m'.fs.content name = some c' →
    (Includes.extract c').map (·.2) = (Includes.extract c).map (·.2)
  places : cmd = .listTargets → m'.nameLoc = m.nameLoc

end RulesSpec
end Bant
