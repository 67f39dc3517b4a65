import Verif.Spec.SameRules
import Verif.Spec.Commands
import Verif.Spec.Dwyu
import Verif.Model.Dwyu

/-! Specification of projects whose BUILD files have the same rules in a different order (C125). -/
namespace Bant
namespace RulesSpec
open Commands Cli Query Rules

/-- The trees have the same rules with a name, in whatever order; there are no two for the same target. -/
structure Shuffled (t t' : Node) : Prop where
  perm : ((rulesOf [] t').map told).Perm ((rulesOf [] t).map told)
  once : ∀ (pkg : BazelPackage) target,
    ((rulesOf [] t).filter fun r => pkg.qualifiedTarget r.name = some target).length ≤ 1

/-- The same after evaluation. -/
def ShuffledEvaluated (glob : Elab.GlobFn) (t t' : Node) : Prop :=
  (Elab.elabFile glob t = none ∧ Elab.elabFile glob t' = none) ∨
    ∃ u u', Elab.elabFile glob t = some u ∧ Elab.elabFile glob t' = some u' ∧ Shuffled u u'

mutual
/-- The names that are assigned to, as long as they are not in a call. -/
def assigned : Node → List Str
  | .null => []
  | .str _ _ _ => []
  | .int _ _ => []
  | .ident _ => []
  | .unary _ e => assigned e
  | .binop _ a b => assigned a ++ assigned b
  | .list _ xs => assignedIn xs
  | .compr _ e => assigned e
  | .ternary a b c => assigned a ++ assigned b ++ assigned c
  | .assign (.ident i) r => i :: assigned r
  | .assign _ r => assigned r
  | .call _ _ => []
def assignedIn : List Node → List Str
  | [] => []
  | x :: xs => assigned x ++ assignedIn xs
end

/-- The call of a function of one of the `kinds`. -/
def RuleCall (kinds : List Str) (n : Node) : Prop :=
  ∃ fn ∈ kinds, ∃ ty args, n = .call (.ident fn) (.list ty args)

/-- The statements are the same, but for rules that are next to each other: these are in whatever order. (So they are
not moved across assignments, say.) -/
inductive Swapped (kinds : List Str) : List Node → List Node → Prop
  | nil : Swapped kinds [] []
  | cons {x xs ys} : (∀ k ∈ kinds, k ∉ assigned x) → Swapped kinds xs ys → Swapped kinds (x :: xs) (x :: ys)
  | swap {a b xs} : RuleCall kinds a → RuleCall kinds b → Swapped kinds (a :: b :: xs) (b :: a :: xs)
  | trans {xs ys zs} : Swapped kinds xs ys → Swapped kinds ys zs → Swapped kinds xs zs

/-- The names of the rules, without a colon in front, are distinct. -/
def DistinctNames (t : Node) : Prop :=
  ((rulesOf [] t).map fun r => if r.name.head? = some ':' then r.name.drop 1 else r.name).Nodup

/-- The same machine, but the rules in BUILD files are in a different order: once these are evaluated, and as they
are if the command does not evaluate them. -/
structure Reordered (evaluated : Bool) (m m' : Machine) : Prop where
  rest : m' = { m with fs := { m.fs with content := m'.fs.content }, base := m'.base, nameLoc := m'.nameLoc,
                       callLoc := m'.callLoc, line := m'.line }
  missing : ∀ name, m'.fs.content name = none ↔ m.fs.content name = none
  others : ∀ name, ¬ GraphSpec.IsBuild name → m'.fs.content name = m.fs.content name
  builds : ∀ name c c', m.fs.content name = some c → m'.fs.content name = some c' → GraphSpec.IsBuild name →
    ∀ t st t' st', Parser.parseFile c = some (t, st) → Parser.parseFile c' = some (t', st') →
      (evaluated = false → Shuffled t t') ∧ ∀ pkg, ShuffledEvaluated (m.glob pkg) t t'

/-- In each file, a C++ library is made at most once from a protocol buffer (and at most once with services). -/
def ProtoOnce (files : Files) : Prop :=
  ∀ f ∈ files, ∀ grpc, ∀ x ∈ HeaderSpec.protoRules f.1 f.2 grpc, ∀ y ∈ HeaderSpec.protoRules f.1 f.2 grpc,
    y.1 = x.1 → y.2 = x.2

/-- No two rules list the same output. -/
def OutputOnce (files : Files) : Prop :=
  ∀ x ∈ HeaderSpec.outputs files, ∀ y ∈ HeaderSpec.outputs files, y.1 = x.1 → y.2 = x.2

/-- The same comments are with the dependencies of a rule, wherever it is in the file. -/
def CommentsMove (env env' : Dwyu.Env) (files files' : Files) : Prop :=
  ∀ pkg ast ast', (pkg, ast) ∈ files → (pkg, ast') ∈ files' →
    ∀ r ∈ rulesOf [] ast, ∀ r' ∈ rulesOf [] ast', told r' = told r →
      ∀ t, pkg.qualifiedTarget r.name = some t → ∀ n,
        (DwyuSpec.KeepComment (env'.line r' t n) ↔ DwyuSpec.KeepComment (env.line r t n))

/-- BUILD files are not sources of rules. -/
def NoBuildSources (ws : Workspace.Map) (files : Files) : Prop :=
  ∀ pkg r t, DwyuSpec.Rule files pkg r t → ∀ src ∈ DwyuSpec.sourcesOf r, ∀ dir ∈ DwyuSpec.directories,
    ¬ GraphSpec.IsBuild (dir ++ pkg.fullyQualifiedFile ws src)

end RulesSpec
end Bant
