import Verif.Spec.Refactored
import Verif.Spec.Stable
import Verif.Spec.Headers

/-! Specification of what is known about rules before and after evaluation (C135). -/
namespace Bant
namespace EvalSpec
open Query Rules RulesSpec

mutual
/-- Calls that are summands. -/
def summed : Node → List (Node × Node)
  | .null => []
  | .str _ _ _ => []
  | .int _ _ => []
  | .ident _ => []
  | .unary _ e => summed e
  | .binop op a b => if op = .op '+' then sites a ++ sites b else summed a ++ summed b
  | .list _ xs => summedIn xs
  | .compr _ e => summed e
  | .ternary a b c => summed a ++ summed b ++ summed c
  | .assign _ _ => []
  | .call _ _ => []
def summedIn : List Node → List (Node × Node)
  | [] => []
  | x :: xs => summed x ++ summedIn xs
end

/-- A file with rules as usual: they are not summands, have keyword arguments, no two with the same name, and are not
called like a variable. -/
structure Usual (ast : Node) : Prop where
  sums : summed ast = []
  rules : ∀ r ∈ rulesOf [] ast, r.rule ∉ [c!"glob", c!"select"] ∧ r.rule ∉ bound ast ∧
    ∀ fn ty args, r.node = .call fn (.list ty args) → Keywords args

/-- If the rule has an attribute of this name, it is a string or a number. -/
def Literal (key : Str) (r : Result) : Prop :=
  ∀ fn ty args v, r.node = .call fn (.list ty args) → (.ident key, v) ∈ kwArgsIn args → text v ≠ none

/-- More is known about the second: its name and kind are the same, attributes stay or were not known,
and nothing is taken from lists. -/
structure Adds (r r' : Result) : Prop where
  rule : r'.rule = r.rule
  name : r'.name = r.name
  actual : r.hasActual = true → r'.hasActual = true ∧ r'.actual = r.actual
  texts : ∀ f ∈ [(c!"actual", Result.actual), (c!"version", Result.version), (c!"repo_name", Result.repoName),
    (c!"deprecation", Result.deprecation), (c!"include_prefix", Result.includePrefix),
    (c!"strip_include_prefix", Result.stripIncludePrefix)],
      (f.2 r = [] ∨ f.2 r' = f.2 r) ∧ (Literal f.1 r → f.2 r' = f.2 r)
  lists : ∀ f ∈ [Result.srcs, Result.hdrs, Result.textualHdrs, Result.publicHdrs, Result.deps, Result.outs,
    Result.includes], (stringsOf (f r)).Sublist (stringsOf (f r'))

/-- Each of the first list has a counterpart in the second, in this order. -/
def Within {α β : Type} (R : α → β → Prop) (as : List α) (bs : List β) : Prop :=
  ∃ cs, cs.Sublist bs ∧ StableSpec.Pairs R as cs

/-- No two rules of a file have the same name. -/
def Distinct (ast : Node) : Prop :=
  (rulesOf [] ast).Pairwise fun a b => ∀ (pkg : BazelPackage) t, pkg.qualifiedTarget a.name = some t →
    pkg.qualifiedTarget b.name ≠ some t

/-- The directories under which headers are included are written out, and it is not the library of which one header
is not taken into account. There are not two libraries for the same protocol buffers, after evaluation. -/
structure PlainHeaders (glob : Elab.GlobFn) (pkg : BazelPackage) (ast : Node) : Prop where
  prefixes : ∀ r ∈ rulesOf [c!"cc_library", c!"grpc_cc_library"] ast,
    Literal c!"include_prefix" r ∧ Literal c!"strip_include_prefix" r
  other : ¬ c!"absl/strings" <:+ pkg.path
  protos : ∀ out, Elab.elabFile glob ast = some out → ∀ grpc,
    (HeaderSpec.protoRules pkg out grpc).Pairwise fun a b => a.1 ≠ b.1

/-- The same options and `-e`. -/
def evaluated (flags : Cli.Flags) : Cli.Flags := { flags with elaborate := true }

end EvalSpec
end Bant
