import Verif.Spec.Restyled
import Verif.Model.Glob

/-! Specification of BUILD files with the same values, named or written out, in one list or several, found by `glob()` or listed
(C103, C134). -/
namespace Bant
namespace RulesSpec
open Commands Cli

mutual
/-- Names that are assigned, outside of calls. -/
def bound : Node → List Str
  | .null => []
  | .str _ _ _ => []
  | .int _ _ => []
  | .ident _ => []
  | .unary _ e => bound e
  | .binop _ a b => bound a ++ bound b
  | .list _ xs => boundIn xs
  | .compr _ e => bound e
  | .ternary a b c => bound a ++ bound b ++ bound c
  | .assign (.ident i) r => i :: bound r
  | .assign _ r => bound r
  | .call _ _ => []
def boundIn : List Node → List Str
  | [] => []
  | x :: xs => bound x ++ boundIn xs
end

mutual
/-- Names that are read; not those of attributes and of what is assigned. -/
def used : Node → List Str
  | .null => []
  | .str _ _ _ => []
  | .int _ _ => []
  | .ident i => [i]
  | .unary _ e => used e
  | .binop _ a b => used a ++ used b
  | .list _ xs => usedIn xs
  | .compr _ e => used e
  | .ternary a b c => used a ++ used b ++ used c
  | .assign _ r => used r
  | .call f a => used f ++ used a
def usedIn : List Node → List Str
  | [] => []
  | x :: xs => used x ++ usedIn xs
end

mutual
/-- Names that are called. -/
def invoked : Node → List Str
  | .null => []
  | .str _ _ _ => []
  | .int _ _ => []
  | .ident _ => []
  | .unary _ e => invoked e
  | .binop _ a b => invoked a ++ invoked b
  | .list _ xs => invokedIn xs
  | .compr _ e => invoked e
  | .ternary a b c => invoked a ++ invoked b ++ invoked c
  | .assign _ r => invoked r
  | .call f a => used f ++ invoked a
def invokedIn : List Node → List Str
  | [] => []
  | x :: xs => invoked x ++ invokedIn xs
end

mutual
/-- Write `e` wherever `x` is read. -/
def writeOut (x : Str) (e : Node) : Node → Node
  | .null => .null
  | .str t a b => .str t a b
  | .int r v => .int r v
  | .ident i => if i = x then e else .ident i
  | .unary op a => .unary op (writeOut x e a)
  | .binop op a b => .binop op (writeOut x e a) (writeOut x e b)
  | .list ty xs => .list ty (writeOutIn x e xs)
  | .compr ty a => .compr ty (writeOut x e a)
  | .ternary a b c => .ternary (writeOut x e a) (writeOut x e b) (writeOut x e c)
  | .assign l r => .assign l (writeOut x e r)
  | .call f a => .call f (writeOut x e a)
def writeOutIn (x : Str) (e : Node) : List Node → List Node
  | [] => []
  | a :: as => writeOut x e a :: writeOutIn x e as
end

mutual
/-- The same but for lists and strings that are written in one or in pieces joined by `+`. -/
inductive Joined : Node → Node → Prop
  | lists (ty : ListType) (xs ys : List Node) : Joined (.binop (.op '+') (.list ty xs) (.list ty ys)) (.list ty (xs ++ ys))
  | strings (a b : Str) (t r t' r' : Bool) : Joined (.binop (.op '+') (.str a t r) (.str b t' r')) (.str (a ++ b) false false)
  | refl (t : Node) : Joined t t
  | unary (op : TokenType) {e e' : Node} : Joined e e' → Joined (.unary op e) (.unary op e')
  | binop (op : TokenType) {a a' b b' : Node} : Joined a a' → Joined b b' → Joined (.binop op a b) (.binop op a' b')
  | list (ty : ListType) {xs xs' : List Node} : JoinedAll xs xs' → Joined (.list ty xs) (.list ty xs')
  | compr (ty : ListType) {e e' : Node} : Joined e e' → Joined (.compr ty e) (.compr ty e')
  | ternary {a a' b b' c c' : Node} : Joined a a' → Joined b b' → Joined c c' →
    Joined (.ternary a b c) (.ternary a' b' c')
  | assign (l : Node) {r r' : Node} : Joined r r' → Joined (.assign l r) (.assign l r')
  | call {f f' a a' : Node} : Joined f f' → Joined a a' → Joined (.call f a) (.call f' a')
inductive JoinedAll : List Node → List Node → Prop
  | nil : JoinedAll [] []
  | cons {x x' : Node} {xs xs' : List Node} : Joined x x' → JoinedAll xs xs' → JoinedAll (x :: xs) (x' :: xs')
end

/-- A list of strings, however these are quoted. -/
def Strings (texts : List Str) (t : Node) : Prop :=
  ∃ l : List (Str × Bool × Bool), l.map (·.1) = texts ∧ t = .list .list (l.map fun x => .str x.1 x.2.1 x.2.2)

/-- A name, a string or a number. -/
def Simple (t : Node) : Prop := (∃ i, t = .ident i) ∨ (∃ s a b, t = .str s a b) ∨ ∃ r v, t = .int r v

/-- Arguments of `glob()`: `[..]` or `include = [..]`, then `exclude = [..]` if something is excluded, then others. -/
def GlobArguments (incl excl : List Str) (args : List Node) : Prop :=
  ∃ first second others, args = first :: (second ++ others) ∧
    (Strings incl first ∨ ∃ l, Strings incl l ∧ first = .assign (.ident c!"include") l) ∧
    ((excl = [] ∧ second = []) ∨ ∃ l, Strings excl l ∧ second = [.assign (.ident c!"exclude") l]) ∧
    ∀ o ∈ others, ∃ k v, o = .assign (.ident k) v ∧ k ≠ c!"include" ∧ k ≠ c!"exclude" ∧ Simple v

mutual
/-- The same, but in place of calls of `glob()` there are the files that are found. -/
inductive Globbed (glob : Elab.GlobFn) : Node → Node → Prop
  | files (incl excl : List Str) (args : List Node) : GlobArguments incl excl args → [] ∉ incl → [] ∉ excl →
    Globbed glob (.call (.ident c!"glob") (.list .tuple args))
      (.list .list ((glob incl excl).map fun s => .str s false false))
  | refl (t : Node) : Globbed glob t t
  | unary (op : TokenType) {e e' : Node} : Globbed glob e e' → Globbed glob (.unary op e) (.unary op e')
  | binop (op : TokenType) {a a' b b' : Node} : Globbed glob a a' → Globbed glob b b' →
    Globbed glob (.binop op a b) (.binop op a' b')
  | list (ty : ListType) {xs xs' : List Node} : GlobbedAll glob xs xs' → Globbed glob (.list ty xs) (.list ty xs')
  | compr (ty : ListType) {e e' : Node} : Globbed glob e e' → Globbed glob (.compr ty e) (.compr ty e')
  | ternary {a a' b b' c c' : Node} : Globbed glob a a' → Globbed glob b b' → Globbed glob c c' →
    Globbed glob (.ternary a b c) (.ternary a' b' c')
  | assign (l : Node) {r r' : Node} : Globbed glob r r' → Globbed glob (.assign l r) (.assign l r')
  | call {f f' a a' : Node} : Globbed glob f f' → Globbed glob a a' → Globbed glob (.call f a) (.call f' a')
inductive GlobbedAll (glob : Elab.GlobFn) : List Node → List Node → Prop
  | nil : GlobbedAll glob [] []
  | cons {x x' : Node} {xs xs' : List Node} : Globbed glob x x' → GlobbedAll glob xs xs' →
    GlobbedAll glob (x :: xs) (x' :: xs')
end

/-- The condition that is always there. -/
def defaultCondition : Str := c!"//conditions:default"

/-- An entry of a map for another condition. -/
def OtherCondition (e : Node) : Prop :=
  ∃ s t r v, e = .binop (.op ':') (.str s t r) v ∧ s ≠ defaultCondition

mutual
/-- The same, but in place of calls of `select()` there is the value for the default condition: the first one, if there
are more. Nothing is assigned in there. -/
inductive Selected : Node → Node → Prop
  | default (pre post rest : List Node) (t r : Bool) {value value' : Node} : (∀ e ∈ pre, OtherCondition e) →
    bound value' = [] → Selected value value' →
    Selected (.call (.ident c!"select") (.list .tuple
      (.list .map (pre ++ .binop (.op ':') (.str defaultCondition t r) value :: post) :: rest))) value'
  | refl (t : Node) : Selected t t
  | unary (op : TokenType) {e e' : Node} : Selected e e' → Selected (.unary op e) (.unary op e')
  | binop (op : TokenType) {a a' b b' : Node} : Selected a a' → Selected b b' →
    Selected (.binop op a b) (.binop op a' b')
  | list (ty : ListType) {xs xs' : List Node} : SelectedAll xs xs' → Selected (.list ty xs) (.list ty xs')
  | compr (ty : ListType) {e e' : Node} : Selected e e' → Selected (.compr ty e) (.compr ty e')
  | ternary {a a' b b' c c' : Node} : Selected a a' → Selected b b' → Selected c c' →
    Selected (.ternary a b c) (.ternary a' b' c')
  | assign (l : Node) {r r' : Node} : Selected r r' → Selected (.assign l r) (.assign l r')
  | call {f f' a a' : Node} : Selected f f' → Selected a a' → Selected (.call f a) (.call f' a')
inductive SelectedAll : List Node → List Node → Prop
  | nil : SelectedAll [] []
  | cons {x x' : Node} {xs xs' : List Node} : Selected x x' → SelectedAll xs xs' → SelectedAll (x :: xs) (x' :: xs')
end

/-- Files with the same values; `glob` tells which files are found:
* a value is named, and the name is used, or not; what is named in there is not assigned again in between;
* lists and strings are written in one or in pieces;
* files are found by `glob()`, or they are in a list;
* there is `select()`, or the value for the default condition;
* the order of attributes and the quotes of strings are different;
and any number of such changes, in both directions. -/
inductive Refactored (glob : Elab.GlobFn) : Node → Node → Prop
  | named (pre post : List Node) (x : Str) (e : Node) : bound e = [] → x ∉ boundIn post →
    (∀ y ∈ used e, y ∉ boundIn post) → x ∉ invokedIn post →
    Elab.elabFile glob (.list .list (pre ++ .assign (.ident x) e :: post)) ≠ none →
    Refactored glob (.list .list (pre ++ .assign (.ident x) e :: post)) (.list .list (pre ++ writeOutIn x e post))
  | joined {t t' : Node} : Joined t t' → Refactored glob t t'
  | globbed {t t' : Node} : Globbed glob t t' → c!"glob" ∉ bound t → Refactored glob t t'
  | selected {t t' : Node} : Selected t t' → c!"select" ∉ bound t → Elab.elabFile glob t ≠ none → Refactored glob t t'
  | restyled {t t' : Node} : Restyled t t' → Refactored glob t t'
  | symm {t t' : Node} : Refactored glob t t' → Refactored glob t' t
  | trans {t t' t'' : Node} : Refactored glob t t' → Refactored glob t' t'' → Refactored glob t t''

/-- The same project, with BUILD files related by `builds` and workspace files related by `workspaces`. Other files
(but for `.bazelrc`) are different in whatever way, unless the command is `dwyu`: then the same is included by
sources, and the same dependencies are to be kept. If the command is `list-targets`, names are at the same place. -/
structure SameBut (builds : Machine → Str → Node → Node → Prop) (workspaces : Machine → Node → Node → Prop) (cmd : Command) (m m' : Machine) : Prop where
  rest : m' = { m with fs := { m.fs with content := m'.fs.content }, base := m'.base, nameLoc := m'.nameLoc,
                       callLoc := m'.callLoc, line := m'.line }
  missing : ∀ name, m'.fs.content name = none ↔ m.fs.content name = none
  files : ∀ name c c' t st t' st', m.fs.content name = some c → m'.fs.content name = some c' →
    Parser.parseFile c = some (t, st) → Parser.parseFile c' = some (t', st') →
      (GraphSpec.IsBuild name → builds m name t t') ∧ (name ∈ Workspace.wsFiles → workspaces m t t')
  settings : m'.fs.content c!".bazelrc" = m.fs.content c!".bazelrc"
  includes : cmd = .dwyu → ∀ name c c', m.fs.content name = some c → m'.fs.content name = some c' →
    (Includes.extract c').map (·.2) = (Includes.extract c).map (·.2)
  keeps : cmd = .dwyu → ∀ r r', told r' = told r → ∀ t n,
    Dwyu.hasKeepComment (m'.line r' t n) = Dwyu.hasKeepComment (m.line r t n)
  places : cmd = .listTargets → m'.nameLoc = m.nameLoc

/-- The order of attributes and the quotes of strings are different. -/
abbrev SameButStyle : Command → Machine → Machine → Prop := SameBut (fun _ _ => Restyled) (fun _ => Restyled)

/-- Values are named or written out, too, in BUILD files. -/
abbrev SameButNames : Command → Machine → Machine → Prop :=
  SameBut (fun m name t t' => ∀ pkg, ReadFor m pkg name → Refactored (m.glob pkg) t t') (fun _ => Restyled)

/-- In BUILD files, files are found by `glob()` or listed. Where they are, there is no variable of that name. -/
abbrev SameButGlobs : Command → Machine → Machine → Prop :=
  SameBut (fun m name t t' => ∀ pkg, ReadFor m pkg name → t' = t ∨ Globbed (m.glob pkg) t t' ∧ c!"glob" ∉ bound t)
    (fun _ t t' => t' = t)

/-- In BUILD files, there is `select()` or the value for the default condition. Where it is, there is no variable of that
name, and the file can be evaluated. -/
abbrev SameButSelect : Command → Machine → Machine → Prop :=
  SameBut (fun m name t t' => ∀ pkg, ReadFor m pkg name → t' = t ∨
      Selected t t' ∧ c!"select" ∉ bound t ∧ Elab.elabFile (m.glob pkg) t ≠ none)
    (fun _ t t' => t' = t)

/-- `glob()` of a package finds what is found below its directory on the machine. -/
def Searches (m : Machine) (ws : Workspace.Map) (pkg : BazelPackage) : Prop :=
  ∀ incl excl, Glob.globFiles m.tree (pkg.fullyQualifiedFile ws c!".") incl excl m.steps =
    some (some (m.glob pkg incl excl))

end RulesSpec
end Bant
