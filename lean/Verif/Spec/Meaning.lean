import Verif.Model.Ast

/-!
What the expressions of BUILD files mean (C19, C20, C55), as far as bant claims to know
it. `Means I env n v`: in a place where the variables have the values `env`, expression `n`
has the value `v`. Operators other than `+` are given by an arbitrary interpretation `I`
that yields numbers.
-/
namespace Bant
namespace Meaning

/-- Values. `entry` is a key with its value in a map. -/
inductive Val where
  | str (s : Str)
  | int (i : Int)
  | list (ty : ListType) (xs : List Val)
  | entry (key value : Val)

/-- Escape sequences of a single letter, and what they stand for. -/
def letterEscapes : List (Char × Char) :=
  [('\\', '\\'), ('"', '"'), ('\'', '\''), ('n', '\n'), ('t', '\t'), ('r', '\r')]

def octalDigits : Str := c!"01234567"

/-- The text of a (not raw) string literal and the string it stands for. -/
inductive Spells : Str → Str → Prop
  | nil : Spells [] []
  | char {c t s} : c ≠ '\\' → Spells t s → Spells (c :: t) (c :: s)
  | letter {c d t s} : (c, d) ∈ letterEscapes → Spells t s → Spells ('\\' :: c :: t) (d :: s)
  /-- up to three octal digits, as many as there are -/
  | octal {ds : Str} {n : Nat} {t s : Str} : ds ≠ [] → (∀ d ∈ ds, d ∈ octalDigits) →
      ds.length ≤ 3 → (ds.length = 3 ∨ ∀ c ∈ t.head?, c ∉ octalDigits) →
      n = ds.foldl (fun a d => 8 * a + octalDigits.idxOf d) 0 →
      Spells t s → Spells ('\\' :: ds ++ t) (Char.ofNat n :: s)

/-- Meaning of the operators on other things than strings and lists. -/
structure Interp where
  op : TokenType → Val → Val → Option Int
  un : TokenType → Val → Option Int

/-- Variables and their values. -/
abbrev Env := Str → Option Val

def Env.set (env : Env) (x : Str) (v : Option Val) : Env := fun y => if y = x then v else env y

/-- The condition that is true. -/
def defaultKey : Val := .str c!"//conditions:default"

mutual
inductive Means (I : Interp) : Env → Node → Val → Prop
  | raw {env t tr} : Means I env (.str t tr true) (.str t)
  | str {env t tr s} : Spells t s → Means I env (.str t tr false) (.str s)
  | int {env rep i} : Means I env (.int rep i) (.int i)
  | ident {env x v} : env x = some v → Means I env (.ident x) v
  | unary {env op e v i} : Means I env e v → I.un op v = some i →
      Means I env (.unary op e) (.int i)
  | entry {env k v a b} : Means I env k a → Means I env v b →
      Means I env (.binop (.op ':') k v) (.entry a b)
  | plusStr {env l r a b} : Means I env l (.str a) → Means I env r (.str b) →
      Means I env (.binop (.op '+') l r) (.str (a ++ b))
  | plusList {env l r ty xs ys} : Means I env l (.list ty xs) → Means I env r (.list ty ys) →
      Means I env (.binop (.op '+') l r) (.list ty (xs ++ ys))
  | plusInt {env l r a b i} : Means I env l (.int a) → Means I env r (.int b) →
      I.op (.op '+') (.int a) (.int b) = some i → Means I env (.binop (.op '+') l r) (.int i)
  | op {env op l r a b i} : op ≠ .op ':' → op ≠ .op '+' → Means I env l a → Means I env r b →
      I.op op a b = some i → Means I env (.binop op l r) (.int i)
  | list {env ty xs vs} : MeansAll I env xs vs → Means I env (.list ty xs) (.list ty vs)
  /-- the value of the first entry with the condition that is true -/
  | select {env m ty rest pre v post} :
      Means I env m (.list .map (pre ++ .entry defaultKey v :: post)) →
      (∀ w, .entry defaultKey w ∉ pre) →
      Means I env (.call (.ident c!"select") (.list ty (m :: rest))) v
  /-- `[x for v in vals]` -/
  | compr {env ty lty x var vals ws vs} : Means I env vals (.list lty ws) →
      MeansEach I env var x ws vs →
      Means I env (.compr ty (.binop .kFor x (.binop .kIn (.list .tuple [.ident var]) vals)))
        (.list ty vs)
inductive MeansAll (I : Interp) : Env → List Node → List Val → Prop
  | nil {env} : MeansAll I env [] []
  | cons {env x xs v vs} : Means I env x v → MeansAll I env xs vs →
      MeansAll I env (x :: xs) (v :: vs)
/-- Meaning of an expression for each value of a variable. -/
inductive MeansEach (I : Interp) : Env → Str → Node → List Val → List Val → Prop
  | nil {env var x} : MeansEach I env var x [] []
  | cons {env var x w ws v vs} : Means I (env.set var (some w)) x v → MeansEach I env var x ws vs →
      MeansEach I env var x (w :: ws) (v :: vs)
end

/-- No variables. -/
def noVars : Env := fun _ => none

/-- Names bound by the left side of a toplevel assignment to values. -/
def bindAll : Env → List Node → List Val → Env
  | env, .ident x :: ns, v :: vs => bindAll (env.set x (some v)) ns vs
  | env, _, _ => env

/-- Effect of a toplevel statement on the variables. A variable whose new value is not known
has no value. -/
inductive After (I : Interp) : Env → Node → Env → Prop
  | assign {env x e v} : Means I env e v → After I env (.assign (.ident x) e) (env.set x (some v))
  | unknown {env x e} : (¬ ∃ v, Means I env e v) → After I env (.assign (.ident x) e) (env.set x none)
  | unpack {env ty lty names e vs} : Means I env e (.list lty vs) →
      After I env (.assign (.list ty names) e) (bindAll env names vs)
  | other {env n} : (∀ l r, n ≠ .assign l r) → After I env n env

/-- The variables after some toplevel statements. -/
inductive Reaches (I : Interp) : List Node → Env → Prop
  | start : Reaches I [] noVars
  | step {ss env n env'} : Reaches I ss env → After I env n env' → Reaches I (ss ++ [n]) env'

mutual
/-- Names of all functions that are called somewhere in the tree. -/
def called : Node → List Str
  | .null => []
  | .str _ _ _ => []
  | .int _ _ => []
  | .ident _ => []
  | .unary _ e => called e
  | .binop _ a b => called a ++ called b
  | .list _ xs => calledIn xs
  | .compr _ f => called f
  | .ternary a b c => called a ++ called b ++ called c
  | .assign a b => called a ++ called b
  | .call (.ident f) args => f :: called args
  | .call f args => called f ++ called args
def calledIn : List Node → List Str
  | [] => []
  | x :: xs => called x ++ calledIn xs
end

/-- Names assigned by toplevel statements. -/
def assigned (stmts : List Node) : List Str :=
  stmts.filterMap fun
    | .assign (.ident x) _ => some x
    | _ => none

/-- Text without escape sequences of octal digits. -/
def noOctal : Str → Bool
  | '\\' :: c :: t => !octalDigits.contains c && noOctal t
  | _ :: t => noOctal t
  | [] => true

mutual
/-- Trees without comprehensions, backslashes in raw strings and octal escape sequences. (The
condition on the text of numbers is true for all numbers, it only excludes trees that no file
has.) -/
def plain : Node → Bool
  | .null => true
  | .str t _ raw => if raw then !t.contains '\\' else noOctal t
  | .int rep _ => rep != c!"//conditions:default"
  | .ident _ => true
  | .unary _ e => plain e
  | .binop _ a b => plain a && plain b
  | .list _ xs => allPlain xs
  | .compr _ _ => false
  | .ternary a b c => plain a && plain b && plain c
  | .assign a b => plain a && plain b
  | .call f args => plain f && plain args
def allPlain : List Node → Bool
  | [] => true
  | x :: xs => plain x && allPlain xs
end

end Meaning
end Bant
