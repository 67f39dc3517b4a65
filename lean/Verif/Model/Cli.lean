import Verif.Model.StrMap
import Verif.Model.TargetGlob
import Verif.Model.Table

/-
Model of the command line: bant/bant.cc (`main`) and `RunCliCommand` in bant/cli-commands.cc.

`getopt` is that of the GNU C library with `POSIXLY_CORRECT` unset: options may come after other
arguments. What `RunCommand` does is a parameter here. The text of the help and what `getopt`
prints for an option that it does not know are one parameter. Not modelled here: what else is written to standard
error (see `Verif.Model.Stderr`).
-/
namespace Bant
namespace Cli

/-! ### `getopt` (library) -/

/-- What `optstring` says about an option. -/
inductive Takes
  | nothing | argument | maybeArgument
  deriving DecidableEq

/-- Look up a character in `optstring`. -/
def takes : Str → Char → Option Takes
  | [], _ => none
  | o :: rest, c =>
    if c = ':' then none
    else if o = c then
      some (match rest with
        | ':' :: ':' :: _ => .maybeArgument
        | ':' :: _ => .argument
        | _ => .nothing)
    else takes rest c

/-- What `getopt` returns: an option with `optarg`, or `?`. -/
inductive Opt
  | opt (c : Char) (arg : Option Str)
  | bad
  deriving DecidableEq

/-- The characters after the dash. The flag: an argument is needed and not in the same word. -/
def cluster (optstring : Str) : Str → List Opt × Option Char
  | [] => ([], none)
  | c :: cs =>
    match takes optstring c with
    | none =>
      let r := cluster optstring cs
      (.bad :: r.1, r.2)
    | some .nothing =>
      let r := cluster optstring cs
      (.opt c none :: r.1, r.2)
    | some .maybeArgument => ([.opt c (if cs = [] then none else some cs)], none)
    | some .argument => if cs = [] then ([], some c) else ([.opt c (some cs)], none)

/-- All calls of `getopt`, and the arguments from `optind` on. -/
def getopt (optstring : Str) : List Str → List Opt × List Str
  | [] => ([], [])
  | a :: rest =>
    if a = c!"--" then ([], rest)
    else if a.head? = some '-' ∧ a ≠ c!"-" then
      match cluster optstring (a.drop 1) with
      | (os, none) =>
        let r := getopt optstring rest
        (os ++ r.1, r.2)
      | (os, some c) =>
        match rest with
        | [] => (os ++ [.bad], [])
        | b :: rest =>
          let r := getopt optstring rest
          (os ++ .opt c (some b) :: r.1, r.2)
    else
      let r := getopt optstring rest
      (r.1, a :: r.2)

/-! ### `atoi` (library) -/

def isSpace (c : Char) : Bool := c = ' ' || (9 ≤ c.toNat && c.toNat ≤ 13)

/-- Number at the begin of the text. -/
def leadingNumber (n : Nat) : Str → Nat
  | [] => n
  | c :: cs => if '0' ≤ c ∧ c ≤ '9' then leadingNumber (n * 10 + (c.toNat - 48)) cs else n

def intMax : Int := 2147483647

/-- `none`: the number does not fit, undefined behaviour. -/
def atoi (s : Str) : Option Int :=
  let v : Int := match s.dropWhile isSpace with
    | '-' :: t => -(leadingNumber 0 t : Int)
    | '+' :: t => leadingNumber 0 t
    | t => leadingNumber 0 t
  if -intMax - 1 ≤ v ∧ v ≤ intMax then some v else none

/-! ### Options -/

/-- bant/session.h:51-61, `CommandlineFlags`. -/
structure Flags where
  verbose : Nat := 0
  printAst : Bool := false
  onlyErrors : Bool := false
  elaborate : Bool := false
  ignoreKeep : Bool := false
  depth : Int := 0
  format : Table.Format := .native
  grep : Str := []
  deriving DecidableEq

/-- The map from an initializer list. -/
def mapOf {α : Type} (l : List (Str × α)) : StrMap α := l.foldl (fun m e => m.update e.1 e.2 id) []

/-- bant/bant.cc:146-150 -/
def formatNames : StrMap Table.Format := mapOf
  [(c!"native", .native), (c!"s-expr", .sexpr), (c!"plist", .plist), (c!"csv", .csv), (c!"json", .json),
   (c!"graphviz", .graphviz)]

/-- bant/bant.cc:204-206 -/
def findFormat (w : Str) : Option Table.Format :=
  match formatNames.lower w with
  | [] => none
  | e :: _ => if startsWith e.1 w then some e.2 else none

/-- What `main` has got after some options: `cd`: the directories changed to; `out`: the file for
the output; `truncated`: files that have been opened for that. -/
structure Setup where
  flags : Flags := {}
  insensitive : Bool := false
  quiet : Bool := false
  cd : List Str := []
  out : Option Str := none
  truncated : List Str := []
  deriving DecidableEq

/-- What is outside: `canEnter dirs`: whether the last of the changes of directory succeeds;
`canWrite dirs file`: whether the file can be opened after these; `help`: see above. -/
structure Env where
  canEnter : List Str → Bool
  canWrite : List Str → Str → Bool
  help : Str
  version : Str

/-- After an option: go on, or return from `main` with a status and what is on standard error. -/
inductive Step
  | go (s : Setup)
  | exit (s : Setup) (status : Nat) (err : Str)
  | undefined
  deriving DecidableEq

/-- bant/bant.cc:152 -/
def optstring : Str := c!"C:qo:vhpecbf:r::Vkg:i"

/-- bant/bant.cc:153-216, the `switch`. `optarg` is a null pointer for options without argument. -/
def option (env : Env) (s : Setup) : Opt → Step
  | .bad => .exit s 0 env.help
  | .opt c arg =>
    if c = 'C' then
      match arg with
      | none => .undefined
      | some dir =>
        if env.canEnter (s.cd ++ [dir]) then .go { s with cd := s.cd ++ [dir] }
        else .exit s 1 (c!"Can't change into directory " ++ dir ++ c!"\n")
    else if c = 'q' then .go { s with quiet := true }
    else if c = 'o' then
      match arg with
      | none => .undefined
      | some file =>
        if file = c!"-" then .go { s with out := none }
        else if env.canWrite s.cd file then .go { s with out := some file, truncated := s.truncated ++ [file] }
        else .exit s 1 (c!"Could not open '" ++ file ++ c!"'\n")
    else if c = 'r' then
      match arg with
      | none => .go { s with flags := { s.flags with depth := intMax } }
      | some n =>
        match atoi n with
        | none => .undefined
        | some d => .go { s with flags := { s.flags with depth := d } }
    else if c = 'k' then .go { s with flags := { s.flags with ignoreKeep := true } }
    else if c = 'g' then
      match arg with
      | none => .undefined
      | some re => .go { s with flags := { s.flags with grep := re } }
    else if c = 'i' then .go { s with insensitive := true }
    else if c = 'p' then .go { s with flags := { s.flags with printAst := true } }
    else if c = 'E' then .go { s with flags := { s.flags with onlyErrors := true } }
    else if c = 'b' ∨ c = 'e' then .go { s with flags := { s.flags with elaborate := true } }
    else if c = 'f' then
      match arg with
      | none => .undefined
      | some name =>
        match findFormat name with
        | none => .exit s 1 (env.help ++ c!"\n\x1b[1;31minvalid -f format\x1b[0m\n")
        | some f => .go { s with flags := { s.flags with format := f } }
    else if c = 'v' then .go { s with flags := { s.flags with verbose := s.flags.verbose + 1 } }
    else if c = 'V' then .exit s 0 env.version
    else .exit s 0 env.help

/-- bant/bant.cc:152-217, the loop. -/
def options (env : Env) (s : Setup) : List Opt → Step
  | [] => .go s
  | o :: os =>
    match option env s o with
    | .go s => options env s os
    | r => r

/-- bant/bant.cc:219-225 -/
def finishGrep (s : Setup) : Flags :=
  if s.flags.grep = [] then s.flags
  else
    let re := if s.insensitive then c!"(?i)" ++ s.flags.grep else s.flags.grep
    { s.flags with grep := '(' :: re ++ [')'] }

/-! ### Commands -/

/-- bant/cli-commands.cc:59-75, `Command`, but for `kNone`. -/
inductive Command
  | parse | print | listPackages | listTargets | listWorkspace | libraryHeaders | aliasedBy
  | genruleOutputs | dwyu | compilationDB | compileFlags | canonicalizeDeps | hasDependents | dependsOn
  deriving DecidableEq

/-- bant/cli-commands.cc:288-303 -/
def commandNames : StrMap Command := mapOf
  [(c!"parse", .parse), (c!"print", .print), (c!"list-packages", .listPackages),
   (c!"list-targets", .listTargets), (c!"workspace", .listWorkspace), (c!"lib-headers", .libraryHeaders),
   (c!"aliased-by", .aliasedBy), (c!"depends-on", .dependsOn), (c!"has-dependents", .hasDependents),
   (c!"genrule-outputs", .genruleOutputs), (c!"dwyu", .dwyu), (c!"compilation-db", .compilationDB),
   (c!"compile-flags", .compileFlags), (c!"canonicalize", .canonicalizeDeps)]

/-- What comes of looking for the command. -/
inductive Found (α : Type)
  | one (x : α)
  | several (a b : Str)
  | nothing
  deriving DecidableEq

/-- bant/cli-commands.cc:307-319 -/
def findUnique {α : Type} (m : StrMap α) (w : Str) : Found α :=
  match m.lower w with
  | [] => .nothing
  | e :: rest =>
    if startsWith e.1 w then
      match rest with
      | [] => .one e.2
      | n :: _ => if startsWith n.1 w then .several e.1 n.1 else .one e.2
    else .nothing

/-- What `RunCliCommand` does: run something, or return a status after a message. -/
inductive Choice
  | run (cmd : Command) (pattern : BazelPattern)
  | stop (status : Nat) (message : Str)

/-- bant/cli-commands.cc:355-362: these need a pattern. -/
def needsPattern (cmd : Command) : Bool := cmd = .canonicalizeDeps || cmd = .dwyu || cmd = .print

/-- bant/cli-commands.cc:355-364 -/
def checked (cmd : Command) (pattern : BazelPattern) : Choice :=
  if needsPattern cmd && pattern.isMatchall then
    .stop 1 c!"Please provide a bazel pattern for this command.\nExamples: //... or //foo/bar:baz\n"
  else .run cmd pattern

/-- bant/cli-commands.cc:336-364 -/
def withPattern (cmd : Command) : List Str → Choice
  | [] => checked cmd .always
  | p :: rest =>
    match BazelPattern.parse globCompile p with
    | none => .stop 1 (c!"Invalid bazel pattern " ++ p ++ c!"\n")
    | some pattern =>
      match rest with
      | [] => checked cmd pattern
      | q :: _ => .stop 1 (q ++ c!" Sorry, can only deal with at most one pattern right now\n")

/-- bant/cli-commands.cc:280-365, `RunCliCommand`, up to the call of `RunCommand`. -/
def choose : List Str → Choice
  | [] => .stop 2 c!"Command expected\n"
  | w :: args =>
    match findUnique commandNames w with
    | .several a b =>
      .stop 2 (c!"Command '" ++ w ++ c!"' too short and ambiguous: [" ++ a ++ c!", " ++ b ++ c!", ...\n")
    | .nothing => .stop 2 (c!"Unknown command prefix '" ++ w ++ c!"'\n")
    | .one cmd => withPattern cmd args

/-! ### `main` -/

/-- What `RunCommand` returns, and what it writes. -/
structure Ran where
  status : Nat
  out : Str
  err : Str
  deriving DecidableEq

/-- What can be seen of a run. `ran`: the command that was run; `out`: what is written to standard output
or `outFile`; `truncated`: files that lose their content. -/
structure Outcome where
  status : Nat
  out : Str := []
  outFile : Option Str := none
  err : Str := []
  truncated : List Str := []
  ran : Option (Flags × Command × BazelPattern) := none

/-- bant/bant.cc:131-247, `main`; `none`: undefined behaviour. What `RunCommand` does may depend on the
directory. With `-q` nothing of what the session says is seen. -/
def main (env : Env) (run : List Str → Flags → Command → BazelPattern → Option Ran) (args : List Str) :
    Option Outcome :=
  let (opts, rest) := getopt optstring args
  match options env {} opts with
  | .undefined => none
  | .exit s status err => some { status, err, truncated := s.truncated }
  | .go s =>
    let said (text : Str) : Str := if s.quiet then [] else text
    let clarify (status : Nat) : Str := if status = 2 then said c!"\n\n" ++ env.help else []
    match choose rest with
    | .stop status message =>
      some { status, err := said message ++ clarify status, outFile := s.out, truncated := s.truncated }
    | .run cmd pattern =>
      (run s.cd (finishGrep s) cmd pattern).map fun r =>
        { status := r.status, out := r.out, outFile := s.out, err := said r.err ++ clarify r.status,
          truncated := s.truncated, ran := some (finishGrep s, cmd, pattern) }

end Cli
end Bant
