import Verif.Model.Edits

/-! Specification of edit scripts (C48): how a shell and buildozer read them. -/
namespace Bant
namespace ScriptSpec

/-- Characters with a meaning of their own in a word that is not quoted, for some shell, or for buildozer. -/
def special (c : Char) : Bool := c ∈ c!"|&;<>()$`\\\"'*?[]{}! \t\n"

/-- A part of a script that has been read: within quotes; the word, if there is one; words of the
command; commands. -/
structure Shell where
  quoted : Bool := false
  word : Option Str := none
  command : List Str := []
  commands : List (List Str) := []

/-- End of a word. -/
def Shell.endWord (s : Shell) : Shell := { s with word := none, command := s.command ++ s.word.toList }

/-- End of a command. -/
def Shell.endCommand (s : Shell) : Shell :=
  let s := s.endWord
  { s with command := [], commands := s.commands ++ (if s.command = [] then [] else [s.command]) }

/-- One character. Only words, single quotes, blanks and ends of commands; `none` for all else. `#` and `~` are as
other characters unless they begin a word. -/
def Shell.next (s : Shell) (c : Char) : Option Shell :=
  if s.quoted then
    if c = '\'' then some { s with quoted := false } else some { s with word := some (s.word.getD [] ++ [c]) }
  else if c = '\'' then some { s with quoted := true, word := some (s.word.getD []) }
  else if c = ' ' ∨ c = '\t' then some s.endWord
  else if c = '\n' ∨ c = ';' then some s.endCommand
  else if special c then none
  else if s.word = none ∧ (c = '#' ∨ c = '~') then none
  else some { s with word := some (s.word.getD [] ++ [c]) }

/-- The commands of a script, as lists of words. -/
def shell (script : Str) : Option (List (List Str)) := do
  let s ← script.foldlM Shell.next {}
  if s.quoted then none else some s.endCommand.commands

/-- Parts between blanks. -/
def fields : Str → List Str
  | [] => []
  | c :: cs =>
    if c = ' ' then fields cs
    else match cs, fields cs with
      | [], _ => [[c]]
      | ' ' :: _, fs => [c] :: fs
      | _, f :: fs => (c :: f) :: fs
      | _, [] => [[c]]

/-- What buildozer is told: what to do, the old and the new name, the rule. -/
structure Request where
  op : EditRequest
  old : Option Str
  new : Option Str
  rule : Str
  deriving DecidableEq

/-- `buildozer 'add deps new' rule`, `buildozer 'remove deps old' rule`, `buildozer 'replace deps old new' rule`. -/
def request : List Str → Option Request
  | [prog, what, rule] =>
    if prog ≠ c!"buildozer" then none
    else match fields what with
      | [verb, attr, x] =>
        if attr ≠ c!"deps" then none
        else if verb = c!"add" then some ⟨.add, none, some x, rule⟩
        else if verb = c!"remove" then some ⟨.remove, some x, none, rule⟩
        else none
      | [verb, attr, x, y] =>
        if verb = c!"replace" ∧ attr = c!"deps" then some ⟨.rename, some x, some y, rule⟩ else none
      | _ => none
  | _ => none

/-- What a script asks for. -/
def requests (script : Str) : Option (List Request) := (shell script).bind (·.mapM request)

/-- What an edit is about. -/
def wanted (e : Edit) : Request :=
  match e.op with
  | .add => ⟨.add, none, some e.after, e.target.toString⟩
  | .remove => ⟨.remove, some e.before, none, e.target.toString⟩
  | .rename => ⟨.rename, some e.before, some e.after, e.target.toString⟩

/-- A name that needs no quotes. -/
def Plain (s : Str) : Prop := s ≠ [] ∧ ∀ c ∈ s, special c = false

/-- An edit with plain names where it has names. -/
structure PlainEdit (e : Edit) : Prop where
  old : e.op ≠ .add → Plain e.before
  new : e.op ≠ .remove → Plain e.after
  rule : Plain e.target.toString
  start : e.target.toString.head? ≠ some '#' ∧ e.target.toString.head? ≠ some '~'

/-- A package with plain names; projects begin with `@`. -/
def PlainPackage (p : BazelPackage) : Prop :=
  (∀ c ∈ p.project, special c = false) ∧ (∀ c ∈ p.path, special c = false) ∧
    (p.project = [] ∨ p.project.head? = some '@')

/-- A dependency with a plain name that is not empty. -/
def PlainDep (d : Str) : Prop := Plain d ∧ d.getLast? ≠ some '/' ∧ d.getLast? ≠ some ':'

end ScriptSpec
end Bant
