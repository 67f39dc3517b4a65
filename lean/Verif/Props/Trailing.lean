import Verif.Lemmas.Trailing
import Verif.Props.Layout

/-! A comma after the last element does not matter (C137). -/
namespace Bant
namespace Props
open Commands Cli Query Rules Headers GraphSpec CommandSpec LayoutSpec Layout Parser

/-- **C137**, full statement: if a text is read without errors, then it is without commas that follow a last element,
too, and the tree is the same. -/
def C137_statement : Prop :=
  ∀ content content' : Str, WithoutCommas true content content' → ∀ tree st, parseFile content = some (tree, st) →
    st.errs = [] → ∃ st', parseFile content' = some (tree, st') ∧ st'.errs = []

/-- **C137** for the parser: but for the only comma in parentheses that are not those of a call. -/
theorem C137_tree_partial {content content' : Str} (h : WithoutCommas false content content') {tree : Node}
    {st : PState} (hp : parseFile content = some (tree, st)) (he : st.errs = []) :
    ∃ st', parseFile content' = some (tree, st') ∧ st'.errs = [] := by
  obtain ⟨ts, ts', h1, h2, h3⟩ := h
  exact (parseFile_iff h2 tree).2 (Trailing.program_trim h3 ((parseFile_iff h1 tree).1 ⟨st, hp, he⟩))

/-- **C137** for the commands: whether there are such commas in BUILD and workspace files or not, a command prints the
same with the same status. -/
theorem C137_commands_partial {m m' : Machine} {flags : Flags} {cmd : Command} {pattern : BazelPattern}
    (h : SameButCommas m m') (hdwyu : cmd = .dwyu → SameSources m m') (hplaces : SamePlaces m m' cmd) :
    runCommand m' flags cmd pattern = runCommand m flags cmd pattern := by
  refine run_trees ⟨h.rest, h.missing, fun name c c' h1 h2 h3 => ?_, h.settings⟩ hdwyu hplaces
  rcases h.builds name c c' h1 h2 h3 with e | ⟨⟨tree, st, h4, h5⟩, h6⟩ | ⟨⟨tree, st, h4, h5⟩, h6⟩
  · exact Or.inl e
  · obtain ⟨st', h7, h8⟩ := C137_tree_partial h6 h4 h5
    exact Or.inr ⟨tree, st, st', h4, h7, by simp [h5, h8]⟩
  · obtain ⟨st', h7, h8⟩ := C137_tree_partial h6 h4 h5
    exact Or.inr ⟨tree, st', st, h7, h4, by simp [h5, h8]⟩

/-- Commands depend on BUILD and workspace files only by their trees, and by whether there are errors. -/
theorem C137_trees {m m' : Machine} {flags : Flags} {cmd : Command} {pattern : BazelPattern}
    (h : SameTrees m m') (hdwyu : cmd = .dwyu → SameSources m m') (hplaces : SamePlaces m m' cmd) :
    runCommand m' flags cmd pattern = runCommand m flags cmd pattern :=
  run_trees h hdwyu hplaces

/-! ### Examples -/

/-- Tokens that the parser does not tell apart. -/
def sameB (t t' : Token) : Bool :=
  t'.type = t.type && t'.text = t.text && (t.type ≠ .op '[' || t'.newlineSinceLast = t.newlineSinceLast)

theorem sameB_sound {t t' : Token} (h : sameB t t' = true) : SameToken t t' := by
  simp only [sameB, Bool.and_eq_true, decide_eq_true_eq, Bool.or_eq_true] at h
  exact ⟨h.1.1, h.1.2, fun e => h.2.resolve_left (fun h => h e)⟩

/-- Are the second tokens the first, without commas that follow a last element? -/
def trimmedB (all : Bool) : Nat → List Bool → TokenType → List Token → List Token → Bool
  | 0, _, _, _, _ => false
  | _ + 1, _, _, [], [] => true
  | n + 1, st, prev, t :: s, t' :: s' =>
    if t.type = .op ',' then
      (sameB t t' && trimmedB all n (seen st) t.type s s') ||
      (match st, s with
        | true :: st, c :: s =>
          sameB c t' && decide (prev ∉ .op ',' :: openers) && decide (c.type ∈ closers) && trimmedB all n st c.type s s'
        | _, _ => false)
    else if t.type ∈ openers then
      sameB t t' && trimmedB all n ((all || decide (t.type ≠ .op '(' ∨ prev = .identifier)) :: st) t.type s s'
    else if t.type ∈ closers then
      match st with
      | _ :: st => sameB t t' && trimmedB all n st t.type s s'
      | [] => false
    else sameB t t' && trimmedB all n st t.type s s'
  | _ + 1, _, _, _, _ => false

theorem trimmedB_sound {all : Bool} : ∀ {n : Nat} {st : List Bool} {prev : TokenType} {s s' : List Token},
    trimmedB all n st prev s s' = true → Trimmed all st prev s s' := by
  intro n
  induction n with
  | zero => intro st prev s s' h; cases h
  | succ n ih =>
    intro st prev s s' h
    cases s with
    | nil =>
      cases s' with
      | nil => exact .done
      | cons => cases h
    | cons t s =>
      cases s' with
      | nil => cases h
      | cons t' s' =>
        unfold trimmedB at h
        split at h
        · next ht =>
          rw [Bool.or_eq_true] at h
          rcases h with h | h
          · rw [Bool.and_eq_true] at h
            exact .comma (sameB_sound h.1) ht (ih h.2)
          · split at h
            · simp only [Bool.and_eq_true, decide_eq_true_eq] at h
              exact .removed (sameB_sound h.1.1.1) ht h.1.1.2 h.1.2 (ih h.2)
            · cases h
        · next ht =>
          split at h
          · next ho =>
            rw [Bool.and_eq_true] at h
            exact .opens (sameB_sound h.1) ho (ih h.2)
          · next ho =>
            split at h
            · next hc =>
              split at h
              · rw [Bool.and_eq_true] at h
                exact .closes (sameB_sound h.1) hc (ih h.2)
              · cases h
            · next hc =>
              rw [Bool.and_eq_true] at h
              exact .plain (sameB_sound h.1) ho hc ht (ih h.2)

theorem withoutCommas_of {all : Bool} {c c' : Str}
    (h : trimmedB all (c.length + 1) [] .eof (initState c).toks (initState c').toks = true) : WithoutCommas all c c' := by
  obtain ⟨ts, hts, _⟩ := tokensOf_exists c
  obtain ⟨ts', hts', _⟩ := tokensOf_exists c'
  refine ⟨ts, ts', hts, hts', ?_⟩
  rw [initState_toks hts, initState_toks hts'] at h
  exact trimmedB_sound h

/-- The comma makes a tuple of one element. -/
theorem C137_counterexample : ¬ C137_statement := by
  intro h
  have e1 : (parseFile c!"x = (a,)\n").map (fun x => (x.1, x.2.errs)) =
      some (.list .list [.assign (.ident c!"x") (.list .tuple [.ident c!"a"])], []) := by decide +kernel
  have e2 : (parseFile c!"x = (a)\n").map (·.1) = some (.list .list [.assign (.ident c!"x") (.ident c!"a")]) := by
    decide +kernel
  cases h1 : parseFile c!"x = (a,)\n" with
  | none => rw [h1] at e1; cases e1
  | some r =>
    rw [h1] at e1
    simp only [Option.map_some, Option.some.injEq, Prod.mk.injEq] at e1
    obtain ⟨st', h2, _⟩ := h c!"x = (a,)\n" c!"x = (a)\n" (withoutCommas_of (by decide +kernel)) r.1 r.2 h1 e1.2
    rw [h2] at e2
    simp only [Option.map_some, Option.some.injEq] at e2
    rw [e1.1] at e2
    simp at e2

def commaText : Str :=
  c!"cc_library(\n    name = \"a\",\n    deps = [\n        \":b\",\n        \":c\",\n    ],\n)\nx = (1, 2,)\ny = {\"k\": [x,],}\n"
def noCommaText : Str :=
  c!"cc_library(\n    name = \"a\",\n    deps = [\n        \":b\",\n        \":c\"\n    ]\n)\nx = (1, 2)\ny = {\"k\": [x]}\n"

theorem comma_noComma : WithoutCommas false commaText noCommaText := withoutCommas_of (by decide +kernel)

theorem comma_clean : Clean commaText := by
  have e : (parseFile commaText).map (fun x => x.2.errs) = some [] := by decide +kernel
  cases h : parseFile commaText with
  | none => rw [h] at e; cases e
  | some r => rw [h] at e; exact ⟨r.1, r.2, h, by simpa using e⟩

/-- Three statements in both. -/
example : ∃ tree st st', parseFile commaText = some (tree, st) ∧ parseFile noCommaText = some (tree, st') ∧
    st'.errs = [] ∧ countOf tree = 3 := by
  obtain ⟨tree, st, h1, h2⟩ := comma_clean
  obtain ⟨st', h3, h4⟩ := C137_tree_partial comma_noComma h1 h2
  have e : (parseFile commaText).map (fun x => countOf x.1) = some 3 := by decide +kernel
  rw [h1] at e
  exact ⟨tree, st, st', h1, h3, h4, by simpa using e⟩

/-- The converse is not true: there are places where there must not be a comma. -/
example : WithoutCommas false c!"x = [y for y in z,]" c!"x = [y for y in z]" ∧ Clean c!"x = [y for y in z]" ∧
    ¬ Clean c!"x = [y for y in z,]" := by
  refine ⟨withoutCommas_of (by decide +kernel), ?_, ?_⟩
  · have e : (parseFile c!"x = [y for y in z]").map (fun x => x.2.errs) = some [] := by decide +kernel
    cases h : parseFile c!"x = [y for y in z]" with
    | none => rw [h] at e; cases e
    | some r => rw [h] at e; exact ⟨r.1, r.2, h, by simpa using e⟩
  · rintro ⟨tree, st, h1, h2⟩
    have e : (parseFile c!"x = [y for y in z,]").map (fun x => x.2.errs.length) = some 1 := by decide +kernel
    rw [h1] at e
    simp [h2] at e

/-- A machine on which the file is written in the other way. -/
def uncommaed (texts : List (Str × Str)) : Machine :=
  { disk texts with
    fs := { (disk texts).fs with
      content := fun p => ((disk texts).fs.content p).map fun c => if c = commaText then noCommaText else c } }

/-- A project with that text. -/
def commaFiles : List (Str × Str) :=
  [(c!"p/BUILD", commaText), (c!"q/BUILD", c!"cc_library(name=\"d\",deps=[\"//p:a\"])")]

/-- The commands print the same. -/
example : (∀ flags cmd pattern,
      runCommand (uncommaed commaFiles) flags cmd pattern = runCommand (disk commaFiles) flags cmd pattern) ∧
    (uncommaed commaFiles).fs.content c!"p/BUILD" = some noCommaText ∧
    (runCommand (disk commaFiles) { ({} : Flags) with format := .csv } .dependsOn everything).map (·.out) =
      some c!"\"library\",\"depends-on\"\n\"//p:a\",\"//p:b\"\n\"//p:a\",\"//p:c\"\n\"//q:d\",\"//p:a\"\n" := by
  refine ⟨fun flags cmd pattern => ?_, by decide +kernel, by decide +kernel⟩
  refine C137_commands_partial ⟨rfl, ?_, ?_, ?_⟩ (fun _ => ⟨?_, fun _ _ _ => rfl⟩) ⟨fun _ => rfl, fun _ => rfl⟩
  · intro name
    simp only [uncommaed]
    cases (disk commaFiles).fs.content name <;> simp
  · intro name c c' h1 h2 _
    simp only [uncommaed, h1, Option.map_some, Option.some.injEq] at h2
    subst h2
    split
    · next hc => subst hc; exact Or.inr (Or.inl ⟨comma_clean, comma_noComma⟩)
    · exact Or.inl rfl
  · decide +kernel
  · intro name c c' h1 h2
    simp only [uncommaed, h1, Option.map_some, Option.some.injEq] at h2
    subst h2
    split
    · next hc => subst hc; decide +kernel
    · rfl

end Props
end Bant
