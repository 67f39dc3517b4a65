import Verif.Props.Appended
import Verif.Props.SameRules
import Verif.Spec.Documented

/-! Strings as statements, such as doc strings, do not matter (C143). -/
namespace Bant
namespace Props
open Parser Grammar Commands Cli CommandSpec LayoutSpec RulesSpec

theorem program_strings {s : List Token} (h : ∀ t ∈ s, t.type = .stringLiteral) : Parses .program s [] (.list .list []) := by
  induction s with
  | nil => exact .endOfFile
  | cons t s ih => exact .docString (h t (by simp)) (ih fun t ht => h t (by simp [ht]))

theorem strings_program {f : NT} {s s' : List Token} {n : Node} (h : Parses f s s' n) :
    f = .program → n = .list .list [] → ∀ t ∈ s, t.type = .stringLiteral := by
  induction h with
  | endOfFile => intro _ _ t ht; cases ht
  | docString h _ ih =>
    intro h1 h2 t ht
    rcases List.mem_cons.1 ht with rfl | ht
    · exact h
    · exact ih rfl h2 t ht
  | _ => intro h1 h2; first | (simp at h2; done) | cases h1

/-- **C143**: a text of strings alone is read as no statement, without errors; and nothing else is. -/
theorem C143_strings (d : Str) :
    (∃ st, parseFile d = some (.list .list [], st) ∧ st.errs = []) ↔ StringsOnly d := by
  constructor
  · intro h
    obtain ⟨ts, hts, _⟩ := tokensOf_exists d
    exact ⟨ts, hts, strings_program ((parseFile_iff hts _).1 h) rfl rfl⟩
  · rintro ⟨ts, hts, h⟩
    exact (parseFile_iff hts _).2 (program_strings h)

theorem strings_beginAnew {d : Str} (h : StringsOnly d) : BeginsAnew d := by
  obtain ⟨ts, h1, h2⟩ := h
  exact ⟨ts, h1, fun t ht => .inr (h2 t (List.mem_of_head? ht))⟩

/-- **C143** for one text: it is the same tree whether or not there are lines with strings, ahead of everything, behind
everything, or between statements; and there are as many errors, with the same tokens. -/
theorem C143_tree {c c' : Str} (h : Documented c c') :
    ∃ tree st st', parseFile c = some (tree, st) ∧ parseFile c' = some (tree, st') ∧
      st'.errs.map (fun t => (t.type, t.text)) = st.errs.map fun t => (t.type, t.text) := by
  have hs : ∀ {a b : List Token}, SameTokens a b → b.map (fun t => (t.type, t.text)) = a.map fun t => (t.type, t.text) := by
    intro a b h
    induction h with
    | nil => rfl
    | cons h _ ih => rw [List.map_cons, List.map_cons, ih, h.type, h.text]
  induction h with
  | refl c =>
    obtain ⟨t, st, h, _⟩ := parseFile_total c
    exact ⟨t, st, st, h, h, rfl⟩
  | @ahead d c hd hc =>
    obtain ⟨st0, h1, h2⟩ := (C143_strings d).2 hd
    obtain ⟨xs, ys, st, st', h3, h4, h5, h6⟩ := C138_appended h1 h2 hc
    cases h3
    exact ⟨_, st, st', h4, h5, hs h6⟩
  | @behind a d ha hd =>
    obtain ⟨t, st, h1, h2⟩ := ha
    obtain ⟨st0, h7, h8⟩ := (C143_strings d).2 hd
    obtain ⟨xs, ys, st2, st', rfl, h4, h5, h6⟩ := C138_appended h1 h2 (strings_beginAnew hd)
    rw [h7] at h4
    cases h4
    rw [List.append_nil] at h5
    rw [h8] at h6
    exact ⟨_, st, st', h1, h5, by rw [h2]; exact hs h6⟩
  | @between a d c ha hd hc =>
    obtain ⟨t, st, h1, h2⟩ := ha
    obtain ⟨st0, h7, h8⟩ := (C143_strings d).2 hd
    obtain ⟨xs, ys, st2, st', rfl, h4, h5, h6⟩ := C138_appended h1 h2 (strings_beginAnew hd)
    rw [h7] at h4
    cases h4
    rw [List.append_nil] at h5
    rw [h8] at h6
    have he : st'.errs = [] := by simpa using hs h6
    obtain ⟨xs1, ys1, st3, st4, g1, g2, g3, g4⟩ := C138_appended h1 h2 hc
    obtain ⟨xs2, ys2, st5, st6, k1, k2, k3, k4⟩ := C138_appended h5 he hc
    cases g1
    cases k1
    rw [g2] at k2
    cases k2
    exact ⟨_, st4, st6, g3, k3, (hs k4).trans (hs g4).symm⟩
  | symm _ ih =>
    obtain ⟨t, st, st', h1, h2, h3⟩ := ih
    exact ⟨t, st', st, h2, h1, h3.symm⟩
  | trans _ _ ih ih' =>
    obtain ⟨t, st, st', h1, h2, h3⟩ := ih
    obtain ⟨t', st1, st1', k1, k2, k3⟩ := ih'
    rw [h2] at k1
    cases k1
    exact ⟨t, st, st1', h1, k2, k3.trans h3⟩

/-- **C143** for the commands: they print the same, with the same exit code. -/
theorem C143_commands {m m' : Machine} {flags : Flags} {cmd : Command} {pattern : BazelPattern}
    (h : SameButDocs cmd m m') (hprint : cmd ≠ .print)
    (hparse : cmd = .parse → flags.printAst = false ∧ flags.onlyErrors = false) :
    runCommand m' flags cmd pattern = runCommand m flags cmd pattern := by
  refine C102_commands ⟨h.rest, h.missing, ?_, h.settings, h.includes, h.keeps, h.places⟩ hprint hparse
  intro name c c' t st t' st' h1 h2 h3 h4
  have key : GraphSpec.IsBuild name ∨ name ∈ Workspace.wsFiles → Restyled t t' := by
    intro hn
    obtain ⟨t0, st1, st2, k1, k2, _⟩ := C143_tree (h.files name c c' h1 h2 hn)
    rw [h3] at k1
    rw [h4] at k2
    cases k1
    cases k2
    exact restyled_refl _
  exact ⟨fun hb => key (.inl hb), fun hw => key (.inr hw)⟩

/-! ### Examples -/

/-- Is there nothing but strings? -/
theorem stringsOnly_of {d : Str} (h : (parseFile d).map (fun r => (r.1, r.2.errs)) = some (.list .list [], [])) :
    StringsOnly d := by
  obtain ⟨⟨t, st⟩, h1, h2⟩ := Option.map_eq_some_iff.1 h
  simp only [Prod.mk.injEq] at h2
  rw [h2.1] at h1
  exact (C143_strings d).1 ⟨st, h1, h2.2⟩

theorem complete_of {a : Str} (h : (parseFile a).map (·.2.errs) = some []) : Complete a := by
  obtain ⟨⟨t, st⟩, h1, h2⟩ := Option.map_eq_some_iff.1 h
  exact ⟨t, st, h1, h2⟩

def docAhead : Str := c!"\"\"\"What\nthis is.\"\"\" # (a comment)"
def docBehind : Str := c!"'The end.'"
/-- A rule, with strings ahead and behind. -/
def withDocs : Str := docAhead ++ '\n' :: writtenOut ++ '\n' :: docBehind

theorem withDocs_documented : Documented writtenOut withDocs :=
  .trans (.ahead (stringsOnly_of (d := docAhead) (by decide +kernel)) (beginsAnew_of (by decide +kernel)))
    (.behind (complete_of (by decide +kernel)) (stringsOnly_of (d := docBehind) (by decide +kernel)))

theorem docs_same (cmd : Command) : SameButDocs cmd (disk styleFiles) (replaced styleFiles writtenOut withDocs) := by
  refine ⟨rfl, ?_, ?_, ?_, ?_, fun _ r r' _ t n => rfl, fun _ => rfl⟩
  · intro name
    simp only [replacedOn]
    cases (disk styleFiles).fs.content name <;> simp
  · intro name c c' h1 h2 _
    simp only [replacedOn, h1, Option.map_some, Option.some.injEq] at h2
    subst h2
    split
    · next hc => rw [hc]; exact withDocs_documented
    · exact .refl _
  · decide +kernel
  · intro _ name c c' h1 h2
    simp only [replacedOn, h1, Option.map_some, Option.some.injEq] at h2
    subst h2
    split
    · next hc =>
      rw [hc]
      decide +kernel
    · rfl

/-- The commands print the same, if there are doc strings. -/
example : (∀ flags cmd pattern, cmd ≠ .print → cmd ≠ .parse →
      runCommand (replaced styleFiles writtenOut withDocs) flags cmd pattern =
        runCommand (disk styleFiles) flags cmd pattern) ∧
    (replaced styleFiles writtenOut withDocs).fs.content c!"p/BUILD" = some withDocs ∧
    (runCommand (disk styleFiles) { ({} : Flags) with format := .csv } .libraryHeaders everything).map (·.out) =
      some c!"\"header\",\"providing-rule\"\n\"p/a.h\",\"//p:a\"\n\"p/b.h\",\"//p:a\"\n\"q/d.h\",\"//q:d\"\n" :=
  ⟨fun _ cmd _ h1 h2 => C143_commands (docs_same cmd) h1 (fun h => absurd h h2), by decide +kernel, by decide +kernel⟩

/-- Between statements, and there is an error behind. -/
example : Documented (c!"x = 1" ++ '\n' :: c!"y = )") (c!"x = 1" ++ '\n' :: c!"'a string'" ++ '\n' :: c!"y = )") :=
  .between (complete_of (by decide +kernel)) (stringsOnly_of (by decide +kernel)) (beginsAnew_of (by decide +kernel))

/-- It does matter in the same statement: a value is continued by a string in the next line. -/
example : ¬ StringsOnly c!"1" ∧ ((parseFile c!"x = 'a'\n+ 'b'").map (·.1)) ≠ ((parseFile c!"x = 'a'\n'c'\n+ 'b'").map (·.1)) := by
  refine ⟨fun h => ?_, by decide +kernel⟩
  obtain ⟨st, h1, h2⟩ := (C143_strings _).2 h
  have : (parseFile c!"1").map (fun r => (r.1, r.2.errs)) ≠ some (.list .list [], []) := by decide +kernel
  rw [h1] at this
  simp [h2] at this

end Props
end Bant
