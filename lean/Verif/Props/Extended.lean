import Verif.Lemmas.Extended
import Verif.Props.SameRules

/-! Attributes that bant does not know do not matter (C140). -/
namespace Bant
namespace Props
open Commands Cli Query Rules Headers GraphSpec CommandSpec RulesSpec Parser

/-- **C140** for one file: if there are more attributes that bant does not know, then the same rules are found in it, as
it is and after evaluation, if that succeeds. -/
theorem C140_rules {t t' : Node} (h : Extended t t') (glob : Elab.GlobFn) :
    SameRules (fun _ _ _ => false) (fun _ _ _ => false) t t' ∧
      (Elab.elabFile glob t' ≠ none → SameEvaluated (fun _ _ _ => false) (fun _ _ _ => false) glob t t') :=
  ⟨sameRules_extended (fun _ _ _ => rfl) h, fun hne => sameEvaluated_extended h (.inr hne)⟩

/-- **C140** for the commands: they print the same with the same status. -/
theorem C140_commands {m m' : Machine} {flags : Flags} {cmd : Command} {pattern : BazelPattern}
    (h : SameButUnknown cmd m m') (hprint : cmd ≠ .print)
    (hparse : cmd = .parse → flags.printAst = false ∧ flags.onlyErrors = false) :
    runCommand m' flags cmd pattern = runCommand m flags cmd pattern := by
  refine C101_rules ⟨h.rest, h.missing, ?_, ?_, h.settings, h.includes, h.places⟩ hprint hparse
  · intro name c c' h1 h2 hb t st t' st' h3 h4
    obtain ⟨hr, he⟩ := (h.files name c c' t st t' st' h1 h2 h3 h4).1 hb
    have hk := keepOf_same (flags := flags) h.keeps
    exact ⟨fun _ => sameRules_for (sameRules_extended hk hr),
      fun pkg hpk => sameEvaluated_for (sameEvaluated_keep hk (sameEvaluated_extended hr (he pkg hpk)))⟩
  · intro name c c' h1 h2 hb t st t' st' h3 h4
    exact sameRules_for (sameRules_extended (fun _ _ _ => rfl) ((h.files name c c' t st t' st' h1 h2 h3 h4).2 hb))

/-! ### Examples -/

def moreAttributes : Str :=
  c!"cc_library(tags=[\"x\"]+[\"y\"],name=\"a\",data=glob([\"*.txt\"],allow_empty=1),srcs=[],hdrs=[\"a.h\",\"b.h\"],licenses=[\"notice\"])\n"

theorem moreAttributes_tree : (parseFile moreAttributes).map (·.1) = some (.list .list
    [library [.assign (.ident c!"tags") (.binop (.op '+') (.list .list [word c!"x"]) (.list .list [word c!"y"])),
      kwName false,
      .assign (.ident c!"data") (.call (.ident c!"glob") (.list .tuple [.list .list [word c!"*.txt"],
        .assign (.ident c!"allow_empty") (.int c!"1" 1)])),
      kwSrcs, kwHdrs (.list .list [word c!"a.h", word c!"b.h"]),
      .assign (.ident c!"licenses") (.list .list [word c!"notice"])]]) := by decide +kernel

theorem more_extended : Extended
    (.list .list [library [kwName false, kwSrcs, kwHdrs (.list .list [word c!"a.h", word c!"b.h"])]])
    (.list .list [library [.assign (.ident c!"tags") (.binop (.op '+') (.list .list [word c!"x"]) (.list .list [word c!"y"])),
      kwName false,
      .assign (.ident c!"data") (.call (.ident c!"glob") (.list .tuple [.list .list [word c!"*.txt"],
        .assign (.ident c!"allow_empty") (.int c!"1" 1)])),
      kwSrcs, kwHdrs (.list .list [word c!"a.h", word c!"b.h"]),
      .assign (.ident c!"licenses") (.list .list [word c!"notice"])]]) :=
  .list _ (.cons (.more _ (.ident _) (.extra _ (by decide) (.cons (extended_refl _) (.extra _ (by decide)
    (.cons (extended_refl _) (.cons (extended_refl _) (.extra _ (by decide) .nil))))))) .nil)

theorem more_evaluates (glob : Elab.GlobFn) : Elab.elabFile glob
    (.list .list [library [.assign (.ident c!"tags") (.binop (.op '+') (.list .list [word c!"x"]) (.list .list [word c!"y"])),
      kwName false,
      .assign (.ident c!"data") (.call (.ident c!"glob") (.list .tuple [.list .list [word c!"*.txt"],
        .assign (.ident c!"allow_empty") (.int c!"1" 1)])),
      kwSrcs, kwHdrs (.list .list [word c!"a.h", word c!"b.h"]),
      .assign (.ident c!"licenses") (.list .list [word c!"notice"])]]) ≠ none := by
  rw [show Elab.elabFile glob _ = some _ from rfl]
  simp

theorem more_same (cmd : Command) : SameButUnknown cmd (disk styleFiles) (replaced styleFiles writtenOut moreAttributes) :=
  replaced_same writtenOut_tree moreAttributes_tree
    (fun _ t => ⟨⟨extended_refl t, fun _ _ => .inl rfl⟩, extended_refl t⟩)
    (fun _ _ => ⟨fun _ => ⟨more_extended, fun _ _ => .inr (more_evaluates _)⟩, fun _ => more_extended⟩)
    (by decide +kernel) rfl (by decide +kernel)

/-- The commands print the same, if there are `tags`, `data` and `licenses`. -/
example : (∀ flags cmd pattern, cmd ≠ .print → cmd ≠ .parse →
      runCommand (replaced styleFiles writtenOut moreAttributes) flags cmd pattern =
        runCommand (disk styleFiles) flags cmd pattern) ∧
    (replaced styleFiles writtenOut moreAttributes).fs.content c!"p/BUILD" = some moreAttributes ∧
    (runCommand (disk styleFiles) { ({} : Flags) with format := .csv } .libraryHeaders everything).map (·.out) =
      some c!"\"header\",\"providing-rule\"\n\"p/a.h\",\"//p:a\"\n\"p/b.h\",\"//p:a\"\n\"q/d.h\",\"//q:d\"\n" :=
  ⟨fun _ cmd _ h1 h2 => C140_commands (more_same cmd) h1 (fun h => absurd h h2), by decide +kernel, by decide +kernel⟩

/-- It does matter if an attribute is known. -/
example : ¬ SameRules (fun _ _ _ => false) (fun _ _ _ => false)
    (library [kwName false]) (library [kwName false, kwSrcs]) := by
  intro h
  simp [SameRules, rulesIn, library, kwName, kwSrcs, sites, report, kwArgsIn, kwArgs, attributes, last, told, textsOf,
    listOf, text, truth, texts] at h

end Props
end Bant
