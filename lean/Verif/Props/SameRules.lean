import Verif.Lemmas.Refactored
import Verif.Props.Layout

/-! Commands depend on the rules that are in the files, not on how these are written (C101 to C103). -/
namespace Bant
namespace Props
open Commands Cli Query Rules Headers GraphSpec CommandSpec RulesSpec Parser

/-- **C101**: commands depend on BUILD and workspace files only by the rules that are in there. (But for `print`, and
for `parse` if it is to print something.) -/
theorem C101_rules {m m' : Machine} {flags : Flags} {cmd : Command} {pattern : BazelPattern}
    (h : SameMeaning flags cmd m m') (hprint : cmd ≠ .print)
    (hparse : cmd = .parse → flags.printAst = false ∧ flags.onlyErrors = false) :
    runCommand m' flags cmd pattern = runCommand m flags cmd pattern :=
  run_same h hprint hparse pattern

/-- **C102**: whatever the order of attributes is and however strings are quoted: the same rules are found in a
file, as it is and after evaluation. -/
theorem C102_rules {t t' : Node} (h : Restyled t t') (glob : Elab.GlobFn) :
    SameRules (fun _ _ _ => false) (fun _ _ _ => false) t t' ∧
      SameEvaluated (fun _ _ _ => false) (fun _ _ _ => false) glob t t' :=
  ⟨sameRules_restyled (fun _ _ _ => rfl) h, sameEvaluated_restyled h⟩

theorem keepOf_same {flags : Flags} {cmd : Command} {m m' : Machine}
    (h : cmd = .dwyu → ∀ r r', told r' = told r → ∀ t n,
      Dwyu.hasKeepComment (m'.line r' t n) = Dwyu.hasKeepComment (m.line r t n)) :
    ∀ r r', told r' = told r → keepOf flags cmd m' r' = keepOf flags cmd m r := by
  intro r r' hr
  funext t n
  unfold keepOf
  by_cases hc : cmd = .dwyu
  · rw [h hc r r' hr t n]
  · simp only [hc, decide_false, Bool.false_and]

/-- **C102** for the commands. -/
theorem C102_commands {m m' : Machine} {flags : Flags} {cmd : Command} {pattern : BazelPattern}
    (h : SameButStyle cmd m m') (hprint : cmd ≠ .print)
    (hparse : cmd = .parse → flags.printAst = false ∧ flags.onlyErrors = false) :
    runCommand m' flags cmd pattern = runCommand m flags cmd pattern := by
  refine C101_rules ⟨h.rest, h.missing, ?_, ?_, h.settings, h.includes, h.places⟩ hprint hparse
  · intro name c c' h1 h2 hb t st t' st' h3 h4
    have hr := (h.files name c c' t st t' st' h1 h2 h3 h4).1 hb
    have hk := keepOf_same (flags := flags) h.keeps
    exact ⟨fun _ => sameRules_for (sameRules_restyled hk hr), fun _ _ => sameEvaluated_for (sameEvaluated_keep hk (sameEvaluated_restyled hr))⟩
  · intro name c c' h1 h2 hb t st t' st' h3 h4
    exact sameRules_for (sameRules_restyled (fun _ _ _ => rfl) ((h.files name c c' t st t' st' h1 h2 h3 h4).2 hb))

/-- **C103**: whether values are named or written out, in one or in pieces: the same rules are found after evaluation. -/
theorem C103_rules {t t' : Node} {glob : Elab.GlobFn} (h : Refactored glob t t') :
    SameEvaluated (fun _ _ _ => false) (fun _ _ _ => false) glob t t' :=
  sameEvaluated_refactored h

/-- **C103**, full statement: it does not matter for commands. -/
def C103_statement : Prop :=
  ∀ (m m' : Machine) (flags : Flags) (cmd : Command) (pattern : BazelPattern), SameButNames cmd m m' → cmd ≠ .print →
    (cmd = .parse → flags.printAst = false ∧ flags.onlyErrors = false) →
      runCommand m' flags cmd pattern = runCommand m flags cmd pattern

/-- **C103** for the commands that evaluate files. -/
theorem C103_commands_partial {m m' : Machine} {flags : Flags} {cmd : Command} {pattern : BazelPattern}
    (h : SameButNames cmd m m') (heval : elaborates flags cmd = true) (hprint : cmd ≠ .print)
    (hparse : cmd = .parse → flags.printAst = false ∧ flags.onlyErrors = false) :
    runCommand m' flags cmd pattern = runCommand m flags cmd pattern := by
  refine C101_rules ⟨h.rest, h.missing, ?_, ?_, h.settings, h.includes, h.places⟩ hprint hparse
  · intro name c c' h1 h2 hb t st t' st' h3 h4
    have hr := (h.files name c c' t st t' st' h1 h2 h3 h4).1 hb
    have hk := keepOf_same (flags := flags) h.keeps
    refine ⟨fun e => ?_, fun pkg hpk => sameEvaluated_for (sameEvaluated_keep hk (sameEvaluated_refactored (hr pkg hpk)))⟩
    rw [heval] at e
    cases e
  · intro name c c' h1 h2 hb t st t' st' h3 h4
    exact sameRules_for (sameRules_restyled (fun _ _ _ => rfl) ((h.files name c c' t st t' st' h1 h2 h3 h4).2 hb))

/-! ### Examples -/

def writtenOut : Str := c!"cc_library(name=\"a\",srcs=[],hdrs=[\"a.h\",\"b.h\"])\n"
def attributesMoved : Str := c!"cc_library(hdrs=['a.h',\"\"\"b.h\"\"\"],name='a',srcs=[])\n"
def withNames : Str := c!"H=['a.h']\ncc_library(srcs=[],hdrs=H+['b.h'],name='a')\n"

/-- The tree of a file. -/
def treeOfText (c : Str) : Node := ((parseFile c).map (·.1)).getD .null

/-- `name="a"`. -/
def kwName (q : Bool) : Node := .assign (.ident c!"name") (.str c!"a" q false)
def kwSrcs : Node := .assign (.ident c!"srcs") (.list .list [])
def kwHdrs (v : Node) : Node := .assign (.ident c!"hdrs") v
def library (args : List Node) : Node := .call (.ident c!"cc_library") (.list .tuple args)
def word (s : Str) : Node := .str s false false

theorem kw_distinct (q : Bool) (v : Node) : Keywords [kwName q, kwSrcs, kwHdrs v] := by
  refine ⟨?_, ?_⟩
  · intro a ha
    simp only [List.mem_cons, List.not_mem_nil, or_false] at ha
    rcases ha with rfl | rfl | rfl
    · exact ⟨_, _, rfl⟩
    · exact ⟨_, _, rfl⟩
    · exact ⟨_, _, rfl⟩
  · refine .cons ?_ (.cons ?_ (.cons (by simp) .nil)) <;>
    · intro b hb k v w h1 h2
      simp only [List.mem_cons, List.not_mem_nil, or_false] at hb
      cases h1
      rcases hb with rfl | rfl <;> simp [kwSrcs, kwHdrs] at h2

theorem writtenOut_tree : (parseFile writtenOut).map (·.1) = some (.list .list
    [library [kwName false, kwSrcs, kwHdrs (.list .list [word c!"a.h", word c!"b.h"])]]) := by decide +kernel

theorem attributesMoved_tree : (parseFile attributesMoved).map (·.1) = some (.list .list
    [library [kwHdrs (.list .list [word c!"a.h", .str c!"b.h" true false]), kwName false, kwSrcs]]) := by decide +kernel

theorem withNames_tree : (parseFile withNames).map (·.1) = some (.list .list
    [.assign (.ident c!"H") (.list .list [word c!"a.h"]),
     library [kwSrcs, kwHdrs (.binop (.op '+') (.ident c!"H") (.list .list [word c!"b.h"])), kwName false]]) := by
  decide +kernel

theorem order_restyled : Restyled
    (.list .list [library [kwName false, kwSrcs, kwHdrs (.list .list [word c!"a.h", word c!"b.h"])]])
    (.list .list [library [kwHdrs (.list .list [word c!"a.h", .str c!"b.h" true false]), kwName false, kwSrcs]]) := by
  refine .list _ (.cons (.reorder _ (.ident _) (.cons (restyled_refl _) (.cons (restyled_refl _)
    (.cons (.assign (.ident _) (.list _ (.cons (restyled_refl _) (.cons (.str _ _ _ _ _) .nil)))) .nil)))
    (kw_distinct false (.list .list [word c!"a.h", .str c!"b.h" true false])) ?_) .nil)
  exact ((List.Perm.swap _ _ []).cons _).trans (List.Perm.swap _ _ _)

theorem names_refactored (glob : Elab.GlobFn) : Refactored glob
    (.list .list [library [kwName false, kwSrcs, kwHdrs (.list .list [word c!"a.h", word c!"b.h"])]])
    (.list .list [.assign (.ident c!"H") (.list .list [word c!"a.h"]),
      library [kwSrcs, kwHdrs (.binop (.op '+') (.ident c!"H") (.list .list [word c!"b.h"])), kwName false]]) := by
  refine .trans (t' := .list .list
    [library [kwName false, kwSrcs, kwHdrs (.binop (.op '+') (.list .list [word c!"a.h"]) (.list .list [word c!"b.h"]))]])
    (.symm (.joined ?_)) (.trans (.restyled (t' := .list .list
    [library [kwSrcs, kwHdrs (.binop (.op '+') (.list .list [word c!"a.h"]) (.list .list [word c!"b.h"])), kwName false]])
    ?_) (.symm ?_))
  · exact .list _ (.cons (.call (.refl _) (.list _ (.cons (.refl _) (.cons (.refl _)
      (.cons (.assign _ (.lists _ [word c!"a.h"] [word c!"b.h"])) .nil))))) .nil)
  · exact .list _ (.cons (.reorder _ (.ident _) (restyledAll_refl _) (kw_distinct _ _)
      ((List.Perm.swap _ _ _).trans ((List.Perm.swap _ _ []).cons _))) .nil)
  · exact Refactored.named [] [library [kwSrcs, kwHdrs (.binop (.op '+') (.ident c!"H") (.list .list [word c!"b.h"])),
      kwName false]] c!"H" (.list .list [word c!"a.h"]) rfl (by decide) (by decide) (by decide) (by
        rw [show Elab.elabFile glob _ = some (.list .list [.assign (.ident c!"H") (.list .list [word c!"a.h"]),
          library [kwSrcs, kwHdrs (.list .list [word c!"a.h", word c!"b.h"]), kwName false]]) from rfl]
        simp)

/-- A machine on which the text `a` is replaced by `b`. -/
def replacedOn (m : Machine) (a b : Str) : Machine :=
  { m with fs := { m.fs with content := fun p => (m.fs.content p).map fun c => if c = a then b else c } }

/-- The same for a project of files. -/
abbrev replaced (texts : List (Str × Str)) (a b : Str) : Machine := replacedOn (disk texts) a b

theorem replaced_same {builds : Machine → Str → Node → Node → Prop} {workspaces : Machine → Node → Node → Prop}
    {m : Machine} {a b : Str} {ta tb : Node} (ha : (parseFile a).map (·.1) = some ta)
    (hb : (parseFile b).map (·.1) = some tb) (hr : ∀ name t, builds m name t t ∧ workspaces m t t)
    (hab : ∀ name, m.fs.content name = some a → (GraphSpec.IsBuild name → builds m name ta tb) ∧
      (name ∈ Workspace.wsFiles → workspaces m ta tb))
    (hrc : m.fs.content c!".bazelrc" = none) {cmd : Command} (hl : m.line = fun _ _ _ => [])
    (hi : (Includes.extract b).map (·.2) = (Includes.extract a).map (·.2)) :
    SameBut builds workspaces cmd m (replacedOn m a b) := by
  refine ⟨rfl, ?_, ?_, ?_, ?_, fun _ r r' _ t n => by simp only [replacedOn, hl], fun _ => rfl⟩
  · intro name
    simp only [replacedOn]
    cases m.fs.content name <;> simp
  · intro name c c' t st t' st' h1 h2 h3 h4
    simp only [replacedOn, h1, Option.map_some, Option.some.injEq] at h2
    by_cases hc : c = a
    · rw [if_pos hc] at h2
      subst hc h2
      rw [h3] at ha
      rw [h4] at hb
      cases ha
      cases hb
      exact hab name h1
    · rw [if_neg hc] at h2
      subst h2
      rw [h3] at h4
      cases h4
      exact ⟨fun _ => (hr name _).1, fun _ => (hr name _).2⟩
  · simp only [replacedOn, hrc, Option.map_none]
  · intro _ name c c' h1 h2
    simp only [replacedOn, h1, Option.map_some, Option.some.injEq] at h2
    subst h2
    split
    · next hc => rw [hc, hi]
    · rfl

/-- A project with that file. -/
def styleFiles : List (Str × Str) :=
  [(c!"p/BUILD", writtenOut), (c!"q/BUILD", c!"cc_library(name=\"d\",deps=[\"//p:a\"],hdrs=[\"d.h\"])")]

theorem order_same (cmd : Command) : SameButStyle cmd (disk styleFiles) (replaced styleFiles writtenOut attributesMoved) :=
  replaced_same writtenOut_tree attributesMoved_tree (fun _ t => ⟨restyled_refl t, restyled_refl t⟩)
    (fun _ _ => ⟨fun _ => order_restyled, fun _ => order_restyled⟩) (by decide +kernel) rfl (by decide +kernel)

/-- The commands print the same, if attributes are in another order. -/
example : (∀ flags cmd pattern, cmd ≠ .print → cmd ≠ .parse →
      runCommand (replaced styleFiles writtenOut attributesMoved) flags cmd pattern =
        runCommand (disk styleFiles) flags cmd pattern) ∧
    (replaced styleFiles writtenOut attributesMoved).fs.content c!"p/BUILD" = some attributesMoved ∧
    (runCommand (disk styleFiles) { ({} : Flags) with format := .csv } .libraryHeaders everything).map (·.out) =
      some c!"\"header\",\"providing-rule\"\n\"p/a.h\",\"//p:a\"\n\"p/b.h\",\"//p:a\"\n\"q/d.h\",\"//q:d\"\n" :=
  ⟨fun _ cmd _ h1 h2 => C102_commands (order_same cmd) h1 (fun h => absurd h h2), by decide +kernel, by decide +kernel⟩

theorem names_same (cmd : Command) : SameButNames cmd (disk styleFiles) (replaced styleFiles writtenOut withNames) := by
  refine replaced_same writtenOut_tree withNames_tree (fun _ t => ⟨fun _ _ => .joined (.refl t), restyled_refl t⟩)
    (fun name h => ⟨fun _ _ _ => names_refactored _, fun hw => ?_⟩) (by decide +kernel) rfl (by decide +kernel)
  have e : ∀ n ∈ Workspace.wsFiles, (disk styleFiles).fs.content n ≠ some writtenOut := by decide +kernel
  exact absurd h (e name hw)

/-- The commands print the same with `-e`, if values are named. -/
example : (∀ flags cmd pattern, flags.elaborate = true → cmd ≠ .print → cmd ≠ .parse →
      runCommand (replaced styleFiles writtenOut withNames) flags cmd pattern =
        runCommand (disk styleFiles) flags cmd pattern) ∧
    (replaced styleFiles writtenOut withNames).fs.content c!"p/BUILD" = some withNames ∧
    (runCommand (disk styleFiles) { ({} : Flags) with format := .csv, elaborate := true } .libraryHeaders
      everything).map (·.out) =
      some c!"\"header\",\"providing-rule\"\n\"p/a.h\",\"//p:a\"\n\"p/b.h\",\"//p:a\"\n\"q/d.h\",\"//q:d\"\n" :=
  ⟨fun _ cmd _ h0 h1 h2 => C103_commands_partial (names_same cmd) (by simp only [elaborates, h0, Bool.true_or]) h1
    (fun h => absurd h h2), by decide +kernel, by decide +kernel⟩

/-- Without `-e`, headers of a library are not found if they are named. -/
theorem C103_counterexample : ¬ C103_statement := by
  intro h
  have h := h _ _ { ({} : Flags) with format := .csv } .libraryHeaders everything (names_same _) (by decide)
    (fun h => nomatch h)
  have h1 : (runCommand (disk styleFiles) { ({} : Flags) with format := .csv } .libraryHeaders everything).map
      (·.out.length) = some 74 := by decide +kernel
  have h2 : (runCommand (replaced styleFiles writtenOut withNames) { ({} : Flags) with format := .csv } .libraryHeaders
      everything).map (·.out.length) = some 42 := by decide +kernel
  rw [h, h1] at h2
  cases h2

end Props
end Bant
