import Verif.Props.SameRules
import Verif.Props.Glob

/-! Files that are found by `glob()`, or listed (C134). -/
namespace Bant
namespace Props
open Commands Cli Query Rules Headers GraphSpec CommandSpec RulesSpec Parser Glob GlobSpec FileUtils FileSpec

/-- **C134**: `glob()` is the same as a list of the files that are found: the same rules are found after evaluation. -/
theorem C134_rules {t t' : Node} {glob : Elab.GlobFn} (h : Globbed glob t t') (hg : c!"glob" ∉ bound t) :
    Elab.elabFile glob t' = Elab.elabFile glob t := by
  rw [Elab.elabFile, Elab.elabFile, walk_globbed h 0 [] (fun _ => hg) rfl]

/-- **C134**: what is found are the files below the directory of the package that match an include pattern and no
exclude pattern, each once. (In a tree of directories, for files without newlines in their path.) -/
theorem C134_files {m : Machine} {ws : Workspace.Map} {pkg : BazelPackage} {start : Str} {paths : List Str}
    (h : Searches m ws pkg) (hs : start = pkg.fullyQualifiedFile ws c!".") (hn : Named m.tree)
    (hfin : ∀ d, Entered m.tree (fun _ => true) start d → d ∈ paths) (hdist : Distinct m.tree (fun _ => true) start)
    (hsteps : paths.length ≤ m.steps) (incl excl : List Str) :
    (m.glob pkg incl excl).Nodup ∧ ∀ r, '\n' ∉ r →
      (r ∈ m.glob pkg incl excl ↔
        Wanted m.tree (fun _ => true) (fun _ => true) start (start ++ '/' :: r) ∧ Chosen incl excl r) := by
  obtain ⟨g, h1, h2, _⟩ := C69_glob m.tree pkg ws start paths hs hn hfin hdist
  have e := h1 incl excl m.steps hsteps
  rw [hs, h incl excl] at e
  simp only [Option.some.injEq] at e
  obtain ⟨h3, h4, h5⟩ := h2 incl excl
  rw [e]
  exact ⟨h3, fun r hr => ⟨h4 r, fun ⟨a, b⟩ => h5 r a b hr⟩⟩

/-- **C134**, full statement: it does not matter for commands. -/
def C134_statement : Prop :=
  ∀ (m m' : Machine) (flags : Flags) (cmd : Command) (pattern : BazelPattern), SameButGlobs cmd m m' → cmd ≠ .print →
    (cmd = .parse → flags.printAst = false ∧ flags.onlyErrors = false) →
      runCommand m' flags cmd pattern = runCommand m flags cmd pattern

/-- **C134** for the commands that evaluate files. -/
theorem C134_commands_partial {m m' : Machine} {flags : Flags} {cmd : Command} {pattern : BazelPattern}
    (h : SameButGlobs cmd m m') (heval : elaborates flags cmd = true) (hprint : cmd ≠ .print)
    (hparse : cmd = .parse → flags.printAst = false ∧ flags.onlyErrors = false) :
    runCommand m' flags cmd pattern = runCommand m flags cmd pattern := by
  refine C103_commands_partial ⟨h.rest, h.missing, ?_, h.settings, h.includes, h.keeps, h.places⟩ heval hprint hparse
  intro name c c' t st t' st' h1 h2 h3 h4
  obtain ⟨h5, h6⟩ := h.files name c c' t st t' st' h1 h2 h3 h4
  refine ⟨fun hb pkg hp => ?_, fun hw => ?_⟩
  · rcases h5 hb pkg hp with rfl | ⟨a, b⟩
    · exact .joined (.refl _)
    · exact .globbed a b
  · rw [h6 hw]
    exact restyled_refl t

/-! ### Examples -/

def withGlob : Str := c!"cc_library(name=\"a\",hdrs=glob([\"*.h\"],exclude=[\"b*\"],allow_empty=False))\n"
def withList : Str := c!"cc_library(name=\"a\",hdrs=[\"a.h\",\"c.h\"])\n"

/-- A package with three headers. -/
def headerTree : Tree :=
  let files : List Dirent := [⟨c!"BUILD", 2, .other⟩, ⟨c!"a.h", 3, .other⟩, ⟨c!"b.h", 4, .other⟩, ⟨c!"c.h", 5, .other⟩]
  listing [(c!".", [⟨c!"p", 1, .dir⟩]), (c!"./p", files), (c!"p/.", files)] []

/-- A project with it and no other package. -/
def globProject : Machine :=
  { disk [(c!"p/BUILD", withGlob), (c!"p/a.h", []), (c!"p/b.h", []), (c!"p/c.h", [])] with
    tree := headerTree
    glob := fun _ incl excl => ((globFiles headerTree c!"p/." incl excl 9).getD none).getD [] }

theorem withGlob_tree : (parseFile withGlob).map (·.1) = some (.list .list [library [kwName false,
    kwHdrs (.call (.ident c!"glob") (.list .tuple [.list .list [word c!"*.h"],
      .assign (.ident c!"exclude") (.list .list [word c!"b*"]),
      .assign (.ident c!"allow_empty") (.ident c!"False")]))]]) := by decide +kernel

theorem withList_tree : (parseFile withList).map (·.1) = some (.list .list [library [kwName false,
    kwHdrs (.list .list [word c!"a.h", word c!"c.h"])]]) := by decide +kernel

theorem glob_arguments : GlobArguments [c!"*.h"] [c!"b*"] [.list .list [word c!"*.h"],
    .assign (.ident c!"exclude") (.list .list [word c!"b*"]), .assign (.ident c!"allow_empty") (.ident c!"False")] := by
  refine ⟨_, [_], [_], rfl, .inl ⟨[(c!"*.h", false, false)], rfl, rfl⟩,
    .inr ⟨_, ⟨[(c!"b*", false, false)], rfl, rfl⟩, rfl⟩, ?_⟩
  intro o ho
  simp only [List.mem_singleton] at ho
  exact ⟨_, _, ho, by decide, by decide, .inl ⟨_, rfl⟩⟩

theorem headerTree_named : Named headerTree := by
  intro d es hl
  have := lookup_mem hl
  simp only [List.mem_cons, Prod.mk.injEq, List.not_mem_nil, or_false] at this
  rcases this with ⟨rfl, rfl⟩ | ⟨rfl, rfl⟩ | ⟨rfl, rfl⟩ <;> decide

theorem headerTree_flat {d p : Str} {e : Dirent} {i : Nat} (hd : d = c!"p/.") (h1 : In headerTree d e p) :
    ¬ IsDir headerTree p e i := by
  intro hdir
  obtain ⟨⟨es, hl, he⟩, _, rfl⟩ := in_iff.1 h1
  rw [isDir_iff] at hdir
  subst hd
  have e1 : headerTree.list c!"p/." = some [⟨c!"BUILD", 2, .other⟩, ⟨c!"a.h", 3, .other⟩, ⟨c!"b.h", 4, .other⟩,
    ⟨c!"c.h", 5, .other⟩] := by decide
  rw [e1] at hl
  cases hl
  simp only [List.mem_cons, List.not_mem_nil, or_false] at he
  rcases he with rfl | rfl | rfl | rfl <;> exact absurd hdir (by simp [directoryInode])

theorem headerTree_entered {d : Str} (h : Entered headerTree (fun _ => true) c!"p/." d) : d = c!"p/." := by
  induction h with
  | start => rfl
  | sub _ h1 h2 _ ih => exact absurd h2 (headerTree_flat ih h1)

theorem headerTree_distinct : Distinct headerTree (fun _ => true) c!"p/." := by
  intro d₁ e₁ p₁ d₂ e₂ p₂ i h0 h1 h2 _ _ _ _
  exact absurd h2 (headerTree_flat (headerTree_entered h0) h1)

theorem globProject_searches : Searches globProject [] ⟨[], c!"p"⟩ := by
  obtain ⟨g, h1, _⟩ := C69_glob headerTree ⟨[], c!"p"⟩ [] c!"p/." [c!"p/."] (by decide) headerTree_named
    (fun d hd => by rw [headerTree_entered hd]; simp) headerTree_distinct
  intro incl excl
  have e : globProject.glob ⟨[], c!"p"⟩ incl excl = ((globFiles headerTree c!"p/." incl excl 9).getD none).getD [] := rfl
  rw [e, h1 incl excl 9 (by decide)]
  exact h1 incl excl 9 (by decide)

/-- What `glob()` finds in the package. -/
example (incl excl : List Str) (r : Str) (hr : '\n' ∉ r) : r ∈ globProject.glob ⟨[], c!"p"⟩ incl excl ↔
    Wanted headerTree (fun _ => true) (fun _ => true) c!"p/." (c!"p/./" ++ r) ∧ Chosen incl excl r :=
  (C134_files globProject_searches (by decide) headerTree_named (paths := [c!"p/."])
    (fun d hd => by rw [headerTree_entered hd]; simp) headerTree_distinct (by decide) incl excl).2 r hr

theorem globs_same (cmd : Command) : SameButGlobs cmd globProject (replacedOn globProject withGlob withList) := by
  refine replaced_same withGlob_tree withList_tree (fun _ t => ⟨fun _ _ => .inl rfl, rfl⟩)
    (fun name h => ⟨fun _ pkg _ => .inr ⟨?_, by decide⟩, ?_⟩) (by decide +kernel) rfl (by decide +kernel)
  · intro hw
    have e : ∀ n ∈ Workspace.wsFiles, globProject.fs.content n ≠ some withGlob := by decide +kernel
    exact absurd h (e name hw)
  · have e : globProject.glob pkg [c!"*.h"] [c!"b*"] = [c!"a.h", c!"c.h"] := by
      rw [show globProject.glob pkg = globProject.glob ⟨[], c!"p"⟩ from rfl]
      decide +kernel
    have := Globbed.files (glob := globProject.glob pkg) _ _ _ glob_arguments (by decide) (by decide)
    rw [e] at this
    exact .list _ (.cons (.call (.refl _) (.list _ (.cons (.refl _) (.cons (.assign _ this) .nil)))) .nil)

/-- The commands print the same with `-e`, if the headers are listed. -/
example : (∀ flags cmd pattern, flags.elaborate = true → cmd ≠ .print → cmd ≠ .parse →
      runCommand (replacedOn globProject withGlob withList) flags cmd pattern =
        runCommand globProject flags cmd pattern) ∧
    (replacedOn globProject withGlob withList).fs.content c!"p/BUILD" = some withList ∧
    (runCommand globProject { ({} : Flags) with format := .csv, elaborate := true } .libraryHeaders
      everything).map (·.out) =
      some c!"\"header\",\"providing-rule\"\n\"p/a.h\",\"//p:a\"\n\"p/c.h\",\"//p:a\"\n" :=
  ⟨fun _ cmd _ h0 h1 h2 => C134_commands_partial (globs_same cmd) (by simp only [elaborates, h0, Bool.true_or]) h1
    (fun h => absurd h h2), by decide +kernel, by decide +kernel⟩

/-- Without `-e`, headers of a library are not found if there is `glob()`. -/
theorem C134_counterexample : ¬ C134_statement := by
  intro h
  have h := h _ _ { ({} : Flags) with format := .csv } .libraryHeaders everything (globs_same _) (by decide)
    (fun h => nomatch h)
  have h1 : (runCommand globProject { ({} : Flags) with format := .csv } .libraryHeaders everything).map
      (·.out.length) = some 26 := by decide +kernel
  have h2 : (runCommand (replacedOn globProject withGlob withList) { ({} : Flags) with format := .csv } .libraryHeaders
      everything).map (·.out.length) = some 58 := by decide +kernel
  rw [h, h1] at h2
  cases h2

end Props
end Bant
