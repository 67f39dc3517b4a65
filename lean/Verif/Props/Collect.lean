import Verif.Lemmas.Collect
import Verif.Props.FileUtils
import Verif.Props.Project

/-! C50 and C63: the BUILD files for a pattern, and the packages they define. -/
namespace Bant.Props
open Collect CollectSpec FileUtils FileSpec Spec Project

/-! ## C50 -/

/-- **C50**, full statement: each BUILD file that is found is taken for the package of the
directory it is in. -/
def C50_statement : Prop :=
  ∀ (t : Tree) (symlink : Str → Bool) (ws : Workspace.Map) (pattern : BazelPattern) (n : Nat)
    (files : List Str), Named t → Roots ws → Tidy pattern.pattern.package.path →
    collectBuildFiles t symlink ws pattern n = some files →
    ∀ file ∈ files, ∃ names pkg, BuildFileOf t symlink ws pattern names pkg file ∧
      packageOf ws file pattern.pattern.package.project = some (some pkg)

/-- The pattern `//...` -/
def everything : BazelPattern := ⟨⟨⟨[], []⟩, []⟩, .recursive⟩

/-- A BUILD file in a hidden directory. -/
def hidden : Tree := listing
  [(c!".", [⟨c!".github", 2, .dir⟩]), (c!"./.github", [⟨c!"BUILD", 3, .other⟩])] []

theorem C50_counterexample : ¬ C50_statement := by
  intro h
  have hn : Named hidden := by
    intro d es hl
    have := lookup_mem hl
    simp only [List.mem_cons, Prod.mk.injEq, List.not_mem_nil, or_false] at this
    rcases this with ⟨rfl, rfl⟩ | ⟨rfl, rfl⟩ <;> decide
  obtain ⟨names, pkg, hb, hp⟩ := h hidden (fun _ => false) [] everything 2 [c!"./.github/BUILD"] hn
    (by intro p r h; simp [Workspace.findPath, Workspace.findEntry, Workspace.lowerBound] at h)
    (by constructor <;> decide)
    (by decide) _ (List.mem_singleton.2 rfl)
  have e1 : packageOf [] c!"./.github/BUILD" [] = some (some ⟨[], c!"github"⟩) := by decide
  rw [show everything.pattern.package.project = [] from rfl, e1] at hp
  cases hp
  obtain ⟨start, dir, e, hst, hbel, _, hin, _, _, hpkg⟩ := hb
  have hst' := searchDir_iff.2 hst
  have : start = c!"." := by
    have e2 : searchDir [] everything = some c!"." := by decide
    rw [e2] at hst'; exact (Option.some.inj hst').symm
  subst this
  obtain ⟨hnames, hpath⟩ := Below.path hn hbel
  simp only [BazelPackage.mk.injEq] at hpkg
  have hdir : dir = c!"./.github" := by
    obtain ⟨⟨es, hl, he⟩, _, hf⟩ := in_iff.1 hin
    have := lookup_mem hl
    simp only [List.mem_cons, Prod.mk.injEq, List.not_mem_nil, or_false] at this
    rcases this with ⟨rfl, rfl⟩ | ⟨rfl, _⟩
    · simp only [List.mem_singleton] at he
      subst he
      revert hf; decide
    · rfl
  subst hdir
  have e3 : below everything.pattern.package.path names = c!"github" := hpkg.2.symm
  rw [show stripBack '/' c!"./.github" = c!"./.github" from rfl, show stripBack '/' c!"." = c!"." from rfl] at hpath
  cases names with
  | nil => simp [below, everything, joinPath] at e3
  | cons x xs =>
    rw [show everything.pattern.package.path = [] from rfl, below_nil_cons] at e3
    rw [slashed_cons, show c!"." ++ ('/' :: x ++ slashed xs) = c!"./" ++ (x ++ slashed xs) from rfl, e3] at hpath
    revert hpath; decide

/-- **C50** for directories that are not hidden: each file that is found is taken for the package
of the directory it is in, and that package matches the pattern. In directories with a dot at the
begin of the path of the package, the package is another. -/
theorem C50_found_partial (t : Tree) (symlink : Str → Bool) (ws : Workspace.Map) (pattern : BazelPattern)
    (n : Nat) (files : List Str) (hn : Named t) (hroots : Roots ws) (hp : Tidy pattern.pattern.package.path)
    (h : collectBuildFiles t symlink ws pattern n = some files) (file : Str) (hf : file ∈ files) :
    ∃ names pkg, BuildFileOf t symlink ws pattern names pkg file ∧ pattern.matchPackage pkg = true ∧
      (pkg.path.head? ≠ some '.' →
        packageOf ws file pattern.pattern.package.project = some (some pkg)) := by
  unfold collectBuildFiles at h
  cases hs : searchDir ws pattern with
  | none => rw [hs] at h; cases h; cases hf
  | some start =>
    rw [hs] at h
    obtain ⟨names, pkg, hb, _⟩ := (wanted_iff hn hs file).1 ((C33_sound _ _ _ _ _ _ h).1 file hf)
    exact ⟨names, pkg, hb, buildFile_match hb, buildFile_package hn hroots hp hb⟩

/-- **C50** for paths: what is before the last slash, if that does not begin with a dot or slash;
`./` at the begin does not matter. -/
theorem C50_path_partial (dir name : Str) (hname : '/' ∉ name) (h1 : dir.head? ≠ some '.')
    (h2 : dir.head? ≠ some '/') :
    targetPathFromBuildFile (dir ++ c!"/" ++ name) = dir ∧
      targetPathFromBuildFile (c!"./" ++ dir ++ c!"/" ++ name) = dir ∧
      targetPathFromBuildFile (c!"./" ++ name) = [] := by
  refine ⟨?_, ?_, ?_⟩
  · rw [List.append_assoc, List.singleton_append, target_path hname, dropWhile_tidy h1 h2]
  · rw [List.append_assoc, List.singleton_append, target_path hname]
    simpa [List.dropWhile] using dropWhile_tidy h1 h2
  · rw [show c!"./" ++ name = c!"." ++ '/' :: name from rfl, target_path hname]; rfl

example : targetPathFromBuildFile c!"./foo/bar/BUILD.bazel" = c!"foo/bar" := by decide

/-- Without a directory, the name of the file is taken for one. -/
example : targetPathFromBuildFile c!"BUILD" = c!"BUILD" := by decide

/-! ## C63 -/

/-- **C63**, full statement: after the project has been filled from a pattern, every package that
has a readable BUILD file at or below the pattern is there. -/
def C63_statement : Prop :=
  ∀ (t : Tree) (symlink : Str → Bool) (ws : Workspace.Map) (read : Str → Option Str) (base : Str → Nat)
    (pattern : BazelPattern) (start : Str) (dirs : List Str),
    Named t → Roots ws → Tidy pattern.pattern.package.path → Start ws pattern.pattern.package start →
    (∀ names d, Below t symlink start names d → d ∈ dirs) →
    ∃ n p k, fillFromPattern t symlink ws read base {} pattern n = some (p, k) ∧
      ∀ names pkg file, BuildFileOf t symlink ws pattern names pkg file → (read file).isSome →
        (p.find pkg).isSome

/-- A link that is listed before the directory it leads to. -/
def linked : Tree := listing
  [(c!".", [⟨c!"latest", 5, .link⟩, ⟨c!"v2", 2, .dir⟩]), (c!"./v2", [⟨c!"BUILD", 3, .other⟩])]
  [(c!"./latest", 2)]

theorem C63_counterexample : ¬ C63_statement := by
  intro h
  have hlist : ∀ d es, linked.list d = some es → (d, es) ∈
      [(c!".", [⟨c!"latest", 5, .link⟩, ⟨c!"v2", 2, .dir⟩]),
        (c!"./v2", [(⟨c!"BUILD", 3, .other⟩ : Dirent)])] := fun d es hl => lookup_mem hl
  have hn : Named linked := by
    intro d es hl
    have := hlist d es hl
    simp only [List.mem_cons, Prod.mk.injEq, List.not_mem_nil, or_false] at this
    rcases this with ⟨rfl, rfl⟩ | ⟨rfl, rfl⟩ <;> decide
  obtain ⟨n, p, k, hf, hall⟩ := h linked (fun p => p = c!"./latest") [] (fun _ => some []) (fun _ => 0) everything
    c!"." [c!".", c!"./v2"] hn
    (by intro p r h; simp [Workspace.findPath, Workspace.findEntry, Workspace.lowerBound] at h)
    (by constructor <;> decide) .top (by
      intro names d hd
      induction hd with
      | start => decide
      | sub _ hin hdir hs ih =>
        obtain ⟨⟨es, hl, he⟩, _, rfl⟩ := in_iff.1 hin
        have := hlist _ es hl
        simp only [List.mem_cons, Prod.mk.injEq, List.not_mem_nil, or_false] at this
        rcases this with ⟨rfl, rfl⟩ | ⟨rfl, rfl⟩
        · simp only [List.mem_cons, List.not_mem_nil, or_false] at he
          rcases he with rfl | rfl
          · revert hs; decide
          · decide
        · simp only [List.mem_cons, List.not_mem_nil, or_false] at he
          subst he; exact absurd (isDir_iff.1 hdir) (by simp [directoryInode]))
  have hin : In linked c!"." ⟨c!"v2", 2, .dir⟩ c!"./v2" := in_iff.2 ⟨⟨_, rfl, by simp⟩, by decide, rfl⟩
  have := hall [c!"v2"] ⟨[], c!"v2"⟩ c!"./v2/BUILD"
    ⟨c!".", c!"./v2", ⟨c!"BUILD", 3, .other⟩, .top, .sub .start hin (.plain rfl) (by decide),
      .inr (.inl rfl), in_iff.2 ⟨⟨_, rfl, by simp⟩, by decide, rfl⟩, (by
        rintro ⟨i, hi⟩; rw [isDir_iff] at hi; simp [directoryInode] at hi), .inl rfl, rfl⟩ rfl
  unfold fillFromPattern at hf
  cases hc : collectBuildFiles linked (fun p => p = c!"./latest") [] everything n with
  | none => rw [hc] at hf; cases hf
  | some files =>
    have e1 : collectBuildFiles linked (fun p => p = c!"./latest") [] everything 1 = some [] := by decide
    have e2 : searchDir [] everything = some c!"." := by decide
    have hfiles : files = [] := by
      unfold collectBuildFiles at hc e1
      rw [e2] at hc e1
      have w1 := walk_more n (n + 1) _ _ hc (by omega)
      have w2 := walk_more 1 (n + 1) _ _ e1 (by omega)
      rw [w1] at w2
      exact Option.some.inj w2
    subst hfiles
    rw [hc] at hf
    simp only [List.foldlM_nil, Option.pure_def, Option.map_some, Option.some.injEq, Prod.mk.injEq] at hf
    rw [← hf.1] at this
    revert this; decide

/-- **C63** if directories are told apart by their inodes (in particular, no link leads to one), and
none of the packages is in a hidden directory: a package is there if and only if it has a readable
BUILD file at the pattern or below, in directories that are not called `_tmp`, `.cache` or `.git`;
and what is there is the content of such a file. -/
theorem C63_load_partial (t : Tree) (symlink : Str → Bool) (ws : Workspace.Map) (read : Str → Option Str)
    (base : Str → Nat) (pattern : BazelPattern) (start : Str) (dirs : List Str)
    (hn : Named t) (hroots : Roots ws) (hp : Tidy pattern.pattern.package.path)
    (hst : Start ws pattern.pattern.package start)
    (hfin : ∀ names d, Below t symlink start names d → d ∈ dirs) (hapart : Apart t symlink start)
    (hhid : ∀ names pkg file, BuildFileOf t symlink ws pattern names pkg file →
      (∀ n ∈ names, n ∉ skipped) → pkg.path.head? ≠ some '.') :
    ∃ p k, (∀ n, dirs.length ≤ n → fillFromPattern t symlink ws read base {} pattern n = some (p, k)) ∧
      (∀ pkg, (p.find pkg).isSome ↔ ∃ names file, BuildFileOf t symlink ws pattern names pkg file ∧
        (∀ n ∈ names, n ∉ skipped) ∧ (read file).isSome) ∧
      ∀ pkg f, p.find pkg = some f → ∃ names, BuildFileOf t symlink ws pattern names pkg f.source.name ∧
        read f.source.name = some f.source.content ∧ ∃ st, Parser.parseFile f.source.content = some (f.ast, st) := by
  have hs := searchDir_iff.2 hst
  obtain ⟨files, hw, _, hfiles⟩ := C33_tree_partial t (wantDir symlink pattern.isRecursive) isBuildFile start dirs hn
    (fun d hd => by obtain ⟨names, h, _⟩ := entered_below hn hd; exact hfin names d h)
    (by
      intro d₁ e₁ p₁ d₂ e₂ p₂ i h1 h2 h3 h4 h5 h6 h7
      obtain ⟨n₁, b1, _⟩ := entered_below hn h1
      obtain ⟨n₂, b2, _⟩ := entered_below hn h4
      exact hapart n₁ d₁ e₁ p₁ n₂ d₂ e₂ p₂ i b1 h2 h3 b2 h5 h6 h7)
  have hmem : ∀ f, f ∈ files ↔ ∃ names pkg, BuildFileOf t symlink ws pattern names pkg f ∧
      ∀ n ∈ names, n ∉ skipped := fun f => (hfiles f).trans (wanted_iff hn hs f)
  let pk : Str → BazelPackage := fun f => ((packageOf ws f pattern.pattern.package.project).getD none).getD ⟨[], []⟩
  have hpk : ∀ names pkg f, BuildFileOf t symlink ws pattern names pkg f → (∀ n ∈ names, n ∉ skipped) →
      packageOf ws f pattern.pattern.package.project = some (some pkg) ∧ pk f = pkg := by
    intro names pkg f hb hsk
    have := buildFile_package hn hroots hp hb (hhid _ _ _ hb hsk)
    exact ⟨this, by simp [pk, this]⟩
  obtain ⟨as, p, hsteps, hfirst⟩ := C42_first_kept (files.map fun f => .add (pk f) f (read f) (base f))
  have hfold := foldlM_steps ws pattern.pattern.package.project read base pk files {} (by
    intro f hf
    obtain ⟨names, pkg, hb, hsk⟩ := (hmem f).1 hf
    obtain ⟨h1, h2⟩ := hpk names pkg f hb hsk
    rw [h1, h2]) as p hsteps
  have hread : ∀ q, q ∈ (files.map fun f => Step.add (pk f) f (read f) (base f)).filterMap readable ↔
      ∃ f content, f ∈ files ∧ read f = some content ∧ q = (pk f, f, content, base f) := by
    intro q
    simp only [List.filterMap_map, List.mem_filterMap, Function.comp_apply]
    constructor
    · rintro ⟨f, hf, hq⟩
      cases hr : read f with
      | none => rw [hr] at hq; cases hq
      | some content => rw [hr] at hq; cases hq; exact ⟨f, content, hf, hr, rfl⟩
    · rintro ⟨f, content, hf, hr, rfl⟩
      exact ⟨f, hf, by rw [hr]; rfl⟩
  refine ⟨p, files.length, ?_, ?_, ?_⟩
  · intro n hle
    simp only [fillFromPattern, collectBuildFiles, hs, hw n hle, hfold, Option.map_some]
  · intro pkg
    have hf := hfirst pkg
    cases hff : firstFile (files.map fun f => Step.add (pk f) f (read f) (base f)) pkg with
    | none =>
      rw [hff] at hf
      simp only at hf
      rw [hf]
      simp only [Option.isSome_none, Bool.false_eq_true, false_iff]
      rintro ⟨names, file, hb, hsk, hr⟩
      obtain ⟨content, hc⟩ := Option.isSome_iff_exists.1 hr
      have := List.find?_eq_none.1 hff _ ((hread _).2 ⟨file, content, (hmem file).2 ⟨names, pkg, hb, hsk⟩, hc, rfl⟩)
      simp [(hpk names pkg file hb hsk).2] at this
    | some q =>
      rw [hff] at hf
      obtain ⟨pkg', name, content, b⟩ := q
      obtain ⟨f, st, hfind, _⟩ := hf
      rw [hfind]
      simp only [Option.isSome_some, true_iff]
      have hpk' := List.find?_some hff
      simp only [decide_eq_true_eq] at hpk'
      obtain ⟨f', c', hf', hr, he⟩ := (hread _).1 (List.mem_of_find?_eq_some hff)
      obtain ⟨names, pkg2, hb, hsk⟩ := (hmem f').1 hf'
      simp only [Prod.mk.injEq] at he
      rw [← hpk', he.1, (hpk names pkg2 f' hb hsk).2]
      exact ⟨names, f', hb, hsk, by rw [hr]; rfl⟩
  · intro pkg f hfind
    have hf := hfirst pkg
    cases hff : firstFile (files.map fun f => Step.add (pk f) f (read f) (base f)) pkg with
    | none => rw [hff] at hf; simp only at hf; rw [hf] at hfind; cases hfind
    | some q =>
      rw [hff] at hf
      obtain ⟨pkg', name, content, b⟩ := q
      obtain ⟨f2, st, hfind2, _, h1, h2, _, h3, _⟩ := hf
      rw [hfind] at hfind2
      cases hfind2
      have hpk' := List.find?_some hff
      simp only [decide_eq_true_eq] at hpk'
      obtain ⟨f', c', hf', hr, he⟩ := (hread _).1 (List.mem_of_find?_eq_some hff)
      obtain ⟨names, pkg2, hb, hsk⟩ := (hmem f').1 hf'
      simp only [Prod.mk.injEq] at he
      have := (hpk names pkg2 f' hb hsk).2
      refine ⟨names, ?_, ?_, st, h2 ▸ h3⟩
      · rw [h1, ← hpk', he.1, this, he.2.1]; exact hb
      · rw [h1, h2, he.2.1, he.2.2.1, hr]

/-! ### Examples -/

/-- The main project and an external one. -/
def twoProjects : Tree := listing
  [(c!".", [⟨c!"BUILD", 1, .other⟩, ⟨c!"a", 2, .dir⟩, ⟨c!".git", 3, .dir⟩]),
   (c!"./a", [⟨c!"b", 4, .dir⟩, ⟨c!"x.cc", 5, .other⟩]), (c!"./a/b", [⟨c!"BUILD.bazel", 6, .other⟩]),
   (c!"./.git", [⟨c!"BUILD", 7, .other⟩]), (c!"a", [⟨c!"b", 4, .dir⟩]), (c!"a/b", [⟨c!"BUILD.bazel", 6, .other⟩]),
   (c!"ext/z~1/", [⟨c!"BUILD", 8, .other⟩, ⟨c!"lib", 9, .dir⟩]), (c!"ext/z~1/lib", [⟨c!"BUILD", 10, .other⟩])] []

def twoWs : Workspace.Map := [(⟨c!"z", c!"1"⟩, c!"ext/z~1")]

example : collectBuildFiles twoProjects (fun _ => false) twoWs everything 9 =
    some [c!"./BUILD", c!"./a/b/BUILD.bazel"] := by decide

example : collectBuildFiles twoProjects (fun _ => false) twoWs ⟨⟨⟨c!"@z", []⟩, []⟩, .recursive⟩ 9 =
    some [c!"ext/z~1/BUILD", c!"ext/z~1/lib/BUILD"] := by decide

example : packageOf twoWs c!"ext/z~1/lib/BUILD" c!"@z" = some (some ⟨c!"@z", c!"lib"⟩) := by decide

example : packageOf twoWs c!"ext/z~1/BUILD" c!"@z" = some (some ⟨c!"@z", []⟩) := by decide

/-- Only one level, if the pattern is not recursive. -/
example : collectBuildFiles twoProjects (fun _ => false) twoWs ⟨⟨⟨[], c!"a"⟩, c!"x"⟩, .exact⟩ 9 = some [] := by decide

example : (fillFromPattern twoProjects (fun _ => false) twoWs (fun _ => some c!"x = 1") (fun f => f.length * 100) {}
    ⟨⟨⟨[], c!"a"⟩, []⟩, .recursive⟩ 9).map (fun r => (r.1.files.map (·.1), r.2)) =
    some ([⟨[], c!"a/b"⟩], 1) := by decide +kernel

/-- A tree for which `C63_load_partial` says that `//a` is loaded. -/
def small : Tree := listing [(c!".", [⟨c!"a", 2, .dir⟩, ⟨c!"y", 7, .other⟩]), (c!"./a", [⟨c!"BUILD", 3, .other⟩])] []

example : ∃ p k, fillFromPattern small (fun _ => false) [] (fun _ => some c!"x = 1") (fun _ => 0) {} everything 2 =
    some (p, k) ∧ (p.find ⟨[], c!"a"⟩).isSome := by
  have hlist : ∀ d es, small.list d = some es → (d, es) ∈ [(c!".", [⟨c!"a", 2, .dir⟩, ⟨c!"y", 7, .other⟩]),
      (c!"./a", [(⟨c!"BUILD", 3, .other⟩ : Dirent)])] := fun d es hl => lookup_mem hl
  have hn : Named small := by
    intro d es hl
    have := hlist d es hl
    simp only [List.mem_cons, Prod.mk.injEq, List.not_mem_nil, or_false] at this
    rcases this with ⟨rfl, rfl⟩ | ⟨rfl, rfl⟩ <;> decide
  have only : ∀ d e p i, In small d e p → IsDir small p e i → d = c!"." ∧ e.name = c!"a" ∧ p = c!"./a" := by
    intro d e p i hin hdir
    obtain ⟨⟨es, hl, he⟩, _, rfl⟩ := in_iff.1 hin
    have := hlist d es hl
    simp only [List.mem_cons, Prod.mk.injEq, List.not_mem_nil, or_false] at this
    rcases this with ⟨rfl, rfl⟩ | ⟨rfl, rfl⟩
    · simp only [List.mem_cons, List.not_mem_nil, or_false] at he
      rcases he with rfl | rfl
      · exact ⟨rfl, rfl, rfl⟩
      · exact absurd (isDir_iff.1 hdir) (by simp [directoryInode])
    · simp only [List.mem_cons, List.not_mem_nil, or_false] at he
      subst he; exact absurd (isDir_iff.1 hdir) (by simp [directoryInode])
  have hb : ∀ names d, Below small (fun _ => false) c!"." names d →
      (names = [] ∧ d = c!".") ∨ (names = [c!"a"] ∧ d = c!"./a") := by
    intro names d h
    induction h with
    | start => exact .inl ⟨rfl, rfl⟩
    | sub _ hin hdir _ ih =>
      obtain ⟨rfl, h2, rfl⟩ := only _ _ _ _ hin hdir
      rcases ih with ⟨rfl, _⟩ | ⟨_, h⟩
      · exact .inr ⟨by rw [h2]; rfl, rfl⟩
      · exact absurd h (by decide)
  have hin : In small c!"." ⟨c!"a", 2, .dir⟩ c!"./a" := in_iff.2 ⟨⟨_, rfl, by simp⟩, by decide, rfl⟩
  obtain ⟨p, k, h1, h2, _⟩ := C63_load_partial small (fun _ => false) [] (fun _ => some c!"x = 1") (fun _ => 0)
    everything c!"." [c!".", c!"./a"] hn
    (by intro p r h; simp [Workspace.findPath, Workspace.findEntry, Workspace.lowerBound] at h)
    (by constructor <;> decide) .top
    (by intro names d h; rcases hb names d h with ⟨_, rfl⟩ | ⟨_, rfl⟩ <;> decide)
    (by
      intro n₁ d₁ e₁ p₁ n₂ d₂ e₂ p₂ i _ i1 i2 _ i3 i4 _
      rw [(only _ _ _ _ i1 i2).2.2, (only _ _ _ _ i3 i4).2.2])
    (by
      rintro names pkg file ⟨start, dir, e, hst, hbel, _, _, _, _, rfl⟩ _
      cases hst with
      | top => rcases hb _ _ hbel with ⟨rfl, _⟩ | ⟨rfl, _⟩ <;> decide
      | main h => exact absurd rfl h
      | external h => exact absurd rfl h)
  refine ⟨p, k, h1 2 (by decide), (h2 _).2 ⟨[c!"a"], c!"./a/BUILD", ⟨c!".", c!"./a", ⟨c!"BUILD", 3, .other⟩, .top,
    .sub .start hin (.plain rfl) rfl, .inr (.inl rfl), in_iff.2 ⟨⟨_, rfl, by simp⟩, by decide, rfl⟩, (by
      rintro ⟨i, hi⟩; rw [isDir_iff] at hi; simp [directoryInode] at hi), .inl rfl, rfl⟩, by decide, rfl⟩⟩

end Bant.Props
