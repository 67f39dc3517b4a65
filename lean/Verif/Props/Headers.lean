import Verif.Lemmas.HeaderIndex
import Verif.Lemmas.Headers
import Verif.Lemmas.SearchableFiles
import Verif.Spec.DepGraph

/-! # Header lookup (C25), header providers (C46, C56, C57), aliases (C49) -/
namespace Bant
namespace Props
open Headers HeaderIndex Paths HeaderSpec Rules Elab Parser

variable {α : Type} [DecidableEq α]

/-- The path `p` is provided by someone. -/
def Provided (adds : List (Str × α)) (p : Str) : Prop := ∃ t, (p, t) ∈ adds

/-- **C25**, the index is a table of who provides what, whatever was added in whatever order:
a path that is provided is found exactly, with exactly its providers, and score 0. -/
theorem C25_exact (adds : List (Str × α)) (key : Str) (minimum : Nat) (hp : Provided adds key) :
    ∃ targets, findBySuffix (fill [] adds) key minimum = some (some ⟨key, targets, 0⟩) ∧
      ∀ t, t ∈ targets ↔ (key, t) ∈ adds := by
  have h := holds_fill (α := α) holds_empty adds
  rw [List.nil_append] at h
  obtain ⟨t, ht⟩ := hp
  obtain ⟨v, hv⟩ := h.has key t ht
  rcases find_spec h.sorted key minimum with ⟨w, hw, hr⟩ | ⟨hno, _⟩
  · exact ⟨w, hr, h.targets key w hw⟩
  · exact absurd hv (hno v)

/-- **C25**, for a path that nobody provides: the result is a provided path with exactly its
providers, it has at least the required number of components in common with the path looked for,
and no provided path has more. -/
theorem C25_fuzzy (adds : List (Str × α)) (key : Str) (minimum : Nat) (hp : ¬ Provided adds key)
    (r : FindResult (List α)) (hr : findBySuffix (fill [] adds) key minimum = some (some r)) :
    Provided adds r.found ∧ (∀ t, t ∈ r.targets ↔ (r.found, t) ∈ adds) ∧
      r.score = sharedEnd key r.found ∧ minimum ≤ r.score ∧
      ∀ p, Provided adds p → sharedEnd key p ≤ r.score := by
  have h := holds_fill (α := α) holds_empty adds
  rw [List.nil_append] at h
  rcases find_spec h.sorted key minimum with ⟨w, hw, _⟩ | ⟨_, ⟨_, hf⟩ | ⟨best, hb, hmax, hf⟩⟩
  · obtain ⟨p, t, h1, h2⟩ := h.key _ hw
    rw [← keyTransform_inj h2] at h1
    exact absurd ⟨t, h1⟩ hp
  · rw [hf] at hr; cases hr
  · rw [hf] at hr
    unfold finish at hr
    split at hr
    · cases hr
    · rename_i hge
      cases hr
      obtain ⟨p, t, h1, h2⟩ := h.key _ hb
      obtain ⟨k, v⟩ := best
      have h2 : k = keyTransform p := h2
      subst h2
      simp only [keyTransform_back, slashes_shared] at hge hmax ⊢
      refine ⟨⟨t, h1⟩, h.targets p v hb, trivial, by omega, ?_⟩
      rintro q ⟨u, hq⟩
      obtain ⟨w, hw⟩ := h.has q u hq
      have := hmax _ hw
      rwa [slashes_shared] at this

/-- **C25**, lookup always has a defined outcome, and nothing is found precisely if the path is
not provided and no provided path has the required number of components in common. -/
theorem C25_nothing (adds : List (Str × α)) (key : Str) (minimum : Nat) :
    findBySuffix (fill [] adds) key minimum ≠ none ∧
    (findBySuffix (fill [] adds) key minimum = some none ↔
      ¬ Provided adds key ∧ ∀ p, Provided adds p → sharedEnd key p < minimum) := by
  have h := holds_fill (α := α) holds_empty adds
  rw [List.nil_append] at h
  rcases find_spec h.sorted key minimum with ⟨w, hw, hf⟩ | ⟨hno, ⟨he, hf⟩ | ⟨best, hb, hmax, hf⟩⟩
  · rw [hf]
    refine ⟨by simp, by simp, ?_⟩
    obtain ⟨p, t, h1, h2⟩ := h.key _ hw
    rw [← keyTransform_inj h2] at h1
    exact fun hc => absurd ⟨t, h1⟩ hc.1
  · rw [hf]
    refine ⟨by simp, fun _ => ?_, fun _ => rfl⟩
    have : ∀ p, ¬ Provided adds p := by
      rintro p ⟨t, hp⟩
      obtain ⟨v, hv⟩ := h.has p t hp
      rw [he] at hv; cases hv
    exact ⟨this _, fun p hp => absurd hp (this p)⟩
  · rw [hf]
    refine ⟨by simp, ?_⟩
    have hnp : ¬ Provided adds key := by
      rintro ⟨t, hp⟩
      obtain ⟨v, hv⟩ := h.has key t hp
      exact hno v hv
    obtain ⟨p, t, h1, h2⟩ := h.key _ hb
    obtain ⟨k, v⟩ := best
    have h2 : k = keyTransform p := h2
    subst h2
    rw [slashes_shared]
    unfold finish
    split
    · rename_i hlt
      refine ⟨fun _ => ⟨hnp, ?_⟩, fun _ => rfl⟩
      rintro q ⟨u, hq⟩
      obtain ⟨w, hw⟩ := h.has q u hq
      have := hmax _ hw
      rw [slashes_shared, slashes_shared] at this
      omega
    · rename_i hge
      refine ⟨fun hc => by simp at hc, fun hc => ?_⟩
      exact absurd (hc.2 p ⟨t, h1⟩) hge

/-! Concrete cases: an exact path, a path with another begin, one with too little in common. -/

/-- Some providers; two for one header. -/
def someAdds : List (Str × Nat) :=
  [(c!"base/foo/bar.h", 1), (c!"other/foo/bar.h", 2), (c!"base/foo/bar.h", 3), (c!"x/bar.h", 4)]

example : findBySuffix (fill [] someAdds) c!"base/foo/bar.h" 2
    = some (some ⟨c!"base/foo/bar.h", [1, 3], 0⟩) := by decide +kernel
example : findBySuffix (fill [] someAdds) c!"src/other/foo/bar.h" 2
    = some (some ⟨c!"other/foo/bar.h", [2], 3⟩) := by decide +kernel
example : findBySuffix (fill [] someAdds) c!"y/bar.h" 2 = some none := by decide +kernel
example : ¬ Provided someAdds c!"src/other/foo/bar.h" := by
  rintro ⟨t, h⟩; simp [someAdds] at h
example : sharedEnd c!"src/other/foo/bar.h" c!"base/foo/bar.h" = 2 := by decide +kernel
-- A component counts as a whole.
example : sharedEnd c!"a/xfoo.h" c!"a/foo.h" = 0 := by decide +kernel

/-! ## Which trees can be searched -/

/-- Files without syntax errors can be searched, before and after elaboration; all that follows
is about such trees. -/
theorem C56_searchable (glob : GlobFn) (content : Str) (stmts : List Node) (st : PState)
    (h : parseFile content = some (.list .list stmts, st)) (herr : st.errs = []) :
    Searchable (.list .list stmts) ∧
    ((∀ f ∈ Meaning.calledIn stmts, f ∉ Meaning.assigned stmts) →
      ∃ out, elabFile glob (.list .list stmts) = some out ∧ Searchable out) := by
  refine ⟨stmts_searchable (file_stmts h herr), fun hcall => ?_⟩
  obtain ⟨r, hr, hq⟩ := walks_stmts glob stmts [] (by intro x m hm; simp [Vars.find] at hm)
    (file_stmts h herr) (fun _ _ => rfl) hcall
  exact ⟨_, by simp [elabFile, walk, hr]; rfl, stmts_searchable hq⟩

/-- Statements without missing parts, that do not call what they assign. -/
theorem stmts_usable {content : Str} {stmts : List Node} {st : PState}
    (h : parseFile content = some (.list .list stmts, st)) (hs : ∀ s ∈ stmts, Elab.Stmt s)
    (hcall : ∀ f ∈ Meaning.calledIn stmts, f ∉ Meaning.assigned stmts) : GraphSpec.UsableText content := by
  refine ⟨_, st, h, stmts_complete hs, fun glob => ?_⟩
  obtain ⟨r, hr, hq⟩ := walks_stmts glob stmts [] (by intro x m hm; simp [Vars.find] at hm) hs (fun _ _ => rfl) hcall
  exact ⟨_, by simp [elabFile, walk, hr], stmts_complete hq⟩

/-- In files without syntax errors nothing is missing, before and after evaluation. -/
theorem C56_usable (content : Str) (stmts : List Node) (st : PState)
    (h : parseFile content = some (.list .list stmts, st)) (herr : st.errs = [])
    (hcall : ∀ f ∈ Meaning.calledIn stmts, f ∉ Meaning.assigned stmts) : GraphSpec.UsableText content :=
  stmts_usable h (file_stmts h herr) hcall

/-- This also holds for many files with syntax errors; here, a comma is missing. -/
example : ((outcome c!"r(deps=[\"a\" \"b\"])").map fun o => o.2.isEmpty) = some false ∧
    GraphSpec.UsableText c!"r(deps=[\"a\" \"b\"])" := by
  have h : (outcome c!"r(deps=[\"a\" \"b\"])").map (·.1) = some (.list .list [.call (.ident c!"r")
      (.list .tuple [.assign (.ident c!"deps") (.list .list [.str c!"a" false false, .str c!"b" false false])])]) := by
    decide +kernel
  obtain ⟨n, st, hp, _⟩ := parseFile_total c!"r(deps=[\"a\" \"b\"])"
  simp only [outcome, hp, Option.map_some, Option.some.injEq] at h
  rw [h] at hp
  refine ⟨by decide +kernel, stmts_usable hp ?_ (by decide)⟩
  intro s hs
  rw [List.mem_singleton.1 hs]
  refine .expr (.call ?_)
  intro a ha
  rw [List.mem_singleton.1 ha]
  exact .keyword (.list (by simp [Expr.str]))

/-! ## C46: normalisation of paths -/

/-- **C46**, full statement: normalising a path removes `./` at its begin and nothing else; doing
it again changes nothing. -/
def C46_statement : Prop :=
  ∀ path, lightCanonicalizePath (lightCanonicalizePath path) = lightCanonicalizePath path ∧
    ∃ n, path = (List.replicate n c!"./").flatten ++ lightCanonicalizePath path

theorem C46_counterexample : ¬ C46_statement := by
  intro h
  have := (h c!".//./foo.h").1
  revert this
  decide

/-- What is done, exactly: some `./` are removed, then some `/`; there is no `/` at the begin of
the result, and there is no `./` either, unless a `/` has been removed. -/
theorem C46_normalised (path : Str) : Normalised path (lightCanonicalizePath path) :=
  normalised_iff.2 rfl

/-- **C46** for paths without double slashes and slashes at their begin (missing: the other
paths, for which it is not true). -/
theorem C46_idempotent_partial (path : Str) (h1 : ¬ c!"/" <+: path) (h2 : ¬ c!"//" <:+: path) :
    lightCanonicalizePath (lightCanonicalizePath path) = lightCanonicalizePath path ∧
    ∃ n, path = (List.replicate n c!"./").flatten ++ lightCanonicalizePath path := by
  obtain ⟨n, m, he, hs, hd⟩ := C46_normalised path
  generalize lightCanonicalizePath path = out at *
  have hm : m = 0 := by
    cases m with
    | zero => rfl
    | succ m =>
      exfalso
      cases n with
      | zero => exact h1 ⟨List.replicate m '/' ++ out, by rw [he]; simp [List.replicate_succ]⟩
      | succ n =>
        refine h2 ⟨(List.replicate n c!"./").flatten ++ c!".", List.replicate m '/' ++ out, ?_⟩
        rw [he, List.replicate_succ' (n := n), List.replicate_succ]
        simp
  subst hm
  refine ⟨?_, n, by simpa using he⟩
  exact (normalised_iff.1 ⟨0, 0, by simp, hs, hd⟩).symm

example : lightCanonicalizePath c!"././foo/bar.h" = c!"foo/bar.h" := by decide
example : ¬ c!"/" <+: c!"././foo/bar.h" ∧ ¬ c!"//" <:+: c!"././foo/bar.h" := by decide

/-! ## C49: aliases -/

/-- **C49**: an alias is listed under a target precisely if there is an alias rule for it. -/
theorem C49_aliases (files : Files) (hs : ∀ f ∈ files, Searchable f.2) :
    ∃ index, extractAliasedBy files = some index ∧
      ∀ t a, a ∈ aliasesOf index t ↔ Alias files t a := by
  obtain ⟨l, h1, h2⟩ := extractAliasedBy_spec hs
  exact ⟨l, h1, fun t a => by rw [mem_aliasesOf, h2]⟩

/-! ## C56: which headers are found -/

/-- **C56**: the header index is defined, and lookup of a path in it finds precisely the targets
that provide the header, if there are any; otherwise the targets of a header with as much in
common as there is. -/
theorem C56_lookup (files : Files) (hs : ∀ f ∈ files, Searchable f.2) :
    ∃ index, extractHeaderToLibMapping files = some index ∧ ∀ path minimum,
      ((∃ t, Provides files path t) → ∃ targets,
        findBySuffix index path minimum = some (some ⟨path, targets, 0⟩) ∧
          ∀ t, t ∈ targets ↔ Provides files path t) ∧
      ((∀ t, ¬ Provides files path t) →
        (findBySuffix index path minimum = some none ∧
          ∀ p t, Provides files p t → sharedEnd path p < minimum) ∨
        ∃ found targets score, findBySuffix index path minimum = some (some ⟨found, targets, score⟩) ∧
          targets ≠ [] ∧ (∀ t, t ∈ targets ↔ Provides files found t) ∧
          score = sharedEnd path found ∧ minimum ≤ score ∧
          ∀ p t, Provides files p t → sharedEnd path p ≤ score) := by
  obtain ⟨adds, h1, h2⟩ := headerAdds_spec hs
  refine ⟨fill [] adds, by rw [extractHeaderToLibMapping, h1]; rfl, ?_⟩
  intro path minimum
  have hp : ∀ p, Provided adds p ↔ ∃ t, Provides files p t := fun p =>
    exists_congr fun t => h2 p t
  constructor
  · intro h
    obtain ⟨ts, h3, h4⟩ := C25_exact adds path minimum ((hp _).2 h)
    exact ⟨ts, h3, fun t => (h4 t).trans (h2 _ _)⟩
  · intro h
    have hn : ¬ Provided adds path := fun hc => by
      obtain ⟨t, ht⟩ := (hp _).1 hc
      exact h t ht
    obtain ⟨h3, h4⟩ := C25_nothing adds path minimum
    cases hf : findBySuffix (fill [] adds) path minimum with
    | none => exact absurd hf h3
    | some r =>
      cases r with
      | none =>
        refine .inl ⟨rfl, fun p t ht => (h4.1 hf).2 p ((hp _).2 ⟨t, ht⟩)⟩
      | some r =>
        obtain ⟨g1, g2, g3, g4, g5⟩ := C25_fuzzy adds path minimum hn r hf
        refine .inr ⟨r.found, r.targets, r.score, rfl, ?_, fun t => (g2 t).trans (h2 _ _), g3, g4,
          fun p t ht => g5 p ((hp _).2 ⟨t, ht⟩)⟩
        obtain ⟨t, ht⟩ := g1
        exact List.ne_nil_of_mem ((g2 t).2 ht)

/-- **C56**, the usual case: a header of a library without special attributes is found under the
path of its package. -/
theorem C56_own_header (files : Files) (hs : ∀ f ∈ files, Searchable f.2) (pkg : BazelPackage)
    (ast : Node) (r : Query.Result) (lib : BazelTarget) (h : Str) (hf : (pkg, ast) ∈ files)
    (hr : r ∈ rulesOf [c!"cc_library"] ast) (hq : pkg.qualifiedTarget r.name = some lib)
    (hh : h ∈ stringsOf r.hdrs) (hp : r.includePrefix = []) (hst : r.stripIncludePrefix = [])
    (hpath : pkg.path ≠ []) (h1 : ¬ c!"/" <+: pkg.path) (h2 : ¬ c!"./" <+: pkg.path ++ c!"/")
    (habsl : ¬ c!"absl/strings" <:+ pkg.path) (hcolon : ¬ c!":" <+: h) :
    ∃ index, extractHeaderToLibMapping files = some index ∧ ∀ minimum, ∃ targets,
      findBySuffix index (pkg.path ++ c!"/" ++ h) minimum =
        some (some ⟨pkg.path ++ c!"/" ++ h, targets, 0⟩) ∧ lib ∈ targets := by
  obtain ⟨index, hi, hl⟩ := C56_lookup files hs
  refine ⟨index, hi, fun minimum => ?_⟩
  have hqf : pkg.qualifiedFile h = pkg.path ++ c!"/" ++ h := by
    unfold BazelPackage.qualifiedFile
    split
    · rename_i t
      exact absurd ⟨t, rfl⟩ hcolon
    · simp [hpath]
  have hprov : Provides files (pkg.path ++ c!"/" ++ h) lib := by
    refine .library (r := r) (h := h) (p := pkg.qualifiedFile h) hf ?_ hq (by simp [hh])
      (fun he => habsl he.2.1) (.long hp ?_) ?_ (.inl rfl)
    · have := rulesOf_kind (kinds := [c!"cc_library", c!"grpc_cc_library"]) (x := c!"cc_library")
        (by simp) ast
      rw [← this] at hr
      exact (List.mem_filter.1 hr).1
    · intro dir rest ht hne
      rw [hst, trimmed_iff] at ht
      exact absurd ht hne
    · rw [hqf]
      refine ⟨0, 0, by simp, ?_, fun _ => ?_⟩
      · intro hc
        apply h1
        obtain ⟨t, ht⟩ := hc
        cases hpp : pkg.path with
        | nil => exact absurd hpp hpath
        | cons x xs =>
          rw [hpp] at ht
          simp at ht
          exact ⟨xs, by simpa using ht.1⟩
      · intro hc
        apply h2
        obtain ⟨t, ht⟩ := hc
        match hpp : pkg.path with
        | [] => exact absurd hpp hpath
        | [x] =>
          rw [hpp] at ht
          simp at ht
          exact ⟨[], by simpa using ht.1⟩
        | x :: y :: xs =>
          rw [hpp] at ht
          simp at ht
          exact ⟨xs ++ c!"/", by simpa using ⟨ht.1, ht.2.1⟩⟩
  obtain ⟨ts, h3, h4⟩ := (hl _ minimum).1 ⟨lib, hprov⟩
  exact ⟨ts, h3, (h4 _).2 hprov⟩

/-- A file with a library, an alias for it, and a library made from protocol buffers. -/
def someFile : Str :=
  c!"cc_library(name=\"l\",hdrs=[\"a/x.h\",\"y.h\"],textual_hdrs=[\"z.inc\"],includes=[\"p\"])\nalias(name=\"other\",actual=\":l\")\nproto_library(name=\"pl\",srcs=[\":m.proto\"])\ncc_proto_library(name=\"cpl\",deps=[\":pl\"])\ncc_proto_library(name=\"cpl2\",deps=[\":pl\"])\ngenrule(name=\"g\",outs=[\"q.h\"])\ngenrule(name=\"h\",outs=[\"q.h\",\"r.h\"])"

/-- Its package. -/
def somePkg : BazelPackage := ⟨[], c!"p"⟩

/-- Lookup of a header in a project that consists of this file. -/
def inSome (path : Str) (minimum : Nat) : Option (Option (FindResult (List BazelTarget))) :=
  (parseFile someFile).bind fun r => (extractHeaderToLibMapping [(somePkg, r.1)]).bind fun index =>
    findBySuffix index path minimum

example : inSome c!"p/a/x.h" 2 =
    some (some ⟨c!"p/a/x.h", [⟨somePkg, c!"l"⟩, ⟨somePkg, c!"other"⟩], 0⟩) := by decide +kernel
example : inSome c!"a/x.h" 2 =
    some (some ⟨c!"a/x.h", [⟨somePkg, c!"l"⟩, ⟨somePkg, c!"other"⟩], 0⟩) := by decide +kernel
example : inSome c!"other/p/z.inc" 2 =
    some (some ⟨c!"p/z.inc", [⟨somePkg, c!"l"⟩, ⟨somePkg, c!"other"⟩], 2⟩) := by decide +kernel
example : inSome c!"p/m.pb.h" 2 =
    some (some ⟨c!"p/m.pb.h", [⟨somePkg, c!"cpl"⟩], 0⟩) := by decide +kernel
example : inSome c!"other/y.h" 2 = some none := by decide +kernel

/-! ## C57: generated files -/

/-- **C57**: each output of a `genrule` is attributed to the first rule that lists it. -/
theorem C57_genrules (files : Files) (hs : ∀ f ∈ files, Searchable f.2) :
    ∃ index, extractGeneratedFromGenrule files = some index ∧
      ∀ path, lookup index path = ((outputs files).find? (·.1 = path)).map (·.2) := by
  refine ⟨_, by rw [extractGeneratedFromGenrule, genruleAdds_eq hs]; rfl, ?_⟩
  intro path
  rw [insertAll_lookup]; rfl

example : ((parseFile someFile).bind fun r => (extractGeneratedFromGenrule [(somePkg, r.1)]).map
    fun index => (lookup index c!"p/q.h", lookup index c!"p/r.h", lookup index c!"q.h")) =
    some (some ⟨somePkg, c!"g"⟩, some ⟨somePkg, c!"h"⟩, none) := by decide +kernel

end Props
end Bant
