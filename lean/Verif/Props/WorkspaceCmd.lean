import Verif.Lemmas.WorkspaceCmd
import Verif.Props.Dwyu

/-! # The command `workspace` (C75) -/
namespace Bant
namespace Props
open Parser Query Rules Workspace WorkspaceSpec WorkspaceCmd WorkspaceCmdSpec

/-- Files without syntax errors are readable. -/
theorem C75_readable (files : List (BazelPackage × Node))
    (h : ∀ f ∈ files, ∃ content stmts st, parseFile content = some (.list .list stmts, st) ∧ st.errs = [] ∧
      f.2 = .list .list stmts) : Readable files := by
  intro f hf
  obtain ⟨content, stmts, st, h1, h2, h3⟩ := h f hf
  rw [h3]
  exact stmts_complete (file_stmts h1 h2)

/-- What is to be listed: in the order of `global`, the entries for projects that are used. -/
def C75_lists (mentions : BazelPackage → Node → Str → Prop) (global : Map) (pattern : BazelPattern)
    (files : List (BazelPackage × Node)) (m : Map) : Prop :=
  ∃ p : VersionedProject × Str → Bool, m = global.filter p ∧
    ∀ e ∈ global, p e = true ↔ Lowest global e ∧
      ∃ project, Uses mentions pattern files project ∧ AskedAs project e.1.project

/-- **C75**, full statement: the projects that are listed for a pattern are those which matching targets
refer to. -/
def C75_statement : Prop :=
  ∀ (log : List Entry) (pattern : BazelPattern) (files : List (BazelPackage × Node)), Readable files →
    ∃ m, filtered (build [] log) pattern files = some m ∧
      C75_lists (MentionsAny pattern) (build [] log) pattern files m

/-- **C75** for references in `load`, `deps` and `actual` (missing: other attributes, for which it is not
true). -/
theorem C75_filtered_partial (log : List Entry) (pattern : BazelPattern) (files : List (BazelPackage × Node))
    (hr : Readable files) :
    ∃ m, filtered (build [] log) pattern files = some m ∧
      C75_lists (Mentions pattern) (build [] log) pattern files m := by
  have hg : Sorted (build [] log) := build_sorted (by simp [Sorted]) log
  obtain ⟨m, h1, h2, h3⟩ := filtered_spec hg pattern hr
  have hd := Classical.propDecidable
  refine ⟨m, h1, fun e => decide (Lowest (build [] log) e ∧
      ∃ project, Uses (Mentions pattern) pattern files project ∧ AskedAs project e.1.project), ?_, ?_⟩
  · refine sorted_ext h2 (sorted_filter hg _) fun e => ?_
    rw [h3, List.mem_filter, decide_eq_true_iff]
  · intro e _
    rw [decide_eq_true_iff]

/-- Nothing is listed that is not known, and everything in order, each entry once. -/
theorem C75_known_partial (log : List Entry) (pattern : BazelPattern) (files : List (BazelPackage × Node))
    (hr : Readable files) :
    ∃ m, filtered (build [] log) pattern files = some m ∧ m.Sublist (build [] log) ∧ m.Nodup := by
  obtain ⟨m, h1, p, h2, _⟩ := C75_filtered_partial log pattern files hr
  refine ⟨m, h1, h2 ▸ List.filter_sublist, ?_⟩
  have hg : Sorted (build [] log) := build_sorted (by simp [Sorted]) log
  have hm : Sorted m := h2 ▸ sorted_filter hg p
  exact hm.imp fun h => by rintro rfl; exact absurd rfl (vpLt_ne h)

/-- **C75**, output: a row for each entry. Without pattern, all that is known is listed. -/
theorem C75_output (format : Table.Format) (global : Map) (pattern : BazelPattern)
    (files : List (BazelPackage × Node)) (m : Map)
    (h : (pattern.kind = .alwaysMatch ∧ m = global) ∨
      (pattern.kind ≠ .alwaysMatch ∧ filtered global pattern files = some m)) :
    output format global pattern files =
      Table.output format [c!"project", c!"version", c!"directory"]
        (m.map fun e => .row [e.1.project, if e.1.version = [] then c!"-" else e.1.version, e.2]) := by
  unfold output
  rcases h with ⟨h, rfl⟩ | ⟨h, hm⟩
  · simp [BazelPattern.isMatchall, h, rows]
  · have : pattern.isMatchall = false := by
      unfold BazelPattern.isMatchall
      cases hk : pattern.kind <;> simp_all
    simp [this, hm, rows]

/-- A rule with a source from another project. -/
def foreignSource : Str := c!"cc_library(name=\"a\",srcs=[\"@x//:gen.cc\"])"

/-- **C75** does not hold: projects in `srcs` are not found. -/
theorem C75_counterexample : ¬ C75_statement := by
  intro h
  have hs : Readable (projectOf foreignSource) := by
    refine C75_readable _ ?_
    intro f hf
    have hf : f = (somePkg, treeOf foreignSource) := by simpa [projectOf] using hf
    have hp : parsesWell foreignSource = true := by decide +kernel
    unfold parsesWell at hp
    split at hp
    · rename_i stmts st he
      exact ⟨_, _, _, he, by simpa using hp, by rw [hf]; simp [treeOf, he]⟩
    · cases hp
  obtain ⟨m, h1, p, h2, h3⟩ := h [⟨c!"x", c!"1", c!"d"⟩] ⟨⟨somePkg, []⟩, .allTargetInPackage⟩ _ hs
  have hm : filtered (build [] [⟨c!"x", c!"1", c!"d"⟩]) ⟨⟨somePkg, []⟩, .allTargetInPackage⟩
      (projectOf foreignSource) = some [] := by decide +kernel
  rw [hm] at h1
  cases h1
  have hb : build [] [⟨c!"x", c!"1", c!"d"⟩] = [(⟨c!"x", c!"1"⟩, c!"d")] := rfl
  rw [hb] at h2 h3
  have hpe : p (⟨c!"x", c!"1"⟩, c!"d") = true := by
    rw [h3 _ (by simp)]
    refine ⟨by simp [Lowest], c!"@x", ?_, .inl rfl⟩
    have hr : (rulesOf [] (treeOf foreignSource)).any (fun r => r.rule ≠ c!"load" && r.name = c!"a" &&
        stringsOf r.srcs = [c!"@x//:gen.cc"]) = true := by decide +kernel
    obtain ⟨r, hr, hc⟩ := List.any_eq_true.1 hr
    simp only [Bool.and_eq_true, decide_eq_true_eq] at hc
    refine ⟨somePkg, treeOf foreignSource, c!"@x//:gen.cc", ⟨⟨c!"@x", []⟩, c!"gen.cc"⟩, by simp [projectOf],
      by decide, .src (r := r) ⟨hr, hc.1.1, ⟨somePkg, c!"a"⟩, by rw [hc.1.2]; rfl, by decide⟩ (by rw [hc.2]; simp),
      by decide +kernel, rfl, by decide, by decide⟩
  simp [hpe] at h2

/-! ### Examples -/

/-- External projects that are known. -/
def someLog : List Entry :=
  [⟨c!"zlib", c!"1.3", c!"e/zlib~1.3"⟩, ⟨c!"absl", [], c!"e/absl"⟩, ⟨c!"re2", c!"2", c!"e/re2~2"⟩, ⟨c!"re2", c!"1", c!"e/re2~1"⟩,
    ⟨c!"rules_cc", [], c!"e/rules_cc"⟩]

def someText : Str :=
  c!"load(\"@rules_cc//cc:defs.bzl\", \"cc_library\")\ncc_library(name=\"a\",deps=[\"@zlib//:z\",\"@unknown//:u\",\":b\"])\nalias(name=\"b\",actual=\"@re2\")\n"

/-- Projects in the order of the map; of two versions, the smallest. -/
example : filtered (build [] someLog) ⟨⟨somePkg, []⟩, .allTargetInPackage⟩ (projectOf someText) =
    some [(⟨c!"re2", c!"1"⟩, c!"e/re2~1"), (⟨c!"rules_cc", []⟩, c!"e/rules_cc"), (⟨c!"zlib", c!"1.3"⟩, c!"e/zlib~1.3")] := by
  decide +kernel
/-- What is loaded is listed for every target of the package. -/
example : filtered (build [] someLog) ⟨⟨somePkg, c!"a"⟩, .exact⟩ (projectOf someText) =
    some [(⟨c!"rules_cc", []⟩, c!"e/rules_cc"), (⟨c!"zlib", c!"1.3"⟩, c!"e/zlib~1.3")] := by decide +kernel
/-- Nothing in other packages. -/
example : filtered (build [] someLog) ⟨⟨⟨[], c!"other"⟩, []⟩, .allTargetInPackage⟩ (projectOf someText) = some [] := by
  decide +kernel
example : output .csv (build [] someLog) ⟨⟨somePkg, c!"a"⟩, .exact⟩ (projectOf someText) =
    some c!"\"project\",\"version\",\"directory\"\n\"rules_cc\",\"-\",\"e/rules_cc\"\n\"zlib\",\"1.3\",\"e/zlib~1.3\"\n" := by
  decide +kernel

end Props
end Bant
