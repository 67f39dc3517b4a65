import Verif.Props.CompDb

/-! Headers below the directories in `includes`, in whatever package (C80). -/
namespace Bant
namespace Props
open Parser Query Rules CompDb CompDbSpec

theorem qualifiedFile_append (pkg : BazelPackage) (ws : Workspace.Map) {d : Str} (hd : d ≠ []) (rest : Str) :
    pkg.fullyQualifiedFile ws (d ++ rest) = pkg.fullyQualifiedFile ws d ++ rest ∧
      (d.getLast? ≠ some ':' → (pkg.fullyQualifiedFile ws d).getLast? = d.getLast?) := by
  cases d with
  | nil => exact absurd rfl hd
  | cons c d =>
    by_cases hc : c = ':'
    · subst hc
      constructor
      · simp [BazelPackage.fullyQualifiedFile, BazelPackage.qualifiedFile]
        repeat' split
        all_goals simp
      · intro hl
        cases d with
        | nil => simp at hl
        | cons c' d =>
          simp [BazelPackage.fullyQualifiedFile, BazelPackage.qualifiedFile]
          repeat' split
          all_goals simp [List.getLast?_cons]
    · constructor
      · simp [BazelPackage.fullyQualifiedFile, BazelPackage.qualifiedFile, hc]
        repeat' split
        all_goals simp
      · intro _
        simp [BazelPackage.fullyQualifiedFile, BazelPackage.qualifiedFile, hc]
        repeat' split
        all_goals simp [List.getLast?_cons]

/-- **C80**, as `includes` is documented, in whatever package of whatever project: a header below a directory in
`includes` is found, if it is included with its path from there. -/
theorem C80_declared_partial (ws : Workspace.Map) (files : List (BazelPackage × Node)) (dirs : List Str)
    (pkg : BazelPackage) (r : Result) (d dir rest : Str) (hs : ∀ f ∈ files, Searchable f.2) (hc : NoClash ws files)
    (hd : incDirs ws files = some dirs) (hr : CcRule files pkg r) (hi : d ∈ stringsOf r.includes)
    (hne : d ≠ []) (hcol : d.getLast? ≠ some ':') (hdir : HeaderSpec.DirOf d dir) :
    ∃ d ∈ dirs, Finds d rest (pkg.fullyQualifiedFile ws (dir ++ rest)) := by
  have hm := (C78_dirs_partial ws files dirs hs hc hd _).2 (.declared hr hi)
  refine ⟨_, hm, .inr ?_⟩
  obtain ⟨-, hl⟩ := qualifiedFile_append pkg ws hne []
  rcases hdir with ⟨h1, rfl⟩ | ⟨h1, rfl⟩
  · exact ⟨_, .inl ⟨by rw [hl hcol, h1], rfl⟩, (qualifiedFile_append pkg ws hne rest).1.symm⟩
  · refine ⟨_, .inr ⟨by rw [hl hcol]; exact h1, rfl⟩, ?_⟩
    rw [List.append_assoc, List.append_assoc, (qualifiedFile_append pkg ws hne _).1]

/-- In `p/BUILD`; in one way as documented, in the other as bant associates headers with libraries. -/
def belowText : Str := c!"cc_library(name = \"l\", hdrs = [\"inc/h.h\"], includes = [\"inc\"])"
def rootedText : Str := c!"cc_library(name = \"l\", hdrs = [\"inc/h.h\"], includes = [\"p/inc\"])"

theorem ccRule_of {text : Str} {includes : List Str}
    (h : (rulesOf [c!"cc_library", c!"cc_binary", c!"cc_test", c!"proto_library"] (treeOf text)).any (fun r =>
        decide (r.includePrefix = [] ∧ stringsOf r.hdrs = [c!"inc/h.h"] ∧ stringsOf r.includes = includes ∧
          r.stripIncludePrefix = [])) = true) :
    ∃ r, CcRule (projectOf text) somePkg r ∧ r.includePrefix = [] ∧ stringsOf r.hdrs = [c!"inc/h.h"] ∧
      stringsOf r.includes = includes ∧ r.stripIncludePrefix = [] := by
  obtain ⟨r, hr, hx⟩ := List.any_eq_true.1 h
  exact ⟨r, ⟨_, by simp [projectOf], hr⟩, of_decide_eq_true hx⟩

/-- The assumptions of `C80_declared_partial` hold, and the header is found in `p/inc`. But the library is not taken
for one that provides `h.h`: for that, the directory has to be seen from the root. -/
example : incDirs [] (projectOf belowText) = some [c!".", c!"bazel-bin", c!"p/inc"] ∧
    Finds c!"p/inc" c!"h.h" (somePkg.fullyQualifiedFile [] c!"inc/h.h") ∧
    ∃ r, CcRule (projectOf belowText) somePkg r ∧ c!"inc" ∈ stringsOf r.includes ∧
      ¬ HeaderSpec.IncludedAs somePkg r c!"inc/h.h" c!"h.h" := by
  obtain ⟨r, h1, h2, h3, h4, h5⟩ := ccRule_of (text := belowText) (includes := [c!"inc"]) (by decide +kernel)
  refine ⟨by decide +kernel, .inr ⟨c!"p/inc/", .inr ⟨by decide, rfl⟩, by decide⟩, r, h1, by simp [h4], fun h => ?_⟩
  have e : somePkg.qualifiedFile c!"inc/h.h" = c!"p/inc/h.h" := by decide
  suffices ∀ x, HeaderSpec.IncludedAs somePkg r c!"inc/h.h" x → c!"h.h" ≠ x from this _ h rfl
  intro x h hx
  cases h with
  | prescribed h => exact h h2
  | short _ ht hne _ =>
    obtain ⟨n, m, h6, _⟩ := ht
    rw [h5] at h6
    simp at h6
    exact hne h6.2.1
  | long => rw [e] at hx; revert hx; decide
  | relative _ hd hdir hq =>
    rw [h4, List.mem_singleton] at hd
    subst hd
    rw [e] at hq
    rcases hdir with ⟨h6, _⟩ | ⟨_, rfl⟩
    · revert h6; decide
    · subst hx; revert hq; decide

/-- **C80** is false for another reason: a directory in `includes` that is seen from the root, by which bant associates
`h.h` with the library, is not the directory that is given to the compiler. -/
theorem C80_includes_counterexample : ¬ C80_statement := by
  intro hst
  obtain ⟨r, h1, h2, h3, h4, h5⟩ := ccRule_of (text := rootedText) (includes := [c!"p/inc"]) (by decide +kernel)
  obtain ⟨d, hd, hf⟩ := hst [] (projectOf rootedText) [c!".", c!"bazel-bin", c!"p/p/inc"] somePkg r c!"inc/h.h" c!"h.h"
    (projectOf_searchable (by decide +kernel)) (by decide +kernel) h1 rfl h2 (by simp [h3])
    (.relative (d := c!"p/inc") (dir := c!"p/inc/") h2 (by simp [h4]) (.inr ⟨by decide, rfl⟩) (by decide))
  have e : somePkg.fullyQualifiedFile [] c!"inc/h.h" = c!"p/inc/h.h" := by decide
  rw [e] at hf
  simp only [List.mem_cons, List.not_mem_nil, or_false] at hd
  rcases hd with rfl | rfl | rfl
  · rcases hf with ⟨_, h⟩ | ⟨d, hd | hd, h⟩
    · revert h; decide
    · exact absurd hd.1 (by decide)
    · rw [hd.2] at h; revert h; decide
  all_goals
    rcases hf with ⟨h, _⟩ | ⟨d, hd | hd, h⟩
    · revert h; decide
    · exact absurd hd.1 (by decide)
    · rw [hd.2] at h; revert h; decide

end Props
end Bant
