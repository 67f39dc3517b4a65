import Verif.Props.Collect

/-! What is loaded for a pattern, in any file system (C63). -/
namespace Bant.Props
open Collect CollectSpec FileUtils FileSpec Spec Project

theorem addFile_find {p p' : State} {pkg q : BazelPackage} {name : Str} {content : Option Str} {base : Nat}
    {a : Option BuildFile} {f : BuildFile} (h : p.addFile pkg name content base = some (a, p'))
    (hf : p'.find q = some f) :
    p.find q = some f ∨ q = pkg ∧ f.source.name = name ∧ content = some f.source.content := by
  cases content with
  | none =>
    simp only [State.addFile, Option.some.injEq, Prod.mk.injEq] at h
    rw [← h.2] at hf
    exact .inl hf
  | some c =>
    simp only [State.addFile] at h
    split at h
    · cases h
    · rename_i g p1 hc
      simp only [Option.some.injEq, Prod.mk.injEq] at h
      rw [← h.2] at hf
      unfold State.addContent at hc
      split at hc
      · cases hc; exact .inl hf
      · split at hc
        · cases hc
        · simp only [Option.some.injEq, Prod.mk.injEq] at hc
          have hf : State.find ⟨p.files ++ [(pkg, g)], 0, []⟩ q = some f := by
            rw [← hf, ← hc.2, ← hc.1]
            rfl
          rw [find_append] at hf
          cases hq : p.find q with
          | some g' => rw [hq] at hf; simp at hf; exact .inl (by rw [hf])
          | none =>
            rw [hq, Option.none_or] at hf
            split at hf
            · rename_i hpq
              cases hf
              exact .inr ⟨hpq.symm, by rw [← hc.1], by rw [← hc.1]⟩
            · cases hf

theorem addFound_all {ws : Workspace.Map} {project : Str} {read : Str → Option Str} {base : Str → Nat}
    (Good : BazelPackage → BuildFile → Prop) : ∀ (files : List Str) (p p' : State),
    (∀ file ∈ files, ∀ pkg f, packageOf ws file project = some (some pkg) → f.source.name = file →
      read file = some f.source.content → Good pkg f) →
    (∀ q f, p.find q = some f → Good q f) → files.foldlM (addFound ws project read base) p = some p' →
    ∀ q f, p'.find q = some f → Good q f
  | [], p, p', _, h2, h3 => by
    simp only [List.foldlM_nil, Option.pure_def, Option.some.injEq] at h3
    rw [← h3]
    exact h2
  | file :: files, p, p', h1, h2, h3 => by
    rw [List.foldlM_cons] at h3
    simp only [Option.bind_eq_bind, Option.bind_eq_some_iff] at h3
    obtain ⟨p1, h4, h5⟩ := h3
    refine addFound_all Good files p1 p' (fun x hx => h1 x (List.mem_cons_of_mem _ hx)) ?_ h5
    intro q f hf
    unfold addFound at h4
    split at h4
    · cases h4
    · cases h4; exact h2 q f hf
    · rename_i pkg hpk
      obtain ⟨⟨a, p2⟩, h6, h7⟩ := Option.map_eq_some_iff.1 h4
      have h7 : p2 = p1 := h7
      subst h7
      rcases addFile_find h6 hf with h | ⟨rfl, h8, h9⟩
      · exact h2 q f h
      · exact h1 file List.mem_cons_self q f hpk h8 h9

/-- **C63**, nothing else is loaded, in any file system (with links, cycles, or whatever inodes): what is loaded is the
content of a BUILD file in a directory at the pattern, or below if it is recursive; for the package of that directory
if that does not begin with a dot. -/
theorem C63_nothing_else_partial (t : Tree) (symlink : Str → Bool) (ws : Workspace.Map) (read : Str → Option Str)
    (base : Str → Nat) (pattern : BazelPattern) (n : Nat) (p : State) (k : Nat)
    (hn : Named t) (hroots : Roots ws) (hp : Tidy pattern.pattern.package.path)
    (h : fillFromPattern t symlink ws read base {} pattern n = some (p, k))
    (q : BazelPackage) (f : BuildFile) (hf : p.find q = some f) :
    read f.source.name = some f.source.content ∧
      ∃ names pkg, BuildFileOf t symlink ws pattern names pkg f.source.name ∧ pattern.matchPackage pkg = true ∧
        (pkg.path.head? ≠ some '.' → q = pkg) := by
  unfold fillFromPattern at h
  cases hc : collectBuildFiles t symlink ws pattern n with
  | none => rw [hc] at h; cases h
  | some files =>
    rw [hc] at h
    obtain ⟨p1, h1, h2⟩ := Option.map_eq_some_iff.1 h
    simp only [Prod.mk.injEq] at h2
    rw [h2.1] at h1
    refine addFound_all (fun q f => read f.source.name = some f.source.content ∧
      ∃ names pkg, BuildFileOf t symlink ws pattern names pkg f.source.name ∧ pattern.matchPackage pkg = true ∧
        (pkg.path.head? ≠ some '.' → q = pkg)) files {} p ?_ (fun q f hf => by cases hf) h1 q f hf
    rintro file hfile q f hq rfl hr
    obtain ⟨names, pkg, h3, h4, h5⟩ := C50_found_partial t symlink ws pattern n files hn hroots hp hc _ hfile
    refine ⟨hr, names, pkg, h3, h4, fun hd => ?_⟩
    have := h5 hd
    rw [hq] at this
    cases this
    rfl

/-- Where a directory is hidden by a link, nothing is loaded; in the file systems of the other counterexamples, something
is. -/
example : (fillFromPattern linked (fun p => p = c!"./latest") [] (fun _ => some c!"x = 1") (fun _ => 0) {} everything 9).map
      (fun r => r.1.files.map (·.1)) = some [] ∧
    (fillFromPattern hidden (fun _ => false) [] (fun _ => some c!"x = 1") (fun _ => 0) {} everything 9).map
      (fun r => r.1.files.map fun e => (e.1, e.2.source.name)) = some [(⟨[], c!"github"⟩, c!"./.github/BUILD")] ∧
    (fillFromPattern twoProjects (fun _ => false) twoWs (fun _ => some c!"x = 1") (fun _ => 0) {} everything 9).map
      (fun r => r.1.files.map fun e => (e.1, e.2.source.name)) =
        some [(⟨[], []⟩, c!"./BUILD"), (⟨[], c!"a/b"⟩, c!"./a/b/BUILD.bazel")] := by decide +kernel

end Bant.Props
