import Verif.Lemmas.GraphCrash
import Verif.Props.DepGraph

/-! C62: exactly when following dependencies crashes. -/
namespace Bant
namespace Props
open Query Rules Headers DepGraph GraphSpec

/-- There is something called BUILD or BUILD.bazel for the package that one may read, but that cannot be
read: a directory, say. -/
def Unreadable (w : World) (pkg : BazelPackage) : Prop :=
  ∃ path, pathForPackage w pkg = some path ∧ w.fs.content path = none

/-- **C62**, an exact account: if nothing is missing in the BUILD files, building the graph crashes if,
and only if, a target can be reached within the given number of steps whose package is not loaded and has
something called BUILD that cannot be read. -/
theorem C62_crash (w : World) (pattern : BazelPattern) (depth : Int) (files : Files)
    (hs : ∀ f ∈ files, Searchable f.2)
    (hclean : ∀ path text, IsBuild path → w.fs.content path = some text → UsableText text) :
    build w pattern depth files = none ↔
      ∃ n t, n ≤ depth.toNat ∧ ReachIn w pattern files n t ∧ lookup files t.package = none ∧
        Unreadable w t.package := by
  have key : ∀ pkg, (load w pkg = none ↔ Unreadable w pkg) ∧ (load w pkg ≠ none → LoadsWell w pkg) := by
    intro pkg
    cases hp : pathForPackage w pkg with
    | none =>
      refine ⟨by simp [load, Unreadable, hp], fun _ => ⟨none, by simp [load, hp], by simp⟩⟩
    | some path =>
      have hb : IsBuild path := by
        have below : ∀ start : Str,
            ([c!"BUILD", c!"BUILD.bazel"].map (Workspace.join start)).find? w.fs.canRead = some path →
            IsBuild path := by
          intro start h
          obtain ⟨name, hn, rfl⟩ := List.mem_map.1 (List.mem_of_find?_eq_some h)
          exact ⟨name, hn, .inr ⟨_, rfl⟩⟩
        unfold pathForPackage at hp
        simp only [] at hp
        by_cases hproj : pkg.project = []
        · rw [if_pos hproj] at hp; exact below _ hp
        · rw [if_neg hproj] at hp
          cases hf : Workspace.findPath w.workspace pkg.project with
          | none => rw [hf] at hp; cases hp
          | some root => rw [hf] at hp; exact below _ hp
      cases hc : w.fs.content path with
      | none => exact ⟨by simp [load, Unreadable, hp, hc], fun h => absurd (by simp [load, hp, hc]) h⟩
      | some text =>
        obtain ⟨ast, st, h1, _, h3⟩ := hclean path text hb hc
        obtain ⟨out, h4, h5⟩ := h3 (w.glob pkg)
        have hl : load w pkg = some (some out) := by simp [load, hp, hc, h1, h4]
        refine ⟨by simp [hl, Unreadable, hp, hc], fun _ => ⟨some out, hl, ?_⟩⟩
        rintro a ⟨⟩
        exact h5.toSearchable
  rw [build_crash depth hs fun pkg _ h => (key pkg).2 h]
  simp only [(key _).1]

/-- A directory with the name BUILD, in the package of a dependency. -/
def badWorld : World :=
  ⟨⟨fun p => p == c!"q/BUILD", fun p => p == c!"q/BUILD", fun _ => none, fun _ => []⟩, [], fun _ _ _ => []⟩

example : Unreadable badWorld ⟨[], c!"q"⟩ := ⟨c!"q/BUILD", by decide, rfl⟩
/-- It is only a problem if dependencies are followed. -/
example : build badWorld .always 1 (projectOf dependingText) = none := by decide +kernel
example : (build badWorld .always 0 (projectOf dependingText)).isSome = true := by decide +kernel

end Props
end Bant
