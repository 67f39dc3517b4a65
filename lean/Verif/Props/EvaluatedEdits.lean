import Verif.Props.Lengthened

/-! What `-e` adds to the edits of `canonicalize` (C135). -/
namespace Bant
namespace Props
open Commands hiding Result
open CommandSpec Cli Query Rules Headers GraphSpec EvalSpec StableSpec RulesSpec Table

theorem keys_ext {files files' : Loaded} (h : (files.map (·.1)).Pairwise fun a b => Ordered.lt a b = true)
    (h' : (files'.map (·.1)).Pairwise fun a b => Ordered.lt a b = true)
    (hk : ∀ pkg, pkg ∈ files'.map (·.1) ↔ pkg ∈ files.map (·.1)) : files'.map (·.1) = files.map (·.1) := by
  have e := sorted_ext (l := (files'.map (·.1)).map fun k => (k, ())) (l' := (files.map (·.1)).map fun k => (k, ()))
    (by rw [List.map_map, List.map_map]; exact h') (by rw [List.map_map, List.map_map]; exact h) (by
      rintro ⟨pkg, ⟨⟩⟩
      have := hk pkg
      constructor
      · intro hm
        obtain ⟨k, h1, h2⟩ := List.mem_map.1 hm
        cases h2
        exact List.mem_map.2 ⟨_, this.1 h1, rfl⟩
      · intro hm
        obtain ⟨k, h1, h2⟩ := List.mem_map.1 hm
        cases h2
        exact List.mem_map.2 ⟨_, this.2 h1, rfl⟩)
  have e := congrArg (List.map (·.1)) e
  rw [List.map_map, List.map_map, List.map_map, List.map_map] at e
  exact e

/-- What is made of rules one after the other, if there is more in each of them. -/
theorem flatMap_within {α β γ : Type} {R : α → β → Prop} {f : α → List γ} {g : β → List γ}
    (h : ∀ a b, R a b → (f a).Sublist (g b)) {as : List α} {bs : List β} (hw : Within R as bs) :
    (as.flatMap f).Sublist (bs.flatMap g) := by
  obtain ⟨cs, h1, h2⟩ := hw
  have hsub : (cs.flatMap g).Sublist (bs.flatMap g) := by
    clear h2
    induction h1 with
    | slnil => exact .slnil
    | cons a _ ih => rw [List.flatMap_cons]; exact ih.trans (List.sublist_append_right _ _)
    | cons_cons a _ ih => rw [List.flatMap_cons, List.flatMap_cons]; exact (List.Sublist.refl _).append ih
  refine List.Sublist.trans ?_ hsub
  clear h1 hsub
  induction h2 with
  | nil => exact .slnil
  | cons hr _ ih =>
    rw [List.flatMap_cons, List.flatMap_cons]
    exact (h _ _ hr).append ih

/-- **C135** for `canonicalize`: the edits are still suggested, in the same order, with others in between. -/
theorem C135_canonicalize_partial {m : Machine} (hh : Healthy m) {flags : Flags} {pattern : BazelPattern}
    {ws : Workspace.Map} {found : List Str} {files : Loaded} (he : flags.elaborate = false) (hu : UsualFiles m files)
    (hs : Starts m flags .canonicalizeDeps pattern ws found files) :
    ∃ edits edits', Suggests m flags .canonicalizeDeps pattern (note found) edits ∧
      Suggests m (evaluated flags) .canonicalizeDeps pattern (note found) edits' ∧ edits.Sublist edits' := by
  obtain ⟨files', hs', hi⟩ := C135_files hh hs (by simp [needsProject]) (by simp [evaluates, he])
  refine ⟨_, _, canonicalize_run hh hs, canonicalize_run hh hs', List.Sublist.filterMap _ ?_⟩
  unfold matchingDeps
  refine flatMap_more _ (by rw [trees_keys, trees_keys]; exact keys_ext hs.opened.order hs'.opened.order hi.other)
    (by rw [trees_keys]; exact starts_nodup hs) fun pkg ast hm => ?_
  obtain ⟨file, h1, rfl⟩ := mem_trees.1 hm
  obtain ⟨file', h2, _, h3, _⟩ := improved_rules hi hu h1
  refine ⟨file'.ast, mem_trees.2 ⟨file', h2, rfl⟩, flatMap_within (R := Adds) (fun r r' hr => ?_) h3⟩
  rw [hr.name]
  cases BazelPackage.qualifiedTarget pkg r.name with
  | none => exact .slnil
  | some t =>
    simp only
    split
    · exact (hr.lists _ (by simp)).map _
    · exact .slnil

/-- The second list is only known with `-e`. -/
def halfKnown : List (Str × Str) :=
  [(c!"p/BUILD", c!"D=[\"//p:x\"]\ncc_library(name=\"a\",deps=D)\ncc_library(name=\"b\",deps=[\"//p:a\"])")]

example : (runCommand (disk halfKnown) {} .canonicalizeDeps everything).map (·.out) =
      some c!"buildozer 'replace deps //p:a :a' //p:b\n" ∧
    (runCommand (disk halfKnown) (evaluated {}) .canonicalizeDeps everything).map (·.out) =
      some c!"buildozer 'replace deps //p:x :x' //p:a\nbuildozer 'replace deps //p:a :a' //p:b\n" := by decide +kernel

end Props
end Bant
