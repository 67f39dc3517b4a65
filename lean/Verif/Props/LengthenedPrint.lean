import Verif.Props.Lengthened
import Verif.Props.Parts

/-! Appending rules to BUILD files only adds to what `print` writes (C142). -/
namespace Bant
namespace Props
open Commands hiding Result
open CommandSpec Cli Query Rules Headers GraphSpec Table

/-- **C142** for `print`: the rules are still printed, in the same order, with others in between. (The numbers of lines
are given.) -/
theorem C142_print {m m' : Machine} (h : Lengthened m m') (hh : Healthy m) (hh' : Healthy m') {flags : Flags}
    {pattern : BazelPattern} {ws : Workspace.Map} {found : List Str} {files : Loaded}
    (hs : Starts m flags .print pattern ws found files) (hg : flags.grep = []) (hc : m.color = false)
    (he : flags.onlyErrors = false) {ran ran' : Ran} (hr : runCommand m flags .print pattern = some ran)
    (hr' : runCommand m' flags .print pattern = some ran') :
    ∃ rules rules' : List (BazelPackage × Nat × Query.Result),
      ran = ⟨0, Print.printStatements (rules.map (ruleText m.callLoc)), note found⟩ ∧
      ran' = ⟨0, Print.printStatements (rules'.map (ruleText m'.callLoc)), note found⟩ ∧ rules.Sublist rules' := by
  obtain ⟨files', hs', hf⟩ := C142_files h hh hh' hs (by simp [needsProject])
  obtain ⟨chosen, h1, h2⟩ := print_written hs hg hc hr
  obtain ⟨chosen', h3, h4⟩ := print_written hs' hg (by rw [h.rest]; exact hc) hr'
  have e : chosen' = chosen := funext fun x => by rw [Bool.eq_iff_iff, h1, h3]
  subst e
  refine ⟨_, _, h2, h4, List.Sublist.filter _ ?_⟩
  have hall : ∀ vs : List (BazelPackage × Node × Bool), (vs.filter fun v => !flags.onlyErrors || v.2.2) = vs := by
    intro vs
    rw [List.filter_eq_self]
    simp [he]
  have hk : ∀ l : Loaded, (views l).map (·.1) = l.map (·.1) := by
    intro l
    rw [views, List.map_map]
    rfl
  unfold printable
  rw [hall, hall]
  refine flatMap_more _ (by rw [hk, hk]; exact moreFiles_keys hs hs' hf) (by rw [hk]; exact starts_nodup hs)
    fun pkg v hm => ?_
  obtain ⟨⟨_, file⟩, g1, g2⟩ := List.mem_map.1 hm
  cases g2
  obtain ⟨file', g3, _, g4⟩ := hf.there _ _ g1
  obtain ⟨more, e⟩ := g4 [] true
  refine ⟨_, List.mem_map.2 ⟨_, g3, rfl⟩, ?_⟩
  simp only [e, List.zipIdx_append, List.map_append]
  exact List.sublist_append_left _ _

/-- Something without name is printed in between. -/
example : (runCommand (disk (longNames [])) {} .print everything).map (·.out) =
      some (c!"#  //a:l\ncc_library(\n    name = \"l\",\n    deps = [\"//a:k\"]\n)\n" ++
        c!"#  //b:g\ncc_library(\n    name = \"g\",\n    deps = [\"//b:h\"]\n)\n") ∧
    (runCommand (disk (longNames c!"\nload(\"x\")")) {} .print everything).map (·.out) =
      some (c!"#  //a:l\ncc_library(\n    name = \"l\",\n    deps = [\"//a:k\"]\n)\n# \nload(\"x\",)\n" ++
        c!"#  //b:g\ncc_library(\n    name = \"g\",\n    deps = [\"//b:h\"]\n)\n") := by decide +kernel

end Props
end Bant
