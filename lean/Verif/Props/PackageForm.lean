import Verif.Props.Targets

/-! C06: the form of packages, whatever they are read from. -/
namespace Bant
namespace Props
open Spec

/-- **C06** (b), for all strings: the path of a package consists of parts separated by single slashes, the
name of its project has no version and no slash, and colons are left only of a text with several. -/
theorem C06_any_partial (s : Str) (p : BazelPackage) (h : BazelPackage.parseFrom s = some p) :
    (∃ parts : List Str, (∀ c ∈ parts, c ≠ [] ∧ '/' ∉ c) ∧ p.path = joinPath parts) ∧
    '~' ∉ p.project ∧ '/' ∉ p.project ∧
    (':' ∈ p.path ∨ ':' ∈ p.project → 2 ≤ s.count ':') := by
  refine ⟨?_, ?_⟩
  · have facts : p.path.head? ≠ some '/' ∧ p.path.getLast? ≠ some '/' ∧ containsDouble '/' p.path = false := by
      simp only [BazelPackage.parseFrom] at h
      split at h
      · cases h
      · split at h
        · cases h
        · rename_i hd
          simp only [Option.some.injEq] at h
          subst h
          exact ⟨stripBack_head (stripFront_head _ _), stripBack_last _ _, by simpa using hd⟩
    obtain ⟨hh, hl, hd⟩ := facts
    cases hp : p.path with
    | nil => exact ⟨[], by simp, rfl⟩
    | cons x xs =>
      rw [hp] at hh hl hd
      simp at hh
      refine ⟨splitAll '/' (x :: xs), ?_, (joinPath_splitAll _).symm⟩
      intro c hmem
      refine ⟨?_, splitAll_pieces hmem⟩
      have ht := not_double_splitAll_tail hd hl
      obtain ⟨p, ps, h1, _⟩ := splitAll_head_ne_nil (xs := xs) hh
      rw [h1] at hmem ht
      rcases List.mem_cons.1 hmem with rfl | hm
      · simp
      · exact ht c (by simpa using hm)
  · have hsl : '~' ∉ p.project ∧ '/' ∉ p.project := by
      simp only [BazelPackage.parseFrom] at h
      split at h
      · cases h
      · split at h
        · cases h
        · simp only [Option.some.injEq] at h
          subst h
          refine ⟨not_mem_beforeFirst _ _, ?_⟩
          intro hm
          have hm := beforeFirst_subset hm
          unfold BazelPackage.projectAndPath at hm
          split at hm
          · simp only at hm
            split at hm
            · simp at hm
            · exact not_mem_beforeFirst _ _ hm
          · simp at hm
    refine ⟨hsl.1, hsl.2, ?_⟩
    intro hc
    apply Classical.byContradiction
    intro hn
    obtain ⟨h1, _, h2⟩ := C06_package_normal_form_partial s (by omega) p h
    rcases hc with hc | hc
    · exact (wfPath_facts h1).2.2.2 hc
    · rcases h2 with h2 | h2 | ⟨r, h2, _, _, h3, _⟩
      · rw [h2] at hc; simp at hc
      · rw [h2] at hc; cases hc
      · rw [h2] at hc
        rcases List.mem_cons.1 hc with h | h
        · cases h
        · exact h3 h

example : BazelPackage.parseFrom c!"@x:y~1//a:b/:c:d" = some ⟨c!"@x:y", c!"a:b/:c"⟩ := by decide
example : (BazelPackage.parseFrom c!"@x:y~1//a:b/:c:d").map (·.path) = some (joinPath [c!"a:b", c!":c"]) := by decide

end Props
end Bant
