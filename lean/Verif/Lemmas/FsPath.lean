import Verif.Spec.FsPath
import Verif.Lemmas.Str

namespace Bant
namespace FsPath
open FsPathSpec FileUtils

theorem lastStart_spec (path : Str) : IsLastElement (path.drop (lastStart path)) path := by
  rw [lastStart]
  cases h : splitLast '/' path with
  | none => exact ⟨by simpa using splitLast_eq_none.1 h, .inl (by simp)⟩
  | some r =>
    obtain ⟨a, b⟩ := r
    obtain ⟨h1, h2⟩ := splitLast_eq_some h
    have : path.drop (a.length + 1) = b := by rw [h1]; simp
    simp only [this]
    exact ⟨h2, .inr ⟨a, h1⟩⟩

/-- What is memoized is right. -/
structure Good (os : System) (p : Path) : Prop where
  offset : ∀ o, p.offset = some o → IsLastElement (p.path.drop o) p.path
  canRead : ∀ b, p.canRead = some b → b = os.access p.path
  isDir : ∀ b, p.isDir = some b → b = decide (os.stat p.path = some true)
  isLink : ∀ b, p.isLink = some b → b = decide (os.lstat p.path = some true)

theorem ask_good {os : System} {p : Path} (h : Good os p) (q : Query) :
    Good os (ask os p q).1 ∧ (ask os p q).1.path = p.path ∧ Right os p.path q (ask os p q).2 := by
  obtain ⟨h1, h2, h3, h4⟩ := h
  cases q with
  | path => exact ⟨⟨h1, h2, h3, h4⟩, rfl, rfl⟩
  | filename =>
    simp only [ask, filename]
    cases ho : p.offset with
    | some o => exact ⟨⟨h1, h2, h3, h4⟩, rfl, _, rfl, h1 o ho⟩
    | none =>
      refine ⟨⟨?_, h2, h3, h4⟩, rfl, _, rfl, lastStart_spec _⟩
      intro o ho'
      simp only [Option.some.injEq] at ho'
      subst ho'
      exact lastStart_spec _
  | canRead =>
    simp only [ask, canRead]
    cases ho : p.canRead with
    | some o => exact ⟨⟨h1, h2, h3, h4⟩, rfl, congrArg _ (h2 o ho)⟩
    | none => exact ⟨⟨h1, fun b hb => by simpa using hb.symm, h3, h4⟩, rfl, rfl⟩
  | isDirectory =>
    simp only [ask, isDirectory]
    cases ho : p.isDir with
    | some o => exact ⟨⟨h1, h2, h3, h4⟩, rfl, congrArg _ (h3 o ho)⟩
    | none =>
      cases hs : os.stat p.path with
      | none => exact ⟨⟨h1, h2, h3, h4⟩, rfl, by simp [Right, hs]⟩
      | some b =>
        refine ⟨⟨h1, h2, fun b' hb => ?_, h4⟩, rfl, by simp [Right, hs]⟩
        simp only [Option.some.injEq] at hb
        simp [hs, hb]
  | isSymlink =>
    simp only [ask, isSymlink]
    cases ho : p.isLink with
    | some o => exact ⟨⟨h1, h2, h3, h4⟩, rfl, congrArg _ (h4 o ho)⟩
    | none =>
      cases hs : os.lstat p.path with
      | none => exact ⟨⟨h1, h2, h3, h4⟩, rfl, by simp [Right, hs]⟩
      | some b =>
        refine ⟨⟨h1, h2, h3, fun b' hb => ?_⟩, rfl, by simp [Right, hs]⟩
        simp only [Option.some.injEq] at hb
        simp [hs, hb]

theorem askAll_good {os : System} (qs : List Query) {p : Path} (h : Good os p) :
    (askAll os p qs).length = qs.length ∧
    ∀ (i : Nat) q a, qs[i]? = some q → (askAll os p qs)[i]? = some a → Right os p.path q a := by
  induction qs generalizing p with
  | nil => exact ⟨rfl, by simp⟩
  | cons q qs ih =>
    obtain ⟨h1, h2, h3⟩ := ask_good h q
    obtain ⟨i1, i2⟩ := ih h1
    refine ⟨by simp [askAll, i1], ?_⟩
    intro i q' a hq ha
    cases i with
    | zero =>
      simp only [askAll, List.getElem?_cons_zero, Option.some.injEq] at hq ha
      subst hq; subst ha; exact h3
    | succ i =>
      simp only [askAll, List.getElem?_cons_succ] at hq ha
      rw [← h2]; exact i2 i q' a hq ha

theorem ofParts_drop (upTo name : Str) : (ofParts upTo name).path.drop ((stripBack '/' upTo).length + 1) = name := by
  simp [ofParts]

theorem good_ofParts (os : System) (upTo name : Str) (h : '/' ∉ name) : Good os (ofParts upTo name) := by
  refine ⟨?_, by simp [ofParts], by simp [ofParts], by simp [ofParts]⟩
  intro o ho
  simp only [ofParts, Option.some.injEq] at ho
  subst ho
  rw [ofParts_drop]
  exact ⟨h, .inr ⟨_, rfl⟩⟩

end FsPath
end Bant
