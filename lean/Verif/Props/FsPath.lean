import Verif.Lemmas.FsPath

/-!
C66: a path object answers as the operating system does; its file name is the element after the
last slash.
-/
namespace Bant
namespace Props
open FsPath FsPathSpec FileUtils

/-- **C66**, as stated, for paths however they are made, and any sequence of questions while the file
system stays as it is. -/
def C66_statement : Prop :=
  ∀ (os : System) (p : Path) (qs : List Query),
    ((∃ s, p = ofString s) ∨ (∃ upTo name, p = ofParts upTo name) ∨
      ∃ upTo e, p = ofDirent upTo e ∧ '/' ∉ e.name ∧ Faithful os p.path e) →
    (askAll os p qs).length = qs.length ∧
    ∀ (i : Nat) q a, qs[i]? = some q → (askAll os p qs)[i]? = some a → Right os p.path q a

/-- The file name of the path that is made of `a` and `b/c` is taken to be `b/c`. -/
theorem C66_counterexample : ¬ C66_statement := by
  intro h
  have := (h ⟨fun _ => true, fun _ => none, fun _ => none⟩ (ofParts c!"a" c!"b/c") [.filename]
    (.inr (.inl ⟨_, _, rfl⟩))).2 0 .filename (.text c!"b/c") rfl (by decide)
  obtain ⟨name, h1, h2, _⟩ := this
  cases h1
  exact absurd h2 (by decide)

/-- **C66** for paths of which the second part has no slash. -/
theorem C66_answers_partial (os : System) (p : Path) (qs : List Query)
    (hp : (∃ s, p = ofString s) ∨ (∃ upTo name, p = ofParts upTo name ∧ '/' ∉ name) ∨
      ∃ upTo e, p = ofDirent upTo e ∧ '/' ∉ e.name ∧ Faithful os p.path e) :
    (askAll os p qs).length = qs.length ∧
    ∀ (i : Nat) q a, qs[i]? = some q → (askAll os p qs)[i]? = some a → Right os p.path q a := by
  apply askAll_good
  rcases hp with ⟨s, rfl⟩ | ⟨upTo, name, rfl, hn⟩ | ⟨upTo, e, rfl, hn, hd, hl⟩
  · exact ⟨by simp [ofString], by simp [ofString], by simp [ofString], by simp [ofString]⟩
  · exact good_ofParts os upTo name hn
  · obtain ⟨h1, h2, h3, h4⟩ := good_ofParts os upTo e.name hn
    rw [ofDirent]
    cases ht : e.type with
    | link =>
      refine ⟨h1, h2, by simp, ?_⟩
      intro b hb
      simp only [Option.some.injEq] at hb
      subst hb
      have := hl ht
      simp only [ofDirent, ht] at this
      simp [this]
    | dir =>
      have := hd ht
      simp only [ofDirent, ht] at this
      refine ⟨h1, h2, ?_, ?_⟩
      · intro b hb
        simp only [Option.some.injEq] at hb
        simp [← hb, this.1]
      · intro b hb
        simp only [Option.some.injEq] at hb
        simp [← hb, this.2]
    | unknown => exact ⟨h1, h2, h3, h4⟩
    | other => exact ⟨h1, h2, h3, h4⟩

/-- The path itself: the parts with one slash between them. -/
theorem C66_path (upTo name : Str) :
    (ofParts upTo name).path = stripBack '/' upTo ++ c!"/" ++ name := by simp [ofParts]

/-- A link to a directory. -/
example : askAll ⟨fun _ => true, fun _ => some true, fun _ => some true⟩
    (ofDirent c!"a//" ⟨c!"x", 7, .link⟩) [.isDirectory, .path, .isSymlink, .filename, .isDirectory, .canRead] =
    [.bool true, .text c!"a/x", .bool true, .text c!"x", .bool true, .bool true] := by decide
/-- Something that does not exist, and a path that ends in a slash. -/
example : askAll ⟨fun _ => false, fun _ => none, fun _ => none⟩
    (ofString c!"a/") [.isDirectory, .path, .isSymlink, .filename, .isDirectory, .canRead] =
    [.bool false, .text c!"a/", .bool false, .text [], .bool false, .bool false] := by decide

end Props
end Bant
