import Verif.Lemmas.ElabCrash
import Verif.Props.Elab

/-! C20: exactly when evaluation crashes. -/
namespace Bant
namespace Props
open Elab Meaning Parser

/-- After the statements `pre`, the variable `f` has the value `v`: that of the last assignment to it. -/
def HasValue (glob : GlobFn) (pre : List Node) (f : Str) (v : Node) : Prop :=
  ∃ a e b out, pre = a ++ .assign (.ident f) e :: b ∧ f ∉ assigned b ∧
    elabFile glob (.list .list pre) = some (.list .list out) ∧ out[a.length]? = some (.assign (.ident f) v)

/-- **C20**, an exact account for files without syntax errors: their evaluation crashes if, and only if, a
function is called in some statement whose name has been assigned before, with a value that is not a name.
(Of an assignment, only the right side is looked at.) -/
theorem C20_crash_partial (glob : GlobFn) (content : Str) (stmts : List Node) (st : PState)
    (h : parseFile content = some (.list .list stmts, st)) (herr : st.errs = []) :
    elabFile glob (.list .list stmts) = none ↔
      ∃ pre s post f v, stmts = pre ++ s :: post ∧ f ∈ callsOf s ∧ HasValue glob pre f v ∧ ∀ i, v ≠ .ident i := by
  have hs := file_stmts h herr
  have hv : VarsOk ([] : Vars) := by intro x m hm; simp [Vars.find] at hm
  have e1 : ∀ l, elabFile glob (.list .list l) = (walks glob 0 [] l).map fun r => .list .list r.1 := by
    intro l
    simp only [elabFile, walk]
    cases walks glob 0 [] l <;> rfl
  rw [e1, Option.map_eq_none_iff, stmts_crash glob stmts hv hs]
  constructor
  · rintro ⟨pre, s, post, out, vars, rfl, h1, h2⟩
    obtain ⟨f, hf, v, h3, h4⟩ : ∃ f ∈ callsOf s, ∃ v, vars.find f = some v ∧ ∀ i, v ≠ .ident i := by
      apply Classical.byContradiction
      intro hno
      refine h2 fun f hf v hfv => ?_
      apply Classical.byContradiction
      intro hni
      exact hno ⟨f, hf, v, hfv, fun i hi => hni ⟨i, hi⟩⟩
    refine ⟨pre, s, post, f, v, rfl, hf, ?_, h4⟩
    rcases (vars_after glob f v pre hv (fun x hx => hs x (by simp [hx])) h1).1 h3 with ⟨a, e, b, h5, h6, h7⟩ | ⟨_, h⟩
    · exact ⟨a, e, b, out, h5, h6, by rw [e1, h1]; rfl, h7⟩
    · simp [Vars.find] at h
  · rintro ⟨pre, s, post, f, v, rfl, hf, ⟨a, e, b, out, h5, h6, h7, h8⟩, h4⟩
    rw [e1, Option.map_eq_some_iff] at h7
    obtain ⟨⟨out', vars⟩, h1, h2⟩ := h7
    simp only [Node.list.injEq, true_and] at h2
    subst h2
    refine ⟨pre, s, post, out', vars, rfl, h1, fun hc => ?_⟩
    obtain ⟨i, hi⟩ := hc f hf v ((vars_after glob f v pre hv (fun x hx => hs x (by simp [hx])) h1).2
      (.inl ⟨a, e, b, h5, h6, h8⟩))
    exact h4 i hi

/-- A function that has another name, and one that is assigned too late, are no problem. -/
example : elaborated c!"f=g\nf()" ≠ none := by decide +kernel
example : elaborated c!"f()\nf=1" ≠ none := by decide +kernel
example : elaborated c!"f=1\nf=g\ny=f()" ≠ none := by decide +kernel
example : elaborated c!"f=g\nf=[1]\ny=[f(2)]" = none := by decide +kernel
example : HasValue someFiles [.assign (.ident c!"f") (.int c!"1" 1)] c!"f" (.int c!"1" 1) :=
  ⟨[], _, [], [.assign (.ident c!"f") (.int c!"1" 1)], rfl, by simp [assigned], rfl, rfl⟩

end Props
end Bant
