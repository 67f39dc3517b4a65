import Verif.Spec.Meaning

/-! The functions that are called in a statement (C20). -/
namespace Bant
namespace Meaning

/-- The functions that are called in a statement; of an assignment, on its right side. -/
def callsOf : Node → List Str
  | .assign _ e => called e
  | n => called n

end Meaning
end Bant
