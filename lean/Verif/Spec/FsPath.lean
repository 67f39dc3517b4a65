import Verif.Model.FsPath

/-! Specification of paths (C66). -/
namespace Bant
namespace FsPathSpec
open FsPath FileUtils

/-- "The element after the last slash" (file-utils.h): `name` has no slash, and is all of `path`, or
what follows a slash. -/
def IsLastElement (name path : Str) : Prop := '/' ∉ name ∧ (path = name ∨ ∃ dir, path = dir ++ '/' :: name)

/-- What should be answered about a path. -/
def Right (os : System) (path : Str) : Query → Answer → Prop
  | .path, a => a = .text path
  | .filename, a => ∃ name, a = .text name ∧ IsLastElement name path
  | .canRead, a => a = .bool (os.access path)
  | .isDirectory, a => a = .bool (os.stat path = some true)
  | .isSymlink, a => a = .bool (os.lstat path = some true)

/-- The type that is listed for an entry is what the operating system says about it. -/
def Faithful (os : System) (path : Str) (e : Dirent) : Prop :=
  (e.type = .dir → os.stat path = some true ∧ os.lstat path = some false) ∧
  (e.type = .link → os.lstat path = some true)

end FsPathSpec
end Bant
