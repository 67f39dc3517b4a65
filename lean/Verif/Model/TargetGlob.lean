import Verif.Model.TypesBazel
import Verif.Model.Regex

/-
Model of the globbing in the target part of a pattern, bant/types-bazel.cc:202-217.
-/
namespace Bant

/-- bant/types-bazel.cc:203-215, loop of `GlobbingToRE2`; `pre` collects the text up
to the next `*`. The text after the last `*` is appended as it is (line 215). -/
def globbingGo (isFirst : Bool) (pre : Str) : Str → Str
  | [] => pre
  | c :: rest =>
    if c = '*' then
      quoteMeta pre ++ (if isFirst || pre ≠ [] then c!".*" else [])
        ++ globbingGo false [] rest
    else globbingGo isFirst (pre ++ [c]) rest

/-- bant/types-bazel.cc:202-217, `GlobbingToRE2`, and `RE2::FullMatch`
(line 283). `none`: RE2 reports an error or the syntax is not modelled. -/
def globCompile (glob : Str) : Option (Str → Bool) :=
  (re2Parse (globbingGo true [] glob)).map Regex.fullMatch

end Bant
