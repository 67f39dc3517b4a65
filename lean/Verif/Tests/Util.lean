import Verif.Model.Glob
import Verif.Model.LineCol
import Verif.Model.RangeMap
import Verif.Model.Arena
import Verif.Model.FsPath
import Verif.Model.Table

/-
The unit tests of bant/util/*_test.cc, bant/frontend/linecolumn-map_test.cc and
bant/frontend/named-content_test.cc, on the model: evidence that the model is a model of this code.
(Nothing is proved for all inputs here.)
-/
namespace Bant
namespace Tests
namespace Util

/-! bant/util/glob-match-builder_test.cc:23-40, `NoDirectorySimpleFileGlob` -/
def noDirectorySimpleFileGlob : List Str := [c!"foo.txt", c!"b*r.txt"]
example : Glob.fileMatches noDirectorySimpleFileGlob [] c!"foo.txt" = true := by decide +kernel
example : Glob.fileMatches noDirectorySimpleFileGlob [] c!"fooXtxt" = false := by decide +kernel
example : Glob.fileMatches noDirectorySimpleFileGlob [] c!"br.txt" = true := by decide +kernel
example : Glob.fileMatches noDirectorySimpleFileGlob [] c!"bar.txt" = true := by decide +kernel
example : Glob.fileMatches noDirectorySimpleFileGlob [] c!"baaaaar.txt" = true := by decide +kernel
example : Glob.fileMatches noDirectorySimpleFileGlob [] c!"car.txt" = false := by decide +kernel
example : Glob.directoryMatches noDirectorySimpleFileGlob c!"" = true := by decide +kernel
example : Glob.directoryMatches noDirectorySimpleFileGlob c!"anythingelse" = false := by decide +kernel

/-! bant/util/glob-match-builder_test.cc:42-57, `ExactlyOneDir` -/
def exactlyOneDir : List Str := [c!"*/foo.txt", c!"*/b*r.txt"]
example : Glob.fileMatches exactlyOneDir [] c!"foo.txt" = false := by decide +kernel
example : Glob.fileMatches exactlyOneDir [] c!"baaaaar.txt" = false := by decide +kernel
example : Glob.fileMatches exactlyOneDir [] c!"a/foo.txt" = true := by decide +kernel
example : Glob.fileMatches exactlyOneDir [] c!"a/bar.txt" = true := by decide +kernel
example : Glob.directoryMatches exactlyOneDir c!"" = true := by decide +kernel
example : Glob.directoryMatches exactlyOneDir c!"foo" = true := by decide +kernel
example : Glob.directoryMatches exactlyOneDir c!"foo/bar" = false := by decide +kernel

/-! bant/util/glob-match-builder_test.cc:59-78, `MultiDir` -/
def multiDir : List Str := [c!"**/foo.txt", c!"**/b*r.txt"]
example : Glob.fileMatches multiDir [] c!"foo.txt" = true := by decide +kernel
example : Glob.fileMatches multiDir [] c!"baz.txt" = false := by decide +kernel
example : Glob.fileMatches multiDir [] c!"baaaaar.txt" = true := by decide +kernel
example : Glob.fileMatches multiDir [] c!"a/foo.txt" = true := by decide +kernel
example : Glob.fileMatches multiDir [] c!"a/bar.txt" = true := by decide +kernel
example : Glob.fileMatches multiDir [] c!"a/b/foo.txt" = true := by decide +kernel
example : Glob.fileMatches multiDir [] c!"a/b/c/foo.txt" = true := by decide +kernel
example : Glob.directoryMatches multiDir c!"" = true := by decide +kernel
example : Glob.directoryMatches multiDir c!"foo" = true := by decide +kernel
example : Glob.directoryMatches multiDir c!"foo/bar" = true := by decide +kernel
example : Glob.directoryMatches multiDir c!"foo/bar/baz" = true := by decide +kernel

/-! bant/util/glob-match-builder_test.cc:80-136, `MultiDirWithPrefix` -/
def multiDirWithPrefix : List Str := [c!"a/**/foo.txt", c!"b/**/b*r.txt", c!"e/**/d/ddd.txt", c!"e/*/g/ggg.txt", c!"f/g/h/b*r.txt"]
example : Glob.fileMatches multiDirWithPrefix [] c!"foo.txt" = false := by decide +kernel
example : Glob.fileMatches multiDirWithPrefix [] c!"baaaaar.txt" = false := by decide +kernel
example : Glob.fileMatches multiDirWithPrefix [] c!"a/x/foo.txt" = true := by decide +kernel
example : Glob.fileMatches multiDirWithPrefix [] c!"a/x/bar.txt" = false := by decide +kernel
example : Glob.fileMatches multiDirWithPrefix [] c!"b/x/bar.txt" = true := by decide +kernel
example : Glob.fileMatches multiDirWithPrefix [] c!"b/x/baaar.txt" = true := by decide +kernel
example : Glob.fileMatches multiDirWithPrefix [] c!"a/b/c/d/foo.txt" = true := by decide +kernel
example : Glob.fileMatches multiDirWithPrefix [] c!"a/b/c/d/bar.txt" = false := by decide +kernel
example : Glob.fileMatches multiDirWithPrefix [] c!"b/c/d/bar.txt" = true := by decide +kernel
example : Glob.fileMatches multiDirWithPrefix [] c!"e/x/y/z/ddd.txt" = false := by decide +kernel
example : Glob.fileMatches multiDirWithPrefix [] c!"e/x/y/z/d/ddd.txt" = true := by decide +kernel
example : Glob.fileMatches multiDirWithPrefix [] c!"e/x/g/ggg.txt" = true := by decide +kernel
example : Glob.fileMatches multiDirWithPrefix [] c!"e/x/y/g/ggg.txt" = false := by decide +kernel
example : Glob.fileMatches multiDirWithPrefix [] c!"e/g/ggg.txt" = false := by decide +kernel
example : Glob.fileMatches multiDirWithPrefix [] c!"f/g/h/bar.txt" = true := by decide +kernel
example : Glob.fileMatches multiDirWithPrefix [] c!"f/g/j/bar.txt" = false := by decide +kernel
example : Glob.directoryMatches multiDirWithPrefix c!"" = false := by decide +kernel
example : Glob.directoryMatches multiDirWithPrefix c!"a" = true := by decide +kernel
example : Glob.directoryMatches multiDirWithPrefix c!"a/b" = true := by decide +kernel
example : Glob.directoryMatches multiDirWithPrefix c!"a/b/c" = true := by decide +kernel
example : Glob.directoryMatches multiDirWithPrefix c!"b" = true := by decide +kernel
example : Glob.directoryMatches multiDirWithPrefix c!"b/c" = true := by decide +kernel
example : Glob.directoryMatches multiDirWithPrefix c!"b/c/d" = true := by decide +kernel
example : Glob.directoryMatches multiDirWithPrefix c!"f" = true := by decide +kernel
example : Glob.directoryMatches multiDirWithPrefix c!"f/g" = true := by decide +kernel
example : Glob.directoryMatches multiDirWithPrefix c!"f/g/h" = true := by decide +kernel
example : Glob.directoryMatches multiDirWithPrefix c!"f/g/h/i" = false := by decide +kernel
example : Glob.directoryMatches multiDirWithPrefix c!"e" = true := by decide +kernel
example : Glob.directoryMatches multiDirWithPrefix c!"e/x" = true := by decide +kernel
example : Glob.directoryMatches multiDirWithPrefix c!"e/x/y" = true := by decide +kernel
example : Glob.directoryMatches multiDirWithPrefix c!"e/x/y/z" = true := by decide +kernel
example : Glob.directoryMatches multiDirWithPrefix c!"e/x/y/z/d" = true := by decide +kernel
example : Glob.directoryMatches multiDirWithPrefix c!"c" = false := by decide +kernel

/-! bant/util/glob-match-builder_test.cc:139-152, `MultiDirZeroOrMoreSegments` -/
def multiDirZeroOrMoreSegments : List Str := [c!"**/foo.txt", c!"a/**/bar.txt"]
example : Glob.fileMatches multiDirZeroOrMoreSegments [] c!"foo.txt" = true := by decide +kernel
example : Glob.fileMatches multiDirZeroOrMoreSegments [] c!"x/foo.txt" = true := by decide +kernel
example : Glob.fileMatches multiDirZeroOrMoreSegments [] c!"x/y/foo.txt" = true := by decide +kernel
example : Glob.fileMatches multiDirZeroOrMoreSegments [] c!"a/bar.txt" = true := by decide +kernel
example : Glob.fileMatches multiDirZeroOrMoreSegments [] c!"a/x/bar.txt" = true := by decide +kernel
example : Glob.fileMatches multiDirZeroOrMoreSegments [] c!"a/x/baz.txt" = false := by decide +kernel

/-! bant/util/glob-match-builder_test.cc:154-169, `ExcludeFiles` -/
def excludeFiles : List Str := [c!"*.txt"]
def excludeFilesNot : List Str := [c!"*_internal*.txt", c!"explicit-exclude.txt"]
example : Glob.fileMatches excludeFiles excludeFilesNot c!"foo.txt" = true := by decide +kernel
example : Glob.fileMatches excludeFiles excludeFilesNot c!"bar.txt" = true := by decide +kernel
example : Glob.fileMatches excludeFiles excludeFilesNot c!"foo_test.txt" = true := by decide +kernel
example : Glob.fileMatches excludeFiles excludeFilesNot c!"explicit-exclude.txt" = false := by decide +kernel
example : Glob.fileMatches excludeFiles excludeFilesNot c!"foo_intern.txt" = true := by decide +kernel
example : Glob.fileMatches excludeFiles excludeFilesNot c!"foo_internal.txt" = false := by decide +kernel
example : Glob.fileMatches excludeFiles excludeFilesNot c!"foo_internals.txt" = false := by decide +kernel

/-! bant/frontend/linecolumn-map_test.cc:36-48, `PrintLineColumn` -/
example : showLineColumn 0 0 = c!"1:1" := by decide +kernel
example : showLineColumn 0 1 = c!"1:2" := by decide +kernel
example : showLineColumn 1 0 = c!"2:1" := by decide +kernel
example : showLineColumn 10 8 = c!"11:9" := by decide +kernel

/-! bant/frontend/linecolumn-map_test.cc:55-69, `PrintLineColumnRange` -/
example : showRange ⟨⟨0, 0⟩, ⟨0, 7⟩⟩ = c!"1:1-7:" := by decide +kernel
example : showRange ⟨⟨0, 1⟩, ⟨0, 3⟩⟩ = c!"1:2-3:" := by decide +kernel
example : showRange ⟨⟨1, 0⟩, ⟨2, 14⟩⟩ = c!"2:1:3:14:" := by decide +kernel
example : showRange ⟨⟨10, 8⟩, ⟨11, 2⟩⟩ = c!"11:9:12:2:" := by decide +kernel
example : showRange ⟨⟨10, 8⟩, ⟨10, 9⟩⟩ = c!"11:9:" := by decide +kernel
example : showRange ⟨⟨10, 8⟩, ⟨10, 8⟩⟩ = c!"11:9:" := by decide +kernel

/-! bant/frontend/linecolumn-map_test.cc:79-90, `InitializeFromRange` -/
def lines : Str := c!"\nline 2\nline 3\n  line 4"
example : (LineMap.initFromView lines).bind (·.getRange 1 7) = some ⟨⟨1, 0⟩, ⟨1, 6⟩⟩ := by
  decide +kernel
example : (LineMap.initFromView lines).bind (·.getRange 17 23) = some ⟨⟨3, 2⟩, ⟨3, 8⟩⟩ := by
  decide +kernel

/-! bant/frontend/named-content_test.cc:25-44, `Surrounding` -/
example : getSurroundingLine c!"foo" 1 2 = some (0, 3) := by decide +kernel
example : getSurroundingLine c!"\nfoo\n" 1 2 = some (1, 4) := by decide +kernel
example : getSurroundingLine c!"foo\nbar\nbaz" 5 6 = some (4, 7) := by decide +kernel

/-! bant/util/disjoint-range-map_test.cc:27-81, `RangeLookups`; the three texts at some addresses -/
def ranges : RangeMap.Container Nat :=
  RangeMap.inserts [] [(100, 111, 0), (50, 62, 1), (200, 221, 2)]
def starts : List Nat := [100, 50, 200]
/-- Looking for `len` characters from `off`, in each of the texts. -/
def lookups (off len : Nat) : List (Option Nat) :=
  starts.map fun s => RangeMap.find ranges (s + off) (s + off + len)
example : [(100, 111), (50, 62), (200, 221)].map (fun r => RangeMap.find ranges r.1 r.2)
    = [some 0, some 1, some 2] := by decide +kernel
example : lookups 0 3 = [some 0, some 1, some 2] := by decide +kernel
example : lookups 3 7 = [some 0, some 1, some 2] := by decide +kernel
example : lookups 0 0 = [some 0, some 1, some 2] := by decide +kernel
example : lookups 8 0 = [some 0, some 1, some 2] := by decide +kernel
example : [(105, 111), (55, 62), (205, 221)].map (fun r => RangeMap.find ranges r.1 r.2)
    = [some 0, some 1, some 2] := by decide +kernel
example : RangeMap.find ranges 150 166 = none := by decide +kernel

/-! bant/util/file-utils_test.cc:27-60, paths; the file does not exist -/
def nothing : FsPath.System := ⟨fun _ => false, fun _ => none, fun _ => none⟩
def entry : FsPath.Path := FsPath.ofDirent c!"foo/bar///" { name := c!"baz", type := .dir, inode := 0 }
example : entry.path = c!"foo/bar/baz" := by decide +kernel
example : FsPath.askAll nothing entry [.path, .filename, .isDirectory, .isSymlink]
    = [.text c!"foo/bar/baz", .text c!"baz", .bool true, .bool false] := by decide +kernel
example : FsPath.askAll nothing (FsPath.ofString c!"foo/bar/baz") [.path, .filename, .filename]
    = [.text c!"foo/bar/baz", .text c!"baz", .text c!"baz"] := by decide +kernel

/-! bant/util/table-printer_test.cc:28-56, `PlainTable` -/
def plainTable : List Table.Op :=
  [.row [c!"short", c!"somevalue"], .row [c!"somewhatlongtext", c!"xyz"]]
example : Table.output .native [c!"foo", c!"bar"] plainTable = some (
    c!"short            somevalue\n" ++
    c!"somewhatlongtext xyz\n") := by decide +kernel
example : Table.output .sexpr [c!"foo", c!"bar"] plainTable = some (
    c!"((\"short\" \"somevalue\")\n" ++
    c!" (\"somewhatlongtext\" \"xyz\"))\n") := by decide +kernel
example : Table.output .plist [c!"foo", c!"bar"] plainTable = some (
    c!"((:foo \"short\" :bar \"somevalue\")\n" ++
    c!" (:foo \"somewhatlongtext\" :bar \"xyz\"))\n") := by decide +kernel
example : Table.output .json [c!"foo", c!"bar"] plainTable = some (
    c!"{\"foo\": \"short\", \"bar\": \"somevalue\"}\n" ++
    c!"{\"foo\": \"somewhatlongtext\", \"bar\": \"xyz\"}\n") := by decide +kernel
example : Table.output .csv [c!"foo", c!"bar"] plainTable = some (
    c!"\"foo\",\"bar\"\n" ++
    c!"\"short\",\"somevalue\"\n" ++
    c!"\"somewhatlongtext\",\"xyz\"\n") := by decide +kernel

/-! bant/util/table-printer_test.cc:58-100, `TableWithRepeatedLastCol` -/
def repeatedColumn : List Table.Op :=
  [.repeated [c!"noval"] [], .repeated [c!"oneval"] [c!"somevalue"],
    .repeated [c!"threeval"] [c!"abc", c!"def", c!"xyz"]]
example : Table.output .native [c!"foo", c!"bar"] repeatedColumn = some (
    c!"oneval   somevalue\n" ++
    c!"threeval abc\n" ++
    c!"threeval def\n" ++
    c!"threeval xyz\n") := by decide +kernel
example : Table.output .sexpr [c!"foo", c!"bar"] repeatedColumn = some (
    c!"((\"noval\" ())\n" ++
    c!" (\"oneval\" (\"somevalue\"))\n" ++
    c!" (\"threeval\" (\"abc\"\n" ++
    c!"              \"def\"\n" ++
    c!"              \"xyz\")))\n") := by decide +kernel
example : Table.output .plist [c!"foo", c!"bar"] repeatedColumn = some (
    c!"((:foo \"noval\" :bar ())\n" ++
    c!" (:foo \"oneval\" :bar (\"somevalue\"))\n" ++
    c!" (:foo \"threeval\" :bar (\"abc\"\n" ++
    c!"                        \"def\"\n" ++
    c!"                        \"xyz\")))\n") := by decide +kernel
example : Table.output .json [c!"foo", c!"bar"] repeatedColumn = some (
    c!"{\"foo\": \"noval\", \"bar\": []}\n" ++
    c!"{\"foo\": \"oneval\", \"bar\": [\"somevalue\"]}\n" ++
    c!"{\"foo\": \"threeval\", \"bar\": [\"abc\", \"def\", \"xyz\"]}\n") := by decide +kernel
example : Table.output .csv [c!"foo", c!"bar"] repeatedColumn = some (
    c!"\"foo\",\"bar\"\n" ++
    c!"\"oneval\",\"somevalue\"\n" ++
    c!"\"threeval\",\"abc\"\n" ++
    c!"\"threeval\",\"def\"\n" ++
    c!"\"threeval\",\"xyz\"\n") := by decide +kernel

end Util
end Tests
end Bant
