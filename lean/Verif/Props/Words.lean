import Verif.Lemmas.LocatedWords

/-!
C109 (names, numbers and strings in the tree are where they are written).
-/
namespace Bant.Props
open Parser Located Words

/-! ## C109 -/

/-- C109: if a file has no syntax errors, then the tree with places is the tree of the file. Each text in it stands in
the file where its place says. The tokens of the file are those of its statements, one after the other, with strings
between them. And the names, numbers, strings and plus signs of each statement are, in this order, where those in its
tokens are: none is missing, none is there twice, none is from another place. -/
theorem C109_words {content : Str} {ast : Node} {st : PState} {ts : List Token}
    (h : Parser.parseFile content = some (ast, st)) (hok : st.errs = []) (hts : TokensOf content ts) :
    ∃ xs, Located.parseFile content = some (.list .list xs, st) ∧ (Tree.list .list xs).plain = ast ∧
      AllOf (InFile content) (RangeIn content) (InFile content) xs ∧ Statements ts xs := by
  obtain ⟨t, h1, h2, h3⟩ := parseFile_same h
  obtain ⟨xs, rfl, h4⟩ := parseFile_words h1 hok
  rw [initState_toks hts] at h4
  exact ⟨xs, h1, h2, h3, h4⟩

/-- C109: with or without errors, each text in the tree stands in the file where its place says. -/
theorem C109_inside {content : Str} {ast : Node} {st : PState} (h : Parser.parseFile content = some (ast, st)) :
    ∃ t, Located.parseFile content = some (t, st) ∧ t.plain = ast ∧ t.All (InFile content) (RangeIn content) (InFile content) :=
  parseFile_same h

/-- An example: two statements, with texts that are written twice. -/
example : (Located.parseFile c!"A = 'b'\nf(b, x = A + \"b\")").map (fun r => words r.1) =
    some [(0, 1), (5, 6), (8, 9), (10, 11), (13, 14), (17, 18), (19, 20), (22, 23)] := by decide +kernel

example : (Located.parseFile c!"[r\"\"\"q\"\"\" if 1 else z]").map (fun r => words r.1) =
    some [(5, 6), (13, 14), (20, 21)] := by decide +kernel

example : wordsOf (initState c!"A = 'b'\nf(b, x = A + \"b\")").toks =
    [(0, 1), (5, 6), (8, 9), (10, 11), (13, 14), (17, 18), (19, 20), (22, 23)] := by decide +kernel

end Bant.Props
