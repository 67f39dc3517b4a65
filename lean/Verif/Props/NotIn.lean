import Verif.Lemmas.Counted
import Verif.Props.Scanner
import Verif.Props.Project

/-!
C12 and C24, exact accounts: which lines are counted. The newlines that are not counted are those
between the words of the operator `not in`, and those that have not been read since the parser
stopped at a syntax error.
-/
namespace Bant.Props
open Scanner Parser Project

/-- **C12** (partial; exact): in every file, the location of each token that was delivered is its place in the
text that has blanks instead of the newlines within `not in`. -/
theorem C12_exact_partial (content : Str) (n : Nat) (ts : List Token)
    (hts : (deliver n (Scanner.init content)).1 = ts) (t : Token) (ht : t ∈ ts) :
    getLocation content (deliver n (Scanner.init content)).2.lines t.start (t.start + t.text.length)
      = some (trueRange (unbroken ts 0 content) t) := by
  subst hts
  have hinv := linesInv_unbroken content n
  have hend := (deliver_ends (s := Scanner.init content) rfl n).2 t ht
  have h1 := linesInv_getPos hinv (p := t.start) (by omega)
  have h2 := linesInv_getPos hinv hend
  have h3 : t.start + t.text.length ≤ content.length := by
    obtain ⟨c, hc, hp⟩ := hinv.consumed
    have := congrArg List.length hc
    rw [unbroken_length] at this
    simp at this; omega
  simp [getLocation, h3, LineMap.getRange, h1, h2, trueRange, lineOf, colOf]

/-- The text that is counted has the same length, and has the same characters but for some blanks
instead of newlines: so positions in it are the same. -/
theorem C12_unbroken_text (ts : List Token) (content : Str) :
    (unbroken ts 0 content).length = content.length ∧
    ∀ i (h : i < content.length), (unbroken ts 0 content)[i]? =
      if content[i] = '\n' ∧ ∃ t ∈ ts, t.type = .kNotIn ∧ t.start ≤ i ∧ i < t.start + t.text.length then some ' '
      else some content[i] := by
  refine ⟨unbroken_length _ _ _, fun i h => ?_⟩
  have key : ∀ (s : Str) (p i : Nat) (h : i < s.length), (unbroken ts p s)[i]? =
      if s[i] = '\n' ∧ inNotIn ts (p + i) = true then some ' ' else some s[i] := by
    intro s
    induction s with
    | nil => intro p i h; simp at h
    | cons c cs ih =>
      intro p i h
      cases i with
      | zero => simp only [unbroken, List.getElem?_cons_zero, List.getElem_cons_zero, Nat.add_zero]; split <;> rfl
      | succ i =>
        simp only [unbroken, List.getElem?_cons_succ, List.getElem_cons_succ]
        rw [ih (p + 1) i (by simpa using h), show p + 1 + i = p + (i + 1) by omega]
  rw [key content 0 i h, Nat.zero_add]
  have : inNotIn ts i = true ↔ ∃ t ∈ ts, t.type = .kNotIn ∧ t.start ≤ i ∧ i < t.start + t.text.length := by
    simp [inNotIn, and_assoc]
  simp only [this]

/-- The newline in `not in` is not counted, but all the others are. -/
example : (deliver 4 (Scanner.init c!"a\nnot\nin\nb")).1.map (fun t => (t.text, t.start)) =
      [(c!"a", 0), (c!"not\nin", 2), (c!"b", 9), ([], 10)] ∧
    unbroken (deliver 4 (Scanner.init c!"a\nnot\nin\nb")).1 0 c!"a\nnot\nin\nb" = c!"a\nnot in\nb" ∧
    getLocation c!"a\nnot\nin\nb" (deliver 4 (Scanner.init c!"a\nnot\nin\nb")).2.lines 9 10 = some ⟨⟨2, 0⟩, ⟨2, 1⟩⟩ := by
  decide +kernel

/-- **C24** (partial; exact): for any piece of any file, also one with syntax errors: line and column are those
of the piece in the text `asCounted`, see `C24_counted`. -/
theorem C24_exact_partial (h : List Step) (as p) (hsep : Separate (regions [] h))
    (hr : State.steps {} h = some (as, p)) (lo hi name content base)
    (ho : (lo, hi, Origin.file name content base) ∈ regions [] h)
    (b e : Nat) (h1 : lo ≤ b) (h2 : b < e) (h3 : e ≤ hi) :
    p.getLocation b e = some (name, trueLocation (asCounted content) (b - base) (e - base)) := by
  obtain ⟨rfl, rfl⟩ := region_file ho
  simp [State.getLocation, find_locator hsep hr ho h1 h2 h3, locatorOf, Locator.getLocation,
    Nat.not_lt.2 h1, getLocation_counted content (show b - lo ≤ e - lo by omega) (by omega),
    trueLocation, lineOf, colOf]

/-- What `asCounted` is: the tokens that are read are the first ones of the file, and all that the parser has used;
all of the file is read if there is no syntax error. Newlines within a `not in` among these tokens, and those behind
the last of these tokens if some were not read, are blanks; everything else is as in the file. -/
theorem C24_counted (content : Str) (ts : List Token) (hts : TokensOf content ts) :
    ∃ read rest q, ts = read ++ rest ∧ asCounted content = counted read q content ∧
      (rest ≠ [] → q = (read.getLast?.map fun t => t.start + t.text.length).getD 0) ∧
      (∀ t ∈ read, t.start + t.text.length ≤ q) ∧
      (¬ Malformed content → rest = [] ∧ q = content.length) ∧
      (∀ tree st, parseFile content = some (tree, st) → rest.length ≤ st.toks.length) ∧
      ((¬ Malformed content ∧ ∀ t ∈ ts, t.type = .kNotIn → '\n' ∉ t.text) → asCounted content = content) := by
  obtain ⟨read, rest, q, h1, h2, h3, h4, h5, h6, h7⟩ := asCounted_spec hts
  refine ⟨read, rest, q, h1, h3, h4, h5, h6, h7, fun h => asCounted_clear h.1 fun us hus t ht => ?_⟩
  have : us = ts := by rw [← initState_toks hus, initState_toks hts]
  rw [this] at ht
  exact h.2 t ht

/-- Text behind a syntax error is not counted; in a file without error, all but newlines in `not in` are. -/
example : asCounted c!"]\n\nx = 1" = c!"]  x = 1" ∧ asCounted c!"x = 1 not\nin y\nz = 2\n" = c!"x = 1 not in y\nz = 2\n" := by
  decide +kernel

end Bant.Props
