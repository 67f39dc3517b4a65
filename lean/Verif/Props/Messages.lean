import Verif.Lemmas.FirstCut
import Verif.Lemmas.Reports
import Verif.Lemmas.Counted
import Verif.Model.Messages
import Verif.Lemmas.Table
import Verif.Props.Located
import Verif.Props.Scanner

/-!
C113 (the messages about syntax errors: where, what was found, why).
-/
namespace Bant.Props
open Parser Grammar Scanner ScanCut Project Messages

/-! ## C113 -/

/-- A message about the piece `[b, e)` of a file. -/
def written (name content : Str) (b e : Nat) (why : Str) : Str :=
  name ++ c!":" ++ expectedLocation content b e ++ c!" got '" ++ piece content b e ++ c!"'; " ++ why ++ c!"\n"

/-- C113, full statement: there are messages iff the file has a syntax error, and each of them names
the file and the place and text of a piece of it. -/
def C113_statement : Prop :=
  ∀ name content, ∃ l : List (Nat × Nat × Str),
    ofFile name content = some (l.map fun r => written name content r.1 r.2.1 r.2.2) ∧
      (l ≠ [] ↔ Malformed content) ∧ ∀ r ∈ l, r.1 ≤ r.2.1 ∧ r.2.1 ≤ content.length

/-- The token a report is about is the last of the first tokens that the scanner delivers. -/
theorem scanned {content : Str} {ts pre rest : List Token} {t : Token} (hts : TokensOf content ts)
    (h1 : ts = pre ++ rest) (h2 : t = rest.headD (initState content).eof) :
    ∃ t', (deliver (pre.length + 1) (Scanner.init content)).1 = pre ++ [t'] ∧ t'.type = t.type ∧
      t'.start = t.start ∧ t'.text = t.text := by
  subst h1
  obtain ⟨f, d1, d2, d3⟩ := hts
  obtain ⟨p1, p2⟩ := parts d1
  obtain ⟨x, x1, x2, x3⟩ := deliver_rest pre.length (Scanner.init content) rfl
  have hd : (deliver (pre.length + 1) (Scanner.init content)).1 =
      pre ++ [(next (deliver pre.length (Scanner.init content)).2).1] := by
    rw [deliver_add, p1]; rfl
  obtain ⟨⟨g, hg⟩, _⟩ := next_ok x3
  refine ⟨_, hd, ?_⟩
  cases rest with
  | nil =>
    simp only [List.length_nil, deliver, List.nil_append, List.cons.injEq, and_true] at p2
    have r1 := hg.eofIff.1 (by rw [p2]; exact d2)
    have r2 := hg.eofRest (by rw [p2]; exact d2)
    have r3 := hg.text
    rw [r1, r2, List.append_nil, List.append_nil] at r3
    have : content = x ++ g := by rw [← r3]; exact x1
    rw [h2]
    refine ⟨by rw [p2]; exact d2, ?_, r1⟩
    show _ = content.length
    rw [hg.start, x2, this, List.length_append]
    simp [Scanner.init]
  | cons a b =>
    rw [List.length_cons, deliver] at p2
    simp only [List.cons_append, List.cons.injEq] at p2
    have : t = a := h2
    rw [this, p2.1]
    exact ⟨rfl, rfl, rfl⟩

/-- The location of a token that has been scanned. -/
theorem location_scanned {content : Str} {pre : List Token} {t : Token} {k : Nat}
    (ht : (deliver (pre.length + 1) (Scanner.init content)).1 = pre ++ [t]) (hk : pre.length + 1 ≤ k) :
    t.start + t.text.length ≤ content.length ∧
    getLocation content (scanTimes k (Scanner.init content)).lines t.start (t.start + t.text.length) =
      some (trueLocation (unbroken (pre ++ [t]) 0 content) t.start (t.start + t.text.length)) := by
  have hl := deliver_last rfl ht
  have hinv := linesInv_unbroken content (pre.length + 1)
  rw [ht] at hinv
  have hle : t.start + t.text.length ≤ content.length := by
    obtain ⟨c, hc, hpos⟩ := hinv.consumed
    have := congrArg List.length hc
    rw [unbroken_length] at this
    simp at this; omega
  refine ⟨hle, ?_⟩
  obtain ⟨j, rfl⟩ : ∃ j, k = pre.length + 1 + j := ⟨k - (pre.length + 1), by omega⟩
  rw [scanTimes_eq, deliver_add]
  have hinv' := linesInv_deliver j hinv
  have h1 := linesInv_getPos hinv' (p := t.start) (by omega)
  have h2 := linesInv_getPos hinv' (p := t.start + t.text.length) (by omega)
  simp only [getLocation, hle, if_true, LineMap.getRange]
  rw [h1, h2]
  rfl

theorem printed_location {content : Str} {b e : Nat} (hbe : b ≤ e) (he : e ≤ content.length) :
    showRange (trueLocation content b e) = shownLocation content b e := by
  obtain ⟨m, hm, hr⟩ := C09_location content b e hbe he
  exact C51_exact_partial content b e m _ hbe hm hr

/-- The messages for a list of fair reports. -/
theorem messages_fair {name content : Str} {ts : List Token} (hts : TokensOf content ts)
    (l : List (Token × Complaint × Nat)) (hl : ∀ r ∈ l, Fair ts (initState content).eof r) :
    ∃ places : List LineColumnRange, places.length = l.length ∧
      messages name content (l.map (·.1)) (l.map (·.2)) = some ((places.zip l).map fun x =>
        name ++ ':' :: showRange x.1 ++ c!" got '" ++ x.2.1.text ++ c!"'; " ++
          complaintText x.2.1 x.2.2.1 ++ ['\n']) ∧
      ∀ x ∈ places.zip l, ∃ pre rest, ts = pre ++ rest ∧ x.2.1 = rest.headD (initState content).eof ∧
        x.2.1.start + x.2.1.text.length ≤ content.length ∧
        piece content x.2.1.start (x.2.1.start + x.2.1.text.length) = x.2.1.text ∧
        (∀ u ∈ pre, (content.drop u.start).take u.text.length = u.text) ∧
        x.1 = trueLocation (unbroken (pre ++ [x.2.1]) 0 content) x.2.1.start (x.2.1.start + x.2.1.text.length) := by
  induction l with
  | nil => exact ⟨[], rfl, rfl, by simp⟩
  | cons r l ih =>
    obtain ⟨places, h1, h2, h3⟩ := ih fun r hr => hl r (by simp [hr])
    obtain ⟨⟨pre, rest, e1, e2, e3⟩, -⟩ := hl r (by simp)
    obtain ⟨t', d1, d2, d3, d4⟩ := scanned hts e1 e2
    obtain ⟨g1, g2⟩ := location_scanned d1 e3
    have g4 := C10_tokens_are_pieces content _ t' (by rw [d1]; simp)
    have hsame : unbroken (pre ++ [t']) 0 content = unbroken (pre ++ [r.1]) 0 content :=
      unbroken_congr (fun p => by simp [inNotIn, d2, d3, d4]) _ _
    rw [hsame] at g2
    rw [d3, d4] at g1 g2 g4
    refine ⟨trueLocation (unbroken (pre ++ [r.1]) 0 content) r.1.start (r.1.start + r.1.text.length) :: places,
      by simp [h1], by simp [messages, message, g2, h2], fun x hx => ?_⟩
    rw [List.zip_cons_cons, List.mem_cons] at hx
    rcases hx with rfl | hx
    · refine ⟨pre, rest, e1, e2, g1, ?_, fun u hu => ?_, rfl⟩
      · rw [piece, Nat.add_sub_cancel_left]; exact g4.symm
      · exact (C10_tokens_are_pieces content _ u (by rw [d1]; simp [hu])).symm
    · exact h3 x hx

/-- C113 (partial; exact): for every file there are messages iff it has a syntax error. Each is about a token of the
file, or its end: it has the name of the file, the place, and the text of the token. Lines are counted without the
newlines in a `not in`, and for a token that ends in a newline (as strings do that are not closed), column 0 of
the line behind it is given as its end. -/
theorem C113_exact_partial (name content : Str) (ts : List Token) (hts : TokensOf content ts) :
    ∃ l : List (Token × Str × Str),
      ofFile name content = some (l.map fun r =>
        name ++ c!":" ++ r.2.1 ++ c!" got '" ++ r.1.text ++ c!"'; " ++ r.2.2 ++ c!"\n") ∧
      (l ≠ [] ↔ Malformed content) ∧
      ∀ r ∈ l, ∃ pre rest, ts = pre ++ rest ∧ r.1 = rest.headD ⟨.eof, content.length, [], false⟩ ∧
        r.1.start + r.1.text.length ≤ content.length ∧
        piece content r.1.start (r.1.start + r.1.text.length) = r.1.text ∧
        (∀ u ∈ pre, (content.drop u.start).take u.text.length = u.text) ∧
        r.2.1 = shownLocation (unbroken (pre ++ [r.1]) 0 content) r.1.start (r.1.start + r.1.text.length) := by
  obtain ⟨tree, st, hp, _⟩ := parseFile_total content
  obtain ⟨l, l1, l2, l3⟩ := parseFile_reports hp
  rw [initState_toks hts] at l3
  obtain ⟨places, h1, h2, h3⟩ := messages_fair (name := name) hts l l3
  refine ⟨(places.zip l).map fun x => (x.2.1, showRange x.1, complaintText x.2.1 x.2.2.1), ?_, ?_, ?_⟩
  · simp only [ofFile, hp, Option.bind_some, l1, l2, h2, List.map_map, Option.some.injEq]
    exact List.map_congr_left fun x _ => by simp
  · rw [malformed_iff hp, l1]
    have : (places.zip l).length = l.length := by rw [List.length_zip]; omega
    constructor
    · intro h h'
      have : l = [] := by simpa using h'
      exact h (by simp [this])
    · intro h h'
      have h'' : places.zip l = [] := by simpa using h'
      rw [h''] at this
      exact h (by simp [List.length_eq_zero_iff.1 this.symm])
  · intro r hr
    obtain ⟨x, hx, rfl⟩ := List.mem_map.1 hr
    obtain ⟨pre, rest, e1, e2, e3, e4, e5, e6⟩ := h3 x hx
    refine ⟨pre, rest, e1, e2, e3, e4, e5, ?_⟩
    simp only
    rw [e6]
    exact printed_location (by omega) (by rw [unbroken_length]; exact e3)

/-- C113 (partial: the place is only shown to be right if no `not in` up to there spans lines, and if
the token does not end in a newline): for every file there are messages iff it has a syntax error.
Each is about a token of the file, or its end: it has the name of the file, a place, and the text of
the token. -/
theorem C113_messages_partial (name content : Str) (ts : List Token) (hts : TokensOf content ts) :
    ∃ l : List (Token × Str × Str),
      ofFile name content = some (l.map fun r =>
        name ++ c!":" ++ r.2.1 ++ c!" got '" ++ r.1.text ++ c!"'; " ++ r.2.2 ++ c!"\n") ∧
      (l ≠ [] ↔ Malformed content) ∧
      ∀ r ∈ l, ∃ pre rest, ts = pre ++ rest ∧ r.1 = rest.headD ⟨.eof, content.length, [], false⟩ ∧
        r.1.start + r.1.text.length ≤ content.length ∧
        piece content r.1.start (r.1.start + r.1.text.length) = r.1.text ∧
        ((∀ u ∈ pre ++ [r.1], u.type = .kNotIn → '\n' ∉ u.text) → r.1.text.getLast? ≠ some '\n' →
          r.2.1 = expectedLocation content r.1.start (r.1.start + r.1.text.length)) := by
  obtain ⟨l, h1, h2, h3⟩ := C113_exact_partial name content ts hts
  refine ⟨l, h1, h2, fun r hr => ?_⟩
  obtain ⟨pre, rest, e1, e2, e3, e4, e5, e6⟩ := h3 r hr
  refine ⟨pre, rest, e1, e2, e3, e4, fun hn hl => ?_⟩
  have hgood : unbroken (pre ++ [r.1]) 0 content = content := by
    refine unbroken_good (fun t ht => ?_) hn
    rcases List.mem_append.1 ht with ht | ht
    · exact e5 t ht
    · rw [List.mem_singleton.1 ht]
      rw [piece, Nat.add_sub_cancel_left] at e4
      exact e4
  rw [e6, hgood, shownLocation, if_neg]
  rintro ⟨hlt, hc⟩
  refine hl ?_
  rw [← e4, List.getLast?_eq_getElem?, piece, Nat.add_sub_cancel_left, List.getElem?_take,
    List.getElem?_drop, List.length_take, List.length_drop]
  have : min r.1.text.length (content.length - r.1.start) = r.1.text.length := by omega
  rw [this, if_pos (by omega), ← hc]
  congr 1
  omega

/-- C113 is false as stated: a newline in `not in` is not counted (see C12). -/
theorem C113_counterexample : ¬ C113_statement := by
  intro hs
  obtain ⟨l, h1, -, h3⟩ := hs c!"BUILD" c!"x = 1 not\nin ]"
  have he : ofFile c!"BUILD" c!"x = 1 not\nin ]" = some [c!"BUILD:1:14: got ']'; expected value of sorts\n"] := by
    decide +kernel
  rw [he] at h1
  simp only [Option.some.injEq] at h1
  cases l with
  | nil => simp at h1
  | cons r l =>
    simp only [List.map_cons, List.cons.injEq] at h1
    have h4 := h3 r (by simp)
    have h5 : ∀ b, b < 15 → ∀ e, e < 15 → ¬ (c!"BUILD" ++ c!":" ++ expectedLocation c!"x = 1 not\nin ]" b e <+:
        c!"BUILD:1:14: got ']'; expected value of sorts\n") := by decide +kernel
    refine h5 r.1 (by simp at h4; omega) r.2.1 (by simp at h4; omega) ?_
    rw [h1.1, written]
    simp only [List.append_assoc]
    exact ⟨c!" got '" ++ (piece c!"x = 1 not\nin ]" r.1 r.2.1 ++ (c!"'; " ++ (r.2.2 ++ c!"\n"))), by simp⟩

/-- C113 (partial: files without `not in` over several lines, and without a token that ends in a
newline, as only strings that are not closed can): the statement. -/
theorem C113_written_partial (name content : Str)
    (hnot : ∀ ts, TokensOf content ts → ∀ t ∈ ts, (t.type = .kNotIn → '\n' ∉ t.text) ∧ t.text.getLast? ≠ some '\n') :
    ∃ l : List (Nat × Nat × Str),
      ofFile name content = some (l.map fun r => written name content r.1 r.2.1 r.2.2) ∧
        (l ≠ [] ↔ Malformed content) ∧ ∀ r ∈ l, r.1 ≤ r.2.1 ∧ r.2.1 ≤ content.length := by
  obtain ⟨ts, hts, _⟩ := tokensOf_exists content
  obtain ⟨l, h1, h2, h3⟩ := C113_messages_partial name content ts hts
  refine ⟨l.map fun r => (r.1.start, r.1.start + r.1.text.length, r.2.2), ?_, by simpa using h2, ?_⟩
  · rw [h1, List.map_map, Option.some.injEq]
    refine List.map_congr_left fun r hr => ?_
    obtain ⟨pre, rest, e1, e2, e3, e4, e5⟩ := h3 r hr
    have key : r.1 ∈ ts ∨ r.1.type = .eof ∧ r.1.text = [] := by
      cases rest with
      | nil => rw [e2]; exact .inr ⟨rfl, rfl⟩
      | cons a b => rw [e2, e1]; exact .inl (by simp)
    have e6 := e5 (fun u hu hk => by
      rcases List.mem_append.1 hu with hu | hu
      · exact (hnot ts hts u (by rw [e1]; simp [hu])).1 hk
      · simp only [List.mem_cons, List.not_mem_nil, or_false] at hu
        subst hu
        rcases key with key | key
        · exact (hnot ts hts _ key).1 hk
        · rw [key.2]; simp) (by
      rcases key with key | key
      · exact (hnot ts hts _ key).2
      · rw [key.2]; simp)
    simp [written, e4, e6]
  · intro r hr
    obtain ⟨x, hx, rfl⟩ := List.mem_map.1 hr
    obtain ⟨_, _, _, _, e3, _⟩ := h3 x hx
    exact ⟨by simp, e3⟩

/-- A missing comma, and an expression that is missing. -/
example : ofFile c!"a/BUILD" c!"f(deps = [\":a\"\n  \":b\"] + ,)\ng(]" = some
    [c!"a/BUILD:2:3-6: got '\":b\"'; expected `for`, `]', or `,`'\n",
     c!"a/BUILD:2:11: got ','; expected value of sorts\n"] := by decide +kernel
/-- The end of the file. -/
example : ofFile c!"a/BUILD" c!"(a)" = some
    [c!"a/BUILD:1:4: got ''; Assignment operator = expected, got <<EOF>>\n"] := by decide +kernel
example : ofFile c!"a/BUILD" c!"x = 1\n\n123 'abc'" = some
    [c!"a/BUILD:3:1-3: got '123'; expected identifier, got number('123')\n"] := by decide +kernel

/-- A string that is not closed, behind a `not in` over two lines: it is in line 3, but line 2 is given. -/
example : ofFile c!"a/BUILD" c!"x = 1 not\nin y\nz = 'a\n" = some
    [c!"a/BUILD:2:5:3:0: got ''a\n'; expected value of sorts\n"] := by decide +kernel

/-- C113: where a statement can not begin, or there is no assignment after a list of variables, the message also says
what kind of token is there. Names, strings and numbers are written in a single line, and so that the text of the
token can be read from it. -/
theorem C113_got (t : Token) (ht : t.text ≠ []) (hb : TableSpec.Bytes t.text) :
    ∃ got, complaintText t .identifier = c!"expected identifier, got " ++ got ∧
      complaintText t .assignment = c!"Assignment operator = expected, got " ++ got ∧
      (∀ c, t.type = .op c → got = c!"('" ++ t.text ++ c!"')") ∧
      ∀ kind, (t.type, kind) ∈ [(TokenType.identifier, c!"ident"), (.stringLiteral, c!"string"),
          (.numberLiteral, c!"number"), (.error, c!"<<ERROR>>")] →
        ∃ e, got = kind ++ c!"('" ++ e ++ c!"')" ∧ '\n' ∉ e ∧ TableSpec.cLit (e ++ ['"']) = some (t.text, []) := by
  refine ⟨tokenText t, rfl, rfl, ?_, ?_⟩
  · intro c hc
    simp only [tokenText, hc]
  · intro kind hk
    refine ⟨Table.cEscape t.text, ?_, Table.cEscape_newline _, Table.cLit_reads hb [] (by simp)⟩
    simp only [List.mem_cons, List.not_mem_nil, or_false, Prod.mk.injEq] at hk
    rcases hk with ⟨h1, rfl⟩ | ⟨h1, rfl⟩ | ⟨h1, rfl⟩ | ⟨h1, rfl⟩ <;>
      simp [tokenText, h1, ht, Print.opText]

/-- A string in two lines where there should be an assignment. -/
example : ofFile c!"B" c!"(x) \"\"\"a\n\"\"\"" =
    some [c!"B:1:5:2:3: got '\"\"\"a\n\"\"\"'; Assignment operator = expected, got string('\\\"\\\"\\\"a\\n\\\"\\\"\\\"')\n"] := by
  decide +kernel

end Bant.Props
