import Verif.Props.FirstError
import Verif.Props.Messages
import Verif.Spec.Expected

/-!
C114 (what the first message about a syntax error says to be expected would have been accepted).
-/
namespace Bant.Props
open Parser Grammar Scanner ScanCut Project Messages Expected
set_option linter.unusedSimpArgs false

/-! ## C114 -/

/-- C114, full statement: the first message about a file says what was expected, and every word it
names could stand there. -/
def C114_statement : Prop :=
  ∀ (name content : Str) ts tree st e es, TokensOf content ts → parseFile content = some (tree, st) → st.errs = e :: es →
    ∃ place why msgs pre, pre <+: ts ∧
      ofFile name content = some ((name ++ c!":" ++ place ++ c!" got '" ++ e.text ++ c!"'; " ++ why ++ c!"\n") :: msgs) ∧
      (∃ words, Says why words) ∧ ∀ words, Says why words → ∀ w ∈ words, CanFollow content e.start pre w

theorem says_something (m : Complaint) (t : Token) (hm : Proper m) : ∃ row ∈ table, row.1 <+: complaintText t m := by
  cases m
  case assignment => exact ⟨(c!"Assignment operator = expected, got ", [c!"="]), by decide +kernel, List.prefix_append _ _⟩
  case identifier => exact ⟨(c!"expected identifier, got ", [c!"x"]), by decide +kernel, List.prefix_append _ _⟩
  case listStart c =>
    simp only [Proper, Closer, List.mem_cons, List.not_mem_nil, or_false] at hm
    rcases hm with rfl | rfl | rfl <;> (simp only [complaintText]; decide +kernel)
  case comprehensionEnd c =>
    simp only [Proper, Closer, List.mem_cons, List.not_mem_nil, or_false] at hm
    rcases hm with rfl | rfl | rfl <;> (simp only [complaintText]; decide +kernel)
  case listSeparator c =>
    simp only [Proper, Closer, List.mem_cons, List.not_mem_nil, or_false] at hm
    rcases hm with (rfl | rfl | rfl) | rfl <;> (simp only [complaintText]; decide +kernel)
  all_goals (simp only [complaintText]; decide +kernel)

theorem named_offered (m : Complaint) (t : Token) (hm : Proper m) (words : List Str)
    (h : Says (complaintText t m) words) : ∀ w ∈ words, w ∈ (offered m).map (·.2) := by
  obtain ⟨row, h1, h2, rfl⟩ := h
  cases m
  case assignment =>
    revert row
    simp [table, complaintText, offered, List.cons_prefix_cons]
  case identifier =>
    revert row
    simp [table, complaintText, offered, List.cons_prefix_cons]
  case listStart c =>
    simp only [Proper, Closer, List.mem_cons, List.not_mem_nil, or_false] at hm
    simp only [complaintText] at h2
    rcases hm with rfl | rfl | rfl <;> (revert row; decide +kernel)
  case comprehensionEnd c =>
    simp only [Proper, Closer, List.mem_cons, List.not_mem_nil, or_false] at hm
    simp only [complaintText] at h2
    rcases hm with rfl | rfl | rfl <;> (revert row; decide +kernel)
  case listSeparator c =>
    simp only [Proper, Closer, List.mem_cons, List.not_mem_nil, or_false] at hm
    simp only [complaintText] at h2
    rcases hm with (rfl | rfl | rfl) | rfl <;> (revert row; decide +kernel)
  all_goals (simp only [complaintText] at h2; revert row; decide +kernel)

theorem offered_simple (m : Complaint) (hm : Proper m) : ∀ w ∈ offered m, w ∈ simple := by
  cases m
  case listStart c =>
    simp only [Proper, Closer, List.mem_cons, List.not_mem_nil, or_false] at hm
    rcases hm with rfl | rfl | rfl <;> decide +kernel
  case comprehensionEnd c =>
    simp only [Proper, Closer, List.mem_cons, List.not_mem_nil, or_false] at hm
    rcases hm with rfl | rfl | rfl <;> decide +kernel
  case listSeparator c =>
    simp only [Proper, Closer, List.mem_cons, List.not_mem_nil, or_false] at hm
    rcases hm with (rfl | rfl | rfl) | rfl <;> decide +kernel
  all_goals decide +kernel

theorem atAccess_of_opened {pre : List Token} (h : Opened pre) : AtAccess pre := by
  obtain ⟨a, t, b, rfl, ht, rfl | ⟨u, rfl, hu⟩⟩ := h
  · exact .inl ⟨a, t, rfl, ht⟩
  · exact .inr ⟨a, t, u, rfl, ht, hu⟩

/-- C114 (partial: all but the closing bracket of an access that is still empty). -/
theorem C114_expected_partial (name content : Str) (ts tree st e es) (hts : TokensOf content ts)
    (h : parseFile content = some (tree, st)) (he : st.errs = e :: es) :
    ∃ place why msgs pre, pre <+: ts ∧
      ofFile name content = some ((name ++ c!":" ++ place ++ c!" got '" ++ e.text ++ c!"'; " ++ why ++ c!"\n") :: msgs) ∧
      (∃ words, Says why words) ∧ ∀ words, Says why words → ∀ w ∈ words,
        CanFollow content e.start pre w ∨
        (w = c!"]" ∧ (why = c!"Expected ':' or ']'" ∨ why = c!"Expected closing ']' of array access") ∧ AtAccess pre) := by
  obtain ⟨pre, rest, m, k, ks, h1, h2, h3, h4, h5⟩ := first_error_offers h he
  obtain ⟨l, l1, l2, l3⟩ := parseFile_reports h
  rw [initState_toks hts] at l3 h1
  subst h1
  obtain ⟨places, g1, g2, -⟩ := messages_fair (name := name) hts l l3
  cases l with
  | nil => rw [l1] at he; simp at he
  | cons r l =>
    cases places with
    | nil => simp at g1
    | cons p places =>
      have hr : r.1 = e := by rw [l1] at he; simp at he; exact he.1
      have hm : r.2.1 = m := by rw [l2] at h3; simp at h3; exact congrArg Prod.fst h3.1
      have hprop : Proper m := hm ▸ (l3 r (by simp)).2
      obtain ⟨msgs, hmsgs⟩ : ∃ msgs, ofFile name content = some ((name ++ c!":" ++ showRange p ++ c!" got '" ++ e.text ++
          c!"'; " ++ complaintText e m ++ c!"\n") :: msgs) := by
        have : ofFile name content = messages name content st.errs st.said := by rw [ofFile, h]; rfl
        rw [this, l1, l2, g2, List.zip_cons_cons, List.map_cons, ← hr, ← hm]
        exact ⟨_, by simp only [List.append_assoc, List.cons_append, List.nil_append]; rfl⟩
      refine ⟨showRange p, complaintText e m, msgs, pre, List.prefix_append _ _, hmsgs, ?_, ?_⟩
      · obtain ⟨row, r1, r2⟩ := says_something m e hprop
        exact ⟨row.2, row, r1, r2, rfl⟩
      · intro words hs w hw
        obtain ⟨⟨ty, w'⟩, hw1, hw2⟩ := List.mem_map.1 (named_offered m e hprop words hs w hw)
        simp only at hw2
        subst hw2
        rcases h5 _ hw1 with hv | ⟨b1, b2, b3⟩
        · left
          obtain ⟨ws, hws, hv⟩ := viable_file hv
          have hsimple : (ty, w') ∈ simple := offered_simple m hprop _ hw1
          have hok : ∀ t ∈ pre, t.type ≠ .eof ∧ t.type ≠ .error := by
            obtain ⟨f, d1, d2, d3⟩ := hts
            exact fun t ht => ⟨d3 t (by simp [ht]), completed_ok hv t ht⟩
          obtain ⟨us, u1, u2⟩ := cut_at hts h2 hok ((ty, w') :: ws) (by
            intro x hx
            rcases List.mem_cons.1 hx with rfl | hx
            · exact hsimple
            · exact hws x hx)
          obtain ⟨n, hn⟩ := hv us u2
          obtain ⟨st2, s1, s2⟩ := (parseFile_iff u1 n).2 hn
          obtain ⟨u, us', rfl, -, hu, -⟩ := spells_cons u2
          have hsp : ScanCut.spelled ((ty, w') :: ws) = w' ++ c!" " ++ ScanCut.spelled ws := by simp [ScanCut.spelled]
          rw [hsp] at u1 s1
          exact ⟨ScanCut.spelled ws, u, us', n, st2, u1, hu, s1, s2⟩
        · right
          rcases b3 with b3 | ⟨b3, -⟩
          · rcases b1 with rfl | rfl
            · simp only [offered, List.mem_cons, Prod.mk.injEq, List.not_mem_nil, or_false] at hw1
              rcases hw1 with hw1 | hw1
              · rw [hw1.1] at b2; simp at b2
              · exact ⟨hw1.2, .inl rfl, atAccess_of_opened b3⟩
            · simp only [offered, List.mem_cons, Prod.mk.injEq, List.not_mem_nil, or_false] at hw1
              exact ⟨hw1.2, .inr rfl, atAccess_of_opened b3⟩
          · cases b3

/-- The first tokens that are delivered, if none is the end. -/
theorem tokens_begin {content : Str} {ts known : List Token} {n : Nat} (h : TokensOf content ts)
    (hk : (deliver n (Scanner.init content)).1 = known) (hn : known.length = n) (he : ∀ t ∈ known, t.type ≠ .eof) :
    known <+: ts := by
  obtain ⟨f, f1, f2, -⟩ := h
  by_cases hl : ts.length + 1 ≤ n
  · exfalso
    obtain ⟨k, rfl⟩ : ∃ k, n = ts.length + 1 + k := ⟨n - (ts.length + 1), by omega⟩
    rw [deliver_add, f1] at hk
    exact he f (by rw [← hk]; simp) f2
  · obtain ⟨k, hk'⟩ : ∃ k, ts.length + 1 = n + k := ⟨ts.length + 1 - n, by omega⟩
    rw [hk', deliver_add, hk] at f1
    exact List.prefix_of_prefix_length_le ⟨_, f1⟩ (List.prefix_append ts [f]) (by omega)

/-- The tokens of `y = a[#⏎]`. -/
private def toks5 : List Token := [⟨.identifier, 0, c!"y", false⟩, ⟨.op '=', 2, c!"=", false⟩, ⟨.identifier, 4, c!"a", false⟩,
  ⟨.op '[', 5, c!"[", false⟩, ⟨.op ']', 8, c!"]", true⟩]

/-- C114 is false as stated: after `a[` and after `a[:` the closing bracket is named, but an access
needs an expression. -/
theorem C114_counterexample : ¬ C114_statement := by
  intro hs
  have known : ∀ more, (deliver 5 (Scanner.init (c!"y = a[#\n] " ++ more))).1 = toks5 := fun more => rfl
  have h1 : (parseFile c!"y = a[=").isSome := by decide +kernel
  obtain ⟨⟨tree, st⟩, h1⟩ := Option.isSome_iff_exists.1 h1
  have he : (parseFile c!"y = a[=").map (fun r => r.2.errs) = some [⟨.op '=', 6, c!"=", false⟩] := by decide +kernel
  have hof : ofFile c!"B" c!"y = a[=" = some [c!"B:1:7: got '='; Expected ':' or ']'\n"] := by decide +kernel
  rw [h1] at he
  simp only [Option.map_some, Option.some.injEq] at he
  obtain ⟨ts, hts, -⟩ := tokensOf_exists c!"y = a[="
  obtain ⟨place, why, msgs, pre, -, h3, -, h4⟩ := hs c!"B" _ ts tree st _ _ hts h1 he
  rw [hof] at h3
  simp only [Option.some.injEq, List.cons.injEq] at h3
  have hwhy : why = c!"Expected ':' or ']'" := by
    have h5 := h3.1
    have hk : ∀ n, n < 36 → (c!"B:1:7: got '='; Expected ':' or ']'\n".drop (2 + n)).take 10 = c!" got '='; " → n = 4 := by
      decide +kernel
    have hl := congrArg List.length h5
    have hp : place.length = 4 := by
      refine hk place.length (by simp at hl; omega) ?_
      rw [h5]
      have : c!"B" ++ c!":" ++ place ++ c!" got '" ++ c!"=" ++ c!"'; " ++ why ++ c!"\n" =
          (c!"B:" ++ place) ++ (c!" got '='; " ++ (why ++ c!"\n")) := by simp
      rw [this, List.drop_left' (by simp; omega), List.take_left' (by rfl)]
    have := congrArg (List.drop 16) h5
    rw [show c!"B" ++ c!":" ++ place ++ c!" got '" ++ c!"=" ++ c!"'; " ++ why ++ c!"\n" =
          (c!"B:" ++ place ++ c!" got '='; ") ++ (why ++ c!"\n") by simp, List.drop_left' (by simp; omega)] at this
    have := congrArg List.dropLast this
    simpa using this.symm
  subst hwhy
  obtain ⟨more, u, us, tree2, st2, g1, -, g2, g3⟩ := h4 [c!":", c!"]"] ⟨(c!"Expected ':' or ']'", [c!":", c!"]"]), by decide +kernel, List.prefix_refl _, rfl⟩ c!"]" (by simp)
  -- the tokens of the other file begin like those of a file that is not correct
  have h0 : (parseFile c!"y = a[#\n]").isSome := by decide +kernel
  obtain ⟨⟨tree0, st0⟩, h0⟩ := Option.isSome_iff_exists.1 h0
  have he0 : (parseFile c!"y = a[#\n]").map (fun r => r.2.errs) = some [⟨.op ']', 8, c!"]", true⟩] := by decide +kernel
  rw [h0] at he0
  simp only [Option.map_some, Option.some.injEq] at he0
  have hts0 : TokensOf c!"y = a[#\n]" toks5 := ⟨⟨.eof, 9, [], false⟩, by decide +kernel, rfl, by decide +kernel⟩
  obtain ⟨pre0, hp0, -, hall⟩ := C108_first_error hts0 h0 he0
  have hpre0 : pre0 ++ [⟨.op ']', 8, c!"]", true⟩] = toks5 := by
    rcases hp0 with hp0 | ⟨-, hp0⟩
    · obtain ⟨q, hq⟩ := hp0
      rcases List.eq_nil_or_concat q with rfl | ⟨q', x, rfl⟩
      · simpa using hq
      · exfalso
        have hm : (⟨.op ']', 8, c!"]", true⟩ : Token) ∈ toks5.dropLast := by
          rw [← hq, List.concat_eq_append, ← List.append_assoc, List.dropLast_concat]
          simp
        revert hm
        decide +kernel
    · cases hp0
  obtain ⟨tree3, st3, es3, k1, k2⟩ := hall _ _ g1 (by
    rw [hpre0]
    exact tokens_begin g1 (known more) rfl (by decide +kernel))
  rw [g2] at k1
  cases k1
  rw [g3] at k2
  cases k2

/-- The messages of a file. -/
private def told (content : Str) : Option (List String) := (ofFile c!"B" content).map (·.map String.ofList)

/-- A message, and for each of the words that it names a file that is accepted. -/
example : told c!"f(deps = [\":a\" \":b\"])" = some ["B:1:16-19: got '\":b\"'; expected `for`, `]', or `,`'\n"] := by
  decide +kernel
example : told (c!"f(deps = [\":a\" \":b\"])".take 15 ++ c!"#\nfor x in y])") = some [] := by decide +kernel
example : told (c!"f(deps = [\":a\" \":b\"])".take 15 ++ c!"#\n])") = some [] := by decide +kernel
example : told (c!"f(deps = [\":a\" \":b\"])".take 15 ++ c!"#\n, ])") = some [] := by decide +kernel
/-- The exceptions. -/
example : told c!"y = a[=" = some ["B:1:7: got '='; Expected ':' or ']'\n"] := by decide +kernel
example : told c!"y = a[]" = some ["B:1:7: got ']'; Can not have an empty array access\n"] := by decide +kernel
example : told c!"y = a[:=" = some ["B:1:8: got '='; Expected closing ']' of array access\n"] := by decide +kernel
example : told c!"y = a[:]" = some
    ["B:1:8: got ']'; Expected at least one valid expression before or after the ':'\n"] := by decide +kernel

end Bant.Props
