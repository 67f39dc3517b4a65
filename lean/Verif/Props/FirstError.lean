import Verif.Lemmas.FirstCut
import Verif.Lemmas.ParserLocal
import Verif.Props.Parser

/-!
C108 (the first syntax error is reported at the first token with which the file can no longer be
the beginning of a correct file).
-/
namespace Bant.Props
open Parser Grammar Scanner ScanCut Project

/-! ## C108 -/

/-- A token occurs only once, as it stands at one place only. -/
private theorem once {content : Str} {pre post : List Token} {e : Token}
    (hts : TokensOf content (pre ++ e :: post)) : e ∉ post := by
  obtain ⟨f, h1, -, h3⟩ := hts
  obtain ⟨-, h2⟩ := parts h1
  obtain ⟨x, -, -, hup⟩ := deliver_rest pre.length (Scanner.init content) rfl
  obtain ⟨⟨g, hg⟩, hu⟩ := next_ok hup
  rw [List.length_cons, deliver] at h2
  simp only [List.cons_append, List.cons.injEq] at h2
  intro hm
  have h4 := deliver_from (post.length + 1) _ hu e (by rw [h2.2]; simp [hm])
  have h5 := hg.up
  rw [hg.hpos, h2.1] at h4
  have h6 : e.type ≠ .eof := h3 e (by simp)
  have h7 : e.text ≠ [] := by
    intro h
    exact h6 (by rw [← h2.1] at h ⊢; exact hg.eofIff.2 h)
  have : 0 < e.text.length := List.length_pos_iff.2 h7
  omega

/-- C108: if there are syntax errors, then the first one that is reported is at the first place
where the file goes wrong. The text before the reported token is the beginning of a file without
syntax errors. And every file with the same tokens up to and including the reported one has a
syntax error, first of all this one. -/
theorem C108_first_error {content : Str} {ts : List Token} {tree : Node} {st : PState} {e : Token}
    {es : List Token} (hts : TokensOf content ts) (h : parseFile content = some (tree, st))
    (he : st.errs = e :: es) :
    ∃ pre, (pre ++ [e] <+: ts ∨ pre = ts ∧ e = ⟨.eof, content.length, [], false⟩) ∧
      (∃ w us tree2 st2, TokensOf (content.take e.start ++ w) (pre ++ us) ∧
        parseFile (content.take e.start ++ w) = some (tree2, st2) ∧ st2.errs = []) ∧
      (∀ content2 ts2, TokensOf content2 ts2 → pre ++ [e] <+: ts2 →
        ∃ tree2 st2 es2, parseFile content2 = some (tree2, st2) ∧ st2.errs = e :: es2) := by
  obtain ⟨pre, rest, h1, h2, ws, hw, hv⟩ := first_error_viable h he
  have htoks := initState_toks hts
  rw [htoks] at h1
  subst h1
  obtain ⟨f, d1, d2, d3⟩ := hts
  have hts : TokensOf content (pre ++ rest) := ⟨f, d1, d2, d3⟩
  have hok : ∀ t ∈ pre, t.type ≠ .eof ∧ t.type ≠ .error :=
    fun t ht => ⟨d3 t (by simp [ht]), completed_ok hv t ht⟩
  obtain ⟨us, u1, u2⟩ := cut_at hts h2 hok ws hw
  refine ⟨pre, ?_, ?_, ?_⟩
  · cases rest with
    | nil => exact .inr ⟨by simp, h2⟩
    | cons e' post =>
      have : e = e' := h2
      subst this
      exact .inl ⟨post, by simp⟩
  · obtain ⟨n, hn⟩ := hv us u2
    obtain ⟨st2, s1, s2⟩ := (parseFile_iff u1 n).2 hn
    exact ⟨_, us, n, st2, u1, s1, s2⟩
  · rintro content2 ts2 hts2 ⟨post2, rfl⟩
    obtain ⟨f2, _, _, k3⟩ := id hts2
    have hne : e.type ≠ .eof := k3 e (by simp)
    cases rest with
    | nil => exact absurd (by rw [h2]; rfl) hne
    | cons e' post =>
      have : e = e' := h2
      subst this
      obtain ⟨tree2, st2, s1, _⟩ := parseFile_total content2
      have hh := same_first_error h s1 he htoks
        (post' := post2) (by rw [initState_toks hts2]; simp) (once hts) (by rintro rfl; exact hne rfl)
      cases hs : st2.errs with
      | nil => rw [hs] at hh; simp at hh
      | cons e2 es2 =>
        rw [hs] at hh
        simp only [List.head?_cons, Option.some.injEq] at hh
        subst hh
        exact ⟨tree2, st2, es2, s1, hs⟩

/-- C108: in particular a file whose tokens begin like those of a file without errors is not
blamed for these: the first error is not before the first difference. -/
theorem C108_not_earlier {good content : Str} {ts tsgood common : List Token} {tree tree2 : Node}
    {st st2 : PState} {e : Token} {es : List Token}
    (hgood : parseFile good = some (tree2, st2)) (hnone : st2.errs = []) (htg : TokensOf good tsgood)
    (hts : TokensOf content ts) (h : parseFile content = some (tree, st)) (he : st.errs = e :: es)
    (h1 : common <+: ts) (h2 : common <+: tsgood) : e ∉ common := by
  intro ht
  obtain ⟨pre, hp, -, hall⟩ := C108_first_error hts h he
  have hne : e.type ≠ .eof := by
    obtain ⟨_, _, _, h3⟩ := hts
    exact h3 e (h1.subset ht)
  rcases hp with ⟨post, hp⟩ | ⟨-, rfl⟩
  · -- the token is at one place only
    obtain ⟨a, b, rfl⟩ := List.append_of_mem ht
    obtain ⟨c, hc⟩ := h1
    obtain ⟨d, hd⟩ := h2
    have hcut : pre = a := by
      have e1 : ts = a ++ e :: (b ++ c) := by rw [← hc]; simp
      have e2 : ts = pre ++ e :: post := by rw [← hp]; simp
      have n1 := once (e1 ▸ hts)
      have n2 := once (e2 ▸ hts)
      rcases List.append_eq_append_iff.1 (e2.symm.trans e1) with ⟨z, z1, z2⟩ | ⟨z, z1, z2⟩
      · cases z with
        | nil => simpa using z1.symm
        | cons u z =>
          simp only [List.cons_append, List.cons.injEq] at z2
          exact absurd (by rw [z2.2]; simp) n2
      · cases z with
        | nil => simpa using z1
        | cons u z =>
          simp only [List.cons_append, List.cons.injEq] at z2
          exact absurd (by rw [z2.2]; simp) n1
    subst hcut
    obtain ⟨tree3, st3, es3, g1, g2⟩ := hall good tsgood htg ⟨b ++ d, by rw [← hd]; simp⟩
    rw [hgood] at g1
    cases g1
    rw [hnone] at g2
    cases g2
  · exact hne rfl

/-- The errors of a file: text and place of the tokens. -/
private def complaints (content : Str) : Option (List (String × Nat)) :=
  (parseFile content).map fun r => r.2.errs.map fun t => (String.ofList t.text, t.start)

/-- A missing comma: the string that follows is the place. -/
example : complaints c!"f(deps = [\":a\"\n  \":b\"] + ,)\ng(]" = some [("\":b\"", 17), (",", 25)] := by
  decide +kernel
/-- What is before it can be continued, and no continuation of what includes it can be good. -/
example : complaints (c!"f(deps = [\":a\"\n  \":b\"] + ,)\ng(]".take 17 ++ c!"])") = some [] := by
  decide +kernel
example : complaints (c!"f(deps = [\":a\"\n  \":b\"] + ,)\ng(]".take 21 ++ c!"])") = some [("\":b\"", 17)] := by
  decide +kernel
/-- A file that ends too early is reported at its end. -/
example : complaints c!"x = [a for b in (c" = some [("", 18), ("", 18)] := by decide +kernel

end Bant.Props
