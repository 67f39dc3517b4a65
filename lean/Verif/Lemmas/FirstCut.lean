import Verif.Lemmas.ScanCut

/-! The text before the token of the first error, continued with other words. -/
namespace Bant
namespace ScanCut
open Grammar Scanner Parser Project

theorem deliver_from (n : Nat) (s : Scanner) (hup : s.upcoming = none) :
    ∀ t ∈ (deliver n s).1, s.pos ≤ t.start := by
  induction n generalizing s with
  | zero => simp [deliver]
  | succ n ih =>
    intro t ht
    obtain ⟨⟨g, hg⟩, hu⟩ := next_ok hup
    simp only [deliver, List.mem_cons] at ht
    rcases ht with rfl | ht
    · rw [hg.start]; omega
    · have := ih _ hu t ht
      rw [hg.hpos, hg.start] at this
      omega

theorem parts {content : Str} {pre rest : List Token} {f : Token}
    (h : (deliver ((pre ++ rest).length + 1) (Scanner.init content)).1 = pre ++ rest ++ [f]) :
    (deliver pre.length (Scanner.init content)).1 = pre ∧
      (deliver (rest.length + 1) (deliver pre.length (Scanner.init content)).2).1 = rest ++ [f] := by
  have := deliver_add pre.length (rest.length + 1) (Scanner.init content)
  rw [List.length_append, Nat.add_assoc, this] at h
  simp only [List.append_assoc] at h
  exact List.append_inj h (deliver_length _ _)

/-- The tokens of the text before a token, and then of some words. -/
theorem cut_at {content : Str} {pre rest : List Token} {e : Token} (hts : TokensOf content (pre ++ rest))
    (h2 : e = rest.headD (initState content).eof) (hok : ∀ t ∈ pre, t.type ≠ .eof ∧ t.type ≠ .error)
    (ws : List (TokenType × Str)) (hw : ∀ w ∈ ws, w ∈ simple) :
    ∃ us, TokensOf (content.take e.start ++ (c!"#\n" ++ spelled ws)) (pre ++ us) ∧ Spells ws us := by
  obtain ⟨f, d1, d2, d3⟩ := hts
  obtain ⟨p1, p2⟩ := parts d1
  obtain ⟨x, x1, x2, x3⟩ := deliver_rest pre.length (Scanner.init content) rfl
  -- what is before the token, and the rest
  obtain ⟨a, b, g1, g2, g3⟩ : ∃ a b, Gap True a ∧
      (deliver pre.length (Scanner.init content)).2.rest = a ++ b ∧
      e.start = (deliver pre.length (Scanner.init content)).2.pos + a.length := by
    obtain ⟨⟨g, hg⟩, _⟩ := next_ok x3
    cases rest with
    | nil =>
      refine ⟨g, (next (deliver pre.length (Scanner.init content)).2).1.text ++
        (next (deliver pre.length (Scanner.init content)).2).2.rest, Gap.imp hg.hgap (by simp), hg.text, ?_⟩
      simp only [List.length_nil, deliver, List.nil_append, List.cons.injEq, and_true] at p2
      rw [h2]
      show content.length = _
      have r1 := hg.eofIff.1 (by rw [p2]; exact d2)
      have r2 := hg.eofRest (by rw [p2]; exact d2)
      have r3 := hg.text
      rw [r1, r2, List.append_nil, List.append_nil] at r3
      have : content = x ++ g := by rw [← r3]; exact x1
      rw [x2, this, List.length_append]
      simp [Scanner.init]
    | cons e' post =>
      refine ⟨g, (next (deliver pre.length (Scanner.init content)).2).1.text ++
        (next (deliver pre.length (Scanner.init content)).2).2.rest, Gap.imp hg.hgap (by simp), hg.text, ?_⟩
      simp only [List.length_cons, deliver, List.cons_append, List.cons.injEq] at p2
      rw [← hg.start, p2.1, h2]
      rfl
  have hX : content = content.take e.start ++ b := by
    have hc : content = x ++ a ++ b := by
      rw [List.append_assoc, ← g2]; exact x1
    have hl : e.start = (x ++ a).length := by
      rw [g3, x2, List.length_append]; simp [Scanner.init]
    conv => lhs; rw [hc]
    congr 1
    rw [hc, hl, List.take_left]
  exact cut_tokens p1 hok g1 g2 hX ws hw

/-- What can be completed has no wrong token. -/
theorem completed_ok {pre : List Token} {ws : List (TokenType × Str)}
    (hv : ∀ us, Spells ws us → ∃ n, Parses .program (pre ++ us) [] n) : ∀ t ∈ pre, t.type ≠ .error := by
  intro t ht
  obtain ⟨n, hn⟩ := hv (ws.map fun w => ⟨w.1, 0, w.2, false⟩) (by
    simp only [Spells, List.map_map]
    exact (List.map_congr_left fun _ _ => rfl).trans (List.map_id _))
  obtain ⟨q, q1, q2⟩ : Eaten _ [] := eaten_ok hn
  rw [List.append_nil] at q1
  exact (q2 t (by rw [← q1]; simp [ht])).1

end ScanCut
end Bant
