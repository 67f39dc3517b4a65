import Verif.Props.Scanner

/-! C13: where `not in` is read. -/
namespace Bant
namespace Props
open Scanner

/-- White space (or nothing), and then the two letters `in`, whatever follows these. -/
def InFollows (text : Str) : Prop :=
  ∃ ws r, (∀ c ∈ ws, isSpace c = true) ∧ text = ws ++ c!"in" ++ r

theorem takeWhile_space_in {ws r : Str} (h : ∀ c ∈ ws, isSpace c = true) :
    (ws ++ c!"in" ++ r).takeWhile isSpace = ws := by
  induction ws with
  | nil => simp [isSpace]
  | cons c cs ih =>
    have hc := h c (by simp)
    have := ih fun d hd => h d (by simp [hd])
    simp only [List.cons_append, List.takeWhile_cons, hc, if_true]
    rw [this]

theorem consumeOptionalIn_none {text : Str} (h : consumeOptionalIn text = none) : ¬ InFollows text := by
  rintro ⟨ws, r, hw, rfl⟩
  unfold consumeOptionalIn at h
  have h2 : (ws ++ c!"in" ++ r).drop ws.length = c!"in" ++ r := by rw [List.append_assoc, List.drop_left]
  simp only [takeWhile_space_in hw, h2] at h
  simp at h

theorem consumeOptionalIn_some {text t : Str} (h : consumeOptionalIn text = some t) : InFollows text := by
  unfold consumeOptionalIn at h
  simp only at h
  split at h
  · rename_i r hr
    refine ⟨text.takeWhile isSpace, r, ?_, ?_⟩
    · intro c hc
      exact List.all_eq_true.1 (List.all_takeWhile ..) c hc
    · have := List.takeWhile_append_dropWhile (p := isSpace) (l := text)
      have h2 : text.drop (text.takeWhile isSpace).length = text.dropWhile isSpace := by
        conv => lhs; arg 2; rw [← this]
        rw [List.drop_left]
      rw [h2] at hr
      conv => lhs; rw [← this, hr]
      simp
  · cases h

theorem handleString_not (rest : Str) (pos : Nat) (lines : LineMap) (nl : Nat) :
    (handleString rest pos lines nl).type = .stringLiteral ∨ (handleString rest pos lines nl).type = .error := by
  unfold handleString
  grind

theorem dispatch_not (c : Char) (cs : Str) (pos : Nat) (lines : LineMap) (nl : Nat)
    (h : (dispatch c cs pos lines nl).type = .op '!' ∧ (dispatch c cs pos lines nl).text = c!"not") :
    ¬ InFollows ((c :: cs).drop 3) := by
  obtain ⟨h1, h2⟩ := h
  unfold dispatch at h1 h2
  split at h1
  · rename_i hs
    rw [if_pos hs] at h2
    simp at h2
  · rename_i hs
    rw [if_neg hs] at h2
    split at h1
    · rename_i hc
      rw [if_pos hc] at h2
      simp only [handleRelational] at h2
      split at h2 <;> simp at h2
    · rename_i hc
      rw [if_neg hc] at h2
      split at h1
      · rename_i hd
        rw [if_pos hd] at h2
        simp only [handleRelational] at h2
        split at h2 <;> simp at h2
      · rename_i hd
        rw [if_neg hd] at h2
        split at h1
        · simp only [handleNumber] at h1
          split at h1 <;> cases h1
        · rename_i he
          rw [if_neg he] at h2
          split at h1
          · rcases handleString_not (c :: cs) pos lines nl with h | h <;> rw [h] at h1 <;> cases h1
          · rename_i hf
            rw [if_neg hf] at h2
            unfold handleWord at h1 h2
            split at h1
            · rcases handleString_not (c :: cs) pos lines nl with h | h <;> rw [h] at h1 <;> cases h1
            · rename_i hg
              rw [if_neg hg] at h2
              simp only [] at h1 h2
              split at h1
              · cases h1
              · rename_i hi
                rw [if_neg hi] at h2
                split at h1
                · rename_i hw
                  split at h1
                  · cases h1
                  · rename_i hn
                    rw [hw] at hn
                    exact consumeOptionalIn_none hn
                · simp only [wordType] at h1
                  repeat' split at h1
                  all_goals cases h1

theorem nextRaw_not (s : Scanner) (h : (nextRaw s).1.type = .op '!' ∧ (nextRaw s).1.text = c!"not") :
    ¬ InFollows (nextRaw s).2.rest := by
  revert h
  unfold nextRaw
  simp only
  split
  · simp
  · rename_i c cs hk
    simp only [hk]
    intro h
    rw [h.2]
    exact dispatch_not _ _ _ _ _ h

/-- C13 (exact account of `not`): if white space and the letters `in` follow, also as part of a longer
word, then all of this is the operator `not in`; otherwise `not` is a word of its own. All other words
end where no letter, digit or underscore follows (`C13_word_boundary_partial`). -/
theorem C13_not_partial (content : Str) (n : Nat) :
    ∀ t ∈ (deliver n (Scanner.init content)).1,
      (t.type = .kNotIn → ∃ ws, ws ≠ [] ∧ (∀ c ∈ ws, isSpace c = true) ∧ t.text = c!"not" ++ ws ++ c!"in") ∧
      (t.type = .op '!' ∧ t.text = c!"not" →
        ¬ startsWithWordChar (content.drop (t.start + t.text.length)) ∧
        ¬ InFollows (content.drop (t.start + t.text.length))) := by
  suffices H : ∀ (n : Nat) (s : Scanner) (c : Str), s.upcoming = none → content = c ++ s.rest →
      s.pos = c.length → ∀ t ∈ (deliver n s).1, t.type = .op '!' ∧ t.text = c!"not" →
        ¬ InFollows (content.drop (t.start + t.text.length)) by
    intro t ht
    have hc := C52_token_class content n t ht
    refine ⟨?_, fun hn => ⟨C13_word_boundary_partial content n t ht (.inr hn),
      H n (Scanner.init content) [] rfl (by simp [Scanner.init]) (by simp [Scanner.init]) t ht hn⟩⟩
    intro hty
    generalize content.drop (t.start + t.text.length) = r at hc
    generalize t.type = ty at hc hty
    generalize t.text = w at hc
    subst hty
    cases hc with
    | notIn h1 h2 => exact ⟨_, h1, h2, rfl⟩
    | keyword h1 => simp [keywords] at h1
  intro n
  induction n with
  | zero => simp [deliver]
  | succ n ih =>
    intro s c hup hc hp t ht
    obtain ⟨⟨g, hg⟩, hup'⟩ := next_ok hup
    have e1 : content = (c ++ (g ++ (next s).1.text)) ++ (next s).2.rest := by
      rw [hc, hg.text]; simp
    have e2 : (next s).2.pos = (c ++ (g ++ (next s).1.text)).length := by
      rw [hg.hpos, hg.start, hp]; simp; omega
    simp only [deliver, List.mem_cons] at ht
    rcases ht with rfl | ht
    · have e3 : content.drop ((next s).1.start + (next s).1.text.length) = (next s).2.rest := by
        rw [← hg.hpos, e2]
        conv => lhs; rw [e1]
        rw [List.drop_left]
      rw [e3, next_eq hup]
      exact nextRaw_not s
    · exact ih (next s).2 (c ++ (g ++ (next s).1.text)) hup' e1 e2 t ht

example : (deliver 2 (Scanner.init c!"not i")).1.map (fun t => (t.type, t.text)) =
    [(.op '!', c!"not"), (.identifier, c!"i")] := by decide +kernel
example : (deliver 2 (Scanner.init c!"not\t insert")).1.map (fun t => (t.type, t.text)) =
    [(.kNotIn, c!"not\t in"), (.identifier, c!"sert")] := by decide +kernel
example : InFollows c!"\t insert" := ⟨c!"\t ", c!"sert", by decide, by decide⟩

end Props
end Bant
