import Verif.Spec.Json

/-! Lemmas on the reader for JSON. -/
namespace Bant
namespace Json

theorem foldlM_append_some {α σ : Type} (f : σ → α → Option σ) (l l' : List α) (s : σ) :
    (l ++ l').foldlM f s = (l.foldlM f s).bind (l'.foldlM f) := by
  rw [List.foldlM_append]; rfl

/-- A part of a text that is between strings. -/
def Lexes (text : Str) (ts : List Tok) : Prop :=
  ∀ d, text.foldlM Lex.next ⟨d, none, false⟩ = some ⟨d ++ ts, none, false⟩

theorem Lexes.nil : Lexes [] [] := fun d => by simp

theorem Lexes.append {a b : Str} {s t : List Tok} (ha : Lexes a s) (hb : Lexes b t) : Lexes (a ++ b) (s ++ t) := by
  intro d
  rw [foldlM_append_some, ha d]
  simp only [Option.bind_some]
  rw [hb, List.append_assoc]

theorem lexes_chars {s : Str} (h : Plain s) : ∀ (d : List Tok) (t : Str),
    s.foldlM Lex.next ⟨d, some t, false⟩ = some ⟨d, some (t ++ s), false⟩ := by
  induction s with
  | nil => intro d t; simp
  | cons c s ih =>
    intro d t
    obtain ⟨h1, h2, h3⟩ := h c (by simp)
    have hc : ¬ c.toNat < 32 := by omega
    rw [List.foldlM_cons]
    have : Lex.next ⟨d, some t, false⟩ c = some ⟨d, some (t ++ [c]), false⟩ := by
      simp [Lex.next, h1, h2, hc]
    rw [this]
    have := ih (fun x hx => h x (by simp [hx])) d (t ++ [c])
    simpa using this

theorem Lexes.quoted {s : Str} (h : Plain s) : Lexes ('"' :: s ++ ['"']) [.str s] := by
  intro d
  rw [foldlM_append_some, List.foldlM_cons]
  have : Lex.next ⟨d, none, false⟩ '"' = some ⟨d, some [], false⟩ := by simp [Lex.next]
  rw [this]
  show (s.foldlM Lex.next ⟨d, some [], false⟩).bind _ = _
  rw [lexes_chars h]
  simp [Lex.next]

theorem Lexes.flatMap {α : Type} {f : α → Str} {g : α → List Tok} (l : List α) (h : ∀ x ∈ l, Lexes (f x) (g x)) :
    Lexes (l.flatMap f) (l.flatMap g) := by
  induction l with
  | nil => exact .nil
  | cons x l ih =>
    rw [List.flatMap_cons, List.flatMap_cons]
    exact (h x (by simp)).append (ih fun y hy => h y (by simp [hy]))

theorem Lexes.lex {text : Str} {ts : List Tok} (h : Lexes text ts) : lex text = some ts := by
  unfold Json.lex
  have := h []
  simp only [List.nil_append] at this
  show (text.foldlM Lex.next ⟨[], none, false⟩ >>= _) = _
  rw [this]
  rfl

/-- Without the permission, a comma is not followed by a closing bracket. -/
theorem strict_comma (s s' : Parse) (h : s.step false (.punct ',') = some s') (c : Char) (hc : c = ']' ∨ c = '}') :
    s'.step false (.punct c) = none := by
  obtain ⟨stack, need, res⟩ := s
  have key : s'.need = .value ∨ s'.need = .key := by
    cases need with
    | value => simp [Parse.step, Parse.value] at h
    | valueOrEnd => simp [Parse.step, Parse.value] at h
    | next =>
      simp only [Parse.step] at h
      split at h
      · cases h; simp
      · cases h; simp
      · cases h
    | key => simp [Parse.step] at h
    | keyOrEnd => simp [Parse.step] at h
    | colon => simp [Parse.step] at h
    | nothing => simp [Parse.step] at h
  rcases key with key | key <;> rcases hc with rfl | rfl <;> simp [Parse.step, key, Parse.value]

theorem strict_none {ts : List Tok} {a b : List Tok} {c : Char} (hc : c = ']' ∨ c = '}')
    (h : ts = a ++ .punct ',' :: .punct c :: b) (s : Parse) : ts.foldlM (Parse.step false) s = none := by
  rw [h, foldlM_append_some]
  cases ha : a.foldlM (Parse.step false) s with
  | none => rfl
  | some s1 =>
    rw [Option.bind_some, List.foldlM_cons]
    cases h1 : s1.step false (.punct ',') with
    | none => rfl
    | some s2 =>
      show (List.foldlM (Parse.step false) s2 (.punct c :: b)) = none
      rw [List.foldlM_cons, strict_comma _ _ h1 c hc]
      rfl

theorem items (l : List Str) : ∀ (vs : List Value) (st : List Frame) (r : Option Value),
    (l.flatMap fun x => [Tok.str x, .punct ',']).foldlM (Parse.step true) ⟨.arr vs :: st, .valueOrEnd, r⟩ =
      some ⟨.arr (vs ++ l.map .str) :: st, .valueOrEnd, if l = [] then r else none⟩ := by
  induction l with
  | nil => intro vs st r; simp
  | cons x l ih =>
    intro vs st r
    rw [List.flatMap_cons, foldlM_append_some]
    have : [Tok.str x, .punct ','].foldlM (Parse.step true) ⟨.arr vs :: st, .valueOrEnd, r⟩ =
      some ⟨.arr (vs ++ [.str x]) :: st, .valueOrEnd, none⟩ := rfl
    rw [this, Option.bind_some, ih]
    simp

end Json
end Bant
