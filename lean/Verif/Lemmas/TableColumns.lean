import Verif.Spec.Table

/-! Lemmas: columns of aligned text. -/
namespace Bant
namespace Table
open TableSpec

/-- The columns are wide enough for the row, but for the last one. -/
def Covers : List Nat → List Str → Prop
  | w :: w' :: ws, c :: cs => c.length ≤ w ∧ Covers (w' :: ws) cs
  | [_], [_] => True
  | _, _ => False

theorem widen_length (ws : List Nat) (row : List Str) : (widen ws row).length = ws.length := by
  induction ws generalizing row with
  | nil => cases row <;> rfl
  | cons w ws ih =>
    cases ws with
    | nil => cases row <;> rfl
    | cons w' ws =>
      cases row with
      | nil => rfl
      | cons c cs => simp only [widen, List.length_cons] at ih ⊢; rw [ih]

theorem widen_cons_ne (w' : Nat) (ws : List Nat) (cs : List Str) : ∃ v vs, widen (w' :: ws) cs = v :: vs := by
  have := widen_length (w' :: ws) cs
  cases h : widen (w' :: ws) cs with
  | nil => simp [h] at this
  | cons v vs => exact ⟨v, vs, rfl⟩

theorem widen_covers {ws : List Nat} {row : List Str} (h : row.length = ws.length) (hne : ws ≠ []) :
    Covers (widen ws row) row := by
  induction ws generalizing row with
  | nil => exact absurd rfl hne
  | cons w ws ih =>
    cases ws with
    | nil =>
      match row, h with
      | [x], _ => simp [widen, Covers]
    | cons w' ws =>
      cases row with
      | nil => simp at h
      | cons c cs =>
        have := ih (row := cs) (by simpa using h) (by simp)
        obtain ⟨v, vs, hv⟩ := widen_cons_ne w' ws cs
        rw [widen]
        rw [hv] at this ⊢
        exact ⟨Nat.le_max_right _ _, this⟩

theorem covers_widen {ws : List Nat} {r : List Str} (h : Covers ws r) (row : List Str) : Covers (widen ws row) r := by
  induction ws generalizing r row with
  | nil => cases r <;> simp [Covers] at h
  | cons w ws ih =>
    cases ws with
    | nil => cases row <;> exact h
    | cons w' ws =>
      cases row with
      | nil => exact h
      | cons c cs =>
        cases r with
        | nil => simp [Covers] at h
        | cons x xs =>
          simp only [Covers] at h
          have := ih h.2 cs
          obtain ⟨v, vs, hv⟩ := widen_cons_ne w' ws cs
          rw [widen]
          rw [hv] at this ⊢
          exact ⟨Nat.le_trans h.1 (Nat.le_max_left _ _), this⟩

theorem widen_tight {ws : List Nat} {row : List Str} {k w : Nat} (h : (widen ws row)[k]? = some w) :
    ws[k]? = some w ∨ ∃ x, row[k]? = some x ∧ x.length = w := by
  induction ws generalizing row k with
  | nil => cases row <;> exact .inl h
  | cons v ws ih =>
    cases ws with
    | nil => cases row <;> exact .inl h
    | cons w' ws =>
      cases row with
      | nil => exact .inl h
      | cons c cs =>
        rw [widen] at h
        cases k with
        | zero =>
          simp only [List.getElem?_cons_zero, Option.some.injEq] at h ⊢
          rcases Nat.le_total v c.length with h1 | h1
          · rw [Nat.max_eq_right h1] at h
            exact .inr ⟨c, rfl, h⟩
          · rw [Nat.max_eq_left h1] at h
            exact .inl h
        | succ k => exact ih (by simpa using h)

/-- State after adding rows. -/
def Holds (n : Nat) (t : Aligned) : Prop :=
  t.widths.length = n ∧ (∀ row ∈ t.buffer, Covers t.widths row) ∧
    ∀ (k w : Nat), t.widths[k]? = some w → w = 0 ∨ ∃ r ∈ t.buffer, ∃ x, r[k]? = some x ∧ x.length = w

theorem addRow_holds {n : Nat} (hn : n ≠ 0) {t : Aligned} (h : Holds n t) {row : List Str} (hr : row.length = n) :
    ∃ t', t.addRow row = some t' ∧ Holds n t' ∧ t'.buffer = t.buffer ++ [row] := by
  have hw : t.widths ≠ [] := by
    intro e
    rw [Holds, e] at h
    exact hn h.1.symm
  refine ⟨_, by rw [Aligned.addRow, if_neg (by rw [hr, h.1]; simp), if_neg hw], ⟨?_, ?_, ?_⟩, rfl⟩
  · rw [widen_length]; exact h.1
  · intro r hm
    rcases List.mem_append.1 hm with hm | hm
    · exact covers_widen (h.2.1 r hm) row
    · simp only [List.mem_singleton] at hm
      subst hm
      exact widen_covers (by rw [hr, h.1]) hw
  · intro k w hk
    rcases widen_tight hk with hk | ⟨x, h1, h2⟩
    · rcases h.2.2 k w hk with h1 | ⟨r, h1, h2⟩
      · exact .inl h1
      · exact .inr ⟨r, by simp [h1], h2⟩
    · exact .inr ⟨row, by simp, x, h1, h2⟩

theorem addRows_holds {n : Nat} (hn : n ≠ 0) (rows : List (List Str)) (hr : ∀ row ∈ rows, row.length = n) :
    ∀ {t : Aligned}, Holds n t →
    ∃ t', rows.foldlM Aligned.addRow t = some t' ∧ Holds n t' ∧ t'.buffer = t.buffer ++ rows := by
  induction rows with
  | nil => intro t h; exact ⟨t, rfl, h, by simp⟩
  | cons row rows ih =>
    intro t h
    obtain ⟨t1, h1, h2, h3⟩ := addRow_holds hn h (hr row (by simp))
    obtain ⟨t2, h4, h5, h6⟩ := ih (fun r hm => hr r (by simp [hm])) h2
    refine ⟨t2, ?_, h5, by rw [h6, h3]; simp⟩
    rw [List.foldlM_cons, h1]
    exact h4

theorem addOp_holds {headers : List Str} (hne : headers ≠ []) {t : Aligned} (h : Holds headers.length t) {op : Op}
    (hf : Fits headers op) :
    ∃ t', t.addOp op = some t' ∧ Holds headers.length t' ∧ t'.buffer = t.buffer ++ rowsOf op := by
  have hn : headers.length ≠ 0 := by simpa using hne
  cases op with
  | row cells => exact addRow_holds hn h hf
  | «repeated» pre values =>
    simp only [Fits] at hf
    obtain ⟨t', h1, h2, h3⟩ := addRows_holds hn (values.map fun v => pre ++ [v]) (by
      intro row hm
      obtain ⟨v, _, rfl⟩ := List.mem_map.1 hm
      simpa using hf) h
    refine ⟨t', ?_, h2, h3⟩
    rw [Aligned.addOp, if_neg (by rw [h.1]; simpa using hf)]
    rw [List.foldlM_map] at h1
    exact h1

theorem addOps_holds {headers : List Str} (hne : headers ≠ []) (ops : List Op) (hf : ∀ op ∈ ops, Fits headers op) :
    ∀ {t : Aligned}, Holds headers.length t →
    ∃ t', ops.foldlM Aligned.addOp t = some t' ∧ Holds headers.length t' ∧ t'.buffer = t.buffer ++ ops.flatMap rowsOf := by
  induction ops with
  | nil => intro t h; exact ⟨t, rfl, h, by simp⟩
  | cons op ops ih =>
    intro t h
    obtain ⟨t1, h1, h2, h3⟩ := addOp_holds hne h (hf op (by simp))
    obtain ⟨t2, h4, h5, h6⟩ := ih (fun r hm => hf r (by simp [hm])) h2
    refine ⟨t2, ?_, h5, by rw [h6, h3]; simp⟩
    rw [List.foldlM_cons, h1]
    exact h4

/-! ### One line -/

/-- Where columns begin. -/
def columnStarts (pos : Nat) : List Nat → List Nat
  | [] => []
  | w :: ws => pos :: columnStarts (pos + w + 1) ws

theorem columnStarts_next {ws : List Nat} {pos k s s' : Nat} (h : (columnStarts pos ws)[k]? = some s)
    (h' : (columnStarts pos ws)[k + 1]? = some s') : ∃ w, ws[k]? = some w ∧ s' = s + w + 1 := by
  induction ws generalizing pos k with
  | nil => simp [columnStarts] at h
  | cons w ws ih =>
    cases k with
    | zero =>
      cases ws with
      | nil => simp [columnStarts] at h'
      | cons w' ws =>
        simp [columnStarts] at h h'
        exact ⟨w, rfl, by omega⟩
    | succ k =>
      rw [columnStarts] at h h'
      exact ih (by simpa using h) (by simpa using h')

/-- The cells with blanks. -/
def padded (ws : List Nat) (row : List Str) : Str := (List.zipWith (fun w c => padRight (w + 1) c) ws row).flatten

theorem columnStarts_length (ws : List Nat) (pos : Nat) : (columnStarts pos ws).length = ws.length := by
  induction ws generalizing pos with
  | nil => rfl
  | cons w ws ih => simp [columnStarts, ih]

theorem covers_length {ws : List Nat} {row : List Str} (h : Covers ws row) : ws.length = row.length := by
  induction ws generalizing row with
  | nil => cases row <;> simp [Covers] at h
  | cons w ws ih =>
    cases ws with
    | nil =>
      match row, h with
      | [x], _ => rfl
    | cons w' ws =>
      cases row with
      | nil => simp [Covers] at h
      | cons c cs => simp only [List.length_cons] at ih ⊢; rw [ih h.2]

theorem padRight_length {w : Nat} {c : Str} (h : c.length ≤ w) : (padRight (w + 1) c).length = w + 1 := by
  simp [padRight]; omega

theorem padded_there {ws : List Nat} {row : List Str} (h : Covers ws row) (pos k s : Nat) (x : Str)
    (hs : (columnStarts pos ws)[k]? = some s) (hx : row[k]? = some x) :
    ∃ a b, padded ws row = a ++ x ++ b ∧ s = pos + a.length := by
  induction ws generalizing row pos k with
  | nil => cases row <;> simp [Covers] at h
  | cons w ws ih =>
    cases row with
    | nil => cases ws <;> simp [Covers] at h
    | cons c cs =>
      cases k with
      | zero =>
        simp only [columnStarts, List.getElem?_cons_zero, Option.some.injEq] at hs hx
        subst hs hx
        exact ⟨[], List.replicate (w + 1 - c.length) ' ' ++ padded ws cs, by simp [padded, padRight], by simp⟩
      | succ k =>
        cases ws with
        | nil => simp [columnStarts] at hs
        | cons w' ws =>
          simp only [Covers] at h
          rw [columnStarts] at hs
          obtain ⟨a, b, h1, h2⟩ := ih h.2 _ _ (by simpa using hs) (by simpa using hx)
          refine ⟨padRight (w + 1) c ++ a, b, ?_, ?_⟩
          · simp only [padded, List.zipWith_cons_cons, List.flatten_cons] at h1 ⊢
            rw [h1]; simp
          · rw [List.length_append, padRight_length h.1]; omega

theorem padded_apart {ws : List Nat} {row : List Str} (h : Covers ws row) (pos k s s' : Nat) (x : Str)
    (hs : (columnStarts pos ws)[k]? = some s) (hs' : (columnStarts pos ws)[k + 1]? = some s')
    (hx : row[k]? = some x) : s + x.length < s' := by
  induction ws generalizing row pos k with
  | nil => cases row <;> simp [Covers] at h
  | cons w ws ih =>
    cases row with
    | nil => cases ws <;> simp [Covers] at h
    | cons c cs =>
      cases ws with
      | nil => simp [columnStarts] at hs'
      | cons w' ws =>
        simp only [Covers] at h
        cases k with
        | zero =>
          simp [columnStarts] at hs hs' hx
          subst hs hx
          have := h.1
          omega
        | succ k =>
          rw [columnStarts] at hs hs'
          exact ih h.2 (pos + w + 1) k (by simpa using hs) (by simpa using hs') (by simpa using hx)

theorem padded_blank {ws : List Nat} {row : List Str} (h : Covers ws row) (pos i : Nat) (c : Char)
    (hi : (padded ws row)[i]? = some c) (hc : c ≠ ' ') :
    ∃ (k s : Nat) (x : Str), (columnStarts pos ws)[k]? = some s ∧ row[k]? = some x ∧ s ≤ pos + i ∧ pos + i < s + x.length := by
  induction ws generalizing row pos i with
  | nil => cases row <;> simp [Covers] at h
  | cons w ws ih =>
    cases row with
    | nil => cases ws <;> simp [Covers] at h
    | cons x xs =>
      have e : padded (w :: ws) (x :: xs) = x ++ (List.replicate (w + 1 - x.length) ' ' ++ padded ws xs) := by
        simp [padded, padRight]
      rw [e] at hi
      by_cases h1 : i < x.length
      · exact ⟨0, pos, x, rfl, rfl, by omega, by omega⟩
      · rw [List.getElem?_append_right (by omega)] at hi
        by_cases h2 : i - x.length < w + 1 - x.length
        · rw [List.getElem?_append_left (by simpa using h2)] at hi
          rw [List.getElem?_replicate] at hi
          rw [if_pos h2] at hi
          exact absurd (Option.some.inj hi).symm hc
        · rw [List.getElem?_append_right (by simpa using h2)] at hi
          cases ws with
          | nil =>
            cases xs <;> simp [padded] at hi
          | cons w' ws =>
            simp only [Covers] at h
            have := h.1
            have e2 : i - x.length - (List.replicate (w + 1 - x.length) ' ').length = i - (w + 1) := by
              simp; omega
            rw [e2] at hi
            obtain ⟨k, s, y, a1, a2, a3, a4⟩ := ih h.2 (pos + w + 1) (i - (w + 1)) hi
            exact ⟨k + 1, s, y, by simpa [columnStarts] using a1, by simpa using a2, by omega, by omega⟩

theorem padded_columns {ws : List Nat} {row : List Str} (h : Covers ws row) :
    ColumnsAt (columnStarts 0 ws) row (padded ws row) where
  count := by rw [columnStarts_length]; exact covers_length h
  there := by
    intro k s x hs hx
    obtain ⟨a, b, h1, h2⟩ := padded_there h 0 k s x hs hx
    rw [h1, h2]
    simp
  apart := fun k s s' x => padded_apart h 0 k s s' x
  blank := by
    intro i c hi hc
    obtain ⟨k, s, x, h1, h2, h3, h4⟩ := padded_blank h 0 i c hi hc
    exact ⟨k, s, x, h1, h2, by omega, by omega⟩

end Table
end Bant
