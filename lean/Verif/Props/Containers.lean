import Verif.Lemmas.Arena
import Verif.Lemmas.RangeMap

/-! Properties of the containers: C21, C22, C23. -/
namespace Bant
namespace Props

/-! ### C22: arena -/

section
open Arena

/-- Byte `i` of block `b` belongs to a piece of memory. -/
def Holds (p : Piece) (b i : Nat) : Prop := p.block = b ∧ p.start ≤ i ∧ i < p.start + p.size

/-- All allocations of a run work, whatever the sizes are. -/
theorem C22_alloc_works (blockSize : Nat) (sizes : List Nat) :
    ∃ ps s, allocs blockSize {} sizes = some (ps, s) ∧ ps.map (·.size) = sizes := by
  obtain ⟨ps, s, h1, _, _, h4, _⟩ := allocs_spec (B := blockSize) sizes {} rfl
  exact ⟨ps, s, h1, h4⟩

/-- **C22** (a): no byte belongs to two allocations. -/
theorem C22_disjoint (blockSize : Nat) (sizes : List Nat) (ps : List Piece) (s : State)
    (h : allocs blockSize {} sizes = some (ps, s)) (i j : Nat) (p q : Piece) (hij : i ≠ j)
    (hi : ps[i]? = some p) (hj : ps[j]? = some q) (b o : Nat) : ¬ (Holds p b o ∧ Holds q b o) := by
  obtain ⟨ps', s', h1, _, _, _, _, h6⟩ := allocs_spec (B := blockSize) sizes {} rfl
  rw [h] at h1
  cases h1
  have key : ∀ (i j : Nat) (p q : Piece), i < j → ps[i]? = some p → ps[j]? = some q →
      p.block < q.block ∨ (q.block = p.block ∧ p.start + p.size ≤ q.start) := by
    intro i j p q hlt hi hj
    have hjl : j < ps.length := by
      rcases Nat.lt_or_ge j ps.length with h | h
      · exact h
      · rw [List.getElem?_eq_none h] at hj; cases hj
    rw [List.getElem?_eq_getElem (by omega)] at hi
    rw [List.getElem?_eq_getElem hjl] at hj
    cases hi
    cases hj
    exact (List.pairwise_iff_getElem.1 h6) i j (by omega) hjl hlt
  unfold Holds
  rcases Nat.lt_or_gt_of_ne hij with hlt | hlt
  · have := key i j p q hlt hi hj
    omega
  · have := key j i q p hlt hj hi
    omega

/-- **C22** (b): each allocation lies inside of a block the arena owns. -/
theorem C22_owned (blockSize : Nat) (sizes : List Nat) (ps : List Piece) (s : State)
    (h : allocs blockSize {} sizes = some (ps, s)) (p : Piece) (hp : p ∈ ps) (b o : Nat)
    (ho : Holds p b o) : ∃ n, s.blocks[b]? = some n ∧ o < n := by
  obtain ⟨ps', s', h1, _, _, _, h5, _⟩ := allocs_spec (B := blockSize) sizes {} rfl
  rw [h] at h1
  cases h1
  obtain ⟨n, hn, hle⟩ := (h5 p hp).1
  obtain ⟨rfl, h2, h3⟩ := ho
  exact ⟨n, hn, by omega⟩

/-- **C22** (c): later allocations do not change what was handed out before: the pieces stay where
they are, and the blocks that exist are kept. -/
theorem C22_stable (blockSize : Nat) (sizes more : List Nat) (ps : List Piece) (s : State)
    (h : allocs blockSize {} sizes = some (ps, s)) :
    ∃ ps' s', allocs blockSize {} (sizes ++ more) = some (ps ++ ps', s') ∧ s.blocks <+: s'.blocks := by
  obtain ⟨_, _, h1, h2, _⟩ := allocs_spec (B := blockSize) sizes {} rfl
  rw [h] at h1
  cases h1
  obtain ⟨ps', s', g1, _, g3, _⟩ := allocs_spec (B := blockSize) more s h2
  exact ⟨ps', s', by rw [allocs_append, h]; simp [g1], g3⟩

/-- Alignment as the claim has it: objects of a size that is a multiple of their alignment get an
offset that is a multiple of the alignment. -/
def C22_statement : Prop :=
  ∀ (blockSize : Nat) (reqs : List (Nat × Nat)) ps s, (∀ r ∈ reqs, r.2 ∣ r.1) →
    allocs blockSize {} (reqs.map (·.1)) = some (ps, s) →
    ∀ (i : Nat) (r : Nat × Nat) (p : Piece), reqs[i]? = some r → ps[i]? = some p → r.2 ∣ p.start

/-- After a string of one character, an object that needs alignment to 8 bytes is not aligned. -/
theorem C22_counterexample : ¬ C22_statement := by
  intro h
  have := h 64 [(1, 1), (8, 8)] [⟨0, 0, 1⟩, ⟨0, 1, 8⟩] ⟨[64], some (0, 9)⟩ (by decide) (by decide) 1 (8, 8)
    ⟨0, 1, 8⟩ rfl rfl
  revert this
  decide

/-- **C22** (d): objects are aligned if all sizes are multiples of the alignment (not so if
strings are allocated in between). -/
theorem C22_aligned_partial (blockSize a : Nat) (sizes : List Nat) (ps : List Piece) (s : State)
    (ha : ∀ r ∈ sizes, a ∣ r) (h : allocs blockSize {} sizes = some (ps, s)) (p : Piece) (hp : p ∈ ps) :
    a ∣ p.start :=
  allocs_aligned sizes {} rfl (by intro b off h; cases h) ha ps s h p hp

/-- Two blocks, an oversized request in a block of its own. -/
example : allocs 10 {} [4, 4, 4, 30, 0, 2] =
    some ([⟨0, 0, 4⟩, ⟨0, 4, 4⟩, ⟨1, 0, 4⟩, ⟨2, 0, 30⟩, ⟨2, 30, 0⟩, ⟨3, 0, 2⟩],
      ⟨[10, 10, 30, 10], some (3, 2)⟩) := by decide

end

/-! ### C21: list in the arena -/

section
open ArenaDeque

variable {α : Type}

/-- **C21**: after any sequence of appends (which never write outside of a block) the list has
the number of appended values as size; index `i` and the reference returned by the `i`-th append
give the `i`-th value; and an iteration goes through exactly these values in order. -/
theorem C21_sequence (P : Params) (hmin : 0 < P.min) (vs : List α) :
    ∃ refs d, appends P (empty P) vs = some (refs, d) ∧
      d.size = vs.length ∧
      (∀ (i : Nat) (v : α), vs[i]? = some v → get P d i = some v) ∧
      refs.map (read d) = vs.map some ∧
      (∀ (i : Nat) (v : α), vs[i]? = some v →
        ∃ it, Iter.after P d i = some it ∧ it.deref d = some v ∧ it.atEnd P d = false) ∧
      ∃ it, Iter.after P d vs.length = some it ∧ it.atEnd P d = true := by
  obtain ⟨rs, d, h1, h2, h3, h4, _⟩ := appends_spec hmin vs (empty P) [] empty_shape
  obtain ⟨g1, it, g2, g3⟩ := h2.iter hmin rfl rfl [] 0 rfl rfl
  simp only [List.nil_append, Nat.zero_add] at g1 g2 h2
  exact ⟨rs, d, h1, by rw [h3]; simp [empty], h2.getFrom, h4, g1, it, g2, g3⟩

/-- **C21**: a reference handed out remains valid: appending more does not change what it refers
to. -/
theorem C21_references (P : Params) (hmin : 0 < P.min) (vs ws : List α) (refs : List (Nat × Nat))
    (d : Deque α) (h : appends P (empty P) vs = some (refs, d)) :
    ∃ refs' d', appends P d ws = some (refs', d') ∧ refs.map (read d') = vs.map some := by
  obtain ⟨rs, d1, h1, h2, _, h4, _⟩ := appends_spec hmin vs (empty P) [] empty_shape
  rw [h] at h1
  cases h1
  obtain ⟨rs', d2, g1, _, _, _, g5⟩ := appends_spec hmin ws d _ h2
  refine ⟨rs', d2, g1, ?_⟩
  rw [← h4]
  have key : ∀ (rs : List (Nat × Nat)) (vs : List α), rs.map (read d) = vs.map some →
      rs.map (read d2) = rs.map (read d) := by
    intro rs
    induction rs with
    | nil => intro _ _; rfl
    | cons r rs ih =>
      intro vs hv
      cases vs with
      | nil => cases hv
      | cons v vs =>
        simp only [List.map_cons, List.cons.injEq] at hv ⊢
        exact ⟨by rw [hv.1, g5 r v hv.1], ih vs hv.2⟩
  exact key _ _ h4

/-- The sizes of the blocks grow up to the maximum: 2, 4, 5 would be too much, so 4 again. -/
example : (appends ⟨2, 5⟩ (empty ⟨2, 5⟩) [10, 11, 12, 13, 14, 15, 16]).map
      (fun r => (r.1, r.2.blocks, r.2.size, get ⟨2, 5⟩ r.2 6)) =
    some ([(0, 0), (0, 1), (1, 0), (1, 1), (1, 2), (1, 3), (2, 0)],
      [[some 10, some 11], [some 12, some 13, some 14, some 15], [some 16, none, none, none]],
      7, some 16) := by decide

end

/-! ### C23: map from ranges -/

section
open RangeMap

variable {α : Type}

/-- Ranges that do not overlap. Empty ones are allowed (an empty file registers one), as long
as no other range ends there. -/
def Separate (rs : List (Nat × Nat × α)) : Prop :=
  (∀ r ∈ rs, r.1 ≤ r.2.1) ∧
    rs.Pairwise fun r s => (r.2.1 ≤ s.1 ∨ s.2.1 ≤ r.1) ∧ r.2.1 ≠ s.2.1

/-- Ranges that are not empty need only be disjoint. -/
theorem separate_of_disjoint {rs : List (Nat × Nat × α)} (h1 : ∀ r ∈ rs, r.1 < r.2.1)
    (h2 : rs.Pairwise fun r s => r.2.1 ≤ s.1 ∨ s.2.1 ≤ r.1) : Separate rs := by
  refine ⟨fun r hr => Nat.le_of_lt (h1 r hr), ?_⟩
  induction rs with
  | nil => exact .nil
  | cons x xs ih =>
    have h' := List.pairwise_cons.1 h2
    refine List.pairwise_cons.2 ⟨fun y hy => ⟨h'.1 y hy, ?_⟩, ih (fun r hr => h1 r (by simp [hr])) h'.2⟩
    have := h'.1 y hy
    have := h1 x (by simp)
    have := h1 y (by simp [hy])
    omega

theorem inserts_spec : ∀ (rs done : List (Nat × Nat × α)) (m : Container α), Separate (done ++ rs) →
    Sorted m → (∀ x, x ∈ m ↔ (x.2.1, x.1, x.2.2) ∈ done) →
    Sorted (inserts m rs) ∧ ∀ x, x ∈ inserts m rs ↔ (x.2.1, x.1, x.2.2) ∈ done ++ rs
  | [], done, m, _, hs, hm => ⟨hs, by simpa [inserts] using hm⟩
  | (b, e, v) :: rs, done, m, hsep, hs, hm => by
    have hk : ∀ x ∈ m, x.1 ≠ e := by
      intro x hx he
      have hx' := (hm x).1 hx
      have h1 := (List.pairwise_append.1 hsep.2).2.2 _ hx' (b, e, v) (by simp)
      have h2 := hsep.1 (b, e, v) (by simp)
      have h3 := hsep.1 _ (List.mem_append_left _ hx')
      simp only at h1 h2 h3
      omega
    obtain ⟨h1, _, h3⟩ := insert_new (k := e) (v := (b, v)) hs hk
    have := inserts_spec rs (done ++ [(b, e, v)]) (insert m b e v).1 (by simpa using hsep) h1 (by
      intro x
      show x ∈ (insertSorted e (b, v) m).1 ↔ _
      rw [h3, hm]
      simp only [List.mem_append, List.mem_singleton]
      constructor
      · rintro (rfl | h)
        · exact .inr rfl
        · exact .inl h
      · rintro (h | h)
        · exact .inr h
        · obtain ⟨k, f, w⟩ := x
          cases h
          exact .inl rfl)
    simpa [inserts] using this

theorem container_spec {rs : List (Nat × Nat × α)} (h : Separate rs) :
    Sorted (inserts [] rs) ∧ ∀ x, x ∈ inserts [] rs ↔ (x.2.1, x.1, x.2.2) ∈ rs := by
  have := inserts_spec rs [] [] (by simpa using h) List.Pairwise.nil (by simp)
  simpa using this

theorem pair_sep {rs : List (Nat × Nat × α)} (h : Separate rs) {r s : Nat × Nat × α} (hr : r ∈ rs)
    (hs : s ∈ rs) : r = s ∨ r.2.1 ≤ s.1 ∨ s.2.1 ≤ r.1 := by
  have := h.2
  induction rs with
  | nil => cases hr
  | cons x xs ih =>
    have h' := List.pairwise_cons.1 this
    rcases List.mem_cons.1 hr with hr | hr <;> rcases List.mem_cons.1 hs with hs | hs
    · exact .inl (hr.trans hs.symm)
    · exact .inr (hr ▸ (h'.1 s hs).1)
    · exact .inr (hs ▸ (h'.1 r hr).1.symm)
    · exact ih ⟨fun y hy => h.1 y (by simp [hy]), h'.2⟩ hr hs h'.2

/-- **C23** (a): a piece of an inserted range is found, whatever the order of insertion was. -/
theorem C23_found (rs : List (Nat × Nat × α)) (h : Separate rs) (lo hi : Nat) (v : α)
    (hin : (lo, hi, v) ∈ rs) (b e : Nat) (hbe : b < e) (hb : lo ≤ b) (he : e ≤ hi) :
    find (inserts [] rs) b e = some v := by
  obtain ⟨h1, h2⟩ := container_spec h
  have hx := (h2 (hi, lo, v)).2 hin
  unfold find
  rw [lowerBound_some h1 hx he]
  · simp only; rw [if_neg (by omega)]
  · intro y hy hey
    have hy' := (h2 y).1 hy
    have h3 := h.1 _ hy'
    rcases pair_sep h hin hy' with h4 | h4 | h4
    · cases h4; simp only; omega
    · simp only at h3 h4 ⊢; omega
    · simp only at h3 h4 ⊢; omega

/-- **C23** (b): a piece that is not part of one of the ranges is not found. -/
theorem C23_not_found (rs : List (Nat × Nat × α)) (h : Separate rs) (b e : Nat)
    (hno : ∀ r ∈ rs, ¬ (r.1 ≤ b ∧ e ≤ r.2.1)) : find (inserts [] rs) b e = none := by
  obtain ⟨h1, h2⟩ := container_spec h
  unfold find
  rcases lowerBound_spec h1 e with ⟨h3, _⟩ | ⟨x, h3, h4, h5, _⟩
  · rw [h3]
  · rw [h3]
    have := hno _ ((h2 x).1 h4)
    simp only at this ⊢
    rw [if_pos (by
      rcases Nat.lt_or_ge b x.2.1 with h | h
      · exact h
      · exact absurd ⟨h, h5⟩ this)]

/-- **C23** (c): empty pieces: at the border of two ranges, the first one counts. -/
theorem C23_empty_key (rs : List (Nat × Nat × α)) (h : Separate rs) (p : Nat) :
    (∀ lo hi v, (lo, hi, v) ∈ rs → lo < p → p ≤ hi → find (inserts [] rs) p p = some v) ∧
    (∀ hi v, (p, hi, v) ∈ rs → (∀ r ∈ rs, r.2.1 ≠ p) → find (inserts [] rs) p p = some v) ∧
    ((∀ r ∈ rs, ¬ (r.1 ≤ p ∧ p ≤ r.2.1)) → find (inserts [] rs) p p = none) := by
  obtain ⟨h1, h2⟩ := container_spec h
  refine ⟨fun lo hi v hin hlo hhi => ?_, fun hi v hin hne => ?_, fun hno => ?_⟩
  · have hx := (h2 (hi, lo, v)).2 hin
    unfold find
    rw [lowerBound_some h1 hx hhi]
    · simp only; rw [if_neg (by omega)]
    · intro y hy hey
      have hy' := (h2 y).1 hy
      have h3 := h.1 _ hy'
      rcases pair_sep h hin hy' with h4 | h4 | h4
      · cases h4; simp only; omega
      · simp only at h3 h4 ⊢; omega
      · simp only at h3 h4 ⊢; omega
  · have hx := (h2 (hi, p, v)).2 hin
    have h0 := h.1 _ hin
    unfold find
    rw [lowerBound_some h1 hx (by simp only at h0 ⊢; omega)]
    · simp only; rw [if_neg (by omega)]
    · intro y hy hey
      have hy' := (h2 y).1 hy
      have h3 := h.1 _ hy'
      have h5 := hne _ hy'
      rcases pair_sep h hin hy' with h4 | h4 | h4
      · cases h4; simp only; omega
      · simp only at h0 h3 h4 h5 ⊢; omega
      · simp only at h0 h3 h4 h5 ⊢; omega
  · exact C23_not_found rs h p p hno

/-- **C23** (d): a further range that is separate from the ones there is inserted, that is,
`Insert` returns true. -/
theorem C23_insert (rs : List (Nat × Nat × α)) (b e : Nat) (v : α) (h : Separate (rs ++ [(b, e, v)])) :
    (insert (inserts [] rs) b e v).2 = true := by
  have hs : Separate rs :=
    ⟨fun r hr => h.1 r (by simp [hr]), (List.pairwise_append.1 h.2).1⟩
  obtain ⟨h1, h2⟩ := container_spec hs
  refine (insert_new (v := (b, v)) h1 (fun x hx he => ?_)).2.1
  have hx' := (h2 x).1 hx
  have h3 := (List.pairwise_append.1 h.2).2.2 _ hx' (b, e, v) (by simp)
  have h4 := h.1 (b, e, v) (by simp)
  have h5 := h.1 _ (List.mem_append_left _ hx')
  simp only at h3 h4 h5
  omega

/-- Ranges that touch, inserted in another order. -/
example : [(0, 10), (10, 11), (9, 11), (10, 10), (20, 21), (25, 30), (25, 31)].map
      (fun r => find (inserts [] [(10, 20, 'b'), (0, 10, 'a'), (25, 30, 'c')]) r.1 r.2) =
    [some 'a', some 'b', none, some 'a', none, some 'c', none] := by decide

/-- Empty ranges must not be inserted: the second one here is lost. -/
example : (insert (inserts [] [(0, 5, 'a')]) 5 5 'b').2 = false := by decide

end
end Props
end Bant
