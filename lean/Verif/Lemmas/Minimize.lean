import Verif.Spec.Dwyu

/-! Reduction of alternatives (C26). -/
namespace Bant
namespace Dwyu
open DwyuSpec

theorem mem_intersect {a b : List BazelTarget} {t : BazelTarget} : t ∈ intersect a b ↔ t ∈ a ∧ t ∈ b := by
  simp [intersect]

theorem mem_insertIndex {i k : Nat} {s : List Nat} : k ∈ insertIndex i s ↔ k = i ∨ k ∈ s := by
  unfold insertIndex
  split
  · constructor
    · exact .inr
    · rintro (rfl | h) <;> assumption
  · simp

theorem nodup_insertIndex {i : Nat} {s : List Nat} (h : s.Nodup) : (insertIndex i s).Nodup := by
  unfold insertIndex
  split
  · exact h
  · exact List.nodup_cons.2 ⟨by assumption, h⟩

/-- The inner loop. -/
structure Absorbed (cur : List BazelTarget) (cov : List Nat) (j : Nat) (sets : List (List BazelTarget))
    (cur' : List BazelTarget) (cov' : List Nat) : Prop where
  nonempty : cur ≠ [] → cur' ≠ []
  common : ∃ family : List (List BazelTarget), (∀ s ∈ family, s ∈ sets) ∧ ∀ t, t ∈ cur' ↔ t ∈ cur ∧ ∀ s ∈ family, t ∈ s
  keeps : ∀ k ∈ cov, k ∈ cov'
  new : ∀ k ∈ cov', k ∈ cov ∨ ∃ m s, k = j + m ∧ sets[m]? = some s ∧ ∀ t ∈ cur', t ∈ s
  apart : ∀ m s, sets[m]? = some s → j + m ∉ cov' → ∀ t ∈ cur', t ∉ s
  nodup : cov.Nodup → cov'.Nodup
  sub : cur.Nodup → cur'.Nodup

theorem Absorbed.shrinks {cur cov j sets cur' cov'} (h : Absorbed cur cov j sets cur' cov') :
    ∀ t ∈ cur', t ∈ cur := by
  obtain ⟨_, _, hf⟩ := h.common
  exact fun t ht => ((hf t).1 ht).1

theorem absorb_spec (sets : List (List BazelTarget)) : ∀ cur cov j,
    Absorbed cur cov j sets (absorb cur cov j sets).1 (absorb cur cov j sets).2 := by
  induction sets with
  | nil =>
    intro cur cov j
    exact ⟨id, ⟨[], by simp, by simp [absorb]⟩, fun _ h => h, fun _ h => .inl h, by simp, id, id⟩
  | cons s sets ih =>
    intro cur cov j
    rw [absorb]
    split
    · rename_i he
      have he : intersect cur s = [] := by simpa using he
      have h := ih cur cov (j + 1)
      generalize absorb cur cov (j + 1) sets = r at h
      obtain ⟨fam, hf1, hf2⟩ := h.common
      refine ⟨h.nonempty, ⟨fam, fun x hx => .tail _ (hf1 x hx), hf2⟩, h.keeps, ?_, ?_, h.nodup, h.sub⟩
      · intro k hk
        rcases h.new k hk with hk | ⟨m, x, rfl, hx, hsub⟩
        · exact .inl hk
        · exact .inr ⟨m + 1, x, by omega, by simpa using hx, hsub⟩
      · intro m x hx hm t ht hts
        cases m with
        | zero =>
          simp at hx; subst hx
          have : t ∈ intersect cur s := mem_intersect.2 ⟨h.shrinks t ht, hts⟩
          rw [he] at this; cases this
        | succ m => exact h.apart m x (by simpa using hx) (by rwa [show j + 1 + m = j + (m + 1) by omega]) t ht hts
    · rename_i he
      have hne : intersect cur s ≠ [] := by simpa using he
      have h := ih (intersect cur s) (insertIndex j cov) (j + 1)
      generalize absorb (intersect cur s) (insertIndex j cov) (j + 1) sets = r at h
      obtain ⟨fam, hf1, hf2⟩ := h.common
      refine ⟨fun _ => h.nonempty hne, ⟨s :: fam, ?_, ?_⟩, ?_, ?_, ?_, fun hn => h.nodup (nodup_insertIndex hn),
        fun hn => h.sub (hn.sublist List.filter_sublist)⟩
      · intro x hx
        rcases List.mem_cons.1 hx with rfl | hx
        · simp
        · exact .tail _ (hf1 x hx)
      · intro t
        rw [hf2, mem_intersect]
        simp [and_assoc]
      · exact fun k hk => h.keeps k (mem_insertIndex.2 (.inr hk))
      · intro k hk
        rcases h.new k hk with hk | ⟨m, x, rfl, hx, hsub⟩
        · rcases mem_insertIndex.1 hk with rfl | hk
          · exact .inr ⟨0, s, rfl, rfl, fun t ht => (mem_intersect.1 (h.shrinks t ht)).2⟩
          · exact .inl hk
        · exact .inr ⟨m + 1, x, by omega, by simpa using hx, hsub⟩
      · intro m x hx hm t ht hts
        cases m with
        | zero => exact hm (h.keeps _ (mem_insertIndex.2 (.inl rfl)))
        | succ m => exact h.apart m x (by simpa using hx) (by rwa [show j + 1 + m = j + (m + 1) by omega]) t ht hts

/-- The outer loop. -/
structure Minimized (cov : List Nat) (i : Nat) (sets : List (List BazelTarget))
    (res : List (List BazelTarget)) (cov' : List Nat) : Prop where
  nonempty : ∀ r ∈ res, r ≠ []
  disjoint : res.Pairwise fun r r' => ∀ t ∈ r, t ∉ r'
  common : ∀ r ∈ res, ∃ family, family ≠ [] ∧ (∀ s ∈ family, s ∈ sets) ∧ ∀ t, t ∈ r ↔ ∀ s ∈ family, t ∈ s
  fresh : ∀ r ∈ res, ∃ m s, sets[m]? = some s ∧ i + m ∉ cov ∧ ∀ t ∈ r, t ∈ s
  covers : ∀ m s, sets[m]? = some s → i + m ∈ cov ∨ ∃ r ∈ res, ∀ t ∈ r, t ∈ s
  all : ∀ k, k ∈ cov' ↔ k ∈ cov ∨ (i ≤ k ∧ k < i + sets.length)
  nodup : cov.Nodup → cov'.Nodup
  sub : (∀ s ∈ sets, s.Nodup) → ∀ r ∈ res, r.Nodup

theorem minimizeFrom_spec (sets : List (List BazelTarget)) : ∀ cov i, (∀ s ∈ sets, s ≠ []) →
    ∃ res cov', minimizeFrom cov i sets = some (res, cov') ∧ Minimized cov i sets res cov' := by
  induction sets with
  | nil =>
    intro cov i _
    refine ⟨[], cov, rfl, by simp, .nil, by simp, by simp, by simp, ?_, id, by simp⟩
    intro k
    simp only [List.length_nil]
    constructor
    · exact .inl
    · rintro (h | h)
      · exact h
      · omega
  | cons s sets ih =>
    intro cov i hne
    have hne' : ∀ x ∈ sets, x ≠ [] := fun x hx => hne x (.tail _ hx)
    rw [minimizeFrom]
    split
    · rename_i hi
      obtain ⟨res, cov', hr, h⟩ := ih cov (i + 1) hne'
      refine ⟨res, cov', hr, h.nonempty, h.disjoint, ?_, ?_, ?_, ?_, h.nodup,
        fun hn => h.sub fun x hx => hn x (.tail _ hx)⟩
      · intro r hr
        obtain ⟨fam, h1, h2, h3⟩ := h.common r hr
        exact ⟨fam, h1, fun x hx => .tail _ (h2 x hx), h3⟩
      · intro r hr
        obtain ⟨m, x, h1, h2, h3⟩ := h.fresh r hr
        exact ⟨m + 1, x, by simpa using h1, by rwa [show i + (m + 1) = i + 1 + m by omega], h3⟩
      · intro m x hx
        cases m with
        | zero => exact .inl hi
        | succ m =>
          rw [show i + (m + 1) = i + 1 + m by omega]
          exact h.covers m x (by simpa using hx)
      · intro k
        rw [h.all, List.length_cons]
        constructor
        · rintro (h | h)
          · exact .inl h
          · exact .inr (by omega)
        · rintro (h | h)
          · exact .inl h
          · by_cases hk : k = i
            · exact .inl (hk ▸ hi)
            · exact .inr (by omega)
    · rename_i hi
      have ha := absorb_spec sets s (insertIndex i cov) (i + 1)
      generalize absorb s (insertIndex i cov) (i + 1) sets = a at ha
      obtain ⟨cur, cov1⟩ := a
      simp only at ha ⊢
      have hcur : cur ≠ [] := ha.nonempty (hne s (by simp))
      rw [if_neg (by simpa using hcur)]
      obtain ⟨res, cov', hr, h⟩ := ih cov1 (i + 1) hne'
      refine ⟨cur :: res, cov', by rw [hr]; rfl, ?_, ?_, ?_, ?_, ?_, ?_, ?_, ?_⟩
      · intro r hr
        rcases List.mem_cons.1 hr with rfl | hr
        · exact hcur
        · exact h.nonempty r hr
      · refine List.pairwise_cons.2 ⟨?_, h.disjoint⟩
        intro r hr t ht htr
        obtain ⟨m, x, h1, h2, h3⟩ := h.fresh r hr
        exact ha.apart m x h1 h2 t ht (h3 t htr)
      · intro r hr
        rcases List.mem_cons.1 hr with rfl | hr
        · obtain ⟨fam, h1, h2⟩ := ha.common
          refine ⟨s :: fam, by simp, ?_, ?_⟩
          · intro x hx
            rcases List.mem_cons.1 hx with rfl | hx
            · simp
            · exact .tail _ (h1 x hx)
          · intro t; rw [h2]; simp
        · obtain ⟨fam, h1, h2, h3⟩ := h.common r hr
          exact ⟨fam, h1, fun x hx => .tail _ (h2 x hx), h3⟩
      · intro r hr
        rcases List.mem_cons.1 hr with rfl | hr
        · exact ⟨0, s, rfl, hi, ha.shrinks⟩
        · obtain ⟨m, x, h1, h2, h3⟩ := h.fresh r hr
          refine ⟨m + 1, x, by simpa using h1, ?_, h3⟩
          intro hc
          exact h2 (ha.keeps _ (mem_insertIndex.2 (.inr (by rwa [show i + 1 + m = i + (m + 1) by omega]))))
      · intro m x hx
        cases m with
        | zero =>
          simp at hx; subst hx
          exact .inr ⟨cur, by simp, ha.shrinks⟩
        | succ m =>
          have hx : sets[m]? = some x := by simpa using hx
          rcases h.covers m x hx with hk | ⟨r, hr, hs⟩
          · rcases ha.new _ hk with hk | ⟨m', x', hm, hx', hs⟩
            · rcases mem_insertIndex.1 hk with hk | hk
              · omega
              · exact .inl (by rwa [show i + (m + 1) = i + 1 + m by omega])
            · have : m' = m := by omega
              subst this
              rw [hx] at hx'
              cases hx'
              exact .inr ⟨cur, by simp, hs⟩
          · exact .inr ⟨r, .tail _ hr, hs⟩
      · intro k
        rw [h.all, List.length_cons]
        constructor
        · rintro (hk | hk)
          · rcases ha.new _ hk with hk | ⟨m, x, rfl, hx, _⟩
            · rcases mem_insertIndex.1 hk with rfl | hk
              · exact .inr (by omega)
              · exact .inl hk
            · have := (List.getElem?_eq_some_iff.1 hx).1
              exact .inr (by omega)
          · exact .inr (by omega)
        · rintro (hk | hk)
          · exact .inl (ha.keeps _ (mem_insertIndex.2 (.inr hk)))
          · by_cases hki : k = i
            · exact .inl (ha.keeps _ (mem_insertIndex.2 (.inl hki)))
            · exact .inr (by omega)
      · exact fun hn => h.nodup (ha.nodup (nodup_insertIndex hn))
      · intro hn r hr
        rcases List.mem_cons.1 hr with rfl | hr
        · exact ha.sub (hn s (by simp))
        · exact h.sub (fun x hx => hn x (.tail _ hx)) r hr

theorem minimize_spec (sets : List (List BazelTarget)) (hne : ∀ s ∈ sets, s ≠ []) :
    ∃ res, minimizeDependencySet sets = some res ∧ Reduced sets res ∧
      ((∀ s ∈ sets, s.Nodup) → ∀ r ∈ res, r.Nodup) := by
  obtain ⟨res, cov, hr, h⟩ := minimizeFrom_spec sets [] 0 hne
  have hlen : cov.length = sets.length := by
    have : cov.Perm (List.range sets.length) := by
      refine (List.perm_ext_iff_of_nodup (h.nodup .nil) List.nodup_range).2 ?_
      intro k
      rw [h.all]
      simp
    rw [this.length_eq, List.length_range]
  refine ⟨res, by simp [minimizeDependencySet, hr, hlen], ⟨h.nonempty, h.disjoint, h.common, ?_⟩, h.sub⟩
  intro s hs
  obtain ⟨m, hm, he⟩ := List.mem_iff_getElem.1 hs
  rcases h.covers m s (by rw [← he]; exact List.getElem?_eq_getElem hm) with hk | hk
  · cases hk
  · exact hk

end Dwyu
end Bant
