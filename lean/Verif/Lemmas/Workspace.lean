import Verif.Lemmas.StrMap
import Verif.Lemmas.Str
import Verif.Spec.Workspace

namespace Bant
namespace Workspace
open WorkspaceSpec

theorem strLt_iff (a b : Str) : strLt a b = true ↔ a < b := by
  induction a generalizing b with
  | nil => cases b <;> simp [strLt]
  | cons x xs ih =>
    cases b with
    | nil => simp [strLt]
    | cons y ys => simp [strLt, ih, List.cons_lt_cons_iff]

theorem vpLt_irrefl (a : VersionedProject) : vpLt a a = false := by simp [vpLt, strLt_irrefl]

theorem vpLt_trans {a b c : VersionedProject} (h1 : vpLt a b = true) (h2 : vpLt b c = true) :
    vpLt a c = true := by
  simp only [vpLt, Bool.or_eq_true, Bool.and_eq_true, decide_eq_true_eq] at h1 h2 ⊢
  rcases h1 with h1 | ⟨e1, h1⟩ <;> rcases h2 with h2 | ⟨e2, h2⟩
  · exact .inl (strLt_trans h1 h2)
  · exact .inl (e2 ▸ h1)
  · exact .inl (e1 ▸ h2)
  · exact .inr ⟨e1.trans e2, strLt_trans h1 h2⟩

theorem vpLt_total (a b : VersionedProject) : vpLt a b = true ∨ a = b ∨ vpLt b a = true := by
  obtain ⟨p, v⟩ := a
  obtain ⟨q, w⟩ := b
  simp only [vpLt, Bool.or_eq_true, Bool.and_eq_true, decide_eq_true_eq, VersionedProject.mk.injEq]
  rcases strLt_total p q with h | h | h
  · exact .inl (.inl h)
  · rcases strLt_total v w with h' | h' | h'
    · exact .inl (.inr ⟨h, h'⟩)
    · exact .inr (.inl ⟨h, h'⟩)
    · exact .inr (.inr (.inr ⟨h.symm, h'⟩))
  · exact .inr (.inr (.inl h))

theorem vpLt_ne {a b : VersionedProject} (h : vpLt a b = true) : a ≠ b := by
  rintro rfl; rw [vpLt_irrefl] at h; cases h

def Sorted (m : Map) : Prop := m.Pairwise fun a b => vpLt a.1 b.1 = true

theorem Sorted.unique {m : Map} (h : Sorted m) {k : VersionedProject} {v w : Str} (h1 : (k, v) ∈ m)
    (h2 : (k, w) ∈ m) : v = w := by
  induction m with
  | nil => cases h1
  | cons e m ih =>
    obtain ⟨h3, h4⟩ := List.pairwise_cons.1 h
    rcases List.mem_cons.1 h1 with h1 | h1 <;> rcases List.mem_cons.1 h2 with h2 | h2
    · rw [← h1] at h2; cases h2; rfl
    · have := h3 _ h2; rw [← h1] at this; exact absurd rfl (vpLt_ne this)
    · have := h3 _ h1; rw [← h2] at this; exact absurd rfl (vpLt_ne this)
    · exact ih h4 h1 h2

theorem assign_spec {m : Map} (h : Sorted m) (key : VersionedProject) (path : Str) :
    Sorted (assign key path m) ∧
    (∀ k v, k ≠ key → ((k, v) ∈ assign key path m ↔ (k, v) ∈ m)) ∧
    (∀ v, (key, v) ∈ assign key path m ↔ v = path) := by
  induction m with
  | nil =>
    refine ⟨by simp [assign, Sorted], ?_, by simp [assign]⟩
    intro k v hk
    simp [assign, hk]
  | cons e m ih =>
    obtain ⟨h3, h4⟩ := List.pairwise_cons.1 h
    obtain ⟨i1, i2, i3⟩ := ih h4
    simp only [assign]
    split
    · rename_i hlt
      have hno : ∀ v, (key, v) ∉ e :: m := by
        intro v hm
        rcases List.mem_cons.1 hm with hm | hm
        · rw [← hm] at hlt; exact absurd rfl (vpLt_ne hlt)
        · exact absurd rfl (vpLt_ne (vpLt_trans hlt (h3 _ hm)))
      refine ⟨?_, ?_, ?_⟩
      · refine List.pairwise_cons.2 ⟨?_, h⟩
        intro x hx
        rcases List.mem_cons.1 hx with hx | hx
        · rw [hx]; exact hlt
        · exact vpLt_trans hlt (h3 x hx)
      · intro k v hk; simp [hk]
      · intro w
        constructor
        · intro hw
          rcases List.mem_cons.1 hw with hw | hw
          · exact (Prod.mk.inj hw).2
          · exact absurd hw (hno w)
        · rintro rfl; simp
    · rename_i hlt
      split
      · rename_i hk
        refine ⟨List.pairwise_cons.2 ⟨h3, h4⟩, ?_, ?_⟩
        · intro k v hne
          rw [hk] at hne
          have : ∀ a b : Str, (k, a) ≠ (e.1, b) := fun a b he => hne (Prod.mk.inj he).1
          simp only [List.mem_cons, this, false_or]
        · intro w
          constructor
          · intro hw
            rcases List.mem_cons.1 hw with hw | hw
            · exact (Prod.mk.inj hw).2
            · have := h3 _ hw; rw [hk] at this; exact absurd rfl (vpLt_ne this)
          · rintro rfl; rw [hk]; simp
      · rename_i hk
        have hlt' : vpLt e.1 key = true := by
          rcases vpLt_total e.1 key with h | h | h
          · exact h
          · exact absurd h.symm hk
          · exact absurd h hlt
        have hke : ∀ v, (key, v) ≠ e := by
          rintro v rfl; exact hk rfl
        refine ⟨?_, ?_, ?_⟩
        · refine List.pairwise_cons.2 ⟨?_, i1⟩
          intro x hx
          obtain ⟨k, v⟩ := x
          by_cases hx' : k = key
          · rw [hx']; exact hlt'
          · exact h3 _ ((i2 k v hx').1 hx)
        · intro k v hne
          simp only [List.mem_cons, i2 k v hne]
        · intro w; simp [hke, i3]

theorem lower_spec {m : Map} (hs : Sorted m) (key : VersionedProject) :
    (∀ e, lowerBound m key = some e → e ∈ m ∧ vpLt e.1 key = false ∧
      ∀ x ∈ m, vpLt x.1 key = false → x = e ∨ vpLt e.1 x.1 = true) ∧
    (lowerBound m key = none → ∀ x ∈ m, vpLt x.1 key = true) := by
  unfold lowerBound
  induction m with
  | nil => simp
  | cons x m ih =>
    obtain ⟨h3, h4⟩ := List.pairwise_cons.1 hs
    obtain ⟨i1, i2⟩ := ih h4
    rw [List.dropWhile_cons]
    split
    · rename_i hx
      refine ⟨?_, ?_⟩
      · intro e he
        obtain ⟨j1, j2, j3⟩ := i1 e he
        refine ⟨List.mem_cons_of_mem _ j1, j2, ?_⟩
        intro y hy hlt
        rcases List.mem_cons.1 hy with rfl | hy
        · rw [hx] at hlt; cases hlt
        · exact j3 y hy hlt
      · intro he y hy
        rcases List.mem_cons.1 hy with rfl | hy
        · exact hx
        · exact i2 he y hy
    · rename_i hx
      refine ⟨?_, by simp⟩
      intro e he
      simp only [List.head?_cons, Option.some.injEq] at he
      subst he
      refine ⟨by simp, by simpa using hx, ?_⟩
      intro y hy _
      rcases List.mem_cons.1 hy with rfl | hy
      · exact .inl rfl
      · exact .inr (h3 y hy)

theorem askedAs_iff {q n : Str} : AskedAs q n ↔ q ≠ [] ∧ n = dropAt q := by
  unfold AskedAs dropAt
  constructor
  · rintro (rfl | ⟨rfl, h1, h2⟩)
    · simp
    · refine ⟨h1, ?_⟩
      split
      · simp at h2
      · rfl
  · rintro ⟨h1, rfl⟩
    split
    · exact .inl rfl
    · rename_i h
      refine .inr ⟨rfl, h1, ?_⟩
      intro h2
      cases q with
      | nil => exact h1 rfl
      | cons c q => simp at h2; subst h2; exact h q rfl

/-- Entry found: the first version of the project. -/
theorem findEntry_spec {m : Map} (hs : Sorted m) (q : Str) (e : VersionedProject × Str) :
    findEntry m q = some e ↔
      AskedAs q e.1.project ∧ e ∈ m ∧ ∀ x ∈ m, x.1.project = e.1.project → ¬ x.1.version < e.1.version := by
  rw [askedAs_iff]
  unfold findEntry
  by_cases hq : q = []
  · simp [hq]
  rw [if_neg hq]
  obtain ⟨l1, l2⟩ := lower_spec hs ⟨dropAt q, []⟩
  have nlt : ∀ x : VersionedProject × Str, vpLt x.1 ⟨dropAt q, []⟩ = strLt x.1.project (dropAt q) := by
    intro x; cases x.1.version <;> simp [vpLt, strLt]
  constructor
  · intro h
    split at h
    · cases h
    · rename_i e' he
      split at h
      · cases h
      · rename_i hp
        cases h
        obtain ⟨h1, h2, h3⟩ := l1 e he
        refine ⟨⟨hq, Decidable.not_not.1 hp⟩, h1, ?_⟩
        intro x hx hxp hlt
        rcases h3 x hx (by rw [nlt, hxp, Decidable.not_not.1 hp]; exact strLt_irrefl _) with rfl | h4
        · rw [← strLt_iff] at hlt; rw [strLt_irrefl] at hlt; cases hlt
        · simp only [vpLt, hxp, strLt_irrefl, Bool.false_or, Bool.and_eq_true] at h4
          rw [← strLt_iff] at hlt
          exact absurd (strLt_asymm hlt) (by rw [h4.2]; simp)
  · rintro ⟨⟨_, hp⟩, hm, hmin⟩
    split
    · rename_i he
      have := l2 he e hm
      rw [nlt, hp, strLt_irrefl] at this; cases this
    · rename_i e' he
      obtain ⟨h1, h2, h3⟩ := l1 e' he
      rcases h3 e hm (by rw [nlt, hp]; exact strLt_irrefl _) with h4 | h4
      · subst h4; rw [if_neg]; exact fun hne => hne hp
      · exfalso
        simp only [vpLt, Bool.or_eq_true, Bool.and_eq_true, decide_eq_true_eq] at h4
        rcases h4 with h4 | ⟨h5, h6⟩
        · rw [nlt] at h2
          rw [hp, h2] at h4; cases h4
        · exact hmin e' h1 h5 ((strLt_iff _ _).1 h6)

theorem findPath_some {m : Map} (hs : Sorted m) {q p : Str} :
    findPath m q = some p ↔ ∃ n v, AskedAs q n ∧ (⟨n, v⟩, p) ∈ m ∧
      ∀ w p', (⟨n, w⟩, p') ∈ m → ¬ w < v := by
  unfold findPath
  rw [Option.map_eq_some_iff]
  constructor
  · rintro ⟨⟨⟨n, v⟩, p'⟩, h, rfl⟩
    obtain ⟨h1, h2, h3⟩ := (findEntry_spec hs q _).1 h
    exact ⟨n, v, h1, h2, fun w p' hw => h3 _ hw rfl⟩
  · rintro ⟨n, v, h1, h2, h3⟩
    refine ⟨(⟨n, v⟩, p), (findEntry_spec hs q _).2 ⟨h1, h2, ?_⟩, rfl⟩
    rintro ⟨⟨n', w⟩, p'⟩ hx hn
    have hn : n' = n := hn
    subst hn
    exact h3 w p' hx

/-- A list with an element that is minimal. -/
theorem exists_min {m : Map} {n : Str} (h : ∃ v p, (⟨n, v⟩, p) ∈ m) :
    ∃ v p, (⟨n, v⟩, p) ∈ m ∧ ∀ w p', (⟨n, w⟩, p') ∈ m → ¬ w < v := by
  induction m with
  | nil => obtain ⟨_, _, h⟩ := h; cases h
  | cons e m ih =>
    obtain ⟨⟨n', v'⟩, p'⟩ := e
    by_cases hm : ∃ v p, ((⟨n, v⟩, p) : VersionedProject × Str) ∈ m
    · obtain ⟨v, p, h1, h2⟩ := ih hm
      by_cases hc : n' = n ∧ v' < v
      · obtain ⟨rfl, hlt⟩ := hc
        refine ⟨v', p', by simp, ?_⟩
        intro w p'' hw hlt'
        rcases List.mem_cons.1 hw with hw | hw
        · injection hw with hw _; injection hw with _ hw; subst hw
          rw [← strLt_iff, strLt_irrefl] at hlt'; cases hlt'
        · refine h2 w p'' hw ?_
          rw [← strLt_iff] at *
          exact strLt_trans hlt' hlt
      · refine ⟨v, p, by simp [h1], ?_⟩
        intro w p'' hw hlt'
        rcases List.mem_cons.1 hw with hw | hw
        · injection hw with hw _; injection hw with hn hw; subst hw; subst hn
          exact hc ⟨rfl, hlt'⟩
        · exact h2 w p'' hw hlt'
    · obtain ⟨v, p, h⟩ := h
      rcases List.mem_cons.1 h with h | h
      · injection h with h1 h2; injection h1 with h3 h4; subst h2; subst h3; subst h4
        refine ⟨v, p, by simp, ?_⟩
        intro w p'' hw hlt'
        rcases List.mem_cons.1 hw with hw | hw
        · injection hw with hw _; injection hw with _ hw; subst hw
          rw [← strLt_iff, strLt_irrefl] at hlt'; cases hlt'
        · exact hm ⟨w, p'', hw⟩
      · exact absurd ⟨v, p, h⟩ hm

theorem findPath_none {m : Map} (hs : Sorted m) {q : Str} :
    findPath m q = none ↔ ∀ n, AskedAs q n → ∀ v p, (⟨n, v⟩, p) ∉ m := by
  constructor
  · intro h n hn v p hm
    obtain ⟨v', p', h1, h2⟩ := exists_min ⟨v, p, hm⟩
    have := (findPath_some hs).2 ⟨n, v', hn, h1, h2⟩
    rw [h] at this; cases this
  · intro h
    cases hf : findPath m q with
    | none => rfl
    | some p =>
      obtain ⟨n, v, h1, h2, _⟩ := (findPath_some hs).1 hf
      exact absurd h2 (h n h1 v p)

/-- The map after some registrations. -/
def build (m : Map) (log : List Entry) : Map :=
  log.foldl (fun m e => assign ⟨e.name, e.version⟩ e.dir m) m

theorem build_append (m : Map) (a b : List Entry) : build m (a ++ b) = build (build m a) b := by
  simp [build]

theorem build_sorted {m : Map} (h : Sorted m) (log : List Entry) : Sorted (build m log) := by
  induction log generalizing m with
  | nil => exact h
  | cons e log ih => exact ih (assign_spec h _ _).1

theorem build_mem (log : List Entry) (n v d : Str) :
    (⟨n, v⟩, d) ∈ build [] log ↔ Registered log n v d := by
  generalize hr : log.reverse = r
  obtain rfl : log = r.reverse := by rw [← hr, List.reverse_reverse]
  clear hr
  induction r generalizing d with
  | nil => simp [build, Registered]
  | cons e r ih =>
    rw [List.reverse_cons]
    generalize r.reverse = log at ih
    rw [build_append]
    obtain ⟨_, h2, h3⟩ := assign_spec (build_sorted (m := []) .nil log) ⟨e.name, e.version⟩ e.dir
    change (_, d) ∈ assign _ _ _ ↔ _
    by_cases hk : (⟨n, v⟩ : VersionedProject) = ⟨e.name, e.version⟩
    · rw [hk, h3]
      injection hk with hn hv
      subst hn; subst hv
      constructor
      · rintro rfl
        exact ⟨log, [], rfl, by simp⟩
      · rintro ⟨a, b, hab, hb⟩
        rcases List.eq_nil_or_concat b with rfl | ⟨b', x, rfl⟩
        · have := (List.append_inj' hab rfl).2
          simp at this; rw [this]
        · rw [List.concat_eq_append, ← List.cons_append, ← List.append_assoc] at hab
          have := (List.append_inj' hab rfl).2
          simp at this
          exact absurd (by simp [← this]) (hb x (by simp))
    · rw [h2 _ _ hk, ih]
      constructor
      · rintro ⟨a, b, rfl, hb⟩
        refine ⟨a, b ++ [e], by simp, ?_⟩
        intro x hx
        rcases List.mem_append.1 hx with hx | hx
        · exact hb x hx
        · simp at hx; subst hx
          rintro ⟨rfl, rfl⟩; exact hk rfl
      · rintro ⟨a, b, hab, hb⟩
        rcases List.eq_nil_or_concat b with rfl | ⟨b', x, rfl⟩
        · have := (List.append_inj' hab rfl).2
          simp at this; rw [this] at hk; exact absurd rfl hk
        · rw [List.concat_eq_append, ← List.cons_append, ← List.append_assoc] at hab
          have := (List.append_inj' hab rfl).1
          exact ⟨a, b', this, fun y hy => hb y (by simp [hy])⟩

theorem registered_of_mem {log : List Entry} {e : Entry} (he : e ∈ log) :
    ∃ d, Registered log e.name e.version d := by
  induction log with
  | nil => cases he
  | cons x log ih =>
    by_cases h : ∃ y ∈ log, y.name = e.name ∧ y.version = e.version
    · have h' : ∃ d, Registered log e.name e.version d := by
        obtain ⟨y, hy, h1, h2⟩ := h
        clear he ih
        induction log generalizing y with
        | nil => cases hy
        | cons z log ih =>
          by_cases h : ∃ y ∈ log, y.name = e.name ∧ y.version = e.version
          · obtain ⟨y, hy, h1, h2⟩ := h
            obtain ⟨d, a, b, h3, h4⟩ := ih y hy h1 h2
            exact ⟨d, z :: a, b, by simp [h3], h4⟩
          · rcases List.mem_cons.1 hy with rfl | hy
            · exact ⟨y.dir, [], log, by simp [← h1, ← h2], fun x hx hc => h ⟨x, hx, hc⟩⟩
            · exact absurd ⟨y, hy, h1, h2⟩ h
      obtain ⟨d, a, b, h3, h4⟩ := h'
      exact ⟨d, x :: a, b, by simp [h3], h4⟩
    · rcases List.mem_cons.1 he with rfl | he
      · exact ⟨e.dir, [], log, rfl, fun x hx hc => h ⟨x, hx, hc⟩⟩
      · exact absurd ⟨e, he, rfl, rfl⟩ h

end Workspace
end Bant

namespace Bant
namespace Workspace
open WorkspaceSpec

theorem parseFromDir_iff {file n v : Str} : parseFromDir file = some ⟨n, v⟩ ↔
    n ≠ [] ∧ '~' ∉ n ∧ (file = n ++ c!"~" ++ v ∨ (v = [] ∧ file = n)) := by
  unfold parseFromDir
  constructor
  · intro h
    split at h
    · cases h
    · rename_i hne
      split at h
      · rename_i hc
        split at h
        · cases h
        · rename_i hb
          injection h with h
          injection h with h1 h2
          subst h1; subst h2
          refine ⟨hb, not_mem_beforeFirst _ _, .inl ?_⟩
          have hm : '~' ∈ file := by simpa [hasChar] using hc
          obtain ⟨a, b, rfl, ha⟩ : ∃ a b, file = a ++ '~' :: b ∧ '~' ∉ a := List.eq_append_cons_of_mem hm
          rw [beforeFirst_append ha, fromFirst_append ha]; simp
      · rename_i hc
        injection h with h
        injection h with h1 h2
        subst h1; subst h2
        exact ⟨hne, by simpa [hasChar] using hc, .inr ⟨rfl, rfl⟩⟩
  · rintro ⟨h1, h2, h3 | ⟨rfl, rfl⟩⟩
    · have h3 : file = n ++ '~' :: v := by rw [h3]; simp
      subst h3
      rw [if_neg (by simp), if_pos (by simp [hasChar]), beforeFirst_append h2, if_neg h1,
        fromFirst_append h2]; simp
    · rw [if_neg h1, if_neg (by simpa [hasChar] using h2)]

theorem filename_iff {dir file : Str} : filename dir = file ↔
    ∃ up, (dir = up ++ c!"/" ++ file ∨ (up = [] ∧ dir = file)) ∧ '/' ∉ file := by
  unfold filename
  constructor
  · rintro rfl
    split
    · rename_i a f h
      obtain ⟨h1, h2⟩ := splitLast_eq_some h
      exact ⟨a, .inl (by simp [h1]), h2⟩
    · rename_i h
      exact ⟨[], .inr ⟨rfl, rfl⟩, splitLast_eq_none.1 h⟩
  · rintro ⟨up, rfl | ⟨rfl, rfl⟩, h⟩
    · have : up ++ c!"/" ++ file = up ++ '/' :: file := by simp
      rw [this, splitLast_append h]
    · rw [splitLast_eq_none.2 h]

theorem inDir_iff {dir n v : Str} : InDir dir n v ↔ parseFromDir (filename dir) = some ⟨n, v⟩ := by
  rw [parseFromDir_iff]
  constructor
  · rintro ⟨up, file, h1, h2, h3, h4, h5⟩
    rw [filename_iff.2 ⟨up, h1, h2⟩]
    exact ⟨h3, h4, h5⟩
  · rintro ⟨h3, h4, h5⟩
    obtain ⟨up, h1, h2⟩ := filename_iff.1 (rfl : filename dir = filename dir)
    exact ⟨up, _, h1, h2, h3, h4, h5⟩

end Workspace
end Bant

namespace Bant
namespace Workspace
open WorkspaceSpec

theorem sorted_ext {a b : Map} (ha : Sorted a) (hb : Sorted b) (h : ∀ e, e ∈ a ↔ e ∈ b) : a = b := by
  induction a generalizing b with
  | nil =>
    cases b with
    | nil => rfl
    | cons y b => exact absurd ((h y).2 (by simp)) (by simp)
  | cons x a ih =>
    obtain ⟨a1, a2⟩ := List.pairwise_cons.1 ha
    cases b with
    | nil => exact absurd ((h x).1 (by simp)) (by simp)
    | cons y b =>
      obtain ⟨b1, b2⟩ := List.pairwise_cons.1 hb
      have hxy : x = y := by
        rcases List.mem_cons.1 ((h x).1 (by simp)) with h1 | h1
        · exact h1
        · rcases List.mem_cons.1 ((h y).2 (by simp)) with h2 | h2
          · exact h2.symm
          · exact absurd rfl (vpLt_ne (vpLt_trans (a1 y h2) (b1 x h1)))
      subst hxy
      have nmem : ∀ {l : Map}, (∀ e ∈ l, vpLt x.1 e.1 = true) → x ∉ l :=
        fun hl hx => absurd rfl (vpLt_ne (hl x hx))
      rw [ih a2 b2]
      intro e
      have := h e
      simp only [List.mem_cons] at this
      constructor
      · intro he
        rcases this.1 (.inr he) with rfl | h
        · exact absurd he (nmem a1)
        · exact h
      · intro he
        rcases this.2 (.inr he) with rfl | h
        · exact absurd he (nmem b1)
        · exact h

/-- No name of an external directory begins with `@`. -/
def NoAt (fs : FileSystem) (dirs : List Str) : Prop :=
  ∀ dir ∈ dirs, fs.isDirectory dir = true → ∀ n v, parseFromDir (filename dir) = some ⟨n, v⟩ →
    n.head? ≠ some '@'

theorem asked_self {n : Str} (h1 : n ≠ []) (h2 : n.head? ≠ some '@') : AskedAs n n :=
  .inr ⟨rfl, h1, h2⟩

theorem asked_eq {n k : Str} (h2 : n.head? ≠ some '@') (h : AskedAs n k) : k = n := by
  rcases h with rfl | ⟨h, _⟩
  · simp at h2
  · exact h.symm

structure Augmented (fs : FileSystem) (dirs : List Str) (m m' : Map) (flag flag' : Bool) : Prop where
  sorted : Sorted m'
  kept : ∀ e ∈ m, e ∈ m'
  added : ∀ n v p, (⟨n, v⟩, p) ∈ m' → (⟨n, v⟩, p) ∈ m ∨
    (p ∈ dirs ∧ fs.isDirectory p = true ∧ parseFromDir (filename p) = some ⟨n, v⟩ ∧
      (∀ w q, (⟨n, w⟩, q) ∉ m) ∧ (∀ w q, (⟨n, w⟩, q) ∈ m' → w = v ∧ q = p) ∧ flag' = true)
  all : ∀ dir ∈ dirs, fs.isDirectory dir = true → ∀ n v, parseFromDir (filename dir) = some ⟨n, v⟩ →
    ∃ w q, (⟨n, w⟩, q) ∈ m'
  changed : flag' = true → flag = true ∨ m' ≠ m
  up : flag = true → flag' = true

theorem augment_steps (fs : FileSystem) (dirs : List Str) (m : Map) (flag : Bool) (hs : Sorted m)
    (hat : NoAt fs dirs) :
    Augmented fs dirs m (dirs.foldl (augmentStep fs) (flag, m)).2 flag
      (dirs.foldl (augmentStep fs) (flag, m)).1 := by
  induction dirs generalizing m flag with
  | nil => exact ⟨hs, fun _ h => h, fun _ _ _ h => .inl h, by simp, fun h => .inl h, fun h => h⟩
  | cons d dirs ih =>
    rw [List.foldl_cons]
    have hat' : NoAt fs dirs := fun dir hd => hat dir (by simp [hd])
    by_cases hd : ¬ fs.isDirectory d = true
    · have he : augmentStep fs (flag, m) d = (flag, m) := by unfold augmentStep; rw [if_pos hd]
      rw [he]
      obtain ⟨i1, i2, i3, i4, i5, i6⟩ := ih m flag hs hat'
      refine ⟨i1, i2, fun n v p h => ?_, ?_, i5, i6⟩
      · rcases i3 n v p h with h | ⟨h1, h2⟩
        · exact .inl h
        · exact .inr ⟨by simp [h1], h2⟩
      · intro dir hm hdir
        rcases List.mem_cons.1 hm with rfl | hm
        · exact absurd hdir hd
        · exact i4 dir hm hdir
    have hd : fs.isDirectory d = true := Decidable.not_not.1 hd
    cases hp : parseFromDir (filename d) with
    | none =>
      have he : augmentStep fs (flag, m) d = (flag, m) := by
        unfold augmentStep; rw [if_neg (fun h => h hd), hp]
      rw [he]
      obtain ⟨i1, i2, i3, i4, i5, i6⟩ := ih m flag hs hat'
      refine ⟨i1, i2, fun n v p h => ?_, ?_, i5, i6⟩
      · rcases i3 n v p h with h | ⟨h1, h2⟩
        · exact .inl h
        · exact .inr ⟨by simp [h1], h2⟩
      · intro dir hm hdir n v hnv
        rcases List.mem_cons.1 hm with rfl | hm
        · rw [hp] at hnv; cases hnv
        · exact i4 dir hm hdir n v hnv
    | some pr =>
      obtain ⟨n0, v0⟩ := pr
      have hn0 := hat d (by simp) hd n0 v0 hp
      have hne := (parseFromDir_iff.1 hp).1
      by_cases hf : (findPath m n0).isNone = true
      · have he : augmentStep fs (flag, m) d = (true, assign ⟨n0, v0⟩ d m) := by
          unfold augmentStep; rw [if_neg (fun h => h hd), hp]; exact if_pos hf
        rw [he]
        rw [Option.isNone_iff_eq_none] at hf
        have hno := (findPath_none hs).1 hf n0 (asked_self hne hn0)
        obtain ⟨a1, a2, a3⟩ := assign_spec hs ⟨n0, v0⟩ d
        obtain ⟨i1, i2, i3, i4, i5, i6⟩ := ih _ true a1 hat'
        have hnew : (⟨n0, v0⟩, d) ∈ (dirs.foldl (augmentStep fs) (true, assign ⟨n0, v0⟩ d m)).2 :=
          i2 _ ((a3 d).2 rfl)
        have hone : ∀ w q, (⟨n0, w⟩, q) ∈ (dirs.foldl (augmentStep fs) (true, assign ⟨n0, v0⟩ d m)).2 →
            w = v0 ∧ q = d := by
          intro w q hq
          rcases i3 n0 w q hq with h | ⟨_, _, _, h, _⟩
          · by_cases hw : (⟨n0, w⟩ : VersionedProject) = ⟨n0, v0⟩
            · injection hw with _ hw
              subst hw
              exact ⟨rfl, (a3 q).1 h⟩
            · exact absurd ((a2 _ _ hw).1 h) (hno w q)
          · exact absurd ((a3 d).2 rfl) (h v0 d)
        refine ⟨i1, ?_, ?_, ?_, ?_, fun _ => i6 rfl⟩
        · rintro ⟨⟨n, v⟩, p⟩ h
          by_cases hk : (⟨n, v⟩ : VersionedProject) = ⟨n0, v0⟩
          · injection hk with h1 h2; subst h1; subst h2
            exact absurd h (hno v p)
          · exact i2 _ ((a2 _ _ hk).2 h)
        · intro n v p h
          rcases i3 n v p h with h' | ⟨h1, h2, h3, h4, h5⟩
          · by_cases hk : (⟨n, v⟩ : VersionedProject) = ⟨n0, v0⟩
            · injection hk with h1 h2; subst h1; subst h2
              have := (a3 p).1 h'
              subst this
              exact .inr ⟨by simp, hd, hp, hno, hone, i6 rfl⟩
            · exact .inl ((a2 _ _ hk).1 h')
          · refine .inr ⟨by simp [h1], h2, h3, ?_, h5⟩
            intro w q hwq
            by_cases hk : (⟨n, w⟩ : VersionedProject) = ⟨n0, v0⟩
            · injection hk with h1 h2; subst h1; subst h2
              exact hno w q hwq
            · exact h4 w q ((a2 _ _ hk).2 hwq)
        · intro dir hm hdir n v hnv
          rcases List.mem_cons.1 hm with rfl | hm
          · rw [hp] at hnv; cases hnv
            exact ⟨_, _, hnew⟩
          · exact i4 dir hm hdir n v hnv
        · intro _
          refine .inr ?_
          intro heq
          rw [heq] at hnew
          exact hno _ _ hnew
      · have he : augmentStep fs (flag, m) d = (flag, m) := by
          unfold augmentStep; rw [if_neg (fun h => h hd), hp]; exact if_neg hf
        rw [he]
        obtain ⟨i1, i2, i3, i4, i5, i6⟩ := ih m flag hs hat'
        have hf' : findPath m n0 ≠ none := by
          intro h; rw [h] at hf; exact hf rfl
        refine ⟨i1, i2, fun n v p h => ?_, ?_, i5, i6⟩
        · rcases i3 n v p h with h | ⟨h1, h2⟩
          · exact .inl h
          · exact .inr ⟨by simp [h1], h2⟩
        · intro dir hm hdir n v hnv
          rcases List.mem_cons.1 hm with rfl | hm
          · rw [hp] at hnv; cases hnv
            cases hq : findPath m n0 with
            | none => exact absurd hq hf'
            | some q =>
              obtain ⟨k, w, h1, h2, _⟩ := (findPath_some hs).1 hq
              rw [asked_eq hn0 h1] at h2
              exact ⟨w, q, i2 _ h2⟩
          · exact i4 dir hm hdir n v hnv

/-- Nothing changes if all projects are known. -/
theorem augment_again (fs : FileSystem) (dirs : List Str) (m : Map) (hs : Sorted m)
    (hat : NoAt fs dirs)
    (h : ∀ dir ∈ dirs, fs.isDirectory dir = true → ∀ n v, parseFromDir (filename dir) = some ⟨n, v⟩ →
      ∃ w q, (⟨n, w⟩, q) ∈ m) :
    dirs.foldl (augmentStep fs) (false, m) = (false, m) := by
  induction dirs with
  | nil => rfl
  | cons d dirs ih =>
    have he : augmentStep fs (false, m) d = (false, m) := by
      unfold augmentStep
      by_cases hd : fs.isDirectory d = true
      · rw [if_neg (fun h => h hd)]
        cases hp : parseFromDir (filename d) with
        | none => rfl
        | some pr =>
          obtain ⟨n, v⟩ := pr
          obtain ⟨w, q, hw⟩ := h d (by simp) hd n v hp
          refine if_neg ?_
          rw [Option.isNone_iff_eq_none]
          intro hc
          exact (findPath_none hs).1 hc n
            (asked_self (parseFromDir_iff.1 hp).1 (hat d (by simp) hd n v hp)) w q hw
      · rw [if_pos hd]
    rw [List.foldl_cons, he]
    exact ih (fun dir hm => hat dir (by simp [hm])) (fun dir hm => h dir (by simp [hm]))

theorem projectDir_eq (fs : FileSystem) (r : Query.Result) :
    projectDir fs r = (places fs r).find? fun d => fs.isDirectory d && fs.canRead d := by
  have hj : ∀ f, join externalBaseDir f = c!"bazel-out/../../../external/" ++ f := by
    intro f; rfl
  unfold projectDir places searchDirs
  rw [List.find?_append]
  have h1 : (List.map (join externalBaseDir)
      ((if r.version ≠ [] then [r.name ++ '~' :: r.version] else []) ++ [r.name, r.name ++ c!"~override"])) =
      (if r.version = [] then [] else [c!"bazel-out/../../../external/" ++ r.name ++ c!"~" ++ r.version]) ++
        [c!"bazel-out/../../../external/" ++ r.name,
          c!"bazel-out/../../../external/" ++ r.name ++ c!"~override"] := by
    by_cases hv : r.version = [] <;> simp [hv, hj]
  have h2 : externalBaseDir ++ '/' :: r.name ++ c!"~*" =
      c!"bazel-out/../../../external/" ++ r.name ++ c!"~*" := by
    simp [externalBaseDir]
  rw [h1, h2]
  generalize List.find? _ _ = a
  generalize fs.glob _ = g
  cases a with
  | some p => rfl
  | none =>
    cases g with
    | nil => rfl
    | cons p ps =>
      simp only [Option.none_or, List.take_succ_cons, List.take_zero, List.find?_cons, List.find?_nil]
      cases fs.isDirectory p && fs.canRead p <;> rfl

theorem build_assign {fs : FileSystem} (rs : List Query.Result) (m : Map) :
    rs.foldl (addProject fs) m = build m (rs.filterMap (entryOf fs)) := by
  induction rs generalizing m with
  | nil => rfl
  | cons r rs ih =>
    rw [List.foldl_cons, ih, List.filterMap_cons]
    unfold addProject entryOf
    rw [projectDir_eq]
    cases (places fs r).find? fun d => fs.isDirectory d && fs.canRead d <;> rfl

end Workspace
end Bant
