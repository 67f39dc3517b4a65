import Verif.Model.Headers

/-! Helper lemmas: maps as lists of pairs. -/
namespace Bant
open Headers

theorem lookup_cons {α β : Type} [DecidableEq α] (e : α × β) (m : List (α × β)) (k : α) :
    lookup (e :: m) k = if e.1 = k then some e.2 else lookup m k := by
  unfold lookup
  rw [List.find?_cons]
  by_cases h : e.1 = k <;> simp [h]

theorem lookup_append {α β : Type} [DecidableEq α] (m l : List (α × β)) (k : α) :
    lookup (m ++ l) k = (lookup m k).or (lookup l k) := by
  induction m with
  | nil => rfl
  | cons e m ih =>
    rw [List.cons_append, lookup_cons, lookup_cons, ih]
    by_cases h : e.1 = k <;> simp [h]

theorem lookup_mem {α β : Type} [DecidableEq α] {m : List (α × β)} {k : α} {v : β}
    (h : lookup m k = some v) : (k, v) ∈ m := by
  induction m with
  | nil => cases h
  | cons e m ih =>
    rw [lookup_cons] at h
    split at h
    · next he => cases h; subst he; simp
    · exact List.mem_cons_of_mem _ (ih h)

theorem lookup_none {α β : Type} [DecidableEq α] {m : List (α × β)} {k : α} :
    lookup m k = none ↔ k ∉ m.map (·.1) := by
  induction m with
  | nil => exact ⟨fun _ => by simp, fun _ => rfl⟩
  | cons e m ih =>
    rw [lookup_cons]
    by_cases h : e.1 = k
    · simp [h]
    · rw [if_neg h, ih]; simp [Ne.symm h]

theorem mem_lookup {α β : Type} [DecidableEq α] {m : List (α × β)} (hn : (m.map (·.1)).Nodup)
    {k : α} {v : β} : (k, v) ∈ m ↔ lookup m k = some v := by
  refine ⟨fun h => ?_, lookup_mem⟩
  induction m with
  | nil => cases h
  | cons e m ih =>
    simp only [List.map_cons, List.nodup_cons] at hn
    rw [lookup_cons]
    rcases List.mem_cons.1 h with rfl | h
    · simp
    · rw [if_neg, ih hn.2 h]
      rintro rfl
      exact hn.1 (List.mem_map.2 ⟨_, h, rfl⟩)

end Bant
