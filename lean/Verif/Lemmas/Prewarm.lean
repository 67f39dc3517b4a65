import Verif.Spec.Prewarm

namespace Bant
namespace Prewarm
open PrewarmSpec

theorem mem_firsts {α : Type} [DecidableEq α] (l : List α) (x : α) : x ∈ firsts l ↔ x ∈ l := by
  induction l with
  | nil => simp [firsts]
  | cons y l ih =>
    simp only [firsts, List.mem_cons, List.mem_filter, ih, decide_eq_true_eq]
    by_cases h : x = y <;> simp [h]

theorem nodup_firsts {α : Type} [DecidableEq α] (l : List α) : (firsts l).Nodup := by
  induction l with
  | nil => simp [firsts]
  | cons y l ih =>
    rw [firsts, List.nodup_cons]
    exact ⟨by simp, ih.filter _⟩

theorem firsts_append_singleton {α : Type} [DecidableEq α] (l : List α) (x : α) :
    firsts (l ++ [x]) = if x ∈ l then firsts l else firsts l ++ [x] := by
  induction l with
  | nil => simp [firsts]
  | cons y l ih =>
    rw [List.cons_append, firsts, ih, firsts]
    by_cases h : x = y
    · subst h
      simp only [List.mem_cons, true_or, if_true]
      split <;> simp
    · by_cases hm : x ∈ l
      · simp [hm]
      · simp [hm, h]

/-- The state after some accesses. -/
theorem fold_access (as : List Access) (text : Str) (hk : OneKind as) :
    ∃ seen, as.foldl Cache.access ⟨some text, []⟩ = ⟨some (text ++ (firsts as).flatMap record), seen⟩ ∧
      ∀ p, p ∈ seen ↔ p ∈ as.map (·.path) := by
  have gen : ∀ (n : Nat) (as : List Access), as.length = n → OneKind as →
      ∃ seen, as.foldl Cache.access ⟨some text, []⟩ = ⟨some (text ++ (firsts as).flatMap record), seen⟩ ∧
      ∀ p, p ∈ seen ↔ p ∈ as.map (·.path) := by
    intro n
    induction n with
    | zero =>
      intro as h _
      rw [List.length_eq_zero_iff] at h; subst h
      exact ⟨[], by simp [firsts], by simp⟩
    | succ n ih =>
      intro as h hk
      rcases List.eq_nil_or_concat as with rfl | ⟨as, a, rfl⟩
      · simp at h
      · rw [List.concat_eq_append] at h hk ⊢
        simp only [List.length_append, List.length_singleton, Nat.add_right_cancel_iff] at h
        obtain ⟨seen, h1, h2⟩ := ih as h fun x hx y hy => hk x (List.mem_append_left _ hx) y (List.mem_append_left _ hy)
        rw [List.foldl_append, h1, firsts_append_singleton]
        have hm : a.path ∈ seen ↔ a ∈ as := by
          rw [h2]
          constructor
          · intro hp
            obtain ⟨b, hb, he⟩ := List.mem_map.mp hp
            rw [← hk b (List.mem_append_left _ hb) a (by simp) he]; exact hb
          · intro ha; exact List.mem_map.mpr ⟨a, ha, rfl⟩
        simp only [List.foldl_cons, List.foldl_nil, Cache.access, Cache.writePrefixed]
        by_cases ha : a ∈ as
        · refine ⟨seen, ?_, ?_⟩
          · rw [if_pos (hm.mpr ha), if_pos ha]
          · intro p
            rw [h2]
            simp only [List.map_append, List.mem_append, List.map_cons, List.map_nil, List.mem_singleton]
            constructor
            · exact .inl
            · rintro (h | rfl)
              · exact h
              · exact List.mem_map.mpr ⟨a, ha, rfl⟩
        · refine ⟨a.path :: seen, ?_, ?_⟩
          · rw [if_neg (by rw [hm]; exact ha), if_neg ha]
            congr 2
            rw [List.flatMap_append, List.append_assoc, List.append_assoc]
            congr 2
            cases hf : a.file <;> simp [record, hf]
          · intro p
            simp [h2, or_comm]
  exact gen as.length as rfl hk

theorem getlines_line (line rest : Str) (h : '\n' ∉ line) :
    getlines (line ++ '\n' :: rest) = line :: getlines rest := by
  induction line with
  | nil => simp [getlines]
  | cons c line ih =>
    have hc : c ≠ '\n' := by rintro rfl; simp at h
    rw [List.cons_append, getlines, if_neg hc, ih (by intro hm; exact h (List.mem_cons_of_mem _ hm))]

theorem cString_plain (s : Str) (h : '\x00' ∉ s) : cString s = s := by
  induction s with
  | nil => rfl
  | cons c s ih =>
    have : c ≠ '\x00' := by rintro rfl; simp at h
    rw [cString, List.takeWhile_cons, if_pos (by simpa using this)]
    congr 1
    exact ih fun hm => h (List.mem_cons_of_mem _ hm)

theorem replay_records (as : List Access) (h : ∀ a ∈ as, Plain a.path) :
    (getlines (as.flatMap record)).filterMap replayLine = as := by
  induction as with
  | nil => simp [getlines]
  | cons a as ih =>
    obtain ⟨h1, h2, h3⟩ := h a (List.mem_cons_self ..)
    have hl : (a :: as).flatMap record =
        ((if a.file then 'F' else 'D') :: a.path) ++ '\n' :: as.flatMap record := by
      cases hf : a.file <;> simp [record, hf]
    rw [hl, getlines_line, List.filterMap_cons]
    · have : replayLine ((if a.file then 'F' else 'D') :: a.path) = some a := by
        obtain ⟨file, path⟩ := a
        cases path with
        | nil => exact absurd rfl h1
        | cons p path =>
          cases file <;> simp [replayLine, cString_plain _ h3]
      rw [this]
      simp only
      rw [ih fun x hx => h x (List.mem_cons_of_mem _ hx)]
    · simp only [List.mem_cons, not_or]
      refine ⟨?_, h2⟩
      split <;> decide

theorem lines_records (as : List Access) (h : ∀ a ∈ as, Plain a.path) :
    getlines (as.flatMap record) = as.map fun a => (if a.file then 'F' else 'D') :: a.path := by
  induction as with
  | nil => simp [getlines]
  | cons a as ih =>
    obtain ⟨h1, h2, h3⟩ := h a (List.mem_cons_self ..)
    have hl : (a :: as).flatMap record =
        ((if a.file then 'F' else 'D') :: a.path) ++ '\n' :: as.flatMap record := by
      cases hf : a.file <;> simp [record, hf]
    rw [hl, getlines_line, ih fun x hx => h x (List.mem_cons_of_mem _ hx)]
    · rfl
    · simp only [List.mem_cons, not_or]
      refine ⟨?_, h2⟩
      split <;> decide

theorem fold_none (as : List Access) (seen : List Str) :
    as.foldl Cache.access ⟨none, seen⟩ = ⟨none, seen⟩ := by
  induction as with
  | nil => rfl
  | cons a as ih => exact ih

/-! ### The name -/

theorem hashArgs_relevant (hash : Str → BitVec 64) (n : Nat) (args : List Str) (hn : args.length ≤ n) (h : BitVec 64) :
    hashArgs hash args h = (relevant args).foldl (fun h a => h ^^^ hash a) h := by
  induction n generalizing args h with
  | zero => 
    have : args = [] := List.length_eq_zero_iff.mp (by omega)
    subst this; simp [hashArgs, relevant]
  | succ n ih =>
    cases args with
    | nil => simp [hashArgs, relevant]
    | cons a args =>
      have hl : args.length ≤ n := by simpa using hn
      by_cases h1 : a ∈ ignoredFlags
      · have hr : relevant (a :: args) = relevant args := by rw [relevant]; exact if_pos h1
        cases args with
        | nil => rw [hashArgs, if_pos h1, hr]; simp [relevant]
        | cons b args => rw [hashArgs, if_pos h1, hr]; exact ih _ hl _
      · by_cases h2 : a ∈ ignoredOptions
        · have hr : relevant (a :: args) = relevant (args.drop 1) := by rw [relevant]; exact (if_neg h1).trans (if_pos h2)
          cases args with
          | nil => rw [hashArgs, if_neg h1, if_pos h2, hr]; simp [relevant]
          | cons b args =>
            rw [hashArgs, if_neg h1, if_pos h2, hr]
            exact ih args (by simp at hl; omega) _
        · have hr : relevant (a :: args) = a :: relevant args := by rw [relevant]; exact (if_neg h1).trans (if_neg h2)
          cases args with
          | nil => rw [hashArgs, if_neg h1, if_neg h2, hr]; simp [relevant]
          | cons b args => rw [hashArgs, if_neg h1, if_neg h2, hr]; exact ih _ hl _

theorem foldl_xor (hash : Str → BitVec 64) (l : List Str) (h : BitVec 64) :
    l.foldl (fun h a => h ^^^ hash a) h = h ^^^ l.foldl (fun h a => h ^^^ hash a) 0#64 := by
  induction l generalizing h with
  | nil => simp
  | cons a l ih => rw [List.foldl_cons, ih, List.foldl_cons, ih (0#64 ^^^ hash a), BitVec.zero_xor, BitVec.xor_assoc]

theorem xor_cancel {n : Nat} {x y z : BitVec n} (h : x ^^^ z = y ^^^ z) : x = y := by
  have := congrArg (· ^^^ z) h
  simpa [BitVec.xor_assoc] using this

end Prewarm
end Bant
