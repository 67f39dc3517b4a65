import Verif.Spec.Cli
import Verif.Lemmas.StrMap
import Verif.Lemmas.Headers

/-! Lemmas: looking up prefixes; options. -/
namespace Bant
namespace Cli
open CliSpec Headers

theorem mapOf_go {α : Type} (l : List (Str × α)) (m : StrMap α) (hm : m.Sorted) :
    (l.foldl (fun m e => m.update e.1 e.2 id) m).Sorted := by
  induction l generalizing m with
  | nil => exact hm
  | cons e l ih => exact ih _ (StrMap.update_spec hm e.1 e.2 id).1

theorem mapOf_sorted {α : Type} (l : List (Str × α)) : (mapOf l).Sorted := mapOf_go l [] List.Pairwise.nil

theorem commandNames_sorted : commandNames.Sorted := mapOf_sorted _

theorem formatNames_sorted : formatNames.Sorted := mapOf_sorted _

/-- A word is not greater than what it is a prefix of. -/
theorem prefix_not_lt {w s : Str} (h : w <+: s) : strLt s w = false := by
  obtain ⟨t, rfl⟩ := h
  induction w with
  | nil => cases t <;> rfl
  | cons c w ih => simp [strLt, ih]

/-- What is between two words with a common prefix has that prefix. -/
theorem prefix_between {w a b : Str} (h1 : strLt a w = false) (h2 : strLt a b = true) (h3 : w <+: b) : w <+: a := by
  obtain ⟨t, rfl⟩ := h3
  induction w generalizing a with
  | nil => exact List.nil_prefix
  | cons c w ih =>
    cases a with
    | nil => simp [strLt] at h1
    | cons d a =>
      simp only [List.cons_append, strLt, Bool.or_eq_false_iff, Bool.or_eq_true, decide_eq_true_eq,
        Bool.and_eq_true, decide_eq_false_iff_not, Bool.and_eq_false_iff] at h1 h2
      rcases h2 with h2 | ⟨rfl, h2⟩
      · exact absurd h2 h1.1
      · rcases h1.2 with h | h
        · exact absurd rfl h
        · exact (List.prefix_cons_inj d).2 (ih h h2)

theorem filter_lower {α : Type} (m : StrMap α) (w : Str) :
    m.filter (fun e => startsWith e.1 w) = (m.lower w).filter (fun e => startsWith e.1 w) := by
  conv => lhs; rw [← StrMap.before_lower m w]
  rw [List.filter_append, List.filter_eq_nil_iff.2, List.nil_append]
  intro e he hp
  have := prefix_not_lt (startsWith_iff.1 hp)
  rw [StrMap.before_lt he] at this
  cases this

/-- Behind an entry without the prefix there is none with it. -/
theorem filter_behind {α : Type} {w : Str} {a : Str × α} {l : List (Str × α)}
    (hp : (a :: l).Pairwise (fun a b => strLt a.1 b.1 = true)) (ha : strLt a.1 w = false)
    (hn : startsWith a.1 w = false) : l.filter (fun e => startsWith e.1 w) = [] := by
  rw [List.filter_eq_nil_iff]
  intro e he hp'
  have := prefix_between ha ((List.pairwise_cons.1 hp).1 e he) (startsWith_iff.1 hp')
  rw [startsWith_iff.2 this] at hn
  cases hn

/-- The entries from `lower_bound` on. -/
theorem lower_filter {α : Type} {m : StrMap α} (hm : m.Sorted) (w : Str) :
    (m.filter (fun e => startsWith e.1 w) = [] ∧
      (m.lower w = [] ∨ ∃ e rest, m.lower w = e :: rest ∧ startsWith e.1 w = false)) ∨
    (∃ e rest, m.lower w = e :: rest ∧ startsWith e.1 w = true ∧
      ((m.filter (fun e => startsWith e.1 w) = [e] ∧ (rest = [] ∨ ∃ f l, rest = f :: l ∧ startsWith f.1 w = false)) ∨
       ∃ f l l', m.filter (fun e => startsWith e.1 w) = e :: f :: l ∧ rest = f :: l' ∧ startsWith f.1 w = true)) := by
  have hl : (m.lower w).Pairwise fun a b => strLt a.1 b.1 = true :=
    hm.sublist (List.dropWhile_sublist _)
  have hg : ∀ e ∈ m.lower w, strLt e.1 w = false := fun e he => StrMap.lower_ge hm he
  rw [filter_lower]
  generalize m.lower w = l at hl hg
  cases l with
  | nil => exact .inl ⟨rfl, .inl rfl⟩
  | cons e rest =>
    cases he : startsWith e.1 w with
    | false =>
      refine .inl ⟨?_, .inr ⟨e, rest, rfl, he⟩⟩
      have := filter_behind hl (hg e (by simp)) he
      simpa [List.filter_cons, he] using this
    | true =>
      refine .inr ⟨e, rest, rfl, he, ?_⟩
      cases rest with
      | nil => exact .inl ⟨by simp [he], .inl rfl⟩
      | cons n rest =>
        have hl' := (List.pairwise_cons.1 hl).2
        cases hn : startsWith n.1 w with
        | false =>
          have := filter_behind hl' (hg n (by simp)) hn
          exact .inl ⟨by simpa [List.filter_cons, he, hn] using this, .inr ⟨n, rest, rfl, hn⟩⟩
        | true => exact .inr ⟨n, rest.filter (fun e => startsWith e.1 w), rest, by simp [he, hn], rfl, hn⟩

/-- `findUnique` by the entries with the prefix. -/
theorem findUnique_filter {α : Type} {m : StrMap α} (hm : m.Sorted) (w : Str) :
    findUnique m w =
      match m.filter (fun e => startsWith e.1 w) with
      | [] => .nothing
      | [e] => .one e.2
      | e :: f :: _ => .several e.1 f.1 := by
  unfold findUnique
  rcases lower_filter hm w with ⟨h1, h2 | ⟨e, rest, h2, h3⟩⟩ | ⟨e, rest, h1, h2, ⟨h3, rfl | ⟨f, l, rfl, h5⟩⟩ | ⟨f, l, l', h3, rfl, h5⟩⟩
  · rw [h1, h2]
  · rw [h1, h2]; simp [h3]
  · rw [h1, h3]; simp [h2]
  · rw [h1, h3]; simp [h2, h5]
  · rw [h1, h3]; simp [h2, h5]

theorem pairwise_ne {α : Type} {m : StrMap α} (hm : m.Sorted) {e f : Str × α} (he : e ∈ m) (hf : f ∈ m)
    (h : e.1 = f.1) : e = f := by
  have : e.2 = f.2 := hm.unique (k := e.1) he (by rw [h]; exact hf)
  exact Prod.ext h this

/-- `findUnique` finds what the word stands for. -/
theorem findUnique_one {α : Type} {m : StrMap α} (hm : m.Sorted) (w : Str) (x : α) :
    findUnique m w = .one x ↔ StandsFor m w x := by
  rw [findUnique_filter hm]
  have hmem : ∀ e, e ∈ m.filter (fun e => startsWith e.1 w) ↔ e ∈ m ∧ w <+: e.1 := by
    intro e
    rw [List.mem_filter, startsWith_iff]
  have hnd : (m.filter (fun e => startsWith e.1 w)).Pairwise fun a b => strLt a.1 b.1 = true :=
    hm.sublist List.filter_sublist
  constructor
  · intro h
    split at h
    · cases h
    · rename_i e he
      cases h
      rw [he] at hmem
      have := (hmem e).1 (by simp)
      refine ⟨e.1, this.1, this.2, ?_⟩
      intro f hf hw
      have := (hmem f).2 ⟨hf, hw⟩
      simp only [List.mem_singleton] at this
      rw [this]
    · cases h
  · rintro ⟨name, h1, h2, h3⟩
    split
    · rename_i he
      rw [he] at hmem
      have := (hmem _).2 ⟨h1, h2⟩
      cases this
    · rename_i e he
      rw [he] at hmem
      have := (hmem _).2 ⟨h1, h2⟩
      simp only [List.mem_singleton] at this
      rw [← this]
    · rename_i e f l he
      rw [he] at hmem hnd
      have h4 := (hmem e).1 (by simp)
      have h5 := (hmem f).1 (by simp)
      have := (List.pairwise_cons.1 hnd).1 f (by simp)
      rw [h3 e h4.1 h4.2, h3 f h5.1 h5.2, strLt_irrefl] at this
      cases this

theorem standsFor_congr {α : Type} {l m : List (Str × α)} (h : ∀ e, e ∈ l ↔ e ∈ m) (w : Str) (x : α) :
    StandsFor l w x ↔ StandsFor m w x := by
  simp only [StandsFor, h]

theorem commands_mem (e : Str × Command) : e ∈ commandNames ↔ e ∈ commands := by
  have h1 : ∀ e ∈ commandNames, e ∈ commands := by decide +kernel
  have h2 : ∀ e ∈ commands, e ∈ commandNames := by decide +kernel
  exact ⟨h1 e, h2 e⟩

theorem formats_mem (e : Str × Table.Format) : e ∈ formatNames ↔ e ∈ formats := by
  have h1 : ∀ e ∈ formatNames, e ∈ formats := by decide +kernel
  have h2 : ∀ e ∈ formats, e ∈ formatNames := by decide +kernel
  exact ⟨h1 e, h2 e⟩

/-- For the commands. -/
theorem find_command (w : Str) (cmd : Command) :
    findUnique commandNames w = .one cmd ↔ StandsFor commands w cmd := by
  rw [findUnique_one commandNames_sorted, standsFor_congr commands_mem]

/-- The first entry with the prefix is found. -/
theorem findFormat_filter (w : Str) :
    findFormat w = ((formatNames.filter (fun e => startsWith e.1 w)).head?).map (·.2) := by
  unfold findFormat
  rcases lower_filter formatNames_sorted w with
    ⟨h1, h2 | ⟨e, rest, h2, h3⟩⟩ | ⟨e, rest, h1, h2, ⟨h3, _⟩ | ⟨f, l, l', h3, _, _⟩⟩
  · rw [h1, h2]; rfl
  · rw [h1, h2]; simp [h3]
  · rw [h1, h3]; simp [h2]
  · rw [h1, h3]; simp [h2]

theorem findFormat_some {w : Str} (h : ∃ e ∈ formats, w <+: e.1) : ∃ f, findFormat w = some f := by
  obtain ⟨e, he, hp⟩ := h
  rw [findFormat_filter]
  have hm : e ∈ formatNames.filter (fun e => startsWith e.1 w) :=
    List.mem_filter.2 ⟨(formats_mem e).2 he, startsWith_iff.2 hp⟩
  cases hl : formatNames.filter (fun e => startsWith e.1 w) with
  | nil => rw [hl] at hm; cases hm
  | cons a l => exact ⟨a.2, rfl⟩

/-- The first letters of formats differ. -/
theorem formats_head : ∀ e ∈ formats, ∀ f ∈ formats, e.1.head? = f.1.head? → e = f := by decide +kernel

theorem findFormat_standsFor {w : Str} (hw : w ≠ []) (f : Table.Format) :
    findFormat w = some f ↔ StandsFor formats w f := by
  have hhead : ∀ e ∈ formats, w <+: e.1 → e.1.head? = w.head? := by
    intro e _ ⟨t, ht⟩
    rw [← ht]
    cases w with
    | nil => exact absurd rfl hw
    | cons c w => rfl
  have huniq : ∀ e ∈ formats, ∀ g ∈ formats, w <+: e.1 → w <+: g.1 → e = g := fun e he g hg h1 h2 =>
    formats_head e he g hg (by rw [hhead e he h1, hhead g hg h2])
  constructor
  · intro h
    rw [findFormat_filter] at h
    obtain ⟨e, h1, h2⟩ := Option.map_eq_some_iff.1 h
    have hm := List.mem_of_head? h1
    obtain ⟨h3, h4⟩ := List.mem_filter.1 hm
    have h5 := (formats_mem e).1 h3
    have h6 := startsWith_iff.1 h4
    subst h2
    exact ⟨e.1, h5, h6, fun g hg hp => congrArg Prod.fst (huniq g hg e h5 hp h6)⟩
  · rintro ⟨name, h1, h2, _⟩
    obtain ⟨g, hg⟩ := findFormat_some ⟨_, h1, h2⟩
    rw [hg]
    rw [findFormat_filter] at hg
    obtain ⟨e, h3, h4⟩ := Option.map_eq_some_iff.1 hg
    obtain ⟨h5, h6⟩ := List.mem_filter.1 (List.mem_of_head? h3)
    have := huniq e ((formats_mem e).1 h5) _ h1 (startsWith_iff.1 h6) h2
    rw [← h4, this]

/-! ### Numbers -/

theorem leadingNumber_append (n : Nat) (s : Str) (d : Nat) (hd : d < 10)
    (hs : ∀ c ∈ s, '0' ≤ c ∧ c ≤ '9') :
    leadingNumber n (s ++ [Char.ofNat (48 + d)]) = leadingNumber n s * 10 + d := by
  have hdig : ∀ d < 10, ('0' ≤ Char.ofNat (48 + d) ∧ Char.ofNat (48 + d) ≤ '9') ∧
      (Char.ofNat (48 + d)).toNat - 48 = d := by decide
  induction s generalizing n with
  | nil =>
    simp only [List.nil_append, leadingNumber]
    rw [if_pos (hdig d hd).1, (hdig d hd).2]
  | cons c s ih =>
    simp only [List.cons_append, leadingNumber]
    rw [if_pos (hs c (by simp)), if_pos (hs c (by simp))]
    exact ih _ (fun c hc => hs c (by simp [hc]))

theorem decimal_digits (n : Nat) : ∀ c ∈ decimal n, '0' ≤ c ∧ c ≤ '9' := by
  have hdig : ∀ d < 10, ('0' ≤ Char.ofNat (48 + d) ∧ Char.ofNat (48 + d) ≤ '9') := by decide
  induction n using Nat.strongRecOn with
  | _ n ih =>
    rw [decimal]
    split
    · rename_i h
      intro c hc
      simp only [List.mem_singleton] at hc
      rw [hc]; exact hdig n h
    · intro c hc
      rcases List.mem_append.1 hc with hc | hc
      · exact ih _ (by omega) c hc
      · simp only [List.mem_singleton] at hc
        rw [hc]; exact hdig _ (Nat.mod_lt _ (by omega))

theorem decimal_value (n : Nat) : leadingNumber 0 (decimal n) = n := by
  have hdig : ∀ d < 10, ('0' ≤ Char.ofNat (48 + d) ∧ Char.ofNat (48 + d) ≤ '9') ∧
      (Char.ofNat (48 + d)).toNat - 48 = d := by decide
  induction n using Nat.strongRecOn with
  | _ n ih =>
    rw [decimal]
    split
    · rename_i h
      simp only [leadingNumber]
      rw [if_pos (hdig n h).1, (hdig n h).2]
      omega
    · rw [leadingNumber_append _ _ _ (Nat.mod_lt _ (by omega)) (decimal_digits _), ih _ (by omega)]
      omega

theorem decimal_ne_nil (n : Nat) : decimal n ≠ [] := by
  rw [decimal]
  split <;> simp

theorem atoi_decimal (n : Nat) (h : (n : Int) ≤ intMax) : atoi (decimal n) = some (n : Int) := by
  have hnot : ∀ c : Char, ('0' ≤ c ∧ c ≤ '9') → isSpace c = false ∧ c ≠ '-' ∧ c ≠ '+' := by
    intro c hc
    have h1 : 48 ≤ c.toNat := hc.1
    have h2 : c.toNat ≤ 57 := hc.2
    refine ⟨?_, ?_, ?_⟩
    · have : c ≠ ' ' := by rintro rfl; revert h1; decide
      simp only [isSpace, this, decide_false, Bool.false_or, Bool.and_eq_false_iff, decide_eq_false_iff_not]
      right; omega
    · rintro rfl; revert h1; decide
    · rintro rfl; revert h1; decide
  have hd := decimal_digits n
  have hv := decimal_value n
  cases hc : decimal n with
  | nil => exact absurd hc (decimal_ne_nil n)
  | cons c cs =>
    rw [hc] at hd hv
    obtain ⟨h1, h2, h3⟩ := hnot c (hd c (by simp))
    have e : (c :: cs).dropWhile isSpace = c :: cs := by rw [List.dropWhile_cons]; simp [h1]
    unfold atoi
    rw [e]
    simp only
    split
    · rename_i t heq; exact absurd (List.cons.inj heq).1 h2
    · rename_i t heq; exact absurd (List.cons.inj heq).1 h3
    · rw [hv, if_pos]
      unfold intMax at *
      omega

/-! ### Options -/

theorem options_append (env : Env) (s : Setup) (a b : List Opt) :
    options env s (a ++ b) =
      match options env s a with
      | .go s => options env s b
      | r => r := by
  induction a generalizing s with
  | nil => rfl
  | cons o a ih =>
    simp only [List.cons_append, options]
    cases option env s o <;> simp [ih]

end Cli
end Bant
