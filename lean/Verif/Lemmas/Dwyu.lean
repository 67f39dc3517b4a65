import Verif.Lemmas.Minimize
import Verif.Props.Headers

/-! Lemmas about DWYU. -/
namespace Bant
namespace Dwyu
open DwyuSpec Query Rules Headers HeaderSpec HeaderIndex Paths

/-! ### What the generator knows -/

/-- The generator knows what there is in the files. -/
structure Made (files : Files) (gen : Generator) : Prop where
  known : ∀ t r, lookup gen.known t = some r ↔ Library files t r
  unknown : ∀ t, lookup gen.known t = none ↔ ∀ r, ¬ Library files t r
  sound : ∀ t r, Library files t r → ∀ l, r.visibility = some l → Node.null ∉ l.2
  index : ∀ path, (∃ found targets score, findBySuffix gen.headers path 2 = some (some ⟨found, targets, score⟩) ∧
      Nearest files path found ∧ (∀ t, t ∈ targets ↔ Provides files found t) ∧ targets.Nodup) ∨
    (findBySuffix gen.headers path 2 = some none ∧ ∀ found, ¬ Nearest files path found)

theorem library_iff {files : Files} {t : BazelTarget} {r : Result} :
    Library files t r ↔ ((libraries files).find? (·.1 = t)).map (·.2) = some r := by
  unfold Library
  rw [Option.map_eq_some_iff]
  constructor
  · rintro ⟨a, b, h, hn⟩
    refine ⟨(t, r), ?_, rfl⟩
    rw [List.find?_eq_some_iff_append]
    exact ⟨by simp, a, b, h, by simpa using fun x y hx => hn (x, y) hx⟩
  · rintro ⟨⟨t', r'⟩, h, rfl⟩
    obtain ⟨h1, a, b, h2, h3⟩ := List.find?_eq_some_iff_append.1 h
    have : t' = t := by simpa using h1
    subst this
    exact ⟨a, b, h2, by simpa using fun e he => h3 e he⟩

theorem knownAdds_eq {files : Files} (hs : ∀ f ∈ files, Searchable f.2) :
    knownAdds files = some (libraries files) := by
  refine mapAll_eq ?_
  intro f hf
  refine forTargets_eq (hs f hf).proper ?_
  intro r _
  cases f.1.qualifiedTarget r.name <;> rfl

theorem fill_nodup {α : Type} [DecidableEq α] (l : List (Str × α)) : ∀ index : StrMap (List α),
    (∀ e ∈ index, e.2.Nodup) → ∀ e ∈ fill index l, e.2.Nodup := by
  have hupd : ∀ (key : Str) (t : α) (index : StrMap (List α)), (∀ e ∈ index, e.2.Nodup) →
      ∀ e ∈ index.update key [] (fun s => if t ∈ s then s else s ++ [t]), e.2.Nodup := by
    intro key t index
    have hins : ∀ s : List α, s.Nodup → (if t ∈ s then s else s ++ [t]).Nodup := by
      intro s hs
      split
      · exact hs
      · rw [List.nodup_append]
        refine ⟨hs, by simp, ?_⟩
        intro a ha b hb
        simp at hb; subst hb
        rintro rfl
        contradiction
    induction index with
    | nil => intro _ e he; simp [StrMap.update] at he; subst he; simp
    | cons x index ih =>
      intro h e he
      rw [StrMap.update] at he
      split at he
      · rcases List.mem_cons.1 he with rfl | he
        · simp
        · exact h e he
      · split at he
        · rcases List.mem_cons.1 he with rfl | he
          · exact hins _ (h x (by simp))
          · exact h e (.tail _ he)
        · rcases List.mem_cons.1 he with rfl | he
          · exact h _ (by simp)
          · exact ih (fun y hy => h y (.tail _ hy)) e he
  induction l with
  | nil => intro index h; exact h
  | cons x l ih =>
    intro index h
    rw [fill]
    exact ih _ (hupd _ _ _ h)

theorem find_targets {α : Type} [DecidableEq α] {adds : List (Str × α)} {path : Str} {m : Nat}
    {r : FindResult (List α)} (h : findBySuffix (fill [] adds) path m = some (some r)) :
    r.targets.Nodup := by
  have hd := fill_nodup adds [] (by simp)
  have hh := holds_fill (α := α) holds_empty adds
  rcases find_spec hh.sorted path m with ⟨v, hv, hf⟩ | ⟨_, ⟨_, hf⟩ | ⟨best, hb, _, hf⟩⟩
  · rw [hf] at h; cases h; exact hd _ hv
  · rw [hf] at h; cases h
  · rw [hf] at h
    unfold finish at h
    split at h
    · cases h
    · cases h; exact hd _ hb

theorem create_made {files : Files} (hs : ∀ f ∈ files, Searchable f.2) :
    ∃ gen, Generator.create files = some gen ∧ Made files gen := by
  obtain ⟨index, hi, hl⟩ := Props.C56_lookup files hs
  obtain ⟨gr, hg, _⟩ := Props.C57_genrules files hs
  have hk := knownAdds_eq hs
  refine ⟨⟨index, insertAll [] (libraries files)⟩, by simp [Generator.create, hi, hg, hk], ?_, ?_, ?_, ?_⟩
  · intro t r
    rw [insertAll_lookup, List.nil_append, library_iff]; rfl
  · intro t
    have : lookup (insertAll [] (libraries files)) t = ((libraries files).find? (·.1 = t)).map (·.2) := by
      rw [insertAll_lookup, List.nil_append]; rfl
    rw [this]
    simp only [library_iff]
    cases ((libraries files).find? (·.1 = t)).map (·.2) <;> simp
  · rintro t r ⟨a, b, h, _⟩ l hl
    have : (t, r) ∈ libraries files := by rw [h]; simp
    unfold libraries at this
    obtain ⟨f, hf, h⟩ := List.mem_flatMap.1 this
    obtain ⟨r', hr', h⟩ := List.mem_flatMap.1 h
    split at h
    · cases h
    · simp at h
      obtain ⟨rfl, rfl⟩ := h
      exact visibility_no_null (hs f hf) hr' hl
  · intro path
    have hadds : ∃ adds, index = fill [] adds := by
      unfold extractHeaderToLibMapping at hi
      obtain ⟨adds, _, h⟩ := Option.map_eq_some_iff.1 hi
      exact ⟨adds, h.symm⟩
    obtain ⟨adds, rfl⟩ := hadds
    by_cases hp : ∃ t, Provides files path t
    · left
      obtain ⟨ts, h1, h2⟩ := (hl path 2).1 hp
      exact ⟨_, _, _, h1, ⟨hp, .inl rfl⟩, h2, find_targets h1⟩
    · have hp' : ∀ t, ¬ Provides files path t := fun t ht => hp ⟨t, ht⟩
      rcases (hl path 2).2 hp' with ⟨h1, h2⟩ | ⟨found, ts, score, h1, h2, h3, h4, h5, h6⟩
      · right
        refine ⟨h1, ?_⟩
        rintro found ⟨⟨t, ht⟩, rfl | ⟨_, h3, _⟩⟩
        · exact hp' t ht
        · have := h2 found t ht; omega
      · left
        refine ⟨_, _, _, h1, ?_, h3, find_targets h1⟩
        subst h4
        refine ⟨?_, .inr ⟨hp', h5, h6⟩⟩
        cases ts with
        | nil => exact absurd rfl h2
        | cons t ts => exact ⟨t, (h3 t).1 (by simp)⟩

/-! ### Predicates -/

theorem visibleFrom_spec {target : BazelTarget} {package : BazelPackage} (es : List Node)
    (hn : Node.null ∉ es) : ∀ valid, ∃ b, visibleFrom target package valid es = some b ∧
      (b = true ↔ (valid = false ∧ ¬ Understood package es) ∨ Granted package es target) := by
  induction es with
  | nil => intro valid; exact ⟨!valid, rfl, by cases valid <;> simp [Understood, Granted]⟩
  | cons e es ih =>
    intro valid
    simp only [List.mem_cons, not_or] at hn
    have ih := ih hn.2
    have other : text e = none → visibleFrom target package valid (e :: es) = visibleFrom target package valid es →
        ∃ b, visibleFrom target package valid (e :: es) = some b ∧
        (b = true ↔ (valid = false ∧ ¬ Understood package (e :: es)) ∨ Granted package (e :: es) target) := by
      intro ht he
      obtain ⟨b, h1, h2⟩ := ih valid
      refine ⟨b, he.trans h1, ?_⟩
      rw [h2]
      simp [Understood, Granted, ht]
    have string : ∀ s, text e = some s → (visibleFrom target package valid (e :: es) =
        match BazelPattern.parseVisibility globCompile s package with
        | none => visibleFrom target package valid es
        | some vis => if vis.matchTarget target then some true else visibleFrom target package true es) →
        ∃ b, visibleFrom target package valid (e :: es) = some b ∧
        (b = true ↔ (valid = false ∧ ¬ Understood package (e :: es)) ∨ Granted package (e :: es) target) := by
      intro s ht he
      cases hp : BazelPattern.parseVisibility globCompile s package with
      | none =>
        rw [hp] at he
        obtain ⟨b, h1, h2⟩ := ih valid
        refine ⟨b, he.trans h1, ?_⟩
        rw [h2]
        simp [Understood, Granted, ht, hp]
      | some vis =>
        rw [hp] at he
        by_cases hm : vis.matchTarget target = true
        · refine ⟨true, he.trans (by simp [hm]), ?_⟩
          simp only [true_iff]
          exact .inr ⟨e, by simp, s, ht, vis, hp, hm⟩
        · obtain ⟨b, h1, h2⟩ := ih true
          refine ⟨b, he.trans (by simp [hm, h1]), ?_⟩
          rw [h2]
          have hu : Understood package (e :: es) := ⟨e, by simp, s, ht, vis, hp⟩
          simp [Granted, ht, hp, hm, hu]
    cases e with
    | null => exact absurd rfl hn.1
    | str t a b => exact string t rfl rfl
    | int rep v => exact string rep rfl rfl
    | _ => exact other rfl rfl

theorem library_unique {files : Files} {t : BazelTarget} {r s : Result} (h1 : Library files t r)
    (h2 : Library files t s) : r = s := by
  rw [library_iff] at h1 h2
  rw [h1] at h2; cases h2; rfl

theorem canSee_spec {files : Files} {gen : Generator} (hm : Made files gen) (target dep : BazelTarget) :
    ∃ b, canSee gen target dep = some b ∧ (b = true ↔ Visible files target dep) := by
  unfold canSee
  cases hl : lookup gen.known dep with
  | none =>
    refine ⟨true, rfl, ?_⟩
    simp only [true_iff]
    exact fun r hr => absurd hr ((hm.unknown _).1 hl r)
  | some r =>
    have hr := (hm.known _ _).1 hl
    have hv : Visible files target dep ↔ r.deprecation = [] ∧ (target.package = dep.package ∨
        dep.name ≠ c!"protobuf_headers" ∧
        ∀ l, r.visibility = some l → ¬ Understood dep.package l.2 ∨ Granted dep.package l.2 target) :=
      ⟨fun h => h r hr, fun h s hs => by rw [library_unique hs hr]; exact h⟩
    simp only []
    split
    · rename_i h
      exact ⟨false, rfl, by rw [hv]; simp [h]⟩
    · rename_i h
      have h : r.deprecation = [] := by simpa using h
      split
      · rename_i hp
        exact ⟨true, rfl, by rw [hv]; simp [h, hp]⟩
      · rename_i hp
        split
        · rename_i hn
          exact ⟨false, rfl, by rw [hv]; simp [hn, hp]⟩
        · rename_i hn
          cases hvis : r.visibility with
          | none => exact ⟨true, rfl, by rw [hv]; simp [h, hn, hvis]⟩
          | some l =>
            obtain ⟨b, h1, h2⟩ := visibleFrom_spec (target := target) (package := dep.package) l.2
              (hm.sound _ _ hr l hvis) false
            refine ⟨b, h1, ?_⟩
            rw [h2, hv]
            simp [h, hn, hvis, hp]

theorem alwayslink_spec {files : Files} {gen : Generator} (hm : Made files gen) (t : BazelTarget) :
    isAlwayslink gen t = false ↔ ∃ r, Library files t r ∧ r.alwayslink = false := by
  unfold isAlwayslink
  cases hl : lookup gen.known t with
  | none =>
    simp only [Bool.true_eq_false, false_iff]
    rintro ⟨r, hr, _⟩
    exact (hm.unknown _).1 hl r hr
  | some r =>
    have hr := (hm.known _ _).1 hl
    constructor
    · exact fun h => ⟨r, hr, h⟩
    · rintro ⟨s, hs, h⟩
      rw [library_unique hs hr] at h; exact h

theorem testonly_spec {files : Files} {gen : Generator} (hm : Made files gen) (target dep : BazelTarget) :
    isTestonlyCompatible gen target dep = true ↔ TestonlyOk files target dep := by
  unfold isTestonlyCompatible
  cases hl : lookup gen.known dep with
  | none =>
    simp only [true_iff]
    exact fun r hr => absurd hr ((hm.unknown _).1 hl r)
  | some r =>
    have hr := (hm.known _ _).1 hl
    simp only []
    cases ht : r.testonly with
    | false =>
      simp only [Bool.not_false, if_true, true_iff]
      intro s hs h
      rw [library_unique hs hr, ht] at h; cases h
    | true =>
      simp only [Bool.not_true, Bool.false_eq_true, if_false]
      cases hl2 : lookup gen.known target with
      | none =>
        simp only [true_iff]
        exact fun _ _ _ s hs => absurd hs ((hm.unknown _).1 hl2 s)
      | some q =>
        have hq := (hm.known _ _).1 hl2
        simp only [Bool.or_eq_true, decide_eq_true_eq]
        constructor
        · intro h _ _ _ s hs
          rw [library_unique hs hq]; exact h
        · intro h
          exact h r hr ht q hq

theorem visibleOf_spec {files : Files} {gen : Generator} (hm : Made files gen) (target : BazelTarget)
    (ts : List BazelTarget) : ∃ vs, visibleOf gen target ts = some vs ∧
      (∀ t, t ∈ vs ↔ t ∈ ts ∧ Visible files target t) ∧ vs.Sublist ts := by
  induction ts with
  | nil => exact ⟨[], rfl, by simp, .slnil⟩
  | cons t ts ih =>
    obtain ⟨vs, h1, h2, h3⟩ := ih
    obtain ⟨b, h4, h5⟩ := canSee_spec hm target t
    rw [visibleOf, h4, h1]
    cases b with
    | true =>
      refine ⟨t :: vs, rfl, ?_, h3.cons_cons _⟩
      intro x
      rw [List.mem_cons, List.mem_cons, h2]
      have := h5.1 rfl
      constructor
      · rintro (rfl | h)
        · exact ⟨.inl rfl, this⟩
        · exact ⟨.inr h.1, h.2⟩
      · rintro ⟨rfl | h, hv⟩
        · exact .inl rfl
        · exact .inr ⟨h, hv⟩
    | false =>
      refine ⟨vs, rfl, ?_, h3.cons _⟩
      intro x
      rw [List.mem_cons, h2]
      have : ¬ Visible files target t := fun h => by cases h5.2 h
      constructor
      · rintro ⟨h, hv⟩; exact ⟨.inr h, hv⟩
      · rintro ⟨rfl | h, hv⟩
        · exact absurd hv this
        · exact ⟨h, hv⟩

theorem providers_spec {files : Files} {gen : Generator} (hm : Made files gen) (pkg : BazelPackage)
    (inc : Str) :
    (∃ found targets, providers gen pkg inc = some (some targets) ∧ FoundAs files pkg inc found ∧
      (∀ t, t ∈ targets ↔ Provides files found t) ∧ targets.Nodup) ∨
    (providers gen pkg inc = some none ∧ ∀ found, ¬ FoundAs files pkg inc found) := by
  unfold providers
  rcases hm.index inc with ⟨found, ts, score, h1, h2, h3, h4⟩ | ⟨h1, h2⟩
  · exact .inl ⟨found, ts, by rw [h1], .inl h2, h3, h4⟩
  · rw [h1]
    rcases hm.index (pkg.qualifiedFile inc) with ⟨found, ts, score, g1, g2, g3, g4⟩ | ⟨g1, g2⟩
    · exact .inl ⟨found, ts, by rw [g1], .inr ⟨h2, g2⟩, g3, g4⟩
    · refine .inr ⟨by rw [g1], ?_⟩
      rintro found (h | ⟨_, h⟩)
      · exact h2 found h
      · exact g2 found h

end Dwyu
end Bant
