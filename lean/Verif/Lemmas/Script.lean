import Verif.Spec.Script
import Verif.Lemmas.Str

/-! Lemmas about reading scripts. -/
namespace Bant
namespace ScriptSpec

theorem run_append (s : Shell) (a b : Str) :
    (a ++ b).foldlM Shell.next s = (a.foldlM Shell.next s).bind (fun s => b.foldlM Shell.next s) :=
  List.foldlM_append ..

/-- A word that has begun. -/
theorem run_word {w x : Str} (hx : ∀ c ∈ x, special c = false) {cmd : List Str} {cmds : List (List Str)} :
    x.foldlM Shell.next ⟨false, some w, cmd, cmds⟩ = some ⟨false, some (w ++ x), cmd, cmds⟩ := by
  induction x generalizing w with
  | nil => simp
  | cons c x ih =>
    have hc := hx c (by simp)
    have hn : c ≠ '\'' ∧ c ≠ ' ' ∧ c ≠ '\t' ∧ c ≠ '\n' ∧ c ≠ ';' := by
      refine ⟨?_, ?_, ?_, ?_, ?_⟩ <;> (rintro rfl; revert hc; decide)
    obtain ⟨h1, h2, h3, h4, h5⟩ := hn
    rw [List.foldlM_cons]
    have : Shell.next ⟨false, some w, cmd, cmds⟩ c = some ⟨false, some (w ++ [c]), cmd, cmds⟩ := by
      simp [Shell.next, h1, h2, h3, h4, h5, hc]
    rw [this]
    have := ih (w := w ++ [c]) fun d hd => hx d (by simp [hd])
    simpa using this

/-- A whole word. -/
theorem run_plain {x : Str} (hx : Plain x) (hs : x.head? ≠ some '#' ∧ x.head? ≠ some '~') {cmd : List Str}
    {cmds : List (List Str)} :
    x.foldlM Shell.next ⟨false, none, cmd, cmds⟩ = some ⟨false, some x, cmd, cmds⟩ := by
  obtain ⟨hne, hx⟩ := hx
  cases x with
  | nil => exact absurd rfl hne
  | cons c x =>
    have hc := hx c (by simp)
    have hn : c ≠ '\'' ∧ c ≠ ' ' ∧ c ≠ '\t' ∧ c ≠ '\n' ∧ c ≠ ';' := by
      refine ⟨?_, ?_, ?_, ?_, ?_⟩ <;> (rintro rfl; revert hc; decide)
    obtain ⟨h1, h2, h3, h4, h5⟩ := hn
    simp only [List.head?_cons, ne_eq, Option.some.injEq] at hs
    rw [List.foldlM_cons]
    have : Shell.next ⟨false, none, cmd, cmds⟩ c = some ⟨false, some [c], cmd, cmds⟩ := by
      simp [Shell.next, h1, h2, h3, h4, h5, hc, hs]
    rw [this]
    have := run_word (w := [c]) (x := x) (fun d hd => hx d (by simp [hd])) (cmd := cmd) (cmds := cmds)
    simpa using this

/-- Within quotes. -/
theorem run_quoted {w x : Str} (hx : '\'' ∉ x) {cmd : List Str} {cmds : List (List Str)} :
    x.foldlM Shell.next ⟨true, some w, cmd, cmds⟩ = some ⟨true, some (w ++ x), cmd, cmds⟩ := by
  induction x generalizing w with
  | nil => simp
  | cons c x ih =>
    simp only [List.mem_cons, not_or] at hx
    rw [List.foldlM_cons]
    have : Shell.next ⟨true, some w, cmd, cmds⟩ c = some ⟨true, some (w ++ [c]), cmd, cmds⟩ := by
      have : c ≠ '\'' := fun h => hx.1 h.symm
      simp [Shell.next, this]
    rw [this]
    have := ih (w := w ++ [c]) hx.2
    simpa using this

/-- A line: program, a quoted word, a plain word. -/
theorem run_line {x t : Str} (hx : '\'' ∉ x) (ht : Plain t) (hs : t.head? ≠ some '#' ∧ t.head? ≠ some '~')
    (cmds : List (List Str)) :
    (c!"buildozer '" ++ x ++ c!"' " ++ t ++ c!"\n").foldlM Shell.next ⟨false, none, [], cmds⟩ =
      some ⟨false, none, [], cmds ++ [[c!"buildozer", x, t]]⟩ := by
  have h1 : (c!"buildozer '").foldlM Shell.next ⟨false, none, [], cmds⟩ =
      some ⟨true, some [], [c!"buildozer"], cmds⟩ := rfl
  have h2 : (c!"' ").foldlM Shell.next ⟨true, some x, [c!"buildozer"], cmds⟩ =
      some ⟨false, none, [c!"buildozer", x], cmds⟩ := rfl
  have h3 : (c!"\n").foldlM Shell.next ⟨false, some t, [c!"buildozer", x], cmds⟩ =
      some ⟨false, none, [], cmds ++ [[c!"buildozer", x, t]]⟩ := rfl
  rw [run_append, run_append, run_append, run_append, h1]
  simp only [Option.bind_some]
  rw [run_quoted hx]
  simp only [Option.bind_some, List.nil_append]
  rw [h2]
  simp only [Option.bind_some]
  rw [run_plain ht hs]
  simp only [Option.bind_some]
  exact h3

theorem fields_word {x : Str} (hne : x ≠ []) (hx : ' ' ∉ x) : fields x = [x] := by
  induction x with
  | nil => exact absurd rfl hne
  | cons c x ih =>
    simp only [List.mem_cons, not_or] at hx
    rw [fields.eq_def]
    simp only [if_neg (fun h : c = ' ' => hx.1 h.symm)]
    cases x with
    | nil => rfl
    | cons d x =>
      rw [ih (by simp) hx.2]
      have : d ≠ ' ' := fun h => hx.2 (by simp [h])
      split <;> simp_all

theorem fields_append {x y : Str} (hne : x ≠ []) (hx : ' ' ∉ x) : fields (x ++ ' ' :: y) = x :: fields y := by
  induction x with
  | nil => exact absurd rfl hne
  | cons c x ih =>
    simp only [List.mem_cons, not_or] at hx
    rw [List.cons_append, fields.eq_def]
    simp only [if_neg (fun h : c = ' ' => hx.1 h.symm)]
    cases x with
    | nil =>
      simp only [List.nil_append]
      have : fields (' ' :: y) = fields y := by rw [fields.eq_def]; simp
      rw [this]
    | cons d x =>
      rw [ih (by simp) hx.2]
      have : d ≠ ' ' := fun h => hx.2 (by simp [h])
      simp only [List.cons_append]
      split <;> simp_all

theorem plain_quote {x : Str} (h : Plain x) : '\'' ∉ x := fun hm => by
  have := h.2 _ hm
  revert this
  decide

theorem plain_blank {x : Str} (h : Plain x) : ' ' ∉ x := fun hm => by
  have := h.2 _ hm
  revert this
  decide

/-- One edit: one command, which is read as the edit. -/
theorem line_read {e : Edit} (h : PlainEdit e) (cmds : List (List Str)) :
    ∃ what, (buildozerLine e).foldlM Shell.next ⟨false, none, [], cmds⟩ =
      some ⟨false, none, [], cmds ++ [[c!"buildozer", what, e.target.toString]]⟩ ∧
      request [c!"buildozer", what, e.target.toString] = some (wanted e) := by
  obtain ⟨op, target, before, after⟩ := e
  cases op with
  | remove =>
    have hb : Plain before := h.old (by simp)
    refine ⟨c!"remove deps " ++ before, ?_, ?_⟩
    · rw [← run_line (by simp [plain_quote hb]) h.rule h.start]
      simp [buildozerLine]
    · have : fields (c!"remove deps " ++ before) = [c!"remove", c!"deps", before] := by
        rw [show c!"remove deps " ++ before = c!"remove" ++ ' ' :: (c!"deps" ++ ' ' :: before) by simp,
          fields_append (by simp) (by decide), fields_append (by simp) (by decide),
          fields_word hb.1 (plain_blank hb)]
      simp only [request, this]
      simp [wanted]
  | add =>
    have hb : Plain after := h.new (by simp)
    refine ⟨c!"add deps " ++ after, ?_, ?_⟩
    · rw [← run_line (by simp [plain_quote hb]) h.rule h.start]
      simp [buildozerLine]
    · have : fields (c!"add deps " ++ after) = [c!"add", c!"deps", after] := by
        rw [show c!"add deps " ++ after = c!"add" ++ ' ' :: (c!"deps" ++ ' ' :: after) by simp,
          fields_append (by simp) (by decide), fields_append (by simp) (by decide),
          fields_word hb.1 (plain_blank hb)]
      simp only [request, this]
      simp [wanted]
  | rename =>
    have hb : Plain before := h.old (by simp)
    have ha : Plain after := h.new (by simp)
    refine ⟨c!"replace deps " ++ before ++ c!" " ++ after, ?_, ?_⟩
    · rw [← run_line (by simp [plain_quote hb, plain_quote ha]) h.rule h.start]
      simp [buildozerLine]
    · have : fields (c!"replace deps " ++ before ++ c!" " ++ after) = [c!"replace", c!"deps", before, after] := by
        rw [show c!"replace deps " ++ before ++ c!" " ++ after =
            c!"replace" ++ ' ' :: (c!"deps" ++ ' ' :: (before ++ ' ' :: after)) by simp,
          fields_append (by simp) (by decide), fields_append (by simp) (by decide),
          fields_append hb.1 (plain_blank hb), fields_word ha.1 (plain_blank ha)]
      simp only [request, this]
      simp [wanted]

theorem script_read : ∀ {es : List Edit}, (∀ e ∈ es, PlainEdit e) → ∀ cmds,
    ∃ more, (buildozerScript es).foldlM Shell.next ⟨false, none, [], cmds⟩ =
      some ⟨false, none, [], cmds ++ more⟩ ∧ more.mapM request = some (es.map wanted)
  | [], _, cmds => ⟨[], by simp [buildozerScript]⟩
  | e :: es, h, cmds => by
    obtain ⟨what, h1, h2⟩ := line_read (h e (by simp)) cmds
    obtain ⟨more, h3, h4⟩ := script_read (es := es) (fun e he => h e (by simp [he]))
      (cmds ++ [[c!"buildozer", what, e.target.toString]])
    refine ⟨[c!"buildozer", what, e.target.toString] :: more, ?_, ?_⟩
    · have : buildozerScript (e :: es) = buildozerLine e ++ buildozerScript es := by simp [buildozerScript]
      rw [this, run_append, h1]
      simp only [Option.bind_some]
      rw [h3]
      simp
    · rw [List.mapM_cons, h2, h4]
      rfl

/-! ### Where characters come from -/

theorem mem_split {c : Char} {s : Str} (h : c ∈ s) : ∃ a b, s = a ++ c :: b ∧ c ∉ a := by
  induction s with
  | nil => cases h
  | cons x s ih =>
    by_cases hx : c = x
    · exact ⟨[], s, by simp [hx], by simp⟩
    · rcases List.mem_cons.1 h with h | h
      · exact absurd h hx
      · obtain ⟨a, b, h1, h2⟩ := ih h
        exact ⟨x :: a, b, by simp [h1], by simp [hx, h2]⟩

theorem beforeLast_subset {c d : Char} {s : Str} (h : d ∈ beforeLast c s) : d ∈ s := by
  unfold beforeLast at h
  split at h
  · rename_i a b hs
    rw [(splitLast_eq_some hs).1]
    simp [h]
  · exact h

theorem stripBack_subset {c d : Char} {s : Str} (h : d ∈ stripBack c s) : d ∈ s := by
  induction s with
  | nil => simp [stripBack] at h
  | cons x xs ih =>
    rw [stripBack] at h
    split at h
    · split at h
      · cases h
      · simp only [List.mem_singleton] at h
        simp [h]
    · rcases List.mem_cons.1 h with rfl | h
      · simp
      · exact List.mem_cons_of_mem _ (ih h)

theorem parsePackage_subset {s : Str} {p : BazelPackage} (h : BazelPackage.parseFrom s = some p) :
    (∀ d ∈ p.project, d ∈ s) ∧ (∀ d ∈ p.path, d ∈ s) ∧ (p.project = [] ∨ p.project.head? = some '@') := by
  unfold BazelPackage.parseFrom at h
  simp only at h
  split at h
  · cases h
  · rw [Option.ite_none_left_eq_some] at h
    obtain ⟨_, h⟩ := h
    cases h
    have hpp : (∀ d ∈ (BazelPackage.projectAndPath (beforeLast ':' s)).1, d ∈ beforeLast ':' s) ∧
        (∀ d ∈ (BazelPackage.projectAndPath (beforeLast ':' s)).2, d ∈ beforeLast ':' s) ∧
        ((BazelPackage.projectAndPath (beforeLast ':' s)).1 = [] ∨
          (BazelPackage.projectAndPath (beforeLast ':' s)).1.head? = some '@') := by
      unfold BazelPackage.projectAndPath
      split
      · rename_i t ht
        refine ⟨?_, fun d hd => fromFirst_subset hd, ?_⟩
        · intro d hd
          simp only at hd
          split at hd
          · cases hd
          · exact beforeFirst_subset hd
        · simp only
          split
          · exact .inl rfl
          · right
            rw [ht]
            simp [beforeFirst]
      · exact ⟨by simp, fun d hd => hd, .inl rfl⟩
    refine ⟨fun d hd => beforeLast_subset (hpp.1 d (beforeFirst_subset hd)),
      fun d hd => beforeLast_subset (hpp.2.1 d (stripFront_subset (stripBack_subset hd))), ?_⟩
    rcases hpp.2.2 with h | h
    · simp [h, beforeFirst]
    · right
      cases hq : (BazelPackage.projectAndPath (beforeLast ':' s)).1 with
      | nil => rw [hq] at h; cases h
      | cons c t =>
        rw [hq] at h
        cases h
        simp [beforeFirst]

/-- A target has the characters of its text and of the package that it was found in. -/
theorem parseTarget_subset {s : Str} {ctx : BazelPackage} {t : BazelTarget} (h : BazelTarget.parseFrom s ctx = some t) :
    (∀ d ∈ t.package.project, d ∈ s ∨ d ∈ ctx.project) ∧ (∀ d ∈ t.package.path, d ∈ s ∨ d ∈ ctx.path) ∧
    (∀ d ∈ t.name, d ∈ s) ∧
    (t.package.project = [] ∨ t.package.project.head? = some '@' ∨ t.package.project = ctx.project) := by
  have hass : ∀ package target, (∀ d ∈ package, d ∈ s) → (∀ d ∈ target, d ∈ s) →
      BazelTarget.assemble package target ctx = some t →
      (∀ d ∈ t.package.project, d ∈ s ∨ d ∈ ctx.project) ∧ (∀ d ∈ t.package.path, d ∈ s ∨ d ∈ ctx.path) ∧
      (∀ d ∈ t.name, d ∈ s) ∧
      (t.package.project = [] ∨ t.package.project.head? = some '@' ∨ t.package.project = ctx.project) := by
    intro package target hp ht h
    unfold BazelTarget.assemble at h
    split at h
    · cases h
      exact ⟨fun d hd => .inr hd, fun d hd => .inr hd, ht, .inr (.inr rfl)⟩
    · cases hpf : BazelPackage.parseFrom package with
      | none => rw [hpf] at h; cases h
      | some pp =>
        rw [hpf] at h
        obtain ⟨h1, h2, h3⟩ := parsePackage_subset hpf
        cases h
        by_cases he : pp.project = []
        · rw [if_pos he]
          exact ⟨fun d hd => .inr hd, fun d hd => .inl (hp d (h2 d hd)), ht, .inr (.inr rfl)⟩
        · rw [if_neg he]
          refine ⟨fun d hd => .inl (hp d (h1 d hd)), fun d hd => .inl (hp d (h2 d hd)), ht, ?_⟩
          rcases h3 with h3 | h3
          · exact .inl h3
          · exact .inr (.inl h3)
  unfold BazelTarget.parseFrom at h
  split at h
  · rename_i package hs
    have hp : ∀ d ∈ package, d ∈ s := fun d hd => splitAll_mem (by rw [hs]; simp) hd
    split at h
    · rename_i a b hl
      refine hass _ _ hp ?_ h
      intro d hd
      apply hp
      rw [(splitLast_eq_some hl).1]
      simp [hd]
    · split at h
      · exact hass _ _ hp (fun d hd => hp d (by simp [hd])) h
      · exact hass _ _ (by simp) (fun d hd => hd) h
  · rename_i package target hs
    exact hass _ _ (fun d hd => splitAll_mem (by rw [hs]; simp) hd)
      (fun d hd => splitAll_mem (by rw [hs]; simp) hd) h
  · cases h

/-- A text that does not end in `/` or `:` has a name. -/
theorem parseTarget_name {s : Str} {ctx : BazelPackage} {t : BazelTarget} (h : BazelTarget.parseFrom s ctx = some t)
    (hne : s ≠ []) (h1 : s.getLast? ≠ some '/') (h2 : s.getLast? ≠ some ':') : t.name ≠ [] := by
  have hass : ∀ package target, target ≠ [] → BazelTarget.assemble package target ctx = some t → t.name ≠ [] := by
    intro package target ht h
    unfold BazelTarget.assemble at h
    split at h
    · cases h; exact ht
    · split at h
      · cases h
      · cases h; exact ht
  unfold BazelTarget.parseFrom at h
  split at h
  · rename_i package hs
    have hcol : ':' ∉ s := by
      intro hm
      obtain ⟨a, b, hab, ha⟩ := mem_split hm
      rw [hab, splitAll_append ha] at hs
      simp only [List.cons.injEq] at hs
      exact splitAll_ne_nil _ _ hs.2
    rw [splitAll_of_not_mem hcol] at hs
    simp only [List.cons.injEq, and_true] at hs
    subst hs
    split at h
    · rename_i a b hl
      refine hass _ _ ?_ h
      rintro rfl
      rw [(splitLast_eq_some hl).1] at h1
      simp at h1
    · split at h
      · rename_i target _
        refine hass _ _ ?_ h
        rintro rfl
        have : BazelTarget.assemble ['@'] [] ctx = none := rfl
        rw [this] at h
        cases h
      · exact hass _ _ hne h
  · rename_i package target hs
    refine hass _ _ ?_ h
    rintro rfl
    by_cases hcol : ':' ∈ s
    · obtain ⟨a, b, hab, ha⟩ := mem_split hcol
      rw [hab, splitAll_append ha] at hs
      simp only [List.cons.injEq] at hs
      by_cases hb : ':' ∈ b
      · obtain ⟨a', b', hab', ha'⟩ := mem_split hb
        rw [hab', splitAll_append ha'] at hs
        simp only [List.cons.injEq] at hs
        exact splitAll_ne_nil _ _ hs.2.2
      · rw [splitAll_of_not_mem hb] at hs
        simp only [List.cons.injEq, and_true] at hs
        rw [hab, hs.2] at h2
        simp at h2
    · rw [splitAll_of_not_mem hcol] at hs
      simp at hs
  · cases h

theorem toString_subset {t : BazelTarget} {d : Char} (h : d ∈ t.toString) :
    d ∈ t.package.project ∨ d ∈ t.package.path ∨ d ∈ t.name ∨ d = '/' ∨ d = ':' := by
  unfold BazelTarget.toString BazelPackage.toString at h
  split at h
  · split at h
    · exact .inl h
    · simp only [List.mem_append, List.mem_cons, List.not_mem_nil, or_false, or_self] at h
      rcases h with (h | h) | h
      · exact .inl h
      · exact .inr (.inr (.inr (.inl h)))
      · exact .inr (.inl h)
  · simp only [List.mem_append, List.mem_cons, List.not_mem_nil, or_false, or_self] at h
    rcases h with ((h | h) | h) | h | h
    · exact .inl h
    · exact .inr (.inr (.inr (.inl h)))
    · exact .inr (.inl h)
    · exact .inr (.inr (.inr (.inr h)))
    · exact .inr (.inr (.inl h))

theorem toString_start {t : BazelTarget} (hp : t.package.project = [] ∨ t.package.project.head? = some '@')
    (hn : t.name ≠ []) : ∃ c, t.toString.head? = some c ∧ (c = '/' ∨ c = '@') := by
  unfold BazelTarget.toString BazelPackage.toString
  rcases hp with h | h
  · split
    · split
      · rename_i h1 h2
        simp [BazelPackage.lastElement, h2, h, splitLast] at h1
        exact absurd h1 hn
      · exact ⟨'/', by simp [h], .inl rfl⟩
    · exact ⟨'/', by simp [h], .inl rfl⟩
  · cases hq : t.package.project with
    | nil => rw [hq] at h; cases h
    | cons c s =>
      rw [hq] at h
      cases h
      refine ⟨'@', ?_, .inr rfl⟩
      split
      · split <;> simp
      · simp

/-- A rule of a package, with a plain name. -/
theorem qualified_plain {p : BazelPackage} {name : Str} {t : BazelTarget}
    (hn : ∀ c ∈ name, special c = false) (hq : p.qualifiedTarget name = some t) :
    t.package = p ∧ t.name ≠ [] ∧ (∀ c ∈ t.name, special c = false) := by
  unfold BazelPackage.qualifiedTarget at hq
  split at hq
  · cases hq
  · rename_i c rest
    rw [Option.ite_none_left_eq_some] at hq
    obtain ⟨hne, hq⟩ := hq
    cases hq
    refine ⟨rfl, hne, ?_⟩
    intro d hd
    simp only at hd
    split at hd
    · exact hn d (by simp [hd])
    · exact hn d hd

theorem toString_plain {t : BazelTarget} (hp : PlainPackage t.package) (hne : t.name ≠ [])
    (hn : ∀ c ∈ t.name, special c = false) :
    Plain t.toString ∧ t.toString.head? ≠ some '#' ∧ t.toString.head? ≠ some '~' := by
  obtain ⟨c, h1, h2⟩ := toString_start hp.2.2 hne
  refine ⟨⟨?_, ?_⟩, ?_⟩
  · intro h0
    rw [h0] at h1
    cases h1
  · intro d hd
    rcases toString_subset hd with h | h | h | h | h
    · exact hp.1 d h
    · exact hp.2.1 d h
    · exact hn d h
    · subst h; decide
    · subst h; decide
  · rw [h1]
    rcases h2 with rfl | rfl <;> decide

theorem relative_plain {t : BazelTarget} (hp : PlainPackage t.package) (hne : t.name ≠ [])
    (hn : ∀ c ∈ t.name, special c = false) (p : BazelPackage) : Plain (t.toStringRelativeTo p) := by
  unfold BazelTarget.toStringRelativeTo
  split
  · exact (toString_plain hp hne hn).1
  · refine ⟨by simp, ?_⟩
    intro c hc
    rcases List.mem_cons.1 hc with rfl | h
    · decide
    · exact hn c h

theorem parse_plain {d : Str} {p : BazelPackage} {t : BazelTarget} (hp : PlainPackage p) (hd : PlainDep d)
    (h : BazelTarget.parseFrom d p = some t) :
    PlainPackage t.package ∧ t.name ≠ [] ∧ ∀ c ∈ t.name, special c = false := by
  obtain ⟨s1, s2, s3, s4⟩ := parseTarget_subset h
  obtain ⟨hd, h1, h2⟩ := hd
  refine ⟨⟨?_, ?_, ?_⟩, parseTarget_name h hd.1 h1 h2, fun c hc => hd.2 c (s3 c hc)⟩
  · intro c hc
    rcases s1 c hc with h | h
    · exact hd.2 c h
    · exact hp.1 c h
  · intro c hc
    rcases s2 c hc with h | h
    · exact hd.2 c h
    · exact hp.2.1 c h
  · rcases s4 with h | h | h
    · exact .inl h
    · exact .inr h
    · rw [h]; exact hp.2.2

end ScriptSpec
end Bant
