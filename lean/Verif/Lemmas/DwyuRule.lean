import Verif.Lemmas.Dwyu

/-! Lemmas about DWYU: the edits of one rule. -/
namespace Bant
namespace Dwyu
open DwyuSpec Query Rules Headers HeaderSpec HeaderIndex Paths

/-! ### Sources -/

theorem isHeaderInList_iff {header : Str} {list : List Str} {pre : Str} :
    isHeaderInList header list pre = true ↔ ∃ item ∈ list, header = item ∨ header = pre ++ c!"/" ++ item := by
  simp only [isHeaderInList, List.any_eq_true, Bool.and_eq_true, Bool.or_eq_true, decide_eq_true_eq,
    endsWith_iff]
  constructor
  · rintro ⟨item, h, _, h1 | h1⟩
    · exact ⟨item, h, .inl h1⟩
    · exact ⟨item, h, .inr (by rw [← h1]; simp)⟩
  · rintro ⟨item, h, h1 | h1⟩
    · exact ⟨item, h, by rw [h1]; exact List.suffix_refl _, .inl h1⟩
    · exact ⟨item, h, ⟨pre ++ c!"/", h1.symm⟩, .inr (by rw [h1]; simp)⟩

/-- Not one of the sources of the rule. -/
def Foreign (target : BazelTarget) (sources : List Str) (inc : Str) : Prop :=
  ∀ src ∈ sources, inc ≠ src ∧ inc ≠ target.package.path ++ c!"/" ++ src ∧ inc ≠ c!"/" ++ src

theorem foreign_iff {target : BazelTarget} {sources : List Str} {inc : Str} :
    (isHeaderInList inc sources target.package.path || isHeaderInList inc sources []) = false ↔
      Foreign target sources inc := by
  rw [← Bool.not_eq_true, Bool.or_eq_true, isHeaderInList_iff, isHeaderInList_iff]
  unfold Foreign
  constructor
  · intro h src hs
    refine ⟨?_, ?_, ?_⟩ <;> intro he <;> apply h
    · exact .inl ⟨src, hs, .inl he⟩
    · exact .inl ⟨src, hs, .inr he⟩
    · exact .inr ⟨src, hs, .inr he⟩
  · rintro h (⟨src, hs, he | he⟩ | ⟨src, hs, he | he⟩)
    · exact (h src hs).1 he
    · exact (h src hs).2.1 he
    · exact (h src hs).1 he
    · exact (h src hs).2.2 he

theorem tryOpenFile_iff {env : Env} {pkg : BazelPackage} {src content : Str} :
    tryOpenFile env.read (pkg.fullyQualifiedFile env.workspace src) = some content ↔
      Content env pkg src content := by
  unfold tryOpenFile Content
  rw [List.findSome?_eq_some_iff]
  constructor
  · rintro ⟨a, d, b, h1, h2, h3⟩; exact ⟨a, d, b, h1, h2, h3⟩
  · rintro ⟨a, d, b, h1, h2, h3⟩; exact ⟨a, d, b, h1, h2, h3⟩

theorem neededByIncludes_spec {files : Files} {gen : Generator} (hm : Made files gen) (target : BazelTarget)
    (pkg : BazelPackage) (sources : List Str) (incs : List Str) :
    ∃ sets acc, neededByIncludes gen target pkg sources incs = some (sets, acc) ∧
      Alternatives files pkg target (fun inc => inc ∈ incs ∧ Foreign target sources inc) sets ∧
      (acc = true ↔ ∀ inc ∈ incs, Foreign target sources inc → ∃ found, FoundAs files pkg inc found) := by
  induction incs with
  | nil => exact ⟨[], true, rfl, ⟨by simp, by simp⟩, by simp⟩
  | cons inc incs ih =>
    obtain ⟨sets, acc, h1, h2, h3⟩ := ih
    rw [neededByIncludes, h1]
    simp only []
    cases hf : (isHeaderInList inc sources target.package.path || isHeaderInList inc sources []) with
    | true =>
      have hnf : ¬ Foreign target sources inc := fun h => by rw [foreign_iff.2 h] at hf; cases hf
      refine ⟨sets, acc, rfl, ⟨?_, ?_⟩, ?_⟩
      · intro s hs
        obtain ⟨a, b, i, found, hi, h⟩ := h2.from_inc s hs
        exact ⟨a, b, i, found, ⟨.tail _ hi.1, hi.2⟩, h⟩
      · rintro i ⟨hi, hfo⟩
        rcases List.mem_cons.1 hi with rfl | hi
        · exact absurd hfo hnf
        · exact h2.for_inc i ⟨hi, hfo⟩
      · rw [h3]; simp [hnf]
    | false =>
      have hfo := foreign_iff.1 hf
      rcases providers_spec hm pkg inc with ⟨found, ts, g1, g2, g3, g4⟩ | ⟨g1, g2⟩
      · obtain ⟨vs, v1, v2, v3⟩ := visibleOf_spec hm target ts
        simp only [Bool.false_eq_true, if_false, g1, v1]
        refine ⟨_, acc, rfl, ⟨?_, ?_⟩, ?_⟩
        · intro s hs
          have old : s ∈ sets → s ≠ [] ∧ s.Nodup ∧ ∃ i found,
              (i ∈ inc :: incs ∧ Foreign target sources i) ∧ FoundAs files pkg i found ∧
              ∀ t, t ∈ s ↔ Provides files found t ∧ Visible files target t := by
            intro hs
            obtain ⟨a, b, i, found, hi, h⟩ := h2.from_inc s hs
            exact ⟨a, b, i, found, ⟨.tail _ hi.1, hi.2⟩, h⟩
          split at hs
          · exact old hs
          · rename_i hne
            rcases List.mem_cons.1 hs with rfl | hs
            · exact ⟨by simpa using hne, g4.sublist v3, inc, found, ⟨by simp, hfo⟩, g2,
                fun t => by rw [v2, g3]⟩
            · exact old hs
        · rintro i ⟨hi, hfi⟩
          rcases List.mem_cons.1 hi with rfl | hi
          · right
            refine ⟨found, g2, ?_⟩
            split
            · rename_i he
              have he : vs = [] := by simpa using he
              left
              intro t ht hv
              have : t ∈ vs := (v2 t).2 ⟨(g3 t).2 ht, hv⟩
              rw [he] at this; cases this
            · exact .inr ⟨vs, by simp, fun t => by rw [v2, g3]⟩
          · rcases h2.for_inc i ⟨hi, hfi⟩ with h | ⟨fd, h, h'⟩
            · exact .inl h
            · refine .inr ⟨fd, h, ?_⟩
              rcases h' with h' | ⟨s, hs, h'⟩
              · exact .inl h'
              · refine .inr ⟨s, ?_, h'⟩
                split
                · exact hs
                · exact .tail _ hs
        · rw [h3]
          constructor
          · intro h i hi hfi
            rcases List.mem_cons.1 hi with rfl | hi
            · exact ⟨found, g2⟩
            · exact h i hi hfi
          · exact fun h i hi => h i (.tail _ hi)
      · simp only [Bool.false_eq_true, if_false, g1]
        refine ⟨sets, false, rfl, ⟨?_, ?_⟩, ?_⟩
        · intro s hs
          obtain ⟨a, b, i, found, hi, h⟩ := h2.from_inc s hs
          exact ⟨a, b, i, found, ⟨.tail _ hi.1, hi.2⟩, h⟩
        · rintro i ⟨hi, hfi⟩
          rcases List.mem_cons.1 hi with rfl | hi
          · exact .inl g2
          · exact h2.for_inc i ⟨hi, hfi⟩
        · simp only [Bool.false_eq_true, false_iff]
          intro h
          obtain ⟨found, hfd⟩ := h inc (by simp) hfo
          exact g2 found hfd

theorem neededBySources_spec {files : Files} {gen : Generator} (hm : Made files gen) (env : Env)
    (target : BazelTarget) (pkg : BazelPackage) (sources srcs : List Str) :
    ∃ sets acc, neededBySources env gen target pkg sources srcs = some (sets, acc) ∧
      Alternatives files pkg target (fun inc => (∃ src ∈ srcs, ∃ content, Content env pkg src content ∧
        ∃ pos, (pos, inc) ∈ Includes.extract content) ∧ Foreign target sources inc) sets ∧
      (acc = true ↔ (∀ src ∈ srcs, ∃ content, Content env pkg src content) ∧
        ∀ inc, ((∃ src ∈ srcs, ∃ content, Content env pkg src content ∧
          ∃ pos, (pos, inc) ∈ Includes.extract content) ∧ Foreign target sources inc) →
          ∃ found, FoundAs files pkg inc found) := by
  induction srcs with
  | nil => exact ⟨[], true, rfl, ⟨by simp, by simp⟩, by simp⟩
  | cons src srcs ih =>
    obtain ⟨sets, acc, h1, h2, h3⟩ := ih
    rw [neededBySources, h1]
    simp only []
    cases ho : tryOpenFile env.read (pkg.fullyQualifiedFile env.workspace src) with
    | none =>
      have hno : ∀ c, ¬ Content env pkg src c := fun c hc => by
        rw [tryOpenFile_iff.2 hc] at ho; cases ho
      have hiff : ∀ inc, (∃ s ∈ src :: srcs, ∃ content, Content env pkg s content ∧
          ∃ pos, (pos, inc) ∈ Includes.extract content) ↔ (∃ s ∈ srcs, ∃ content, Content env pkg s content ∧
          ∃ pos, (pos, inc) ∈ Includes.extract content) := by
        intro inc
        constructor
        · rintro ⟨s, hs, c, hc, h⟩
          rcases List.mem_cons.1 hs with rfl | hs
          · exact absurd hc (hno c)
          · exact ⟨s, hs, c, hc, h⟩
        · rintro ⟨s, hs, h⟩; exact ⟨s, .tail _ hs, h⟩
      refine ⟨sets, false, rfl, ?_, ?_⟩
      · simp only [hiff]; exact h2
      · simp only [Bool.false_eq_true, false_iff]
        intro h
        obtain ⟨c, hc⟩ := h.1 src (by simp)
        exact hno c hc
    | some content =>
      have hc := tryOpenFile_iff.1 ho
      have huniq : ∀ c, Content env pkg src c → c = content := by
        intro c h
        rw [tryOpenFile_iff.2 h] at ho; cases ho; rfl
      obtain ⟨more, all, g1, g2, g3⟩ := neededByIncludes_spec hm target pkg sources
        ((Includes.extract content).map (·.2))
      simp only [g1]
      have hmem : ∀ inc, inc ∈ (Includes.extract content).map (·.2) ↔
          ∃ pos, (pos, inc) ∈ Includes.extract content := by
        intro inc
        rw [List.mem_map]
        constructor
        · rintro ⟨⟨pos, i⟩, h, rfl⟩; exact ⟨pos, h⟩
        · rintro ⟨pos, h⟩; exact ⟨_, h, rfl⟩
      have hiff : ∀ inc, (∃ s ∈ src :: srcs, ∃ content, Content env pkg s content ∧
          ∃ pos, (pos, inc) ∈ Includes.extract content) ↔
          inc ∈ (Includes.extract content).map (·.2) ∨ (∃ s ∈ srcs, ∃ content, Content env pkg s content ∧
          ∃ pos, (pos, inc) ∈ Includes.extract content) := by
        intro inc
        rw [hmem]
        constructor
        · rintro ⟨s, hs, c, hc', h⟩
          rcases List.mem_cons.1 hs with rfl | hs
          · rw [huniq c hc'] at h; exact .inl h
          · exact .inr ⟨s, hs, c, hc', h⟩
        · rintro (h | ⟨s, hs, h⟩)
          · exact ⟨src, by simp, content, hc, h⟩
          · exact ⟨s, .tail _ hs, h⟩
      refine ⟨more ++ sets, all && acc, rfl, ⟨?_, ?_⟩, ?_⟩
      · intro s hs
        rcases List.mem_append.1 hs with hs | hs
        · obtain ⟨a, b, i, found, hi, h⟩ := g2.from_inc s hs
          exact ⟨a, b, i, found, ⟨(hiff i).2 (.inl hi.1), hi.2⟩, h⟩
        · obtain ⟨a, b, i, found, hi, h⟩ := h2.from_inc s hs
          exact ⟨a, b, i, found, ⟨(hiff i).2 (.inr hi.1), hi.2⟩, h⟩
      · rintro i ⟨hi, hfo⟩
        rcases (hiff i).1 hi with hi | hi
        · rcases g2.for_inc i ⟨hi, hfo⟩ with h | ⟨fd, h, h' | ⟨s, hs, h'⟩⟩
          · exact .inl h
          · exact .inr ⟨fd, h, .inl h'⟩
          · exact .inr ⟨fd, h, .inr ⟨s, List.mem_append.2 (.inl hs), h'⟩⟩
        · rcases h2.for_inc i ⟨hi, hfo⟩ with h | ⟨fd, h, h' | ⟨s, hs, h'⟩⟩
          · exact .inl h
          · exact .inr ⟨fd, h, .inl h'⟩
          · exact .inr ⟨fd, h, .inr ⟨s, List.mem_append.2 (.inr hs), h'⟩⟩
      · rw [Bool.and_eq_true, g3, h3]
        simp only [hiff]
        constructor
        · rintro ⟨h, h', h''⟩
          refine ⟨?_, ?_⟩
          · intro s hs
            rcases List.mem_cons.1 hs with rfl | hs
            · exact ⟨content, hc⟩
            · exact h' s hs
          · rintro inc ⟨hi | hi, hfo⟩
            · exact h inc hi hfo
            · exact h'' inc ⟨hi, hfo⟩
        · rintro ⟨h, h'⟩
          exact ⟨fun inc hi hfo => h' inc ⟨.inl hi, hfo⟩, fun s hs => h s (.tail _ hs),
            fun inc hi => h' inc ⟨.inr hi.1, hi.2⟩⟩

/-! ### Comments -/

theorem keepFollows_iff {s : Str} : keepFollows s = true ↔ ∃ b c, s = b ++ c!"keep" ++ c ∧ '\n' ∉ b := by
  induction s with
  | nil =>
    simp only [keepFollows, Bool.false_eq_true, false_iff]
    rintro ⟨b, c, h, _⟩
    have := congrArg List.length h
    simp at this
  | cons x s ih =>
    rw [keepFollows, Bool.or_eq_true, startsWith_iff, Bool.and_eq_true, ih]
    simp only [ne_eq, decide_not, Bool.not_eq_true', decide_eq_false_iff_not]
    constructor
    · rintro (⟨c, hc⟩ | ⟨hx, b, c, rfl, hb⟩)
      · exact ⟨[], c, by rw [← hc]; rfl, by simp⟩
      · exact ⟨x :: b, c, rfl, by simp [Ne.symm hx, hb]⟩
    · rintro ⟨b, c, h, hb⟩
      cases b with
      | nil => exact .inl ⟨c, h.symm⟩
      | cons y b =>
        injection h with h1 h2
        subst h1
        simp at hb
        exact .inr ⟨fun h => hb.1 h.symm, b, c, h2, hb.2⟩

theorem hasKeepComment_iff {s : Str} : hasKeepComment s = true ↔ KeepComment s := by
  unfold KeepComment
  induction s with
  | nil =>
    simp only [hasKeepComment, Bool.false_eq_true, false_iff]
    rintro ⟨a, b, c, h, _⟩
    have := congrArg List.length h
    simp at this
  | cons x s ih =>
    rw [hasKeepComment, Bool.or_eq_true, Bool.and_eq_true, ih, decide_eq_true_eq, keepFollows_iff]
    constructor
    · rintro (⟨rfl, b, c, rfl, hb⟩ | ⟨a, b, c, rfl, hb⟩)
      · exact ⟨[], b, c, rfl, hb⟩
      · exact ⟨x :: a, b, c, rfl, hb⟩
    · rintro ⟨a, b, c, h, hb⟩
      cases a with
      | nil =>
        injection h with h1 h2
        exact .inl ⟨h1, b, c, h2, hb⟩
      | cons y a =>
        injection h with h1 h2
        exact .inr ⟨a, b, c, h2, hb⟩

/-! ### Dependencies -/

theorem checkOff_spec {t : BazelTarget} {needed : List (List BazelTarget)}
    (hd : needed.Pairwise fun r r' => ∀ x ∈ r, x ∉ r') :
    (checkOff t needed = none ∧ (∀ s ∈ needed, t ∉ s)) ∨
    ∃ s others, checkOff t needed = some (s, others) ∧ s ∈ needed ∧ t ∈ s ∧
      others = needed.filter (fun r => !decide (t ∈ r)) ∧
      ∀ x, (∃ r ∈ needed, x ∈ r) ↔ (∃ r ∈ others, x ∈ r) ∨ x ∈ s := by
  induction needed with
  | nil => exact .inl ⟨rfl, by simp⟩
  | cons s rest ih =>
    obtain ⟨hs, hd⟩ := List.pairwise_cons.1 hd
    rw [checkOff]
    by_cases ht : t ∈ s
    · right
      rw [if_pos ht]
      have hrest : rest.filter (fun r => !decide (t ∈ r)) = rest := by
        rw [List.filter_eq_self]
        intro r hr
        simp [hs r hr t ht]
      refine ⟨s, rest, rfl, by simp, ht, ?_, ?_⟩
      · rw [List.filter_cons_of_neg (by simp [ht]), hrest]
      · intro x
        simp only [List.mem_cons]
        constructor
        · rintro ⟨r, rfl | hr, hx⟩
          · exact .inr hx
          · exact .inl ⟨r, hr, hx⟩
        · rintro (⟨r, hr, hx⟩ | hx)
          · exact ⟨r, .inr hr, hx⟩
          · exact ⟨s, .inl rfl, hx⟩
    · rw [if_neg ht]
      rcases ih hd with ⟨h1, h2⟩ | ⟨r, others, h1, h2, h3, h4, h5⟩
      · left
        rw [h1]
        refine ⟨rfl, ?_⟩
        intro r hr
        rcases List.mem_cons.1 hr with rfl | hr
        · exact ht
        · exact h2 r hr
      · right
        rw [h1]
        refine ⟨r, s :: others, rfl, .tail _ h2, h3, ?_, ?_⟩
        · rw [List.filter_cons_of_pos (by simp [ht]), h4]
        · intro x
          have := h5 x
          simp only [List.mem_cons, exists_eq_or_imp, this, or_assoc]

/-- The dependencies that are parsed to `t`. -/
def parsesTo (target t : BazelTarget) (dep : Str) : Bool :=
  BazelTarget.parseFrom dep target.package = some t

theorem lookAtDeps_spec {files : Files} {gen : Generator} (hm : Made files gen) (env : Env)
    (target : BazelTarget) (details : Result) (acc : Bool) (deps : List Str) :
    ∀ n needed checked, (needed.Pairwise fun r r' => ∀ x ∈ r, x ∉ r') →
    ∃ remaining removals, lookAtDeps env gen target details acc n needed checked deps = (remaining, removals) ∧
      remaining.Sublist needed ∧
      (∀ s ∈ needed, s ∈ remaining ↔ ∀ dep ∈ deps, ∀ t, BazelTarget.parseFrom dep target.package = some t → t ∉ s) ∧
      (∀ e, e ∈ removals ↔ ∃ m dep t, deps[m]? = some dep ∧ e = ⟨.remove, target, dep, []⟩ ∧
        BazelTarget.parseFrom dep target.package = some t ∧ acc = true ∧
        (∃ r, Library files t r ∧ r.alwayslink = false) ∧
        (env.ignoreKeep = true ∨ ¬ KeepComment (env.line details target (n + m))) ∧
        (∀ s ∈ needed, t ∉ s) ∧ t ∉ checked) ∧
      (∃ sub : List Str, sub.Sublist deps ∧ removals = sub.map fun dep => ⟨.remove, target, dep, []⟩) := by
  induction deps with
  | nil =>
    intro n needed checked _
    exact ⟨needed, [], rfl, List.Sublist.refl _, by simp, by simp, [], .slnil, rfl⟩
  | cons dep deps ih =>
    intro n needed checked hd
    rw [lookAtDeps]
    cases hp : BazelTarget.parseFrom dep target.package with
    | none =>
      simp only []
      obtain ⟨rem, edits, h1, h2, h3, h4, sub, h5, h6⟩ := ih (n + 1) needed checked hd
      refine ⟨rem, edits, h1, h2, ?_, ?_, sub, h5.cons _, h6⟩
      · intro s hs
        rw [h3 s hs]
        simp [hp]
      · intro e
        rw [h4]
        constructor
        · rintro ⟨m, d, t, hd, he⟩
          exact ⟨m + 1, d, t, by simpa using hd, by rwa [show n + (m + 1) = n + 1 + m by omega]⟩
        · rintro ⟨m, d, t, hd, he⟩
          cases m with
          | zero => simp at hd; subst hd; rw [hp] at he; cases he.2.1
          | succ m => exact ⟨m, d, t, by simpa using hd, by rwa [show n + 1 + m = n + (m + 1) by omega]⟩
    | some t =>
      simp only []
      rcases checkOff_spec (t := t) hd with ⟨hc, hno⟩ | ⟨s, others, hc, hs, hts, ho, hun⟩
      · rw [hc]
        simp only []
        obtain ⟨rem, edits, h1, h2, h3, h4, sub, h5, h6⟩ := ih (n + 1) needed checked hd
        rw [h1]
        have hrem : ∀ s ∈ needed, s ∈ rem ↔ ∀ d ∈ dep :: deps, ∀ t, BazelTarget.parseFrom d target.package = some t → t ∉ s := by
          intro s hs
          rw [h3 s hs]
          constructor
          · intro h d hd' x hx
            rcases List.mem_cons.1 hd' with rfl | hd'
            · rw [hp] at hx; cases hx; exact hno s hs
            · exact h d hd' x hx
          · exact fun h d hd' => h d (.tail _ hd')
        have hlater : ∀ e, (∃ m d x, (dep :: deps)[m + 1]? = some d ∧ e = (⟨.remove, target, d, []⟩ : Edit) ∧
            BazelTarget.parseFrom d target.package = some x ∧ acc = true ∧
            (∃ r, Library files x r ∧ r.alwayslink = false) ∧
            (env.ignoreKeep = true ∨ ¬ KeepComment (env.line details target (n + (m + 1)))) ∧
            (∀ s ∈ needed, x ∉ s) ∧ x ∉ checked) ↔ e ∈ edits := by
          intro e
          rw [h4]
          constructor
          · rintro ⟨m, d, x, hd, he⟩
            exact ⟨m, d, x, by simpa using hd, by rwa [show n + 1 + m = n + (m + 1) by omega]⟩
          · rintro ⟨m, d, x, hd, he⟩
            exact ⟨m, d, x, by simpa using hd, by rwa [show n + (m + 1) = n + 1 + m by omega]⟩
        by_cases hin : t ∈ checked
        · rw [if_pos hin]
          refine ⟨rem, edits, rfl, h2, hrem, ?_, sub, h5.cons _, h6⟩
          intro e
          rw [← hlater]
          constructor
          · rintro ⟨m, h⟩; exact ⟨m + 1, h⟩
          · rintro ⟨m, d, x, hd', h⟩
            cases m with
            | zero => simp at hd'; subst hd'; rw [hp] at h; cases h.2.1; exact absurd hin h.2.2.2.2.2.2
            | succ m => exact ⟨m, d, x, hd', h⟩
        · rw [if_neg hin]
          have hcond : (acc && !isAlwayslink gen t && (env.ignoreKeep || !hasKeepComment (env.line details target n))) = true ↔
              acc = true ∧ (∃ r, Library files t r ∧ r.alwayslink = false) ∧
              (env.ignoreKeep = true ∨ ¬ KeepComment (env.line details target n)) := by
            rw [← alwayslink_spec hm, ← hasKeepComment_iff]
            simp [and_assoc]
          split
          · rename_i h
            obtain ⟨c1, c2, c3⟩ := hcond.1 h
            refine ⟨rem, _, rfl, h2, hrem, ?_, dep :: sub, h5.cons_cons _, by rw [h6]; rfl⟩
            intro e
            rw [List.mem_cons, ← hlater]
            constructor
            · rintro (rfl | ⟨m, h⟩)
              · exact ⟨0, dep, t, rfl, rfl, hp, c1, c2, c3, hno, hin⟩
              · exact ⟨m + 1, h⟩
            · rintro ⟨m, d, x, hd', h⟩
              cases m with
              | zero => simp at hd'; subst hd'; exact .inl h.1
              | succ m => exact .inr ⟨m, d, x, hd', h⟩
          · rename_i h
            refine ⟨rem, edits, rfl, h2, hrem, ?_, sub, h5.cons _, h6⟩
            intro e
            rw [← hlater]
            constructor
            · rintro ⟨m, h⟩; exact ⟨m + 1, h⟩
            · rintro ⟨m, d, x, hd', hx⟩
              cases m with
              | zero =>
                simp at hd'; subst hd'; rw [hp] at hx; cases hx.2.1
                exact absurd (hcond.2 ⟨hx.2.2.1, hx.2.2.2.1, hx.2.2.2.2.1⟩) h
              | succ m => exact ⟨m, d, x, hd', hx⟩
      · rw [hc]
        simp only []
        have hsubl : others.Sublist needed := ho ▸ List.filter_sublist
        obtain ⟨rem, edits, h1, h2, h3, h4, sub, h5, h6⟩ := ih (n + 1) others (checked ++ s) (hd.sublist hsubl)
        refine ⟨rem, edits, h1, h2.trans hsubl, ?_, ?_, sub, h5.cons _, h6⟩
        · intro r hr
          by_cases htr : t ∈ r
          · have : r ∉ rem := by
              intro hc'
              have := h2.subset hc'
              rw [ho] at this
              simp [htr] at this
            simp only [this, false_iff]
            intro h
            exact h dep (by simp) t hp htr
          · rw [h3 r (by rw [ho]; simp [hr, htr])]
            constructor
            · intro h d hd' x hx
              rcases List.mem_cons.1 hd' with rfl | hd'
              · rw [hp] at hx; cases hx; exact htr
              · exact h d hd' x hx
            · exact fun h d hd' => h d (.tail _ hd')
        · intro e
          rw [h4]
          have hset : ∀ x, ((∀ r ∈ others, x ∉ r) ∧ x ∉ checked ++ s) ↔ ((∀ r ∈ needed, x ∉ r) ∧ x ∉ checked) := by
            intro x
            have := hun x
            rw [List.mem_append, not_or]
            constructor
            · rintro ⟨a, b, c⟩
              refine ⟨fun r hr hx => ?_, b⟩
              rcases this.1 ⟨r, hr, hx⟩ with ⟨r', hr', hx'⟩ | hx'
              · exact a r' hr' hx'
              · exact c hx'
            · rintro ⟨a, b⟩
              refine ⟨fun r hr hx => ?_, b, fun hx => ?_⟩
              · obtain ⟨r', hr', hx'⟩ := this.2 (.inl ⟨r, hr, hx⟩)
                exact a r' hr' hx'
              · obtain ⟨r', hr', hx'⟩ := this.2 (.inr hx)
                exact a r' hr' hx'
          constructor
          · rintro ⟨m, d, x, hd', g1, g2, g3, g4, g5, g6⟩
            exact ⟨m + 1, d, x, by simpa using hd', g1, g2, g3, g4,
              by rwa [show n + (m + 1) = n + 1 + m by omega], (hset x).1 g6⟩
          · rintro ⟨m, d, x, hd', g1, g2, g3, g4, g5, g6⟩
            cases m with
            | zero =>
              simp at hd'; subst hd'; rw [hp] at g2; cases g2
              exact absurd hts (g6.1 s hs)
            | succ m =>
              exact ⟨m, d, x, by simpa using hd', g1, g2, g3, g4,
                by rwa [show n + 1 + m = n + (m + 1) by omega], (hset x).2 g6⟩

/-! ### Additions -/

theorem addNeeded_spec {files : Files} {gen : Generator} (hm : Made files gen) (target : BazelTarget)
    (sets : List (List BazelTarget)) (hne : ∀ s ∈ sets, s ≠ []) :
    ∃ libs : List BazelTarget, addNeeded gen target sets =
        some (libs.map fun t => ⟨.add, target, [], t.toStringRelativeTo target.package⟩) ∧
      (∀ t, t ∈ libs ↔ [t] ∈ sets ∧ Visible files target t ∧ TestonlyOk files target t) ∧
      ((sets.Pairwise fun r r' => ∀ x ∈ r, x ∉ r') → libs.Nodup) := by
  induction sets with
  | nil => exact ⟨[], rfl, by simp, by simp⟩
  | cons s sets ih =>
    obtain ⟨libs, h1, h2, h3⟩ := ih fun x hx => hne x (.tail _ hx)
    rw [addNeeded, h1]
    simp only []
    match s with
    | [] => exact absurd rfl (hne [] (by simp))
    | [t] =>
      simp only []
      obtain ⟨b, h4, h5⟩ := canSee_spec hm target t
      rw [h4]
      simp only []
      have h6 := testonly_spec hm target t
      split
      · rename_i hc
        rw [Bool.and_eq_true, h5, h6] at hc
        refine ⟨t :: libs, rfl, ?_, ?_⟩
        · intro x
          rw [List.mem_cons, h2, List.mem_cons]
          constructor
          · rintro (rfl | h)
            · exact ⟨.inl rfl, hc⟩
            · exact ⟨.inr h.1, h.2⟩
          · rintro ⟨h | h, h'⟩
            · exact .inl (by simpa using h)
            · exact .inr ⟨h, h'⟩
        · intro hd
          obtain ⟨a, b⟩ := List.pairwise_cons.1 hd
          refine List.nodup_cons.2 ⟨?_, h3 b⟩
          intro h
          exact a [t] ((h2 t).1 h).1 t (by simp) (by simp)
      · rename_i hc
        rw [Bool.and_eq_true, h5, h6] at hc
        refine ⟨libs, rfl, ?_, fun hd => h3 (List.pairwise_cons.1 hd).2⟩
        intro x
        rw [h2, List.mem_cons]
        constructor
        · rintro ⟨h, h'⟩; exact ⟨.inr h, h'⟩
        · rintro ⟨h | h, h'⟩
          · have : x = t := by simpa using h
            subst this
            exact absurd h' hc
          · exact ⟨h, h'⟩
    | x :: y :: s =>
      simp only []
      refine ⟨libs, rfl, ?_, fun hd => h3 (List.pairwise_cons.1 hd).2⟩
      intro z
      rw [h2]
      simp

/-! ### One rule -/

theorem rule_account_from {files : Files} {gen : Generator} (hm : Made files gen)
    (hs : ∀ f ∈ files, Searchable f.2) (env : Env) {pkg : BazelPackage} {r : Result} {target : BazelTarget}
    (hr : Rule files pkg r target) :
    ∃ edits sets needed removed libs acc, createEditsForTarget env gen target r pkg = some edits ∧
      Account files env pkg r target edits sets needed removed libs ∧
      neededBySources env gen target pkg (sourcesOf r) (sourcesOf r) = some (sets, acc) ∧
      minimizeDependencySet sets = some needed ∧ (acc = true ↔ Accounted files env pkg target r) := by
  obtain ⟨ast, hf, hrr, hq⟩ := hr
  have hsr := hs _ hf
  have hl : ∀ l ∈ listsOf r, stringList l = some (stringsOf l) := fun l hl => stringList_rule hsr hrr hl
  obtain ⟨sets, acc, h1, h2, h3⟩ := neededBySources_spec hm env target pkg (sourcesOf r) (sourcesOf r)
  obtain ⟨needed, h4, h5, h6⟩ := minimize_spec sets fun s hs => (h2.from_inc s hs).1
  obtain ⟨rem, removals, h7, h8, h9, h10, removed, h11, h12⟩ :=
    lookAtDeps_spec hm env target r acc (stringsOf r.deps) 0 needed [] h5.disjoint
  obtain ⟨libs, h13, h14, h15⟩ := addNeeded_spec hm target rem fun s hs => h5.nonempty s (h8.subset hs)
  refine ⟨_, sets, needed, removed, libs, acc, ?_, ⟨rfl, h2, h5, h6 fun s hs => (h2.from_inc s hs).2.1, h11, ?_, ?_,
    h15 (h5.disjoint.sublist h8)⟩, h1, h4, h3⟩
  · unfold createEditsForTarget
    rw [hl r.srcs (by simp [listsOf]), hl r.hdrs (by simp [listsOf]), hl r.deps (by simp [listsOf])]
    have h1 : neededBySources env gen target pkg (stringsOf r.srcs ++ stringsOf r.hdrs)
        (stringsOf r.srcs ++ stringsOf r.hdrs) = some (sets, acc) := h1
    simp only [h1, h4, h7, h13, Option.map_some, h12]
  · intro dep
    have : dep ∈ removed ↔ (⟨.remove, target, dep, []⟩ : Edit) ∈ removals := by
      rw [h12, List.mem_map]
      constructor
      · exact fun h => ⟨dep, h, rfl⟩
      · rintro ⟨d, hd, he⟩
        injection he with _ _ he _
        subst he; exact hd
    rw [this, h10]
    have hacc : acc = true ↔ Accounted files env pkg target r := h3
    rw [hacc]
    constructor
    · rintro ⟨m, d, t, g1, g2, g3, g4, g5, g6, g7, _⟩
      injection g2 with _ _ g2 _
      subst g2
      exact ⟨m, t, g1, g3, g4, g5, by simpa using g6, g7⟩
    · rintro ⟨m, t, g1, g3, g4, g5, g6, g7⟩
      exact ⟨m, dep, t, g1, rfl, g3, g4, g5, by simpa using g6, g7, by simp⟩
  · intro t
    rw [h14]
    constructor
    · rintro ⟨g1, g2, g3⟩
      refine ⟨h8.subset g1, ?_, g2, g3⟩
      rintro ⟨dep, hd, hp⟩
      exact (h9 _ (h8.subset g1)).1 g1 dep hd t hp (by simp)
    · rintro ⟨g1, g2, g3, g4⟩
      refine ⟨(h9 _ g1).2 ?_, g3, g4⟩
      intro dep hd x hx hc
      have : x = t := by simpa using hc
      subst this
      exact g2 ⟨dep, hd, hx⟩

theorem rule_account {files : Files} {gen : Generator} (hm : Made files gen)
    (hs : ∀ f ∈ files, Searchable f.2) (env : Env) {pkg : BazelPackage} {r : Result} {target : BazelTarget}
    (hr : Rule files pkg r target) :
    ∃ edits sets needed removed libs, createEditsForTarget env gen target r pkg = some edits ∧
      Account files env pkg r target edits sets needed removed libs := by
  obtain ⟨edits, sets, needed, removed, libs, _, h1, h2, _⟩ := rule_account_from hm hs env hr
  exact ⟨edits, sets, needed, removed, libs, h1, h2⟩

end Dwyu
end Bant
