import Verif.Lemmas.Reordered
import Verif.Lemmas.DwyuMessages

/-! Lemmas about the edits of DWYU if rules are in a different order (C127). -/
namespace Bant
namespace RulesSpec
open Commands CommandSpec Query Rules Headers HeaderIndex HeaderSpec DwyuSpec StableSpec Stable Dwyu

/-! ### The index of headers -/

theorem findBySuffix_map {α β : Type} (f : α → β) (index : StrMap α) (path : Str) (minimum : Nat) :
    findBySuffix (index.map fun e => (e.1, f e.2)) path minimum =
      (findBySuffix index path minimum).map fun r => r.map fun r => ⟨r.found, f r.targets, r.score⟩ := by
  have hl : ∀ key, StrMap.lower (index.map fun e => (e.1, f e.2)) key =
      (StrMap.lower index key).map fun e => (e.1, f e.2) := by
    intro key
    unfold StrMap.lower
    rw [List.dropWhile_map]
    rfl
  have hb : ∀ key, StrMap.before (index.map fun e => (e.1, f e.2)) key =
      (StrMap.before index key).map fun e => (e.1, f e.2) := by
    intro key
    unfold StrMap.before
    rw [List.takeWhile_map]
    rfl
  have hf : ∀ (e : Str × α) c, finish (e.1, f e.2) c minimum =
      (finish e c minimum).map fun r => ⟨r.found, f r.targets, r.score⟩ := by
    intro e c
    unfold finish
    split <;> rfl
  unfold findBySuffix
  simp only [List.isEmpty_map, hl, hb, List.head?_map, List.getLast?_map]
  split
  · rfl
  · cases (StrMap.lower index (keyTransform path)).head? with
    | none =>
      cases (StrMap.before index (keyTransform path)).getLast? with
      | none => rfl
      | some prev =>
        simp only [Option.map_none, Option.map_some]
        cases commonSlashes (keyTransform path) prev.1 with
        | none => rfl
        | some c => simp only [hf, Option.map_some]
    | some e =>
      simp only [Option.map_some]
      split
      · rfl
      · cases commonSlashes (keyTransform path) e.1 with
        | none => rfl
        | some c =>
          cases (StrMap.before index (keyTransform path)).getLast? with
          | none => simp only [hf, Option.map_none, Option.map_some]
          | some prev =>
            simp only [Option.map_some]
            cases commonSlashes (keyTransform path) prev.1 with
            | none => rfl
            | some d =>
              simp only [hf, Option.map_some]
              split <;> rfl

/-- Indices with the same paths, and with the same targets for each, in whatever order. -/
theorem index_same {adds adds' : List (Str × BazelTarget)} (h : ∀ p t, (p, t) ∈ adds' ↔ (p, t) ∈ adds) :
    (fill [] adds').map (fun e => (e.1, Dwyu.inOrder e.2)) = (fill [] adds).map fun e => (e.1, Dwyu.inOrder e.2) := by
  have key : ∀ {adds adds' : List (Str × BazelTarget)}, (∀ p t, (p, t) ∈ adds' ↔ (p, t) ∈ adds) →
      ∀ x, x ∈ (fill [] adds).map (fun e => (e.1, Dwyu.inOrder e.2)) →
        x ∈ (fill [] adds').map fun e => (e.1, Dwyu.inOrder e.2) := by
    intro adds adds' h x hx
    have hh := holds_fill (α := BazelTarget) holds_empty adds
    have hh' := holds_fill (α := BazelTarget) holds_empty adds'
    rw [List.nil_append] at hh hh'
    obtain ⟨⟨k, v⟩, he, rfl⟩ := List.mem_map.1 hx
    obtain ⟨p, t, h1, h2⟩ := hh.key _ he
    simp only at h2
    subst h2
    obtain ⟨v', hv'⟩ := hh'.has p t ((h p t).2 h1)
    refine List.mem_map.2 ⟨_, hv', ?_⟩
    simp only [Prod.mk.injEq, true_and]
    refine inOrder_unique ?_ (inOrder_ascending v)
    intro u
    rw [mem_inOrder, hh'.targets p v' hv' u, hh.targets p v he u, h]
  have hs : ∀ adds : List (Str × BazelTarget),
      ((fill [] adds).map fun e => (e.1, Dwyu.inOrder e.2)).Pairwise fun a b => strLt a.1 b.1 = true := by
    intro adds
    have := (holds_fill (α := BazelTarget) holds_empty adds).sorted
    rw [List.pairwise_map]
    exact this
  have hn : ∀ {l : List (Str × List BazelTarget)}, l.Pairwise (fun a b => strLt a.1 b.1 = true) → l.Nodup :=
    fun h => List.Pairwise.imp (fun {a b} hlt (he : a = b) => strLt_ne hlt (by rw [he])) h
  refine List.Perm.eq_of_pairwise (le := fun a b : Str × List BazelTarget => strLt a.1 b.1 = true) ?_ (hs _) (hs _)
    ((List.perm_ext_iff_of_nodup (hn (hs _)) (hn (hs _))).2 fun x => ⟨key (fun p t => (h p t).symm) x, key h x⟩)
  intro a b _ _ h1 h2
  rw [strLt_asymm h1] at h2
  cases h2

/-! ### Libraries -/

theorem libraries_told {l l' : Files} (h : Reshuffled l l') :
    ((libraries l').map fun e => (e.1, told e.2)).Perm ((libraries l).map fun e => (e.1, told e.2)) := by
  have e : ∀ l : Files, (libraries l).map (fun e => (e.1, told e.2)) = l.flatMap fun x =>
      (rulesOf [c!"cc_library", c!"alias", c!"cc_proto_library", c!"grpc_cc_library", c!"cc_test"] x.2).flatMap
        fun r => match x.1.qualifiedTarget r.name with
          | none => []
          | some t => [(t, told r)] := by
    intro l
    unfold libraries
    rw [List.map_flatMap]
    congr 1
    funext x
    rw [List.map_flatMap]
    congr 1
    funext r
    cases x.1.qualifiedTarget r.name <;> rfl
  rw [e, e]
  refine h.flatMap _ (f := fun pkg r => match pkg.qualifiedTarget r.name with
          | none => []
          | some t => [(t, told r)]) ?_
  intro pkg r
  simp only [told_told]
  rfl

theorem filter_unique {α : Type} {p : α → Bool} {l : List α} (h : (l.filter p).length ≤ 1) {a b : α} (ha : a ∈ l)
    (hb : b ∈ l) (pa : p a = true) (pb : p b = true) : a = b := by
  have h1 := List.mem_filter.2 ⟨ha, pa⟩
  have h2 := List.mem_filter.2 ⟨hb, pb⟩
  generalize l.filter p = s at h h1 h2
  match s, h with
  | [], _ => cases h1
  | [c], _ => rw [List.mem_singleton.1 h1, List.mem_singleton.1 h2]
  | _ :: _ :: _, h => simp at h

theorem libraries_once {l l' : Files} (h : Reshuffled l l') (hn : (l.map (·.1)).Nodup) {x y : BazelTarget × Query.Result}
    (hx : x ∈ libraries l) (hy : y ∈ libraries l) (hxy : y.1 = x.1) : y.2 = x.2 := by
  have key : ∀ {x}, x ∈ libraries l → ∃ f ∈ l, x.2 ∈ rulesOf [] f.2 ∧ f.1.qualifiedTarget x.2.name = some x.1 := by
    intro x hx
    obtain ⟨f, hf, hx⟩ := List.mem_flatMap.1 hx
    obtain ⟨r, hr, hx⟩ := List.mem_flatMap.1 hx
    split at hx
    · cases hx
    · rename_i t ht
      rw [List.mem_singleton.1 hx]
      exact ⟨f, hf, rulesOf_sub hr, ht⟩
  obtain ⟨⟨p, a⟩, f1, f2, f3⟩ := key hx
  obtain ⟨⟨q, b⟩, g1, g2, g3⟩ := key hy
  have hp : q = p := by
    have h1 := qualifiedTarget_package f3
    have h2 := qualifiedTarget_package g3
    simp only at h1 h2
    rw [← h1, ← h2, hxy]
  subst hp
  have := value_unique hn f1 g1
  subst this
  obtain ⟨_, _, h1⟩ := h.mem f1
  refine filter_unique (h1.once q x.1) g2 f2 ?_ ?_
  · rw [hxy] at g3; exact decide_eq_true g3
  · exact decide_eq_true f3

theorem library_reordered {l l' : Files} (h : Reshuffled l l') (hn : (l.map (·.1)).Nodup) (t : BazelTarget) :
    ((∀ r, ¬ Library l t r) ∧ ∀ r, ¬ Library l' t r) ∨
    ∃ r r', Library l t r ∧ Library l' t r' ∧ told r' = told r := by
  have hf := find_perm (libraries_told h) (by
    intro x hx y hy hxy
    obtain ⟨a, ha, rfl⟩ := List.mem_map.1 hx
    obtain ⟨b, hb, rfl⟩ := List.mem_map.1 hy
    rw [libraries_once h hn ha hb hxy]) t
  have e : ∀ l : Files, (((libraries l).map fun e => (e.1, told e.2)).find? (·.1 = t)).map (·.2) =
      (((libraries l).find? (·.1 = t)).map (·.2)).map told := by
    intro l
    rw [List.find?_map, Option.map_map, Option.map_map]
    rfl
  rw [e, e] at hf
  simp only [library_iff]
  cases h1 : ((libraries l).find? (·.1 = t)).map (·.2) with
  | none =>
    rw [h1] at hf
    have h2 : ((libraries l').find? (·.1 = t)).map (·.2) = none := by simpa using hf
    rw [h2]
    simp
  | some r =>
    rw [h1, Option.map_some] at hf
    obtain ⟨r', h2, h3⟩ := Option.map_eq_some_iff.1 hf
    exact .inr ⟨r, r', rfl, h2, h3⟩

theorem text_texts (es : List Node) (s : Str) :
    (∃ e ∈ es, Rules.text e = some s) ↔ Node.str s false false ∈ texts es := by
  unfold texts
  rw [List.mem_filterMap]
  constructor
  · rintro ⟨e, he, ht⟩
    cases e <;> cases ht <;> exact ⟨_, he, rfl⟩
  · rintro ⟨e, he, ht⟩
    cases e <;> cases ht <;> exact ⟨_, he, rfl⟩

theorem visible_reordered {l l' : Files} (h : Reshuffled l l') (hn : (l.map (·.1)).Nodup) (target dep : BazelTarget) :
    Visible l' target dep ↔ Visible l target dep := by
  rcases library_reordered h hn dep with ⟨h1, h2⟩ | ⟨r, r', h1, h2, h3⟩
  · exact ⟨fun _ r hr => absurd hr (h1 r), fun _ r hr => absurd hr (h2 r)⟩
  · have e1 : Visible l target dep ↔ r.deprecation = [] ∧ (target.package = dep.package ∨
        dep.name ≠ c!"protobuf_headers" ∧
          ∀ l, r.visibility = some l → ¬ Understood dep.package l.2 ∨ Granted dep.package l.2 target) :=
      ⟨fun h => h r h1, fun h s hs => Dwyu.library_unique h1 hs ▸ h⟩
    have e2 : Visible l' target dep ↔ r'.deprecation = [] ∧ (target.package = dep.package ∨
        dep.name ≠ c!"protobuf_headers" ∧
          ∀ l, r'.visibility = some l → ¬ Understood dep.package l.2 ∨ Granted dep.package l.2 target) :=
      ⟨fun h => h r' h2, fun h s hs => Dwyu.library_unique h2 hs ▸ h⟩
    rw [e1, e2, show r'.deprecation = r.deprecation from congrArg (·.deprecation) h3]
    have hv : RulesSpec.textsOf r'.visibility = RulesSpec.textsOf r.visibility := congrArg (·.visibility) h3
    have tm : ∀ {es es' : List Node}, texts es' = texts es → ∀ {s : Str},
        (∃ e ∈ es', Rules.text e = some s) ↔ ∃ e ∈ es, Rules.text e = some s := by
      intro es es' h s
      rw [text_texts, text_texts, h]
    cases hr : r.visibility with
    | none =>
      cases hr' : r'.visibility with
      | none => simp
      | some l => rw [hr, hr'] at hv; cases hv
    | some v =>
      cases hr' : r'.visibility with
      | none => rw [hr, hr'] at hv; cases hv
      | some v' =>
        rw [hr, hr'] at hv
        have hv : texts v'.2 = texts v.2 := by simpa [RulesSpec.textsOf] using hv
        simp only [Option.some.injEq, forall_eq']
        have hu : ∀ es, Understood dep.package es ↔ ∃ s, (∃ e ∈ es, Rules.text e = some s) ∧
            ∃ vis, BazelPattern.parseVisibility globCompile s dep.package = some vis := by
          intro es
          constructor
          · rintro ⟨e, he, s, hs, hv⟩; exact ⟨s, ⟨e, he, hs⟩, hv⟩
          · rintro ⟨s, ⟨e, he, hs⟩, hv⟩; exact ⟨e, he, s, hs, hv⟩
        have hgr : ∀ es, Granted dep.package es target ↔ ∃ s, (∃ e ∈ es, Rules.text e = some s) ∧
            ∃ vis, BazelPattern.parseVisibility globCompile s dep.package = some vis ∧ vis.matchTarget target = true := by
          intro es
          constructor
          · rintro ⟨e, he, s, hs, hv⟩; exact ⟨s, ⟨e, he, hs⟩, hv⟩
          · rintro ⟨s, ⟨e, he, hs⟩, hv⟩; exact ⟨e, he, s, hs, hv⟩
        rw [hu, hu, hgr, hgr]
        simp only [tm hv]

/-! ### What is known about the files -/

/-- Two generators that come to the same conclusions, but for the order of targets in sets. -/
structure AlikeGen (gen gen' : Generator) : Prop where
  find : ∀ path, (findBySuffix gen.headers path 2 = some none ∧ findBySuffix gen'.headers path 2 = some none) ∨
    ∃ r r', findBySuffix gen.headers path 2 = some (some r) ∧ findBySuffix gen'.headers path 2 = some (some r') ∧
      r'.targets.Perm r.targets
  see : ∀ t d, canSee gen' t d = canSee gen t d
  total : ∀ t d, ∃ b, canSee gen t d = some b
  alwayslink : ∀ t, isAlwayslink gen' t = isAlwayslink gen t
  testonly : ∀ t d, isTestonlyCompatible gen' t d = isTestonlyCompatible gen t d

theorem created_headers {files : Files} (hs : ∀ f ∈ files, Searchable f.2) {gen : Generator}
    (hg : Generator.create files = some gen) :
    ∃ adds, gen.headers = fill [] adds ∧ ∀ p t, (p, t) ∈ adds ↔ Provides files p t := by
  obtain ⟨adds, h1, h2⟩ := headerAdds_spec hs
  refine ⟨adds, ?_, h2⟩
  unfold Generator.create at hg
  split at hg
  · rename_i a _ _ ha _ _
    cases hg
    unfold extractHeaderToLibMapping at ha
    rw [h1] at ha
    cases ha
    rfl
  · cases hg

theorem gen_reordered {l l' : Files} (h : Reshuffled l l') (ho : ProtoOnce l) (hn : (l.map (·.1)).Nodup)
    (hs : ∀ f ∈ l, Searchable f.2) (hs' : ∀ f ∈ l', Searchable f.2) :
    ∃ gen gen', Generator.create l = some gen ∧ Generator.create l' = some gen' ∧ Made l gen ∧ Made l' gen' ∧
      AlikeGen gen gen' := by
  obtain ⟨gen, h1, h2⟩ := create_made hs
  obtain ⟨gen', g1, g2⟩ := create_made hs'
  refine ⟨gen, gen', h1, g1, h2, g2, ?_⟩
  have hn' : (l'.map (·.1)).Nodup := by
    have : l'.map (·.1) = l.map (·.1) := (pairs_eq (pairs_map (pairs_mono h fun _ _ h => h.1.symm))).symm
    rw [this]; exact hn
  refine ⟨?_, ?_, ?_, ?_, ?_⟩
  · intro path
    obtain ⟨adds, k1, k2⟩ := created_headers hs h1
    obtain ⟨adds', k3, k4⟩ := created_headers hs' g1
    have hi := index_same (adds := adds) (adds' := adds') fun p t => by
      rw [k2, k4]
      exact ⟨h.symm.provides (h.protoOnce ho), h.provides ho⟩
    have e1 := findBySuffix_map Dwyu.inOrder gen.headers path 2
    have e2 := findBySuffix_map Dwyu.inOrder gen'.headers path 2
    rw [k1] at e1
    rw [k3, hi, e1] at e2
    rw [← k1, ← k3] at e2
    rcases h2.index path with ⟨f, ts, sc, i1, _, _, i4⟩ | ⟨i1, _⟩
    · rcases g2.index path with ⟨f', ts', sc', j1, _, _, j4⟩ | ⟨j1, _⟩
      · refine .inr ⟨_, _, i1, j1, ?_⟩
        rw [i1, j1] at e2
        simp only [Option.map_some, Option.some.injEq, FindResult.mk.injEq] at e2
        rw [List.perm_ext_iff_of_nodup j4 i4]
        intro t
        rw [← mem_inOrder (s := ts), ← mem_inOrder (s := ts'), e2.2.1]
      · rw [i1, j1] at e2
        cases e2
    · rcases g2.index path with ⟨f', ts', sc', j1, _, _, j4⟩ | ⟨j1, _⟩
      · rw [i1, j1] at e2
        cases e2
      · exact .inl ⟨i1, j1⟩
  · intro t d
    obtain ⟨b, hb, hb'⟩ := Dwyu.canSee_spec h2 t d
    obtain ⟨c, hc, hc'⟩ := Dwyu.canSee_spec g2 t d
    rw [hb, hc]
    have : c = true ↔ b = true := by rw [hb', hc', visible_reordered h hn]
    cases b <;> cases c <;> simp_all
  · intro t d
    obtain ⟨b, hb, _⟩ := Dwyu.canSee_spec h2 t d
    exact ⟨b, hb⟩
  · intro t
    have : isAlwayslink gen' t = false ↔ isAlwayslink gen t = false := by
      rw [alwayslink_spec h2, alwayslink_spec g2]
      rcases library_reordered h hn t with ⟨i1, i2⟩ | ⟨r, r', i1, i2, i3⟩
      · exact ⟨fun ⟨r, hr, _⟩ => absurd hr (i2 r), fun ⟨r, hr, _⟩ => absurd hr (i1 r)⟩
      · have ha : r'.alwayslink = r.alwayslink := congrArg (·.alwayslink) i3
        constructor
        · rintro ⟨s, hs, hf⟩
          rw [← Dwyu.library_unique i2 hs] at hf
          exact ⟨r, i1, ha.symm.trans hf⟩
        · rintro ⟨s, hs, hf⟩
          rw [← Dwyu.library_unique i1 hs] at hf
          exact ⟨r', i2, ha.trans hf⟩
    cases h1 : isAlwayslink gen' t <;> cases h2 : isAlwayslink gen t <;> simp_all
  · intro t d
    have key : ∀ {l l' : Files}, Reshuffled l l' → (l.map (·.1)).Nodup → TestonlyOk l t d → TestonlyOk l' t d := by
      intro l l' h hn hk r' hr' hto s' hs'
      rcases library_reordered h hn d with ⟨_, h2⟩ | ⟨r, r2, h1, h2, h3⟩
      · exact absurd hr' (h2 r')
      · rcases library_reordered h hn t with ⟨_, g2⟩ | ⟨s, s2, g1, g2, g3⟩
        · exact absurd hs' (g2 s')
        · have e1 := Dwyu.library_unique h2 hr'
          have e2 := Dwyu.library_unique g2 hs'
          subst e1; subst e2
          have := hk r h1 ((show r2.testonly = r.testonly from congrArg (·.testonly) h3) ▸ hto) s g1
          rw [show s2.testonly = s.testonly from congrArg (·.testonly) g3,
            show s2.rule = s.rule from congrArg (·.rule) g3]
          exact this
    have : isTestonlyCompatible gen' t d = true ↔ isTestonlyCompatible gen t d = true := by
      rw [testonly_spec h2, testonly_spec g2]
      exact ⟨key h.symm hn', key h hn⟩
    cases h1 : isTestonlyCompatible gen' t d <;> cases h2 : isTestonlyCompatible gen t d <;> simp_all

/-! ### Sets in whatever order -/

/-- Alternatives, where each set is in whatever order. -/
def SameSets (s s' : List (List BazelTarget)) : Prop := Pairs (fun a b => b.Perm a) s s'

section
variable {gen gen' : Generator} (hg : AlikeGen gen gen')

include hg in
theorem visibleOf_alike (target : BazelTarget) {ts ts' : List BazelTarget} (h : ts'.Perm ts) :
    ∃ vs vs', visibleOf gen target ts = some vs ∧ visibleOf gen' target ts' = some vs' ∧ vs'.Perm vs := by
  have key : ∀ gen'', (∀ t d, canSee gen'' t d = canSee gen t d) → ∀ ts, visibleOf gen'' target ts =
      some (ts.filter fun t => canSee gen target t = some true) := by
    intro gen'' he ts
    induction ts with
    | nil => rfl
    | cons t ts ih =>
      obtain ⟨b, hb⟩ := hg.total target t
      rw [visibleOf, he, hb, ih]
      cases b <;> simp [hb]
  exact ⟨_, _, key gen (fun _ _ => rfl) ts, key gen' hg.see ts', h.filter _⟩

theorem empty_perm {α : Type} {a b : List α} (h : b.Perm a) : b.isEmpty = a.isEmpty := by
  have := h.length_eq
  cases a <;> cases b <;> simp_all

include hg in
theorem includes_alike (target : BazelTarget) (pkg : BazelPackage) (sources incs : List Str) :
    ∃ s s' b, neededByIncludes gen target pkg sources incs = some (s, b) ∧
      neededByIncludes gen' target pkg sources incs = some (s', b) ∧ SameSets s s' := by
  induction incs with
  | nil => exact ⟨[], [], true, rfl, rfl, .nil⟩
  | cons i incs ih =>
    obtain ⟨s, s', b, h1, h2, h3⟩ := ih
    rw [neededByIncludes, neededByIncludes, h1, h2]
    simp only []
    split
    · exact ⟨s, s', b, rfl, rfl, h3⟩
    · have hp : (providers gen pkg i = some none ∧ providers gen' pkg i = some none) ∨
          ∃ ts ts', providers gen pkg i = some (some ts) ∧ providers gen' pkg i = some (some ts') ∧ ts'.Perm ts := by
        unfold providers
        rcases hg.find i with ⟨e1, e2⟩ | ⟨r, r', e1, e2, e3⟩
        · rw [e1, e2]
          simp only []
          rcases hg.find (pkg.qualifiedFile i) with ⟨e1, e2⟩ | ⟨r, r', e1, e2, e3⟩
          · rw [e1, e2]
            exact .inl ⟨rfl, rfl⟩
          · rw [e1, e2]
            exact .inr ⟨_, _, rfl, rfl, e3⟩
        · rw [e1, e2]
          exact .inr ⟨_, _, rfl, rfl, e3⟩
      rcases hp with ⟨e1, e2⟩ | ⟨ts, ts', e1, e2, e3⟩
      · rw [e1, e2]
        exact ⟨s, s', false, rfl, rfl, h3⟩
      · obtain ⟨vs, vs', v1, v2, v3⟩ := visibleOf_alike hg target e3
        rw [e1, e2]
        simp only [v1, v2, empty_perm v3]
        split
        · exact ⟨s, s', b, rfl, rfl, h3⟩
        · exact ⟨_, _, b, rfl, rfl, .cons v3 h3⟩

include hg in
theorem sources_alike {env env' : Env} (hws : env'.workspace = env.workspace) (target : BazelTarget)
    (pkg : BazelPackage) (sources : List Str) (srcs : List Str)
    (hread : ∀ src ∈ srcs, ∀ d ∈ directories, env'.read (d ++ pkg.fullyQualifiedFile env.workspace src) =
      env.read (d ++ pkg.fullyQualifiedFile env.workspace src)) :
    ∃ s s' b, neededBySources env gen target pkg sources srcs = some (s, b) ∧
      neededBySources env' gen' target pkg sources srcs = some (s', b) ∧ SameSets s s' := by
  induction srcs with
  | nil => exact ⟨[], [], true, rfl, rfl, .nil⟩
  | cons f srcs ih =>
    obtain ⟨s, s', b, h1, h2, h3⟩ := ih fun x hx => hread x (.tail _ hx)
    have ho : tryOpenFile env'.read (pkg.fullyQualifiedFile env.workspace f) =
        tryOpenFile env.read (pkg.fullyQualifiedFile env.workspace f) := by
      have := hread f (by simp)
      simp only [directories, List.mem_cons, List.not_mem_nil, or_false, forall_eq_or_imp, forall_eq] at this
      simp only [tryOpenFile, sourceLocations, List.findSome?_cons, List.findSome?_nil, this]
    rw [neededBySources, neededBySources, h1, h2, hws, ho]
    simp only []
    cases tryOpenFile env.read (pkg.fullyQualifiedFile env.workspace f) with
    | none => exact ⟨s, s', false, rfl, rfl, h3⟩
    | some content =>
      obtain ⟨u, u', c, e1, e2, e3⟩ := includes_alike hg target pkg sources ((Includes.extract content).map (·.2))
      simp only [e1, e2]
      exact ⟨_, _, _, rfl, rfl, pairs_append e3 h3⟩

theorem intersect_perm {a a' b b' : List BazelTarget} (h : a'.Perm a) (h' : b'.Perm b) :
    (intersect a' b').Perm (intersect a b) := by
  unfold intersect
  have : (fun x => decide (x ∈ b')) = fun x => decide (x ∈ b) := by
    funext x
    simp only [h'.mem_iff]
  rw [this]
  exact h.filter _

theorem absorb_alike {sets sets' : List (List BazelTarget)} (h : SameSets sets sets') :
    ∀ {c c' : List BazelTarget} (covered : List Nat) (j : Nat), c'.Perm c →
      (absorb c' covered j sets').1.Perm (absorb c covered j sets).1 ∧
      (absorb c' covered j sets').2 = (absorb c covered j sets).2 := by
  induction h with
  | nil => intro c c' covered j hc; exact ⟨hc, rfl⟩
  | @cons s s' sets sets' hs _ ih =>
    intro c c' covered j hc
    have hi := intersect_perm hc hs
    rw [absorb, absorb, empty_perm hi]
    split
    · exact ih _ _ hc
    · exact ih _ _ hi

theorem minimizeFrom_alike {sets sets' : List (List BazelTarget)} (h : SameSets sets sets') :
    ∀ (covered : List Nat) (i : Nat),
      (minimizeFrom covered i sets = none ∧ minimizeFrom covered i sets' = none) ∨
      ∃ r r' c, minimizeFrom covered i sets = some (r, c) ∧ minimizeFrom covered i sets' = some (r', c) ∧
        SameSets r r' := by
  induction h with
  | nil => intro covered i; exact .inr ⟨[], [], covered, rfl, rfl, .nil⟩
  | @cons s s' sets sets' hs h ih =>
    intro covered i
    rw [minimizeFrom, minimizeFrom]
    split
    · exact ih _ _
    · obtain ⟨h1, h2⟩ := absorb_alike h (insertIndex i covered) (i + 1) hs
      generalize absorb s (insertIndex i covered) (i + 1) sets = x at h1 h2
      generalize absorb s' (insertIndex i covered) (i + 1) sets' = y at h1 h2
      obtain ⟨x1, x2⟩ := x
      obtain ⟨y1, y2⟩ := y
      simp only at h1 h2
      subst h2
      simp only [empty_perm h1]
      split
      · exact .inl ⟨rfl, rfl⟩
      · rcases ih y2 (i + 1) with ⟨e1, e2⟩ | ⟨r, r', c, e1, e2, e3⟩
        · rw [e1, e2]; exact .inl ⟨rfl, rfl⟩
        · rw [e1, e2]; exact .inr ⟨_, _, _, rfl, rfl, .cons h1 e3⟩

theorem sameSets_length {s s' : List (List BazelTarget)} (h : SameSets s s') : s'.length = s.length := by
  induction h with
  | nil => rfl
  | cons _ _ ih => simp [ih]

theorem minimize_alike {sets sets' : List (List BazelTarget)} (h : SameSets sets sets') :
    (minimizeDependencySet sets = none ∧ minimizeDependencySet sets' = none) ∨
      ∃ r r', minimizeDependencySet sets = some r ∧ minimizeDependencySet sets' = some r' ∧ SameSets r r' := by
  unfold minimizeDependencySet
  rcases minimizeFrom_alike h [] 0 with ⟨e1, e2⟩ | ⟨r, r', c, e1, e2, e3⟩
  · rw [e1, e2]; exact .inl ⟨rfl, rfl⟩
  · rw [e1, e2, sameSets_length h]
    simp only []
    split
    · exact .inr ⟨_, _, rfl, rfl, e3⟩
    · exact .inl ⟨rfl, rfl⟩

theorem checkOff_alike (t : BazelTarget) {sets sets' : List (List BazelTarget)} (h : SameSets sets sets') :
    (checkOff t sets = none ∧ checkOff t sets' = none) ∨
      ∃ s s' r r', checkOff t sets = some (s, r) ∧ checkOff t sets' = some (s', r') ∧ s'.Perm s ∧ SameSets r r' := by
  induction h with
  | nil => exact .inl ⟨rfl, rfl⟩
  | @cons s s' sets sets' hs h ih =>
    rw [checkOff, checkOff]
    simp only [hs.mem_iff]
    split
    · exact .inr ⟨_, _, _, _, rfl, rfl, hs, h⟩
    · rcases ih with ⟨e1, e2⟩ | ⟨a, a', r, r', e1, e2, e3, e4⟩
      · rw [e1, e2]; exact .inl ⟨rfl, rfl⟩
      · rw [e1, e2]; exact .inr ⟨_, _, _, _, rfl, rfl, e3, .cons hs e4⟩

include hg in
theorem lookAtDeps_alike {env env' : Env} {target : BazelTarget} {r r' : Query.Result} {acc : Bool}
    (hk : env'.ignoreKeep = env.ignoreKeep)
    (hc : ∀ n, KeepComment (env'.line r' target n) ↔ KeepComment (env.line r target n)) (deps : List Str) :
    ∀ n {needed needed' : List (List BazelTarget)} {checked checked' : List BazelTarget}, SameSets needed needed' →
      checked'.Perm checked →
      SameSets (lookAtDeps env gen target r acc n needed checked deps).1
        (lookAtDeps env' gen' target r' acc n needed' checked' deps).1 ∧
      (lookAtDeps env' gen' target r' acc n needed' checked' deps).2 =
        (lookAtDeps env gen target r acc n needed checked deps).2 := by
  have hc' : ∀ n, hasKeepComment (env'.line r' target n) = hasKeepComment (env.line r target n) := by
    intro n
    rw [Bool.eq_iff_iff, hasKeepComment_iff, hasKeepComment_iff]
    exact hc n
  induction deps with
  | nil => intro n needed needed' checked checked' h _; exact ⟨h, rfl⟩
  | cons d deps ih =>
    intro n needed needed' checked checked' h h'
    rw [lookAtDeps, lookAtDeps]
    cases BazelTarget.parseFrom d target.package with
    | none => exact ih _ h h'
    | some t =>
      simp only []
      rcases checkOff_alike t h with ⟨e1, e2⟩ | ⟨a, a', u, u', e1, e2, e3, e4⟩
      · rw [e1, e2]
        simp only [h'.mem_iff, hg.alwayslink, hk, hc']
        split
        · exact ih _ h h'
        · split
          · obtain ⟨i1, i2⟩ := ih (n + 1) h h'
            exact ⟨i1, by rw [i2]⟩
          · exact ih _ h h'
      · rw [e1, e2]
        exact ih _ e4 (h'.append e3)

include hg in
theorem addNeeded_alike (target : BazelTarget) {sets sets' : List (List BazelTarget)} (h : SameSets sets sets') :
    addNeeded gen' target sets' = addNeeded gen target sets := by
  induction h with
  | nil => rfl
  | @cons s s' sets sets' hs h ih =>
    rw [addNeeded, addNeeded, ih]
    cases addNeeded gen target sets with
    | none => rfl
    | some edits =>
      simp only []
      have hl := hs.length_eq
      match s, s', hs, hl with
      | [], [], _, _ => rfl
      | [a], [b], hs, _ =>
        have : b = a := by simpa using hs.mem_iff (a := b)
        subst this
        simp only [hg.see, hg.testonly]
      | _ :: _ :: _, _ :: _ :: _, _, _ => rfl

include hg in
theorem edits_alike {env env' : Env} (hws : env'.workspace = env.workspace) (hk : env'.ignoreKeep = env.ignoreKeep)
    {pkg : BazelPackage} {target : BazelTarget} {r r' : Query.Result}
    (hl : stringList r.srcs = some (stringsOf r.srcs) ∧ stringList r.hdrs = some (stringsOf r.hdrs) ∧
      stringList r.deps = some (stringsOf r.deps))
    (hl' : stringList r'.srcs = some (stringsOf r'.srcs) ∧ stringList r'.hdrs = some (stringsOf r'.hdrs) ∧
      stringList r'.deps = some (stringsOf r'.deps)) (hr : Alike r r')
    (hc : ∀ n, KeepComment (env'.line r' target n) ↔ KeepComment (env.line r target n))
    (hread : ∀ src ∈ sourcesOf r, ∀ d ∈ directories, env'.read (d ++ pkg.fullyQualifiedFile env.workspace src) =
      env.read (d ++ pkg.fullyQualifiedFile env.workspace src)) :
    createEditsForTarget env' gen' target r' pkg = createEditsForTarget env gen target r pkg := by
  unfold createEditsForTarget
  rw [hl.1, hl.2.1, hl.2.2, hl'.1, hl'.2.1, hl'.2.2, hr.srcsOf, hr.hdrsOf, hr.depsOf]
  simp only []
  obtain ⟨s, s', b, h1, h2, h3⟩ := sources_alike hg hws target pkg (stringsOf r.srcs ++ stringsOf r.hdrs)
    (stringsOf r.srcs ++ stringsOf r.hdrs) hread
  rw [h1, h2]
  simp only []
  rcases minimize_alike h3 with ⟨e1, e2⟩ | ⟨n, n', e1, e2, e3⟩
  · rw [e1, e2]
  · rw [e1, e2]
    simp only []
    obtain ⟨k1, k2⟩ := lookAtDeps_alike hg (r := r) (r' := r') (acc := b) hk hc (stringsOf r.deps) 0 e3 (.refl [])
    rw [addNeeded_alike hg target k1, k2]

end

/-! ### All rules -/

theorem pairs_perm {α β γ : Type} {R : α → β → Prop} {as : List α} {bs : List β} (h : Pairs R as bs) {f : α → List γ}
    {g : β → List γ} (hfg : ∀ a b, R a b → (g b).Perm (f a)) : (bs.flatMap g).Perm (as.flatMap f) := by
  induction h with
  | nil => exact .refl _
  | cons h _ ih =>
    rw [List.flatMap_cons, List.flatMap_cons]
    exact (hfg _ _ h).append ih

/-- Lists with images in the same order up to a permutation are permutations of each other, element by element. -/
theorem perm_matched {α β γ : Type} {f : α → γ} {g : α → List β} {g' : α → List β} :
    ∀ {l l' : List α}, (l'.map f).Perm (l.map f) → (∀ a ∈ l, ∀ b ∈ l', f b = f a → g' b = g a) →
      (l'.flatMap g').Perm (l.flatMap g)
  | [], l', h, _ => by
    have : l' = [] := by simpa using h.length_eq
    rw [this]
    exact .refl _
  | a :: l, l', h, hfg => by
    have hm : f a ∈ l'.map f := h.mem_iff.2 (by simp)
    obtain ⟨b, hb, hba⟩ := List.mem_map.1 hm
    obtain ⟨x, y, rfl⟩ := List.append_of_mem hb
    have hp : ((x ++ y).map f).Perm (l.map f) := by
      have h1 : ((x ++ b :: y).map f).Perm (f a :: (x ++ y).map f) := by
        rw [← hba, List.map_append, List.map_cons, List.map_append]
        exact List.perm_middle
      exact List.Perm.cons_inv (h1.symm.trans h)
    have ih := perm_matched (g := g) (g' := g') hp fun a' ha' b' hb' => hfg a' (.tail _ ha') b' (by
      rcases List.mem_append.1 hb' with h | h
      · exact List.mem_append.2 (.inl h)
      · exact List.mem_append.2 (.inr (.tail _ h)))
    have h1 : ((x ++ b :: y).flatMap g').Perm (g' b ++ (x ++ y).flatMap g') := by
      have : (x ++ b :: y).Perm (b :: (x ++ y)) := List.perm_middle
      exact this.flatMap_right g'
    rw [List.flatMap_cons, ← hfg a (by simp) b (by simp) hba]
    exact h1.trans (ih.append_left _)

theorem dwyu_reordered {l l' : Files} (h : Reshuffled l l') (ho : ProtoOnce l) (hn : (l.map (·.1)).Nodup)
    (hs : ∀ f ∈ l, Searchable f.2) (hs' : ∀ f ∈ l', Searchable f.2) {env env' : Env}
    (hws : env'.workspace = env.workspace) (hk : env'.ignoreKeep = env.ignoreKeep) (hc : CommentsMove env env' l l')
    (hread : SourcesStay env env' l) (pattern : BazelPattern) :
    ∃ edits edits', createDependencyEdits env pattern l = some edits ∧
      createDependencyEdits env' pattern l' = some edits' ∧ edits'.Perm edits := by
  obtain ⟨gen, gen', h1, h2, h3, h4, hg⟩ := gen_reordered h ho hn hs hs'
  refine ⟨_, _, Props.edits_of hs h1 h3 env pattern, Props.edits_of hs' h2 h4 env' pattern, ?_⟩
  have e : ∀ (env : Env) (gen : Generator) (l : Files), ((selected l pattern).flatMap fun x =>
      (createEditsForTarget env gen x.2.2 x.2.1 x.1).getD []) = l.flatMap fun f =>
        (rulesOf [c!"cc_library", c!"cc_binary", c!"cc_test"] f.2).flatMap fun r =>
          match f.1.qualifiedTarget r.name with
          | none => []
          | some t => if pattern.matchTarget t then (createEditsForTarget env gen t r f.1).getD [] else [] := by
    intro env gen l
    unfold selected
    rw [List.flatMap_assoc]
    congr 1
    funext f
    rw [List.flatMap_assoc]
    congr 1
    funext r
    cases f.1.qualifiedTarget r.name with
    | none => rfl
    | some t =>
      simp only []
      split <;> simp
  rw [e, e]
  have hp := pairs_mem h
  have key : ∀ f f', f ∈ l ∧ f' ∈ l' ∧ f'.1 = f.1 ∧ Shuffled f.2 f'.2 →
      ((rulesOf [c!"cc_library", c!"cc_binary", c!"cc_test"] f'.2).flatMap fun r =>
          match f'.1.qualifiedTarget r.name with
          | none => []
          | some t => if pattern.matchTarget t then (createEditsForTarget env' gen' t r f'.1).getD [] else []).Perm
      ((rulesOf [c!"cc_library", c!"cc_binary", c!"cc_test"] f.2).flatMap fun r =>
          match f.1.qualifiedTarget r.name with
          | none => []
          | some t => if pattern.matchTarget t then (createEditsForTarget env gen t r f.1).getD [] else []) := by
    rintro ⟨pkg, ast⟩ ⟨pkg', ast'⟩ ⟨hf, hf', hpk, hsh⟩
    simp only at hpk
    subst hpk
    refine perm_matched (f := told) (hsh.kinds _) ?_
    intro r hr r' hr' ht
    have ha := alike_of ht
    simp only [ha.name]
    cases hq : pkg'.qualifiedTarget r.name with
    | none => rfl
    | some t =>
      simp only []
      split
      · obtain ⟨a1, a2, _, _, a5, _, _⟩ := Stable.lists (hs _ hf) hr
        obtain ⟨b1, b2, _, _, b5, _, _⟩ := Stable.lists (hs' _ hf') hr'
        rw [edits_alike hg hws hk ⟨a1, a2, a5⟩ ⟨b1, b2, b5⟩ ha
          (hc pkg' ast ast' hf hf' r (rulesOf_sub hr) r' (rulesOf_sub hr') ht t hq)
          (hread pkg' r t ⟨ast, hf, hr, hq⟩)]
      · rfl
  exact pairs_perm hp key

end RulesSpec
end Bant
