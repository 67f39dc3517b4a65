import Verif.Lemmas.DwyuRule
import Verif.Lemmas.TypesBazel
import Verif.Spec.Stable

/-! Lemmas about files that differ in the dependencies of rules. -/
namespace Bant
namespace Stable
open StableSpec Query Rules Headers HeaderSpec HeaderIndex DwyuSpec

/-! ### Pairs -/

theorem pairs_mem {α β : Type} {R : α → β → Prop} {as : List α} {bs : List β} (h : Pairs R as bs) :
    Pairs (fun a b => a ∈ as ∧ b ∈ bs ∧ R a b) as bs := by
  have key : ∀ {as bs}, Pairs R as bs → ∀ (P : α → Prop) (Q : β → Prop), (∀ a ∈ as, P a) → (∀ b ∈ bs, Q b) →
      Pairs (fun a b => P a ∧ Q b ∧ R a b) as bs := by
    intro as bs h
    induction h with
    | nil => intros; exact .nil
    | cons h _ ih =>
      intro P Q hp hq
      exact .cons ⟨hp _ (by simp), hq _ (by simp), h⟩
        (ih P Q (fun a ha => hp a (.tail _ ha)) fun b hb => hq b (.tail _ hb))
  exact key h _ _ (fun _ h => h) fun _ h => h

theorem pairs_mono {α β : Type} {R S : α → β → Prop} {as : List α} {bs : List β} (h : Pairs R as bs)
    (hi : ∀ a b, R a b → S a b) : Pairs S as bs := by
  induction h with
  | nil => exact .nil
  | cons h _ ih => exact .cons (hi _ _ h) ih

theorem pairs_and {α β : Type} {R S : α → β → Prop} {as : List α} {bs : List β} (h : Pairs R as bs)
    (h' : Pairs S as bs) : Pairs (fun a b => R a b ∧ S a b) as bs := by
  induction h with
  | nil => exact .nil
  | cons h _ ih =>
    cases h' with
    | cons h1 h2 => exact .cons ⟨h, h1⟩ (ih h2)

theorem pairs_right {α β : Type} {R : α → β → Prop} {as : List α} {bs : List β} (h : Pairs R as bs)
    {b : β} (hb : b ∈ bs) : ∃ a ∈ as, R a b := by
  induction h with
  | nil => cases hb
  | cons h _ ih =>
    rcases List.mem_cons.1 hb with rfl | hb
    · exact ⟨_, by simp, h⟩
    · obtain ⟨a, h1, h2⟩ := ih hb
      exact ⟨a, .tail _ h1, h2⟩

theorem pairs_left {α β : Type} {R : α → β → Prop} {as : List α} {bs : List β} (h : Pairs R as bs)
    {a : α} (ha : a ∈ as) : ∃ b ∈ bs, R a b := by
  induction h with
  | nil => cases ha
  | cons h _ ih =>
    rcases List.mem_cons.1 ha with rfl | ha
    · exact ⟨_, by simp, h⟩
    · obtain ⟨b, h1, h2⟩ := ih ha
      exact ⟨b, .tail _ h1, h2⟩

theorem pairs_filter {α β : Type} {R : α → β → Prop} {as : List α} {bs : List β} (h : Pairs R as bs)
    {p : α → Bool} {q : β → Bool} (hpq : ∀ a b, R a b → p a = q b) : Pairs R (as.filter p) (bs.filter q) := by
  induction h with
  | nil => exact .nil
  | @cons a b as bs h _ ih =>
    have := hpq _ _ h
    cases hp : p a with
    | true => rw [List.filter_cons_of_pos hp, List.filter_cons_of_pos (this ▸ hp)]; exact .cons h ih
    | false =>
      rw [List.filter_cons_of_neg (by simp [hp]), List.filter_cons_of_neg (by simp [← this, hp])]
      exact ih

theorem pairs_flatMap {α β γ δ : Type} {R : α → β → Prop} {S : γ → δ → Prop} {as : List α} {bs : List β}
    (h : Pairs R as bs) {f : α → List γ} {g : β → List δ} (hfg : ∀ a b, R a b → Pairs S (f a) (g b)) :
    Pairs S (as.flatMap f) (bs.flatMap g) := by
  have app : ∀ {x : List γ} {y : List δ} {x' y'}, Pairs S x y → Pairs S x' y' → Pairs S (x ++ x') (y ++ y') := by
    intro x y x' y' h1 h2
    induction h1 with
    | nil => exact h2
    | cons h _ ih => exact .cons h ih
  induction h with
  | nil => exact .nil
  | cons h _ ih => rw [List.flatMap_cons, List.flatMap_cons]; exact app (hfg _ _ h) ih

theorem pairs_map {α β γ δ : Type} {R : γ → δ → Prop} {f : α → γ} {g : β → δ} {as : List α} {bs : List β}
    (h : Pairs (fun a b => R (f a) (g b)) as bs) : Pairs R (as.map f) (bs.map g) := by
  induction h with
  | nil => exact .nil
  | cons h _ ih => exact .cons h ih

theorem pairs_eq {α : Type} {as bs : List α} (h : Pairs Eq as bs) : as = bs := by
  induction h with
  | nil => rfl
  | cons h _ ih => rw [h, ih]

theorem mapAll_pairs {α β γ : Type} {R : α → β → Prop} {as : List α} {bs : List β} (h : Pairs R as bs)
    {f : α → Option (List γ)} {g : β → Option (List γ)} (hfg : ∀ a ∈ as, ∀ b ∈ bs, R a b → f a = g b) :
    mapAll f as = mapAll g bs := by
  induction h with
  | nil => rfl
  | cons h _ ih =>
    rw [mapAll, mapAll, hfg _ (by simp) _ (by simp) h, ih fun a ha b hb => hfg a (.tail _ ha) b (.tail _ hb)]

/-! ### Rules -/

theorem report_filter {k : List Node → List (Node × Node)} {kinds : List Str} {ae : Bool} (hk : kinds ≠ [])
    (ss : List (Node × Node)) : ∀ vis,
    report k kinds ae vis ss = (report k [] ae vis ss).filter fun r => r.rule ∈ kinds := by
  induction ss with
  | nil => intro vis; rfl
  | cons s ss ih =>
    intro vis
    rw [report.eq_def, report.eq_def k []]
    obtain ⟨f, a⟩ := s
    cases f <;> cases a <;> try exact ih vis
    rename_i fn ty args
    simp only []
    by_cases hp : fn = c!"package"
    · simp only [hp, if_true]; exact ih _
    · simp only [hp, if_false, hk, false_or, true_or, true_and]
      by_cases hf : fn ∈ kinds
      · simp only [hf, true_and]
        split
        · rw [List.filter_cons_of_pos (by simp [attributes, hf]), ih]
        · exact ih vis
      · simp only [hf, false_and, if_false]
        split
        · rw [List.filter_cons_of_neg (by simp [attributes, hf]), ih]
        · exact ih vis

theorem rulesOf_filter {kinds : List Str} (hk : kinds ≠ []) (ast : Node) :
    rulesOf kinds ast = (rulesOf [] ast).filter fun r => r.rule ∈ kinds :=
  report_filter hk _ _

theorem rulesOf_sub {kinds : List Str} {ast : Node} {r : Result} (h : r ∈ rulesOf kinds ast) :
    r ∈ rulesOf [] ast := by
  by_cases hk : kinds = []
  · rw [hk] at h; exact h
  · rw [rulesOf_filter hk] at h; exact (List.mem_filter.1 h).1

theorem pairs_rules {R : Result → Result → Prop} {ast ast' : Node} (h : Pairs R (rulesOf [] ast) (rulesOf [] ast'))
    (hr : ∀ r r', R r r' → r'.rule = r.rule) (kinds : List Str) : Pairs R (rulesOf kinds ast) (rulesOf kinds ast') := by
  by_cases hk : kinds = []
  · rw [hk]; exact h
  · rw [rulesOf_filter hk, rulesOf_filter hk]
    exact pairs_filter h fun a b hab => by rw [hr a b hab]

theorem forTargets_pairs {β : Type} {R : Result → Result → Prop} {ast ast' : Node} (hs : Searchable ast)
    (hs' : Searchable ast') (h : Pairs R (rulesOf [] ast) (rulesOf [] ast'))
    (hr : ∀ r r', R r r' → r'.rule = r.rule) {kinds : List Str} {f g : Result → Option (List β)}
    (hfg : ∀ r ∈ rulesOf kinds ast, ∀ r' ∈ rulesOf kinds ast', R r r' → f r = g r') :
    forTargets ast kinds f = forTargets ast' kinds g := by
  rw [forTargets, forTargets, findTargets_report ast hs.proper, findTargets_report ast' hs'.proper]
  exact mapAll_pairs (pairs_rules h hr kinds) hfg

/-! ### The index of headers -/

/-- The same rule, and the same dependencies if it is one that makes C++ from protocol buffers. -/
structure SameHeaders (pkg : BazelPackage) (r r' : Result) : Prop extends SameRule r r' where
  protos : r.rule = c!"cc_proto_library" →
    ((stringsOf r'.deps).filterMap fun d => BazelTarget.parseFrom d pkg) =
      (stringsOf r.deps).filterMap fun d => BazelTarget.parseFrom d pkg

/-- Files that provide the same. -/
def SameFiles (files files' : Files) : Prop :=
  Pairs (fun f f' => f'.1 = f.1 ∧ Pairs (SameHeaders f.1) (rulesOf [] f.2) (rulesOf [] f'.2)) files files'

section
variable {files files' : Files} (hs : ∀ f ∈ files, Searchable f.2) (hs' : ∀ f ∈ files', Searchable f.2)

theorem aliasesIn_same {pkg : BazelPackage} {ast ast' : Node} (hs : Searchable ast) (hs' : Searchable ast')
    (h : Pairs (SameHeaders pkg) (rulesOf [] ast) (rulesOf [] ast')) : aliasesIn pkg ast = aliasesIn pkg ast' :=
  forTargets_pairs hs hs' h (fun _ _ h => h.rule) fun r _ r' _ h => by
    simp only [actualOf]; rw [h.name, h.actual, h.hasActual]

include hs hs' in
theorem aliases_same (h : SameFiles files files') : extractAliasedBy files = extractAliasedBy files' :=
  mapAll_pairs h fun f hf f' hf' h => by
    rw [h.1]
    exact aliasesIn_same (hs f hf) (hs' f' hf') h.2

theorem lists {ast : Node} (hs : Searchable ast) {kinds : List Str} {r : Result} (hr : r ∈ rulesOf kinds ast) :
    stringList r.srcs = some (stringsOf r.srcs) ∧ stringList r.hdrs = some (stringsOf r.hdrs) ∧
    stringList r.textualHdrs = some (stringsOf r.textualHdrs) ∧
    stringList r.publicHdrs = some (stringsOf r.publicHdrs) ∧ stringList r.deps = some (stringsOf r.deps) ∧
    stringList r.outs = some (stringsOf r.outs) ∧ stringList r.includes = some (stringsOf r.includes) := by
  refine ⟨?_, ?_, ?_, ?_, ?_, ?_, ?_⟩ <;> exact stringList_rule hs hr (by simp [listsOf])

theorem ccHeaders_same {pkg : BazelPackage} {ast ast' : Node} (hs : Searchable ast) (hs' : Searchable ast')
    (h : Pairs (SameHeaders pkg) (rulesOf [] ast) (rulesOf [] ast')) :
    iterateCCLibraryHeaders pkg ast = iterateCCLibraryHeaders pkg ast' := by
  refine forTargets_pairs hs hs' h (fun _ _ h => h.rule) ?_
  intro r hr r' hr' h
  obtain ⟨_, h2, h3, h4, _, _, h7⟩ := lists hs hr
  obtain ⟨_, g2, g3, g4, _, _, g7⟩ := lists hs' hr'
  have hp : pathsOf pkg r' = pathsOf pkg r := by
    funext header
    unfold pathsOf
    rw [h.includePrefix, h.stripIncludePrefix, g7, h7, h.includes]
  rw [h.name, h2, h3, h4, g2, g3, g4, h.hdrs, h.textualHdrs, h.publicHdrs, hp]

theorem protoUsers_same {pkg : BazelPackage} {ast ast' : Node} (hs : Searchable ast) (hs' : Searchable ast')
    (h : Pairs (SameHeaders pkg) (rulesOf [] ast) (rulesOf [] ast')) (grpc : Bool) :
    protoUsers pkg ast grpc = protoUsers pkg ast' grpc := by
  refine forTargets_pairs hs hs' h (fun _ _ h => h.rule) ?_
  intro r hr r' hr' h
  have hk := rule_kind hr (by simp)
  obtain ⟨h1, _, _, _, h5, _, _⟩ := lists hs hr
  obtain ⟨g1, _, _, _, g5, _, _⟩ := lists hs' hr'
  rw [h.name, h1, h5, g1, g5, h.rule, h.srcs]
  cases pkg.qualifiedTarget r.name with
  | none => rfl
  | some t =>
    simp only []
    by_cases hg : r.rule = c!"cc_grpc_library"
    · simp [hg]
    · have : r.rule = c!"cc_proto_library" := by
        rcases List.mem_cons.1 hk with h | h
        · exact h
        · exact absurd (by simpa using h) hg
      have hp := h.protos this
      have key : ∀ l : List Str, (l.filterMap fun dep => (BazelTarget.parseFrom dep pkg).map fun p => (p, t)) =
          (l.filterMap fun d => BazelTarget.parseFrom d pkg).map fun p => (p, t) := by
        intro l; rw [List.map_filterMap]
      simp only [hg, decide_false, Bool.false_eq_true, if_false, key, hp]

theorem protoHeaders_same {pkg : BazelPackage} {ast ast' : Node} (hs : Searchable ast) (hs' : Searchable ast')
    (h : Pairs (SameHeaders pkg) (rulesOf [] ast) (rulesOf [] ast')) :
    appendProtoLibraryHeaders pkg ast = appendProtoLibraryHeaders pkg ast' := by
  unfold appendProtoLibraryHeaders
  rw [protoUsers_same hs hs' h, protoUsers_same hs hs' h]
  split
  · refine forTargets_pairs hs hs' h (fun _ _ h => h.rule) ?_
    intro r hr r' hr' h
    rw [h.name, (lists hs hr).1, (lists hs' hr').1, h.srcs]
  · rfl

theorem null_rules {ast : Node} (h : ast.isNull = true) (kinds : List Str) : rulesOf kinds ast = [] := by
  cases ast <;> first | rfl | cases h

theorem null_targets {β : Type} {ast : Node} (hs : Searchable ast) (h : ast.isNull = true) (kinds : List Str)
    (f : Result → Option (List β)) : forTargets ast kinds f = some [] := by
  rw [forTargets, findTargets_report ast hs.proper]
  show mapAll f (rulesOf kinds ast) = _
  rw [null_rules h]
  rfl

include hs hs' in
theorem headerAdds_same (h : SameFiles files files') : headerAdds files = headerAdds files' := by
  unfold headerAdds
  rw [aliases_same hs hs' h]
  split
  · rfl
  · rename_i aliases _
    have drop : ∀ f : BazelPackage × Node, Searchable f.2 → (if f.2.isNull then some [] else
        match appendCCLibraryHeaders aliases f.1 f.2 with
          | none => none
          | some cc => (appendProtoLibraryHeaders f.1 f.2).map (cc ++ ·)) =
        match appendCCLibraryHeaders aliases f.1 f.2 with
          | none => none
          | some cc => (appendProtoLibraryHeaders f.1 f.2).map (cc ++ ·) := by
      intro f hf
      split
      · rename_i hn
        have h1 : appendCCLibraryHeaders aliases f.1 f.2 = some [] := by
          unfold appendCCLibraryHeaders iterateCCLibraryHeaders
          rw [null_targets hf hn]; rfl
        have h2 : appendProtoLibraryHeaders f.1 f.2 = some [] := by
          unfold appendProtoLibraryHeaders protoUsers
          rw [null_targets hf hn, null_targets hf hn]
          exact null_targets hf hn _ _
        rw [h1, h2]; rfl
      · rfl
    refine mapAll_pairs h fun f hf f' hf' h => ?_
    refine ((drop f (hs f hf)).trans ?_).trans (drop f' (hs' f' hf')).symm
    rw [h.1]
    unfold appendCCLibraryHeaders
    rw [ccHeaders_same (hs f hf) (hs' f' hf') h.2, protoHeaders_same (hs f hf) (hs' f' hf') h.2]

include hs hs' in
theorem genruleAdds_same (h : SameFiles files files') : genruleAdds files = genruleAdds files' := by
  unfold genruleAdds
  have drop : ∀ (f : BazelPackage × Node) (g : Result → Option (List (Str × BazelTarget))), Searchable f.2 →
      (if f.2.isNull then some [] else forTargets f.2 [c!"genrule"] g) = forTargets f.2 [c!"genrule"] g := by
    intro f g hf
    split
    · rename_i hn; rw [null_targets hf hn]
    · rfl
  refine mapAll_pairs h fun f hf f' hf' h => ?_
  refine ((drop f _ (hs f hf)).trans ?_).trans (drop f' _ (hs' f' hf')).symm
  rw [h.1]
  refine forTargets_pairs (hs f hf) (hs' f' hf') h.2 (fun _ _ h => h.rule) ?_
  intro r hr r' hr' h
  rw [h.name, (lists (hs f hf) hr).2.2.2.2.2.1, (lists (hs' f' hf') hr').2.2.2.2.2.1, h.outs]

/-! ### Known libraries -/

theorem libraries_pairs (h : SameFiles files files') :
    Pairs (fun e e' => e'.1 = e.1 ∧ SameHeaders e.1.package e.2 e'.2) (libraries files) (libraries files') := by
  refine pairs_flatMap h ?_
  intro f f' h
  refine pairs_flatMap (pairs_rules h.2 (fun _ _ h => h.rule) _) ?_
  intro r r' hr
  rw [hr.name, h.1]
  split
  · exact .nil
  · rename_i t ht
    exact .cons ⟨rfl, by rw [qualifiedTarget_package ht]; exact hr⟩ .nil

theorem find_pairs {α β : Type} {R : α → β → Prop} {as : List α} {bs : List β} (h : Pairs R as bs)
    {p : α → Bool} {q : β → Bool} (hpq : ∀ a b, R a b → p a = q b) :
    (as.find? p = none ∧ bs.find? q = none) ∨ ∃ a b, as.find? p = some a ∧ bs.find? q = some b ∧ R a b := by
  induction h with
  | nil => exact .inl ⟨rfl, rfl⟩
  | @cons a b as bs h _ ih =>
    have := hpq _ _ h
    cases hp : p a with
    | true => exact .inr ⟨a, b, by simp [hp], by simp [← this, hp], h⟩
    | false =>
      rw [List.find?_cons_of_neg (by simp [hp]), List.find?_cons_of_neg (by simp [← this, hp])]
      exact ih

theorem library_same (h : SameFiles files files') (t : BazelTarget) :
    ((∀ r, ¬ Library files t r) ∧ ∀ r, ¬ Library files' t r) ∨
    ∃ r r', Library files t r ∧ Library files' t r' ∧ SameRule r r' := by
  simp only [Dwyu.library_iff]
  rcases find_pairs (libraries_pairs h) (p := fun e => e.1 = t) (q := fun e => e.1 = t)
    (fun a b h => by rw [h.1]) with ⟨h1, h2⟩ | ⟨a, b, h1, h2, h3⟩
  · left
    simp [h1, h2]
  · exact .inr ⟨a.2, b.2, by simp [h1], by simp [h2], h3.2.toSameRule⟩

/-! ### What is visible -/

theorem texts_mem {es es' : List Node} (h : es'.map text = es.map text) {s : Str} :
    (∃ e ∈ es, text e = some s) ↔ ∃ e ∈ es', text e = some s := by
  have h1 : (∃ e ∈ es, text e = some s) ↔ some s ∈ es.map text := by simp
  have h2 : (∃ e ∈ es', text e = some s) ↔ some s ∈ es'.map text := by simp
  rw [h1, h2, h]

theorem understood_same {es es' : List Node} (h : es'.map text = es.map text) (pkg : BazelPackage) :
    Understood pkg es ↔ Understood pkg es' := by
  have key : ∀ l, Understood pkg l ↔ ∃ s, (∃ e ∈ l, text e = some s) ∧
      ∃ vis, BazelPattern.parseVisibility globCompile s pkg = some vis := by
    intro l
    constructor
    · rintro ⟨e, he, s, hs, hv⟩; exact ⟨s, ⟨e, he, hs⟩, hv⟩
    · rintro ⟨s, ⟨e, he, hs⟩, hv⟩; exact ⟨e, he, s, hs, hv⟩
  rw [key, key]
  simp only [texts_mem h]

theorem granted_same {es es' : List Node} (h : es'.map text = es.map text) (pkg : BazelPackage) (t : BazelTarget) :
    Granted pkg es t ↔ Granted pkg es' t := by
  have key : ∀ l, Granted pkg l t ↔ ∃ s, (∃ e ∈ l, text e = some s) ∧
      ∃ vis, BazelPattern.parseVisibility globCompile s pkg = some vis ∧ vis.matchTarget t = true := by
    intro l
    constructor
    · rintro ⟨e, he, s, hs, hv⟩; exact ⟨s, ⟨e, he, hs⟩, hv⟩
    · rintro ⟨s, ⟨e, he, hs⟩, hv⟩; exact ⟨e, he, s, hs, hv⟩
  rw [key, key]
  simp only [texts_mem h]

theorem visible_same (h : SameFiles files files') (target dep : BazelTarget) :
    Visible files target dep ↔ Visible files' target dep := by
  rcases library_same h dep with ⟨h1, h2⟩ | ⟨r, r', h1, h2, h3⟩
  · exact ⟨fun _ r hr => absurd hr (h2 r), fun _ r hr => absurd hr (h1 r)⟩
  · have e1 : Visible files target dep ↔ r.deprecation = [] ∧ (target.package = dep.package ∨
        dep.name ≠ c!"protobuf_headers" ∧
          ∀ l, r.visibility = some l → ¬ Understood dep.package l.2 ∨ Granted dep.package l.2 target) :=
      ⟨fun h => h r h1, fun h s hs => Dwyu.library_unique h1 hs ▸ h⟩
    have e2 : Visible files' target dep ↔ r'.deprecation = [] ∧ (target.package = dep.package ∨
        dep.name ≠ c!"protobuf_headers" ∧
          ∀ l, r'.visibility = some l → ¬ Understood dep.package l.2 ∨ Granted dep.package l.2 target) :=
      ⟨fun h => h r' h2, fun h s hs => Dwyu.library_unique h2 hs ▸ h⟩
    rw [e1, e2, h3.deprecation]
    have hv := h3.visibility
    unfold textsOf at hv
    cases hr : r.visibility with
    | none =>
      cases hr' : r'.visibility with
      | none => simp
      | some l => rw [hr, hr'] at hv; cases hv
    | some l =>
      cases hr' : r'.visibility with
      | none => rw [hr, hr'] at hv; cases hv
      | some l' =>
        rw [hr, hr'] at hv
        have hv : l'.2.map text = l.2.map text := by simpa using hv
        simp only [Option.some.injEq, forall_eq']
        rw [understood_same hv, granted_same hv]

theorem alwayslink_same (h : SameFiles files files') (t : BazelTarget) :
    (∃ r, Library files t r ∧ r.alwayslink = false) ↔ ∃ r, Library files' t r ∧ r.alwayslink = false := by
  rcases library_same h t with ⟨h1, h2⟩ | ⟨r, r', h1, h2, h3⟩
  · exact ⟨fun ⟨r, hr, _⟩ => absurd hr (h1 r), fun ⟨r, hr, _⟩ => absurd hr (h2 r)⟩
  · constructor
    · rintro ⟨s, hs, hf⟩
      rw [← Dwyu.library_unique h1 hs] at hf
      exact ⟨r', h2, h3.alwayslink.trans hf⟩
    · rintro ⟨s, hs, hf⟩
      rw [← Dwyu.library_unique h2 hs] at hf
      exact ⟨r, h1, h3.alwayslink.symm.trans hf⟩

theorem testonly_same (h : SameFiles files files') (target dep : BazelTarget) :
    TestonlyOk files target dep ↔ TestonlyOk files' target dep := by
  have hd := library_same h dep
  have ht := library_same h target
  constructor
  · intro hk r' hr' hto s' hs'
    rcases hd with ⟨_, h2⟩ | ⟨r, r2, h1, h2, h3⟩
    · exact absurd hr' (h2 r')
    · rcases ht with ⟨_, g2⟩ | ⟨s, s2, g1, g2, g3⟩
      · exact absurd hs' (g2 s')
      · have e1 := Dwyu.library_unique h2 hr'
        have e2 := Dwyu.library_unique g2 hs'
        subst e1; subst e2
        rw [g3.testonly, g3.rule]
        exact hk r h1 (h3.testonly ▸ hto) s g1
  · intro hk r hr hto s hs
    rcases hd with ⟨h1, _⟩ | ⟨r1, r2, h1, h2, h3⟩
    · exact absurd hr (h1 r)
    · rcases ht with ⟨g1, _⟩ | ⟨s1, s2, g1, g2, g3⟩
      · exact absurd hs (g1 s)
      · have e1 := Dwyu.library_unique h1 hr
        have e2 := Dwyu.library_unique g1 hs
        subst e1; subst e2
        rw [← g3.testonly, ← g3.rule]
        exact hk r2 h2 (h3.testonly.symm ▸ hto) s2 g2

/-! ### What is needed -/

/-- Two generators that come to the same conclusions. -/
structure SameGen (gen gen' : Dwyu.Generator) : Prop where
  headers : gen'.headers = gen.headers
  see : ∀ t d, Dwyu.canSee gen' t d = Dwyu.canSee gen t d

include hs hs' in
theorem gen_same (h : SameFiles files files') : ∃ gen gen', Dwyu.Generator.create files = some gen ∧
    Dwyu.Generator.create files' = some gen' ∧ Dwyu.Made files gen ∧ Dwyu.Made files' gen' ∧ SameGen gen gen' := by
  obtain ⟨gen, h1, h2⟩ := Dwyu.create_made hs
  obtain ⟨gen', g1, g2⟩ := Dwyu.create_made hs'
  refine ⟨gen, gen', h1, g1, h2, g2, ?_, ?_⟩
  · unfold Dwyu.Generator.create at h1 g1
    have hx : extractHeaderToLibMapping files' = extractHeaderToLibMapping files := by
      unfold extractHeaderToLibMapping
      rw [headerAdds_same hs hs' h]
    split at h1
    · split at g1
      · rename_i a _ _ ha _ _ _ _ _ b _ _ hb _ _
        simp only [Option.some.injEq] at h1 g1
        rw [← h1, ← g1]
        rw [hx, ha] at hb
        cases hb
        rfl
      · cases g1
    · cases h1
  · intro t d
    obtain ⟨b, hb, hb'⟩ := Dwyu.canSee_spec h2 t d
    obtain ⟨c, hc, hc'⟩ := Dwyu.canSee_spec g2 t d
    rw [hb, hc]
    have : c = true ↔ b = true := by rw [hb', hc', visible_same h]
    cases b <;> cases c <;> simp_all

theorem needed_same {gen gen' : Dwyu.Generator} (h : SameGen gen gen') {env env' : Dwyu.Env}
    (hws : env'.workspace = env.workspace) (target : BazelTarget)
    (pkg : BazelPackage) (sources : List Str) (srcs : List Str)
    (hread : ∀ src ∈ srcs, ∀ d ∈ directories, env'.read (d ++ pkg.fullyQualifiedFile env.workspace src) =
      env.read (d ++ pkg.fullyQualifiedFile env.workspace src)) :
    Dwyu.neededBySources env' gen' target pkg sources srcs = Dwyu.neededBySources env gen target pkg sources srcs := by
  have vis : ∀ ts, Dwyu.visibleOf gen' target ts = Dwyu.visibleOf gen target ts := by
    intro ts
    induction ts with
    | nil => rfl
    | cons t ts ih => rw [Dwyu.visibleOf, Dwyu.visibleOf, h.see, ih]
  have inc : ∀ incs, Dwyu.neededByIncludes gen' target pkg sources incs =
      Dwyu.neededByIncludes gen target pkg sources incs := by
    intro incs
    induction incs with
    | nil => rfl
    | cons i incs ih =>
      have hp : Dwyu.providers gen' pkg i = Dwyu.providers gen pkg i := by
        unfold Dwyu.providers
        rw [h.headers]
      rw [Dwyu.neededByIncludes, Dwyu.neededByIncludes, ih, hp]
      simp only [vis]
  induction srcs with
  | nil => rfl
  | cons s srcs ih =>
    have ho : Dwyu.tryOpenFile env'.read (pkg.fullyQualifiedFile env.workspace s) =
        Dwyu.tryOpenFile env.read (pkg.fullyQualifiedFile env.workspace s) := by
      have := hread s (by simp)
      simp only [directories, List.mem_cons, List.not_mem_nil, or_false, forall_eq_or_imp, forall_eq] at this
      simp only [Dwyu.tryOpenFile, Dwyu.sourceLocations, List.findSome?_cons, List.findSome?_nil, this]
    rw [Dwyu.neededBySources, Dwyu.neededBySources, ih fun x hx => hread x (.tail _ hx), hws, ho]
    simp only [inc]

/-! ### Dependencies that are written in another way -/

theorem lookAtDeps_same {env env' : Dwyu.Env} {gen gen' : Dwyu.Generator} {target : BazelTarget} {r r' : Result}
    {acc : Bool} (hk : env'.ignoreKeep = env.ignoreKeep) (ha : ∀ t, Dwyu.isAlwayslink gen' t = Dwyu.isAlwayslink gen t)
    (hc : ∀ n, KeepComment (env'.line r' target n) ↔ KeepComment (env.line r target n)) {deps deps' : List Str}
    (hd : Pairs (fun d d' => BazelTarget.parseFrom d' target.package = BazelTarget.parseFrom d target.package) deps deps') :
    ∀ n needed checked,
      (Dwyu.lookAtDeps env' gen' target r' acc n needed checked deps').1 =
        (Dwyu.lookAtDeps env gen target r acc n needed checked deps).1 ∧
      Pairs SameEdit (Dwyu.lookAtDeps env gen target r acc n needed checked deps).2
        (Dwyu.lookAtDeps env' gen' target r' acc n needed checked deps').2 := by
  have hc' : ∀ n, Dwyu.hasKeepComment (env'.line r' target n) = Dwyu.hasKeepComment (env.line r target n) := by
    intro n
    rw [Bool.eq_iff_iff, Dwyu.hasKeepComment_iff, Dwyu.hasKeepComment_iff]
    exact hc n
  induction hd with
  | nil => intro n needed checked; exact ⟨rfl, .nil⟩
  | @cons d d' deps deps' h _ ih =>
    intro n needed checked
    rw [Dwyu.lookAtDeps, Dwyu.lookAtDeps, h]
    cases BazelTarget.parseFrom d target.package with
    | none => exact ih _ _ _
    | some t =>
      simp only []
      split
      · exact ih _ _ _
      · split
        · exact ih _ _ _
        · rw [ha, hk, hc']
          split
          · exact ⟨(ih _ _ _).1, .cons ⟨rfl, rfl, h, rfl⟩ (ih _ _ _).2⟩
          · exact ih _ _ _

theorem addNeeded_same {gen gen' : Dwyu.Generator} (hg : SameGen gen gen')
    (ht : ∀ t d, Dwyu.isTestonlyCompatible gen' t d = Dwyu.isTestonlyCompatible gen t d) (target : BazelTarget)
    (sets : List (List BazelTarget)) : Dwyu.addNeeded gen' target sets = Dwyu.addNeeded gen target sets := by
  induction sets with
  | nil => rfl
  | cons s sets ih =>
    rw [Dwyu.addNeeded, Dwyu.addNeeded, ih]
    simp only [hg.see, ht]

theorem alwayslink_gen {gen gen' : Dwyu.Generator} (hm : Dwyu.Made files gen) (hm' : Dwyu.Made files' gen')
    (h : SameFiles files files') (t : BazelTarget) : Dwyu.isAlwayslink gen' t = Dwyu.isAlwayslink gen t := by
  have : Dwyu.isAlwayslink gen' t = false ↔ Dwyu.isAlwayslink gen t = false := by
    rw [Dwyu.alwayslink_spec hm, Dwyu.alwayslink_spec hm', alwayslink_same h]
  cases h1 : Dwyu.isAlwayslink gen' t <;> cases h2 : Dwyu.isAlwayslink gen t <;> simp_all

theorem testonly_gen {gen gen' : Dwyu.Generator} (hm : Dwyu.Made files gen) (hm' : Dwyu.Made files' gen')
    (h : SameFiles files files') (t d : BazelTarget) :
    Dwyu.isTestonlyCompatible gen' t d = Dwyu.isTestonlyCompatible gen t d := by
  have : Dwyu.isTestonlyCompatible gen' t d = true ↔ Dwyu.isTestonlyCompatible gen t d = true := by
    rw [Dwyu.testonly_spec hm, Dwyu.testonly_spec hm', testonly_same h]
  cases h1 : Dwyu.isTestonlyCompatible gen' t d <;> cases h2 : Dwyu.isTestonlyCompatible gen t d <;> simp_all

theorem pairs_refl {α : Type} {R : α → α → Prop} (h : ∀ a, R a a) (l : List α) : Pairs R l l := by
  induction l with
  | nil => exact .nil
  | cons a l ih => exact .cons (h a) ih

theorem pairs_append {α β : Type} {R : α → β → Prop} {a a' : List α} {b b' : List β} (h : Pairs R a b)
    (h' : Pairs R a' b') : Pairs R (a ++ a') (b ++ b') := by
  induction h with
  | nil => exact h'
  | cons h _ ih => exact .cons h ih

theorem respelled_same {env env' : Dwyu.Env} (h : Respelled env env' files files') : SameFiles files files' := by
  refine pairs_mono h ?_
  rintro f f' ⟨h1, h2⟩
  refine ⟨h1, pairs_mono h2 ?_⟩
  intro r r' h
  refine ⟨h.same, fun _ => ?_⟩
  generalize stringsOf r.deps = l, stringsOf r'.deps = l', h.deps = hd
  induction hd with
  | nil => rfl
  | cons h _ ih => rw [List.filterMap_cons, List.filterMap_cons, h, ih]

end

end Stable
end Bant
