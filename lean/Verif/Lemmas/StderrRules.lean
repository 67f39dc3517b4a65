import Verif.Lemmas.StderrFiles
import Verif.Props.CommandEdits
import Verif.Props.DwyuMessages

/-! What `canonicalize` and `genrule-outputs` say about rules. -/
namespace Bant
namespace Stderr
open Commands Headers Cli CommandSpec Rules StableSpec Stable StderrSpec
open Located (each Source Holding Held Rule View From Fine InFile)
open Query (mapAll)

/-- Texts of rules, each with its location: that of a text in a file that is the BUILD file of the package of the rule. -/
def Lines (files : Holding) (lines : List (Str × BazelTarget × Str)) (deps : List (BazelTarget × Str)) : Prop :=
  lines.map (·.2) = deps ∧ ∀ x ∈ lines, ∃ f v, (x.2.1.package, f) ∈ files ∧ Fine f.source.content v ∧ v.text = x.2.2 ∧
    f.source.loc v = some x.1

theorem Lines.nil {files : Holding} : Lines files [] [] := ⟨rfl, by simp⟩

theorem Lines.append {files : Holding} {l l' : List (Str × BazelTarget × Str)} {d d' : List (BazelTarget × Str)}
    (h : Lines files l d) (h' : Lines files l' d') : Lines files (l ++ l') (d ++ d') :=
  ⟨by rw [List.map_append, h.1, h'.1], fun x hx => (List.mem_append.1 hx).elim (h.2 x) (h'.2 x)⟩

/-- The same for each element of a list. -/
theorem mapAll_lines {α β : Type} {files : Holding} {show_ : Str × BazelTarget × Str → β} {l : List α}
    {f : α → Option (List β)} {g : α → List (BazelTarget × Str)} {said : List β} (h : mapAll f l = some said)
    (hf : ∀ x ∈ l, ∀ y, f x = some y → ∃ lines, y = lines.map show_ ∧ Lines files lines (g x)) :
    ∃ lines, said = lines.map show_ ∧ Lines files lines (l.flatMap g) := by
  induction l generalizing said with
  | nil => cases h; exact ⟨[], rfl, .nil⟩
  | cons x l ih =>
    rw [mapAll] at h
    cases h1 : f x with
    | none => rw [h1] at h; cases h
    | some y =>
      rw [h1] at h
      obtain ⟨ys, h2, rfl⟩ := Option.map_eq_some_iff.1 h
      obtain ⟨l1, rfl, h3⟩ := hf x (.head _) _ h1
      obtain ⟨l2, rfl, h4⟩ := ih h2 fun x hx => hf x (.tail _ hx)
      exact ⟨l1 ++ l2, by rw [List.map_append], by rw [List.flatMap_cons]; exact h3.append h4⟩

theorem each_lines {β : Type} {files : Holding} {show_ : Str × BazelTarget × Str → β} {target : BazelTarget} {f : Held}
    (hmem : (target.package, f) ∈ files) {vs : List View} (hv : ∀ v ∈ vs, Fine f.source.content v) {said : List β}
    (h : each (fun d => (f.source.loc d).map fun loc => show_ (loc, target, d.text)) vs = some said) :
    ∃ lines, said = lines.map show_ ∧ Lines files lines (vs.map fun v => (target, v.text)) := by
  induction vs generalizing said with
  | nil => cases h; exact ⟨[], rfl, .nil⟩
  | cons v vs ih =>
    rw [each] at h
    split at h
    · rename_i y ys h1 h2
      cases h
      obtain ⟨loc, h3, rfl⟩ := Option.map_eq_some_iff.1 h1
      obtain ⟨l, rfl, h4⟩ := ih (fun x hx => hv x (.tail _ hx)) h2
      refine ⟨(loc, target, v.text) :: l, rfl, ?_⟩
      rw [List.map_cons]
      exact Lines.append (l := [(loc, target, v.text)]) (d := [(target, v.text)])
        ⟨rfl, by simp only [List.mem_singleton, forall_eq]; exact ⟨f, v, hmem, hv v (.head _), rfl, h3⟩⟩ h4
    · cases h

/-- The rules of a tree with places. -/
theorem findTargets_rules {t : Located.Tree} {kinds : List Str} {rs : List Rule} (hs : Searchable t.plain)
    (h : Located.findTargets false t kinds = some rs) : rs.map Rule.plain = rulesOf kinds t.plain := by
  have := Query.findTargets_report (ae := false) (rules := kinds) t.plain hs.proper
  rw [Located.findTargets_plain, h] at this
  simpa [Rules.rulesOf] using this

theorem canonRule_lines {m : Machine} {evaluated : Bool} {pattern : BazelPattern} {files : Holding} {pkg : BazelPackage}
    {f : Held} (hmem : (pkg, f) ∈ files) (hf : Located.From m evaluated pkg f) (hs : Searchable f.tree.plain) {rs : List Rule}
    (hrs : Located.findTargets false f.tree [] = some rs) {r : Rule} (hr : r ∈ rs) {said : List Str}
    (h : canonRule pattern pkg f.source r = some said) :
    ∃ lines, said = lines.map (fun x => invalidName x.1 x.2.2) ∧ Lines files lines
      ((match pkg.qualifiedTarget r.plain.name with
        | none => []
        | some t => if pattern.matchTarget t then (stringsOf r.plain.deps).map fun dep => (t, dep) else []).filter
          fun x => (BazelTarget.parseFrom x.2 x.1.package).isNone) := by
  unfold canonRule at h
  rw [show r.plain.name = r.name.text from rfl]
  cases hq : pkg.qualifiedTarget r.name.text with
  | none => rw [hq] at h; cases h; exact ⟨[], rfl, .nil⟩
  | some t =>
    rw [hq] at h
    simp only at h ⊢
    have hpkg := qualifiedTarget_package hq
    cases hm : pattern.matchTarget t with
    | false => simp only [hm] at h; cases h; exact ⟨[], rfl, .nil⟩
    | true =>
      simp only [hm] at h
      obtain ⟨vs, h1, h2⟩ := Option.bind_eq_some_iff.1 h
      have hrp : r.plain ∈ rulesOf [] f.tree.plain := by
        rw [← findTargets_rules hs hrs]; exact List.mem_map_of_mem hr
      have h3 := (lists hs hrp).2.2.2.2.1
      rw [show r.plain.deps = Located.plainRef r.deps from rfl, Located.stringList_plain, h1] at h3
      simp only [Option.map_some, Option.some.injEq] at h3
      obtain ⟨lines, e1, e2⟩ := each_lines (show_ := fun x => invalidName x.1 x.2.2) (target := t) (f := f)
        (by rw [hpkg]; exact hmem)
        (fun v hv => Located.stringList_all (from_rules hf hrs r hr).deps h1 v (List.mem_filter.1 hv).1) h2
      refine ⟨lines, e1, ?_⟩
      rw [show r.plain.deps = Located.plainRef r.deps from rfl, ← h3]
      simp only [if_true, List.map_map, List.filter_map]
      simpa [Function.comp_def, hpkg] using e2

/-- What `canonicalize` says. -/
theorem canonicalize_lines {m : Machine} {pattern : BazelPattern} {files : Holding}
    (hf : ∀ f ∈ files, ∃ evaluated, Located.From m evaluated f.1 f.2) (hs : ∀ f ∈ files, Searchable f.2.tree.plain)
    {said : List Str}
    (h : canonicalize pattern files = some said) :
    ∃ lines, said = lines.map (fun x => invalidName x.1 x.2.2) ∧ Lines files lines
      ((matchingDeps pattern (trees (Located.plainOf files))).filter
        fun x => (BazelTarget.parseFrom x.2 x.1.package).isNone) := by
  unfold canonicalize at h
  unfold matchingDeps
  rw [trees_plainOf, List.flatMap_map, List.filter_flatMap]
  refine mapAll_lines h ?_
  rintro ⟨pkg, f⟩ hmem said h
  simp only at h ⊢
  rw [List.filter_flatMap]
  split at h
  · rename_i hp
    cases h
    refine ⟨[], rfl, ?_⟩
    have key : ∀ d : List (BazelTarget × Str), d = [] → Lines files [] d := by rintro _ rfl; exact .nil
    refine key _ ?_
    rw [List.flatMap_eq_nil_iff]
    intro r _
    cases hq : pkg.qualifiedTarget r.name with
    | none => rfl
    | some t =>
      have : pattern.matchTarget t = false := by
        cases ht : pattern.matchTarget t with
        | false => rfl
        | true =>
          have := Props.C01_match_target_implies_package _ _ ht
          rw [qualifiedTarget_package hq] at this
          simp [this] at hp
      simp [this]
  · obtain ⟨rs, h1, h2⟩ := Option.bind_eq_some_iff.1 h
    rw [← findTargets_rules (hs _ hmem) h1, List.flatMap_map]
    obtain ⟨_, hfrom⟩ := hf _ hmem
    exact mapAll_lines h2 fun r hr y hy => canonRule_lines hmem hfrom (hs _ hmem) h1 hr hy

/-! ### Outputs -/

theorem sayGenrules_eq (l : List (BazelPackage × Str × Str × BazelTarget)) (made : List (Str × BazelTarget)) :
    Dwyu.sayGenrules made l = l.filterMap fun x =>
      (lookup (made ++ l.map fun x => (x.2.2.1, x.2.2.2)) x.2.2.1).bind fun other =>
        if x.1.project = [] ∧ other ≠ x.2.2.2 then some (.alsoCreated x.2.1 x.2.2.1 x.2.2.2 other) else none := by
  induction l generalizing made with
  | nil => rfl
  | cons x l ih =>
    obtain ⟨pkg, loc, path, target⟩ := x
    rw [Dwyu.sayGenrules, ih, List.filterMap_cons]
    have hlook : ∀ p, lookup (insertAll made [(path, target)] ++ l.map fun x => (x.2.2.1, x.2.2.2)) p =
        lookup (made ++ (path, target) :: l.map fun x => (x.2.2.1, x.2.2.2)) p := by
      intro p
      rw [Dwyu.lookup_append, insertAll_lookup, ← Dwyu.lookup_append, List.append_assoc]
      rfl
    simp only [hlook, List.map_cons]
    have hhead : lookup (made ++ (path, target) :: l.map fun x => (x.2.2.1, x.2.2.2)) path =
        some ((lookup made path).getD target) := by
      rw [Dwyu.lookup_append]
      cases lookup made path with
      | none => simp [lookup]
      | some o => rfl
    rw [hhead]
    cases hl : lookup made path with
    | none => simp
    | some o =>
      by_cases h1 : target = o
      · simp [h1]
      · have h2 : ¬ o = target := fun h => h1 h.symm
        cases hp : pkg.project with
        | nil => simp [h1, h2]
        | cons c cs => simp

theorem ruleOuts_lines {m : Machine} {evaluated : Bool} {files : Holding} {pkg : BazelPackage}
    {f : Held} (hmem : (pkg, f) ∈ files) (hf : Located.From m evaluated pkg f) (hs : Searchable f.tree.plain) {rs : List Rule}
    (hrs : Located.findTargets false f.tree [c!"genrule"] = some rs) {r : Rule} (hr : r ∈ rs)
    {outs : List (BazelPackage × Str × Str × BazelTarget)} (h : ruleOuts pkg f.source r = some outs) :
    ∃ lines, outs = lines.map (fun x => (x.2.1.package, x.1, x.2.1.package.qualifiedFile x.2.2, x.2.1)) ∧ Lines files lines
      (match pkg.qualifiedTarget r.plain.name with
        | none => []
        | some t => (stringsOf r.plain.outs).map fun o => (t, o)) := by
  unfold ruleOuts at h
  rw [show r.plain.name = r.name.text from rfl]
  cases h1 : Located.stringList r.outs with
  | none => rw [h1] at h; cases h
  | some vs =>
    rw [h1] at h
    cases hq : pkg.qualifiedTarget r.name.text with
    | none => rw [hq] at h; cases h; exact ⟨[], rfl, .nil⟩
    | some t =>
      rw [hq] at h
      have hpkg := qualifiedTarget_package hq
      subst hpkg
      have hrp : r.plain ∈ rulesOf [c!"genrule"] f.tree.plain := by
        rw [← findTargets_rules hs hrs]; exact List.mem_map_of_mem hr
      have h3 := (lists hs hrp).2.2.2.2.2.1
      rw [show r.plain.outs = Located.plainRef r.outs from rfl, Located.stringList_plain, h1] at h3
      simp only [Option.map_some, Option.some.injEq] at h3
      obtain ⟨lines, e1, e2⟩ := each_lines
        (show_ := fun x => (x.2.1.package, x.1, x.2.1.package.qualifiedFile x.2.2, x.2.1)) (target := t) (f := f) hmem
        (fun v hv => Located.stringList_all (from_rules hf hrs r hr).outs h1 v hv) h
      refine ⟨lines, e1, ?_⟩
      rw [show r.plain.outs = Located.plainRef r.outs from rfl, ← h3]
      simpa [Function.comp_def] using e2

/-- What is said about the outputs of `genrule`s. -/
theorem genrules_lines {m : Machine} {files : Holding} (hf : ∀ f ∈ files, ∃ evaluated, Located.From m evaluated f.1 f.2)
    (hs : ∀ f ∈ files, Searchable f.2.tree.plain) {said : List Dwyu.Message} (h : genrules files = some said) :
    ∃ lines, said.map Dwyu.Message.text =
        lines.filterMap (fun x => aboutOutput (makes (trees (Located.plainOf files))) x.1 x.2.1 x.2.2) ∧
      Lines files lines (makes (trees (Located.plainOf files))) := by
  unfold genrules at h
  obtain ⟨outs, h1, rfl⟩ := Option.map_eq_some_iff.1 h
  have key : ∃ lines, outs = lines.map (fun x => (x.2.1.package, x.1, x.2.1.package.qualifiedFile x.2.2, x.2.1)) ∧
      Lines files lines (makes (trees (Located.plainOf files))) := by
    unfold makes
    rw [trees_plainOf, List.flatMap_map]
    refine mapAll_lines h1 ?_
    rintro ⟨pkg, f⟩ hmem said h
    obtain ⟨rs, h1, h2⟩ := Option.bind_eq_some_iff.1 h
    rw [← findTargets_rules (hs _ hmem) h1, List.flatMap_map]
    obtain ⟨_, hfrom⟩ := hf _ hmem
    exact mapAll_lines h2 fun r hr y hy => ruleOuts_lines hmem hfrom (hs _ hmem) h1 hr hy
  obtain ⟨lines, rfl, h2⟩ := key
  refine ⟨lines, ?_, h2⟩
  have hlook : ∀ p, lookup (([] : List (Str × BazelTarget)) ++
      (lines.map fun x => (x.2.1.package, x.1, x.2.1.package.qualifiedFile x.2.2, x.2.1)).map fun x => (x.2.2.1, x.2.2.2)) p =
        firstMaker (makes (trees (Located.plainOf files))) p := by
    intro p
    rw [← h2.1]
    simp [lookup, firstMaker, List.find?_map, Function.comp_def]
  rw [sayGenrules_eq]
  simp only [hlook, List.filterMap_map, List.map_filterMap]
  congr 1
  funext x
  simp only [Function.comp, aboutOutput]
  cases firstMaker (makes (trees (Located.plainOf files))) (x.2.1.package.qualifiedFile x.2.2) with
  | none => rfl
  | some o =>
    simp only [Option.bind_some]
    split <;> rfl

/-! ### `dwyu` -/

/-- The location is that of a text in the BUILD file of the package. -/
def At (files : Holding) (pkg : BazelPackage) (text loc : Str) : Prop :=
  ∃ f v, (pkg, f) ∈ files ∧ Fine f.source.content v ∧ v.text = text ∧ f.source.loc v = some loc

/-- The locations for a rule are right. -/
structure PlacesAt (files : Holding) (pkg : BazelPackage) (r : Query.Result) (target : BazelTarget) (p : Dwyu.Places) :
    Prop where
  name : At files pkg r.name (p.name r target)
  source : ∀ n s, (DwyuSpec.sourcesOf r)[n]? = some s → At files pkg s (p.source r target n)
  dep : ∀ n s, (stringsOf r.deps)[n]? = some s → At files pkg s (p.dep r target n)
  known : ∀ r', DwyuSpec.Library (trees (Located.plainOf files)) target r' → At files pkg r'.name (p.known target)

theorem mapAll_gathered {α β γ δ : Type} {show_ : γ → β} {key : γ → δ} {P : γ → Prop} {l : List α}
    {f : α → Option (List β)} {g : α → List δ} {said : List β} (h : mapAll f l = some said)
    (hf : ∀ x ∈ l, ∀ y, f x = some y → ∃ ls : List γ, y = ls.map show_ ∧ ls.map key = g x ∧ ∀ z ∈ ls, P z) :
    ∃ ls : List γ, said = ls.map show_ ∧ ls.map key = l.flatMap g ∧ ∀ z ∈ ls, P z := by
  induction l generalizing said with
  | nil => cases h; exact ⟨[], rfl, rfl, by simp⟩
  | cons x l ih =>
    rw [mapAll] at h
    cases h1 : f x with
    | none => rw [h1] at h; cases h
    | some y =>
      rw [h1] at h
      obtain ⟨ys, h2, rfl⟩ := Option.map_eq_some_iff.1 h
      obtain ⟨l1, rfl, h3, h4⟩ := hf x (.head _) _ h1
      obtain ⟨l2, rfl, h5, h6⟩ := ih h2 fun x hx => hf x (.tail _ hx)
      exact ⟨l1 ++ l2, by rw [List.map_append], by rw [List.flatMap_cons, List.map_append, h3, h5],
        fun z hz => (List.mem_append.1 hz).elim (h4 z) (h6 z)⟩

theorem each_get {α β : Type} {f : α → Option β} {l : List α} {r : List β} (h : each f l = some r) :
    ∀ (n : Nat) x, l[n]? = some x → ∃ y, r[n]? = some y ∧ f x = some y := by
  induction l generalizing r with
  | nil => intro n x hx; simp at hx
  | cons a l ih =>
    rw [each] at h
    split at h
    · rename_i y ys h1 h2
      cases h
      intro n x hx
      cases n with
      | zero => simp at hx; subst hx; exact ⟨y, rfl, h1⟩
      | succ n => exact ih h2 n x hx
    · cases h

theorem each_length {α β : Type} {f : α → Option β} {l : List α} {r : List β} (h : each f l = some r) :
    r.length = l.length := by
  induction l generalizing r with
  | nil => cases h; rfl
  | cons a l ih =>
    rw [each] at h
    split at h
    · rename_i y ys h1 h2
      cases h
      simp [ih h2]
    · cases h

/-- The location of a library. -/
theorem knownLoc_at {m : Machine} {files : Holding} (hn : (files.map (·.1)).Nodup)
    (hf : ∀ f ∈ files, ∃ evaluated, Located.From m evaluated f.1 f.2) (hs : ∀ f ∈ files, Searchable f.2.tree.plain)
    {t : BazelTarget} {r : Query.Result} (h : DwyuSpec.Library (trees (Located.plainOf files)) t r) :
    At files t.package r.name (knownLoc files t) := by
  obtain ⟨before, after, h1, h2⟩ := h
  have hfind : (DwyuSpec.libraries (trees (Located.plainOf files))).find? (fun e => decide (e.1 = t)) = some (t, r) := by
    rw [h1, List.find?_append, List.find?_eq_none.2 (by simpa using h2)]
    simp
  unfold DwyuSpec.libraries at hfind
  rw [trees_plainOf, List.flatMap_map, List.find?_flatMap] at hfind
  obtain ⟨⟨pkg, f⟩, hmem, hfind⟩ := List.exists_of_findSome?_eq_some hfind
  simp only at hfind
  obtain ⟨ev, hfrom⟩ := hf _ hmem
  have hsome : ∃ rs, Located.findTargets false f.tree
      [c!"cc_library", c!"alias", c!"cc_proto_library", c!"grpc_cc_library", c!"cc_test"] = some rs := by
    have := Query.findTargets_report (ae := false)
      (rules := [c!"cc_library", c!"alias", c!"cc_proto_library", c!"grpc_cc_library", c!"cc_test"]) f.tree.plain
      (hs _ hmem).proper
    rw [Located.findTargets_plain] at this
    obtain ⟨rs, h, _⟩ := Option.map_eq_some_iff.1 this
    exact ⟨rs, h⟩
  obtain ⟨rs, hrs⟩ := hsome
  rw [← findTargets_rules (hs _ hmem) hrs, List.flatMap_map, List.find?_flatMap] at hfind
  have key : ∀ l : List Rule, (l.findSome? fun r' => List.find? (fun e : BazelTarget × Query.Result => decide (e.1 = t))
        (match pkg.qualifiedTarget r'.plain.name with
          | none => []
          | some t => [(t, r'.plain)])) = some (t, r) →
      ∃ r' ∈ l, l.find? (fun r' => decide (pkg.qualifiedTarget r'.name.text = some t)) = some r' ∧ r'.plain = r ∧
        pkg.qualifiedTarget r'.name.text = some t := by
    intro l
    induction l with
    | nil => intro h; cases h
    | cons a l ih =>
      intro h
      rw [List.findSome?_cons] at h
      rw [show a.plain.name = a.name.text from rfl] at h
      by_cases hq : pkg.qualifiedTarget a.name.text = some t
      · rw [hq] at h
        simp only [List.find?_cons, decide_true, Option.some.injEq, Prod.mk.injEq, true_and] at h
        exact ⟨a, .head _, by simp [hq], h, hq⟩
      · have hno : List.find? (fun e : BazelTarget × Query.Result => decide (e.1 = t))
            (match pkg.qualifiedTarget a.name.text with
              | none => []
              | some t => [(t, a.plain)]) = none := by
          cases hq' : pkg.qualifiedTarget a.name.text with
          | none => rfl
          | some t' =>
            have : t' ≠ t := by rintro rfl; exact hq hq'
            simp [this]
        rw [hno] at h
        obtain ⟨r', g1, g2, g3⟩ := ih h
        exact ⟨r', .tail _ g1, by simp [hq, g2], g3⟩
  obtain ⟨r', hr', g1, rfl, g2⟩ := key rs hfind
  have hpkg := qualifiedTarget_package g2
  subst hpkg
  have hfine := (from_rules hfrom hrs r' hr').name (findTargets_named hrs rfl r' hr')
  obtain ⟨loc, hloc⟩ := hfrom.loc hfine
  refine ⟨f, r'.name, hmem, hfine, rfl, ?_⟩
  unfold knownLoc
  rw [(mem_lookup hn).1 hmem, Option.bind_some, hrs, Option.bind_some, g1, Option.bind_some, hloc]
  rfl

/-- The locations for a rule. -/
theorem rulePlaces_at {m : Machine} {evaluated : Bool} {files : Holding} (hn : (files.map (·.1)).Nodup)
    (hall : ∀ f ∈ files, ∃ evaluated, Located.From m evaluated f.1 f.2) (hsall : ∀ f ∈ files, Searchable f.2.tree.plain)
    {pkg : BazelPackage} {f : Held} (hmem : (pkg, f) ∈ files) (hf : Located.From m evaluated pkg f) {kinds : List Str}
    {rs : List Rule} (hrs : Located.findTargets false f.tree kinds = some rs) {r : Rule} (hr : r ∈ rs)
    {target : BazelTarget} (hq : pkg.qualifiedTarget r.plain.name = some target) {places : Dwyu.Places}
    (h : rulePlaces files f.source r = some places) : PlacesAt files pkg r.plain target places := by
  unfold rulePlaces at h
  split at h
  · rename_i name srcs hdrs deps h1 h2 h3 h4
    cases h
    have hs := hsall _ hmem
    have hrp : r.plain ∈ rulesOf kinds f.tree.plain := by
      rw [← findTargets_rules hs hrs]; exact List.mem_map_of_mem hr
    have hra := from_rules hf hrs r hr
    have key : ∀ (l : Option Located.ListRef) (locs : List Str),
        Query.stringList (Located.plainRef l) = some (stringsOf (Located.plainRef l)) →
        Located.RefAll (Fine f.source.content) (Located.RangeIn f.source.content) (InFile f.source.content) l →
        (Located.stringList l).bind (each f.source.loc) = some locs →
        locs.length = (stringsOf (Located.plainRef l)).length ∧
        ∀ n s, (stringsOf (Located.plainRef l))[n]? = some s → At files pkg s (locs.getD n []) := by
      intro l locs g1 g2 g3
      obtain ⟨vs, g4, g5⟩ := Option.bind_eq_some_iff.1 g3
      rw [Located.stringList_plain, g4] at g1
      simp only [Option.map_some, Option.some.injEq] at g1
      rw [← g1]
      refine ⟨by rw [each_length g5, List.length_map], fun n s hs => ?_⟩
      rw [List.getElem?_map] at hs
      obtain ⟨v, g6, rfl⟩ := Option.map_eq_some_iff.1 hs
      obtain ⟨loc, g7, g8⟩ := each_get g5 n v g6
      refine ⟨f, v, hmem, Located.stringList_all g2 g4 v (List.mem_of_getElem? g6), rfl, ?_⟩
      rw [List.getD_eq_getElem?_getD, g7, g8]
      rfl
    have hl := lists hs hrp
    have hsrcs := key r.srcs srcs hl.1 hra.srcs h2
    have hhdrs := key r.hdrs hdrs hl.2.1 hra.hdrs h3
    have hdeps := key r.deps deps hl.2.2.2.2.1 hra.deps h4
    have hpkg := qualifiedTarget_package hq
    refine ⟨⟨f, r.name, hmem, hra.name (findTargets_named hrs rfl r hr), rfl, h1⟩, fun n s hns => ?_,
      fun n s hns => hdeps.2 n s hns, fun r' hr' => ?_⟩
    · unfold DwyuSpec.sourcesOf at hns
      rw [show r.plain.srcs = Located.plainRef r.srcs from rfl, show r.plain.hdrs = Located.plainRef r.hdrs from rfl] at hns
      show At files pkg s ((srcs ++ hdrs).getD n [])
      rw [List.getD_eq_getElem?_getD]
      rw [List.getElem?_append] at hns ⊢
      rw [hsrcs.1]
      split at hns
      · rename_i hlt
        rw [if_pos hlt, ← List.getD_eq_getElem?_getD]
        exact hsrcs.2 n s hns
      · rename_i hlt
        rw [if_neg hlt, ← List.getD_eq_getElem?_getD]
        exact hhdrs.2 _ s hns
    · have := knownLoc_at hn hall hsall hr'
      rw [hpkg] at this
      exact this
  · cases h

/-- What `dwyu` says: for each rule that is looked at, in order. -/
theorem dwyu_said {m : Machine} {flags : Flags} {ws : Workspace.Map} {pattern : BazelPattern} {files : Holding}
    (hn : (files.map (·.1)).Nodup) (hf : ∀ f ∈ files, ∃ evaluated, Located.From m evaluated f.1 f.2)
    (hs : ∀ f ∈ files, Searchable f.2.tree.plain) {ms : List Dwyu.Message} (h : dwyu m flags ws pattern files = some ms) :
    ∃ (near : Str → Option Str) (first : List Dwyu.Message) (edits : List Edit)
      (per : List ((BazelPackage × Query.Result × BazelTarget) × List Dwyu.Message)),
      DwyuSpec.Reading (trees (Located.plainOf files)) near ∧ genrules files = some first ∧
      Located.dependencyEdits m flags ws pattern files = some edits ∧
      per.map (·.1) = DwyuSpec.selected (trees (Located.plainOf files)) pattern ∧
      ms = first ++ per.flatMap (·.2) ++ [.checked per.length edits.length] ∧
      ∀ x ∈ per, ∃ places line its sets needed removed libs, PlacesAt files x.1.1 x.1.2.1 x.1.2.2 places ∧
        DwyuSpec.Account (trees (Located.plainOf files)) ⟨m.fs.content, ws, line, flags.ignoreKeep⟩ x.1.1 x.1.2.1 x.1.2.2
          its sets needed removed libs ∧
        ∀ msg, msg ∈ x.2 ↔ DwyuSpec.Says (trees (Located.plainOf files)) ⟨m.fs.content, ws, line, flags.ignoreKeep⟩
          ⟨flags.verbose, m.color, places⟩ near x.1.1 x.1.2.1 x.1.2.2 needed msg := by
  have hst : ∀ f ∈ trees (Located.plainOf files), Searchable f.2 := by
    rw [trees_plainOf]
    intro f hfm
    obtain ⟨g, hg, rfl⟩ := List.mem_map.1 hfm
    exact hs g hg
  obtain ⟨gen, hc, hm⟩ := Dwyu.create_made hst
  obtain ⟨made, hg, hl⟩ := Props.C57_genrules _ hst
  have hl : ∀ path, lookup made path = DwyuSpec.madeBy (trees (Located.plainOf files)) path := hl
  unfold dwyu at h
  simp only [hc, hg] at h
  cases hfirst : genrules files with
  | none => rw [hfirst] at h; cases h
  | some first =>
    rw [hfirst] at h
    simp only at h
    split at h
    · rename_i said edits h1 h2
      cases h
      have hper := mapAll_gathered (γ := (BazelPackage × Query.Result × BazelTarget) × List Dwyu.Message)
        (show_ := (·.2)) (key := (·.1))
        (P := fun x => ∃ places line its sets needed removed libs, PlacesAt files x.1.1 x.1.2.1 x.1.2.2 places ∧
          DwyuSpec.Account (trees (Located.plainOf files)) ⟨m.fs.content, ws, line, flags.ignoreKeep⟩ x.1.1 x.1.2.1 x.1.2.2
            its sets needed removed libs ∧
          ∀ msg, msg ∈ x.2 ↔ DwyuSpec.Says (trees (Located.plainOf files)) ⟨m.fs.content, ws, line, flags.ignoreKeep⟩
            ⟨flags.verbose, m.color, places⟩ (Dwyu.nearOf gen) x.1.1 x.1.2.1 x.1.2.2 needed msg)
        (g := fun f => (rulesOf [c!"cc_library", c!"cc_binary", c!"cc_test"] f.2.tree.plain).flatMap fun r =>
          match f.1.qualifiedTarget r.name with
          | none => []
          | some t => if pattern.matchTarget t then [(f.1, r, t)] else []) h1 ?_
      · obtain ⟨per, rfl, e2, e3⟩ := hper
        refine ⟨Dwyu.nearOf gen, first, edits, per, Dwyu.reading_of hm, rfl, h2, ?_, ?_, e3⟩
        · rw [e2, DwyuSpec.selected, trees_plainOf, List.flatMap_map]; rfl
        · rw [List.length_map, List.flatMap_def]
      · rintro ⟨pkg, f⟩ hmem y hy
        obtain ⟨ev, hfrom⟩ := hf _ hmem
        simp only at hy ⊢
        split at hy
        · rename_i hp
          cases hy
          refine ⟨[], rfl, ?_, by simp⟩
          symm
          rw [List.map_nil, List.flatMap_eq_nil_iff]
          intro r _
          cases hq : pkg.qualifiedTarget r.name with
          | none => rfl
          | some t =>
            have : pattern.matchTarget t = false := by
              cases ht : pattern.matchTarget t with
              | false => rfl
              | true =>
                have := Props.C01_match_target_implies_package _ _ ht
                rw [qualifiedTarget_package hq] at this
                simp [this] at hp
            simp [this]
        · obtain ⟨rs, hrs, h4⟩ := Option.bind_eq_some_iff.1 hy
          rw [← findTargets_rules (hs _ hmem) hrs, List.flatMap_map]
          refine mapAll_gathered h4 fun r hr y hy => ?_
          unfold dwyuRule at hy
          rw [show r.plain.name = r.name.text from rfl]
          cases hq : pkg.qualifiedTarget r.name.text with
          | none => rw [hq] at hy; cases hy; exact ⟨[], rfl, rfl, by simp⟩
          | some target =>
            rw [hq] at hy
            simp only at hy ⊢
            cases hmt : pattern.matchTarget target with
            | false => simp only [hmt] at hy; cases hy; exact ⟨[], rfl, rfl, by simp⟩
            | true =>
              simp only [hmt, Bool.not_true, Bool.false_eq_true, if_false] at hy
              split at hy
              · rename_i places lines hpl hli
                obtain ⟨ms, hms, rfl⟩ := Option.map_eq_some_iff.1 hy
                have hrule : DwyuSpec.Rule (trees (Located.plainOf files)) pkg r.plain target := by
                  refine ⟨f.tree.plain, ?_, ?_, hq⟩
                  · rw [trees_plainOf]; exact List.mem_map.2 ⟨_, hmem, rfl⟩
                  · rw [← findTargets_rules (hs _ hmem) hrs]; exact List.mem_map_of_mem hr
                obtain ⟨its, sets, needed, removed, libs, ms', _, k2, k3, k4⟩ := Dwyu.rule_says hm hst
                  ⟨flags.verbose, m.color, places⟩
                  ⟨m.fs.content, ws, fun _ _ n => lines.getD n [], flags.ignoreKeep⟩ hl hrule
                rw [hms] at k3
                cases k3
                refine ⟨[((pkg, r.plain, target), ms)], rfl, rfl, ?_⟩
                simp only [List.mem_singleton, forall_eq]
                exact ⟨places, _, its, sets, needed, removed, libs,
                  rulePlaces_at hn hf hs hmem hfrom hrs hr hq hpl, k2, k4⟩
              · cases hy
    · cases h

end Stderr
end Bant
