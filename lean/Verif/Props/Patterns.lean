import Verif.Model.TargetGlob
import Verif.Lemmas.TypesBazel
import Verif.Lemmas.Regex

/-!
# Properties C01, C02, C07, C08: target patterns and visibility

`compile` stands for any regular expression engine in C01, C02 and C07.
-/
namespace Bant.Props
open Bant Spec

/-! ## Specification -/

/-- Packages at or below `path` in project `project`. -/
def AtOrBelow (project path : Str) (p : BazelPackage) : Prop :=
  p.project = project ∧ (path = [] ∨ p.path = path ∨ ∃ rest, p.path = path ++ '/' :: rest)

/-- Project that a label text refers to when written in `ctx`. -/
def effectiveProject (pr : Str) (ctx : BazelPackage) : Str := if pr = [] then ctx.project else pr

/-- Shell globbing with `*` only. -/
def GlobMatches : Str → Str → Prop
  | [], s => s = []
  | c :: g, s =>
    if c = '*' then ∃ u v, s = u ++ v ∧ GlobMatches g v
    else ∃ t, s = c :: t ∧ GlobMatches g t

/-! ## C01 -/

/-- C01: a target that matches a pattern is in a package that matches the pattern. Holds
for every pattern object, so for each one made by `ParseFrom`, `ParseVisibility` or the
default constructor. -/
theorem C01_match_target_implies_package (bp : BazelPattern) (t : BazelTarget)
    (h : bp.matchTarget t = true) : bp.matchPackage t.package = true := by
  obtain ⟨pat, kind⟩ := bp
  cases kind with
  | exact =>
    simp [BazelPattern.matchTarget] at h
    simp [BazelPattern.matchPackage, h]
  | targetRegex re =>
    simp [BazelPattern.matchTarget] at h
    simp [BazelPattern.matchPackage, h.1]
  | allTargetInPackage => simpa [BazelPattern.matchTarget, BazelPattern.matchPackage] using h
  | recursive => simpa [BazelPattern.matchTarget] using h
  | alwaysMatch => rfl

/-- C01: consequence for pruning: looking only into the packages that match a pattern
finds all targets that match. -/
theorem C01_pruning_loses_nothing (bp : BazelPattern) (targets : List BazelTarget) :
    (targets.filter fun t => bp.matchPackage t.package).filter bp.matchTarget
      = targets.filter bp.matchTarget := by
  rw [List.filter_filter]
  congr 1
  funext t
  cases h : bp.matchTarget t with
  | false => simp
  | true => simp [C01_match_target_implies_package bp t h]

/-! ## C02 -/

theorem matchPackage_recursive (proj path n : Str) (p : BazelPackage) :
    (BazelPattern.matchPackage ⟨⟨⟨proj, path⟩, n⟩, .recursive⟩ p = true)
      ↔ AtOrBelow proj path p := by
  simp only [BazelPattern.matchPackage, AtOrBelow]
  by_cases hpr : p.project = proj
  · simp only [hpr, ne_eq, not_true, if_false, true_and]
    by_cases hpath : path = []
    · simp [hpath]
    · simp only [hpath, if_false, false_or, startsWith, Bool.and_eq_true, Bool.or_eq_true,
        beq_iff_eq, List.isPrefixOf_iff_prefix]
      constructor
      · rintro ⟨⟨r, hr⟩, hb⟩
        cases r with
        | nil => left; simpa using hr.symm
        | cons x xs =>
          right
          rcases hb with hb | hb
          · rw [← hr] at hb; simp at hb
          · rw [← hr] at hb; simp at hb
            exact ⟨xs, by rw [← hr, hb]⟩
      · rintro (h | ⟨r, h⟩)
        · rw [h]; simp
        · rw [h]; simp
  · simp [hpr]

/-- C02: `<project>//<path>/...` selects exactly the packages at or below the path in the
project; also for an empty path (`//...`). -/
theorem C02_recursive_pattern (compile : Str → Option (Str → Bool)) (pr : Str)
    (hpr : WfProject pr) (comps : List Str) (hc : ∀ c ∈ comps, WfComponent c)
    (ctx : BazelPackage) :
    ∃ bp, BazelPattern.parseFrom compile
        (pr ++ c!"//" ++ joinPath (comps ++ [c!"..."])) ctx = some bp ∧
      (∀ p, bp.matchPackage p = true
        ↔ AtOrBelow (effectiveProject pr ctx) (joinPath comps) p) ∧
      (∀ t, bp.matchTarget t = true
        ↔ AtOrBelow (effectiveProject pr ctx) (joinPath comps) t.package) := by
  have hd : WfComponent c!"..." := by simp [WfComponent]
  have hparse := targetParse_compact pr hpr comps hc hd ctx
  have hproj : (inContext ⟨⟨pr, joinPath (comps ++ [c!"..."])⟩, c!"..."⟩ ctx).package.project
      = effectiveProject pr ctx := by
    by_cases h : pr = [] <;> simp [inContext, effectiveProject, h]
  have hpath : joinPath (comps ++ [c!"..."]) = c!"..." ∧ joinPath comps = [] ∨
      joinPath (comps ++ [c!"..."]) = joinPath comps ++ c!"/..." := by
    cases comps with
    | nil => left; exact ⟨rfl, rfl⟩
    | cons c cs => right; exact joinPath_snoc _ _ (by simp)
  have hcond : joinPath (comps ++ [c!"..."]) = c!"..." ∨
      endsWith (joinPath (comps ++ [c!"..."])) c!"/..." = true := by
    rcases hpath with h | h
    · exact .inl h.1
    · right; rw [h]; simp only [endsWith, List.isSuffixOf_iff_suffix]; exact List.suffix_append _ _
  have hstrip : BazelPattern.stripDots (joinPath (comps ++ [c!"..."])) = joinPath comps := by
    rcases hpath with h | h
    · rw [h.1, h.2]; exact stripDots_dots
    · rw [h]; exact stripDots_path _
  refine ⟨⟨⟨⟨effectiveProject pr ctx, joinPath comps⟩, []⟩, .recursive⟩, ?_, ?_, ?_⟩
  · simp only [BazelPattern.parseFrom, hparse, inContext_name, inContext_path, hcond, if_true,
      hstrip, hproj]
    simp
  · intro p; exact matchPackage_recursive _ _ _ p
  · intro t; exact matchPackage_recursive _ _ _ t.package

/-- C02: on the command line the leading slashes may be left out for the main project. -/
theorem C02_recursive_pattern_relative (compile : Str → Option (Str → Bool)) :
    (∃ bp, BazelPattern.parse compile c!"..." = some bp ∧
      (∀ p, bp.matchPackage p = true ↔ p.project = [])) ∧
    (∀ comps : List Str, comps ≠ [] → (∀ c ∈ comps, WfComponent c) →
      (joinPath comps).head? ≠ some '@' →
      ∃ bp, BazelPattern.parse compile (joinPath (comps ++ [c!"..."])) = some bp ∧
        ∀ p, bp.matchPackage p = true ↔ AtOrBelow [] (joinPath comps) p) := by
  constructor
  · refine ⟨⟨⟨⟨[], []⟩, []⟩, .recursive⟩, rfl, ?_⟩
    intro p
    rw [matchPackage_recursive]
    simp [AtOrBelow]
  · intro comps hne hc hat
    have hd : WfComponent c!"..." := by simp [WfComponent]
    have hw := wfPath_snoc hc hd
    have f := wfPath_facts hw
    have hj := joinPath_snoc comps c!"..." hne
    have hl : splitLast '/' (joinPath (comps ++ [c!"..."])) = some (joinPath comps, c!"...") := by
      rw [hj]; exact splitLast_append (by decide)
    have hat' : ∀ r, joinPath (comps ++ [c!"..."]) ≠ '@' :: r := by
      intro r hr
      rw [hj] at hr
      cases hjc : joinPath comps with
      | nil => rw [hjc] at hr; simp at hr
      | cons x xs => rw [hjc] at hr hat; simp at hr hat; exact hat hr.1
    have hpkg : BazelPackage.parseFrom (joinPath (comps ++ [c!"..."]))
        = some ⟨[], joinPath (comps ++ [c!"..."])⟩ := by
      have hlen : ¬ (joinPath (comps ++ [c!"..."])).length < 2 := by
        rw [hj]; simp
      have hpp : BazelPackage.projectAndPath (joinPath (comps ++ [c!"..."]))
          = ([], joinPath (comps ++ [c!"..."])) := by
        unfold BazelPackage.projectAndPath
        split
        · rename_i r heq; exact absurd heq (hat' r)
        · rfl
      simp only [BazelPackage.parseFrom, beforeLast_of_not_mem f.2.2.2, hlen, if_false, hpp,
        stripFront_of_head f.1, stripBack_of_last f.2.1, f.2.2.1]
      simp [beforeFirst]
    have hparse : BazelTarget.parseFrom (joinPath (comps ++ [c!"..."])) ⟨[], []⟩
        = some ⟨⟨[], joinPath (comps ++ [c!"..."])⟩, c!"..."⟩ := by
      have hnn : joinPath (comps ++ [c!"..."]) ≠ [] := by rw [hj]; simp
      simp only [BazelTarget.parseFrom, splitAll_of_not_mem f.2.2.2, hl, BazelTarget.assemble,
        hnn, if_false, hpkg]
      simp
    have hcond : endsWith (joinPath (comps ++ [c!"..."])) c!"/..." = true := by
      rw [hj]; simp only [endsWith, List.isSuffixOf_iff_suffix]; exact List.suffix_append _ _
    refine ⟨⟨⟨⟨[], joinPath comps⟩, []⟩, .recursive⟩, ?_, ?_⟩
    · simp only [BazelPattern.parse, BazelPattern.parseFrom, hparse, hcond, or_true, if_true]
      have := stripDots_path (joinPath comps)
      have e : joinPath comps ++ c!"/..." = joinPath (comps ++ [c!"..."]) := hj.symm
      rw [e] at this
      simp [this]
    · intro p; exact matchPackage_recursive _ _ _ p

/-- C02: never across a component boundary. -/
theorem C02_boundary (compile : Str → Option (Str → Bool)) (pr : Str)
    (hpr : WfProject pr) (comps : List Str) (hc : ∀ c ∈ comps, WfComponent c) (hne : comps ≠ [])
    (ctx : BazelPackage) (bp : BazelPattern)
    (h : BazelPattern.parseFrom compile
        (pr ++ c!"//" ++ joinPath (comps ++ [c!"..."])) ctx = some bp)
    (x : Char) (hx : x ≠ '/') (rest : Str) :
    bp.matchPackage ⟨effectiveProject pr ctx, joinPath comps ++ x :: rest⟩ = false := by
  obtain ⟨bp', h', hm, _⟩ := C02_recursive_pattern compile pr hpr comps hc ctx
  rw [h] at h'
  cases h'
  cases hb : bp.matchPackage ⟨effectiveProject pr ctx, joinPath comps ++ x :: rest⟩ with
  | false => rfl
  | true =>
    have := (hm _).1 hb
    rcases this with ⟨_, h | h | ⟨r, h⟩⟩
    · cases comps with
      | nil => exact absurd rfl hne
      | cons c cs => exact absurd h (joinPath_ne_nil (hc c (by simp)).1)
    · simp at h
    · simp at h; exact absurd h.1 hx

/-- `//foo/...:all` (and likewise `:*`) is accepted but selects no target of package
`//foo`: the dots are not interpreted if a target is given. -/
theorem C02_dots_all_counterexample (compile : Str → Option (Str → Bool)) :
    ∃ bp, BazelPattern.parse compile c!"//foo/...:all" = some bp ∧
      bp.matchTarget ⟨⟨[], c!"foo"⟩, c!"x"⟩ = false ∧
      bp.matchTarget ⟨⟨[], c!"foo/bar"⟩, c!"x"⟩ = false :=
  ⟨⟨⟨⟨[], c!"foo/..."⟩, []⟩, .allTargetInPackage⟩, rfl, by decide, by decide⟩

/-! ## C07 -/

/-- C07: public. -/
theorem C07_public (compile : Str → Option (Str → Bool)) (ctx : BazelPackage) :
    ∃ bp, BazelPattern.parseVisibility compile c!"//visibility:public" ctx = some bp ∧
      ∀ t, bp.matchTarget t = true :=
  ⟨.always, rfl, fun _ => rfl⟩

/-- C07: private means visible in the package where it is written only. -/
theorem C07_private (compile : Str → Option (Str → Bool)) (ctx : BazelPackage) :
    ∃ bp, BazelPattern.parseVisibility compile c!"//visibility:private" ctx = some bp ∧
      ∀ t, bp.matchTarget t = true ↔ t.package = ctx := by
  refine ⟨⟨⟨ctx, []⟩, .allTargetInPackage⟩, rfl, ?_⟩
  intro t
  simp [BazelPattern.matchTarget]

theorem endsWith_append (a b : Str) : endsWith (a ++ b) b = true := by
  simp only [endsWith, List.isSuffixOf_iff_suffix]; exact List.suffix_append _ _

theorem parseVisibility_label (compile : Str → Option (Str → Bool)) (s : Str)
    (ctx : BazelPackage) (n : Str) (h1 : n = c!"__pkg__" ∨ n = c!"__subpackages__") :
    BazelPattern.parseVisibility compile (s ++ ':' :: n) ctx
      = BazelPattern.parseFrom compile (s ++ ':' :: n) ctx := by
  have hsuf : endsWith (s ++ ':' :: n) c!"__" = true := by
    simp only [endsWith, List.isSuffixOf_iff_suffix]
    rcases h1 with rfl | rfl
    · exact ⟨s ++ c!":__pkg", by simp⟩
    · exact ⟨s ++ c!":__subpackages", by simp⟩
  have n1 : s ++ ':' :: n ≠ c!"//visibility:public" := by
    intro h; rw [h] at hsuf; revert hsuf; decide
  have n2 : s ++ ':' :: n ≠ c!"//visibility:private" := by
    intro h; rw [h] at hsuf; revert hsuf; decide
  simp [BazelPattern.parseVisibility, n1, n2, hsuf]

/-- C07: `//path:__pkg__` selects exactly the targets of that package. -/
theorem C07_pkg (compile : Str → Option (Str → Bool)) (p : BazelPackage) (hp : WfPackage p)
    (ctx : BazelPackage) :
    ∃ bp, BazelPattern.parseVisibility compile (p.toString ++ c!":__pkg__") ctx = some bp ∧
      ∀ t, bp.matchTarget t = true ↔ t.package = ⟨effectiveProject p.project ctx, p.path⟩ := by
  have h := targetParse_full hp (n := c!"__pkg__") (by decide) ctx
  rw [parseVisibility_label _ _ _ _ (.inl rfl)]
  refine ⟨⟨⟨⟨effectiveProject p.project ctx, p.path⟩, []⟩, .allTargetInPackage⟩, ?_, ?_⟩
  · simp only [BazelPattern.parseFrom, h, inContext_name]
    by_cases h0 : p.project = [] <;> simp [inContext, effectiveProject, h0]
  · intro t; simp [BazelPattern.matchTarget]

/-- C07: `//path:__subpackages__` selects exactly the targets at or below the package. -/
theorem C07_subpackages (compile : Str → Option (Str → Bool)) (p : BazelPackage)
    (hp : WfPackage p) (ctx : BazelPackage) :
    ∃ bp, BazelPattern.parseVisibility compile (p.toString ++ c!":__subpackages__") ctx = some bp ∧
      ∀ t, bp.matchTarget t = true
        ↔ AtOrBelow (effectiveProject p.project ctx) p.path t.package := by
  have h := targetParse_full hp (n := c!"__subpackages__") (by decide) ctx
  rw [parseVisibility_label _ _ _ _ (.inr rfl)]
  refine ⟨⟨⟨⟨effectiveProject p.project ctx, p.path⟩, []⟩, .recursive⟩, ?_, ?_⟩
  · simp only [BazelPattern.parseFrom, h, inContext_name]
    by_cases h0 : p.project = [] <;> simp [inContext, effectiveProject, h0]
  · intro t; exact matchPackage_recursive _ _ _ t.package

/-- C07: the same two without package part refer to the package they are written in. -/
theorem C07_relative (compile : Str → Option (Str → Bool)) (ctx : BazelPackage) :
    (∃ bp, BazelPattern.parseVisibility compile c!":__pkg__" ctx = some bp ∧
      ∀ t, bp.matchTarget t = true ↔ t.package = ctx) ∧
    (∃ bp, BazelPattern.parseVisibility compile c!":__subpackages__" ctx = some bp ∧
      ∀ t, bp.matchTarget t = true ↔ AtOrBelow ctx.project ctx.path t.package) := by
  constructor
  · refine ⟨⟨⟨ctx, []⟩, .allTargetInPackage⟩, ?_, ?_⟩
    · have := parseVisibility_label compile [] ctx c!"__pkg__" (.inl rfl)
      simp only [List.nil_append] at this
      rw [this]; rfl
    · intro t; simp [BazelPattern.matchTarget]
  · refine ⟨⟨⟨ctx, []⟩, .recursive⟩, ?_, ?_⟩
    · have := parseVisibility_label compile [] ctx c!"__subpackages__" (.inr rfl)
      simp only [List.nil_append] at this
      rw [this]; rfl
    · intro t; exact matchPackage_recursive _ _ _ t.package

/-- C07: package groups are not understood and count as public (README, caveats). -/
theorem C07_package_group_is_public (compile : Str → Option (Str → Bool)) (s : Str)
    (ctx : BazelPackage) (h1 : s ≠ c!"//visibility:private")
    (h2 : endsWith s c!"..." = false) (h3 : endsWith s c!"__" = false) :
    ∃ bp, BazelPattern.parseVisibility compile s ctx = some bp ∧
      ∀ t, bp.matchTarget t = true := by
  refine ⟨.always, ?_, fun _ => rfl⟩
  simp [BazelPattern.parseVisibility, h1, h2, h3]

/-! ## C08 -/

/-- The text after the last `*`. -/
def tailAfterStar : Str → Str → Str
  | pre, [] => pre
  | pre, c :: g => if c = '*' then tailAfterStar [] g else tailAfterStar (pre ++ [c]) g

/-- Characters with a special meaning in regular expressions (at some place). -/
def reSpecial : Str := c!"\\^$.|?*+()[]{}"

theorem rePlain_of {c : Char} (h : c ∉ reSpecial) : rePlain c = true := by
  simp only [reSpecial, List.mem_cons, not_or] at h
  simp_all [rePlain]

/-- Items of the regular expression that is made from a glob. -/
def globItems (isFirst : Bool) (pre : Str) : Str → List ReItem
  | [] => pre.map (fun c => .one (.lit c))
  | c :: g =>
    if c = '*' then
      pre.map (fun c => .one (.lit c)) ++ (if isFirst || pre ≠ [] then [.star .dot] else [])
        ++ globItems false [] g
    else globItems isFirst (pre ++ [c]) g

theorem lits_toks (pre : Str) : (pre.map (fun c => ReItem.one (.lit c))).flatMap ReItem.toks
    = pre.map (fun c => ReTok.atom (.lit c)) := by
  induction pre with
  | nil => rfl
  | cons c cs ih => simp [ReItem.toks, ih]

theorem globItems_tokens (g pre : Str) (isFirst : Bool)
    (h : ∀ c ∈ tailAfterStar pre g, rePlain c = true) :
    reTokens (globbingGo isFirst pre g) = some ((globItems isFirst pre g).flatMap ReItem.toks) := by
  induction g generalizing pre isFirst with
  | nil =>
    have := reTokens_plains (s := []) h
    simp only [tailAfterStar, List.append_nil] at this
    simp only [globbingGo, globItems, this, reTokens]
    simp [lits_toks]
  | cons c g ih =>
    by_cases hc : c = '*'
    · simp only [tailAfterStar, hc, if_true] at h
      have ih := ih [] false h
      simp only [globbingGo, globItems, hc, if_true]
      rcases Bool.eq_false_or_eq_true (isFirst || pre ≠ []) with hcond | hcond
      · simp only [hcond, if_true, List.append_assoc]
        rw [reTokens_quoteMeta, reTokens_dotStar, ih]
        simp [List.flatMap_append, lits_toks, ReItem.toks]
      · simp only [hcond, Bool.false_eq_true, if_false, List.append_nil]
        rw [reTokens_quoteMeta, ih]
        simp [List.flatMap_append, lits_toks]
    · simp only [tailAfterStar, hc, if_false] at h
      simpa only [globbingGo, globItems, hc, if_false] using ih (pre ++ [c]) isFirst h

theorem globMatches_lits_append (pre g s : Str) (h : '*' ∉ pre) :
    GlobMatches (pre ++ g) s ↔ ∃ t, s = pre ++ t ∧ GlobMatches g t := by
  induction pre generalizing s with
  | nil => simp
  | cons c cs ih =>
    simp only [List.mem_cons, not_or] at h
    have hc : ¬ c = '*' := Ne.symm h.1
    simp only [List.cons_append, GlobMatches, hc, if_false]
    constructor
    · rintro ⟨t, rfl, ht⟩
      obtain ⟨t', rfl, h'⟩ := (ih _ h.2).1 ht
      exact ⟨t', rfl, h'⟩
    · rintro ⟨t, rfl, ht⟩
      exact ⟨cs ++ t, rfl, (ih _ h.2).2 ⟨t, rfl, ht⟩⟩

theorem lits_re (pre : Str) :
    (pre.map (fun c => ReItem.one (.lit c))).map ReItem.re = pre.map Regex.lit := by
  simp [ReItem.re]

/-- Matching the items is matching the glob. `isFirst = false` with empty `pre` only
occurs directly after a `*`, which has already taken an arbitrary text. -/
theorem globItems_matches (g pre s : Str) (isFirst : Bool) (hpre : '*' ∉ pre) (hs : '\n' ∉ s) :
    ((isFirst = true ∨ pre ≠ []) →
      (MatchesSeq ((globItems isFirst pre g).map ReItem.re) s ↔ GlobMatches (pre ++ g) s)) ∧
    (isFirst = false → pre = [] →
      ((∃ u v, s = u ++ v ∧ MatchesSeq ((globItems isFirst pre g).map ReItem.re) v)
        ↔ ∃ u v, s = u ++ v ∧ GlobMatches g v)) := by
  induction g generalizing pre s isFirst with
  | nil =>
    have e1 : ∀ s, MatchesSeq ((globItems isFirst pre []).map ReItem.re) s ↔ s = pre := by
      intro s
      simp only [globItems]
      rw [lits_re]; exact matchesSeq_lits
    constructor
    · intro _
      rw [e1, globMatches_lits_append _ _ _ hpre]
      simp [GlobMatches]
    · intro _ hp
      subst hp
      simp only [e1, GlobMatches]
  | cons c g ih =>
    by_cases hc : c = '*'
    · subst hc
      have tail : ∀ s, '\n' ∉ s →
          ((∃ u v, s = u ++ v ∧ MatchesSeq ((globItems false [] g).map ReItem.re) v)
            ↔ ∃ u v, s = u ++ v ∧ GlobMatches g v) :=
        fun s hs => (ih [] s false (by simp) hs).2 rfl rfl
      constructor
      · intro hcond
        have hcond' : (isFirst || pre ≠ []) = true := by
          rcases hcond with h | h <;> simp [h]
        simp only [globItems, if_true, hcond', List.map_append, lits_re]
        rw [globMatches_lits_append _ _ _ hpre, List.append_assoc, matchesSeq_append]
        constructor
        · rintro ⟨u, v, rfl, h1, h2⟩
          rw [matchesSeq_lits] at h1
          subst h1
          refine ⟨v, rfl, ?_⟩
          simp only [List.map_cons, List.map_nil, List.cons_append, List.nil_append, MatchesSeq,
            ReItem.re] at h2
          obtain ⟨a, b, rfl, _, hb⟩ := h2
          have := (tail (a ++ b) (by intro h; exact hs (by simp [h]))).1 ⟨a, b, rfl, hb⟩
          simpa [GlobMatches] using this
        · rintro ⟨t, rfl, ht⟩
          simp only [GlobMatches, if_true] at ht
          have ht := (tail t (by intro h; exact hs (by simp [h]))).2 ht
          obtain ⟨a, b, rfl, hb⟩ := ht
          refine ⟨pre, a ++ b, rfl, matchesSeq_lits.2 rfl, ?_⟩
          simp only [List.map_cons, List.map_nil, List.cons_append, List.nil_append, MatchesSeq,
            ReItem.re]
          refine ⟨a, b, rfl, ?_, hb⟩
          rw [Regex.dot, Regex.matches_star_cls]
          intro d hd
          have : d ≠ '\n' := by
            intro e; subst e; exact hs (by simp [hd])
          simpa using this
      · intro hf hp
        subst hf hp
        simp only [globItems, if_true]
        simp only [Bool.false_or, ne_eq, not_true, decide_false, List.map_nil, List.nil_append]
        simp only [Bool.false_eq_true, if_false, List.nil_append, GlobMatches, if_true]
        rw [tail s hs]
        constructor
        · rintro ⟨u, v, rfl, h⟩; exact ⟨u, v, rfl, [], v, rfl, h⟩
        · rintro ⟨u, _, rfl, a, b, rfl, h⟩; exact ⟨u ++ a, b, by simp, h⟩
    · have hpre' : '*' ∉ pre ++ [c] := by
        simp [hpre]; exact fun h => hc h.symm
      constructor
      · intro _
        have := (ih (pre ++ [c]) s isFirst hpre' hs).1 (.inr (by simp))
        simp only [globItems, hc, if_false]
        rw [this]; simp
      · intro hf hp
        subst hf hp
        simp only [globItems, hc, if_false]
        have key : ∀ v, '\n' ∉ v →
            (MatchesSeq ((globItems false [c] g).map ReItem.re) v ↔ GlobMatches (c :: g) v) := by
          intro v hv
          have := (ih [c] v false (by simpa using Ne.symm hc) hv).1 (.inr (by simp))
          simpa using this
        constructor
        · rintro ⟨u, v, rfl, h⟩
          exact ⟨u, v, rfl, (key v (by intro h; exact hs (by simp [h]))).1 h⟩
        · rintro ⟨u, v, rfl, h⟩
          exact ⟨u, v, rfl, (key v (by intro h; exact hs (by simp [h]))).2 h⟩

/-- Full statement of C08: the target part of a pattern with a `*` is a shell glob. It
does not hold, see the counterexample below. -/
def C08_statement : Prop :=
  ∀ (pattern : Str) (ctx : BazelPackage) (t : BazelTarget) (bp : BazelPattern),
    BazelTarget.parseFrom pattern ctx = some t → '*' ∈ t.name →
    (∀ q, t.package.path ≠ q ++ c!"...") →
    BazelPattern.parseFrom globCompile pattern ctx = some bp →
    ∀ u, bp.matchTarget u = true ↔ u.package = t.package ∧ GlobMatches t.name u.name

/-- The text behind the last `*` is used as regular expression without quoting:
`*.cc` also selects `fooXcc`. -/
theorem C08_counterexample : ¬ C08_statement := by
  intro h
  have h1 := h c!"//p:*.cc" ⟨[], []⟩ ⟨⟨[], c!"p"⟩, c!"*.cc"⟩
  simp only [BazelPattern.parseFrom] at h1
  have hp : BazelTarget.parseFrom c!"//p:*.cc" ⟨[], []⟩ = some ⟨⟨[], c!"p"⟩, c!"*.cc"⟩ := by
    decide
  have hc : (globCompile c!"*.cc").isSome = true := by decide
  obtain ⟨re, hre⟩ := Option.isSome_iff_exists.1 hc
  have hm : (globCompile c!"*.cc").map (fun f => f c!"fooXcc") = some true := by decide
  have hm : re c!"fooXcc" = true := by rw [hre] at hm; simpa using hm
  have he : endsWith c!"p" c!"/..." = false := by decide
  have h2 := h1 ⟨⟨⟨[], c!"p"⟩, []⟩, .targetRegex re⟩ hp (by decide) (by
      intro q hq
      have := congrArg List.length hq
      simp at this)
    (by simp [hp, hre, hasChar, he]) ⟨⟨[], c!"p"⟩, c!"fooXcc"⟩
  have h3 := h2.1 (by simp [BazelPattern.matchTarget, hm])
  have h4 := h3.2
  simp only [GlobMatches, if_true, Char.reduceEq, if_false] at h4
  obtain ⟨u, v, huv, a, rfl, b, rfl, d, rfl, rfl⟩ := h4
  have h5 : ('.' : Char) ∈ c!"fooXcc" := by rw [huv]; simp
  revert h5; decide

/-- C08 for globs whose text after the last `*` consists of characters without special
meaning in regular expressions, and names without newline. What is missing compared to
`C08_statement` are exactly these two conditions. -/
theorem C08_target_glob_partial (pattern : Str) (ctx : BazelPackage) (t : BazelTarget)
    (h : BazelTarget.parseFrom pattern ctx = some t) (hstar : '*' ∈ t.name)
    (hpath : ∀ q, t.package.path ≠ q ++ c!"...")
    (hlast : ∀ c ∈ tailAfterStar [] t.name, c ∉ reSpecial) :
    ∃ bp, BazelPattern.parseFrom globCompile pattern ctx = some bp ∧
      ∀ u : BazelTarget, '\n' ∉ u.name →
        (bp.matchTarget u = true ↔ u.package = t.package ∧ GlobMatches t.name u.name) := by
  have n1 : t.name ≠ c!"__pkg__" := by intro e; rw [e] at hstar; revert hstar; decide
  have n2 : t.name ≠ c!"all" := by intro e; rw [e] at hstar; revert hstar; decide
  have n3 : t.name ≠ c!"__subpackages__" := by intro e; rw [e] at hstar; revert hstar; decide
  have n4 : t.name ≠ c!"..." := by intro e; rw [e] at hstar; revert hstar; decide
  by_cases hs : t.name = c!"*"
  · refine ⟨⟨⟨t.package, []⟩, .allTargetInPackage⟩, ?_, ?_⟩
    · simp [BazelPattern.parseFrom, h, hs]
    · intro u hu
      simp only [BazelPattern.matchTarget, hs, GlobMatches, beq_iff_eq, if_true]
      constructor
      · intro e; exact ⟨e, u.name, [], by simp, rfl⟩
      · exact fun e => e.1
  · have n5 : t.package.path ≠ c!"..." := by
      intro e; exact hpath [] (by rw [e]; rfl)
    have n6 : endsWith t.package.path c!"/..." = false := by
      cases hb : endsWith t.package.path c!"/..." with
      | false => rfl
      | true =>
        simp only [endsWith, List.isSuffixOf_iff_suffix] at hb
        obtain ⟨q, hq⟩ := hb
        exact absurd hq.symm (by
          have := hpath (q ++ ['/'])
          simpa using this)
    have hst : hasChar t.name '*' = true := by simpa [hasChar] using hstar
    have htok := globItems_tokens t.name [] true fun c hc => rePlain_of (hlast c hc)
    obtain ⟨b', hrun⟩ := reRun_items (globItems true [] t.name) none [] [] false
    have hre : re2Parse (globbingGo true [] t.name) = some
        (ReFrame.catRev ((globItems true [] t.name).map ReItem.re).reverse) := by
      simp only [re2Parse, htok, hrun, List.append_nil, ReFrame.close]
    refine ⟨⟨⟨t.package, []⟩, .targetRegex (Regex.fullMatch
        (ReFrame.catRev ((globItems true [] t.name).map ReItem.re).reverse))⟩, ?_, ?_⟩
    · simp [BazelPattern.parseFrom, h, n1, n2, n3, n4, n5, n6, hs, hst, globCompile, hre]
    · intro u hu
      have hmm := (globItems_matches t.name [] u.name true (by simp) hu).1 (.inl rfl)
      simp only [BazelPattern.matchTarget]
      by_cases he : u.package = t.package
      · simp only [he, ne_eq, not_true, if_false, true_and, Regex.fullMatch_iff, matches_catRev,
          List.reverse_reverse]
        exact hmm
      · simp [he]

/-! ## Non-vacuity -/

/-- `//foo/bar/...` meets the hypotheses of C02; concrete matches and near misses. -/
example : ∀ c ∈ [c!"foo", c!"bar"], WfComponent c := by simp [WfComponent]
example : (BazelPattern.parse globCompile c!"//foo/...").map
    (fun bp => (bp.matchPackage ⟨[], c!"foo"⟩, bp.matchPackage ⟨[], c!"foo/bar"⟩,
      bp.matchPackage ⟨[], c!"foobar"⟩, bp.matchPackage ⟨c!"@x", c!"foo"⟩))
    = some (true, true, false, false) := by decide
example : (BazelPattern.parseVisibility globCompile c!"//a:__subpackages__" ⟨[], c!"z"⟩).map
    (fun bp => (bp.matchTarget ⟨⟨[], c!"a/b"⟩, c!"t"⟩, bp.matchTarget ⟨⟨[], c!"ab"⟩, c!"t"⟩))
    = some (true, false) := by decide
/-- `bant/tool:*_test` from the README meets the hypotheses of C08. -/
example : BazelTarget.parseFrom c!"bant/tool:*_test" ⟨[], []⟩
      = some ⟨⟨[], c!"bant/tool"⟩, c!"*_test"⟩ ∧
    (∀ c ∈ tailAfterStar [] c!"*_test", c ∉ reSpecial) := by
  refine ⟨by decide, by decide⟩
example : (BazelPattern.parse globCompile c!"bant/tool:*_te*st").map
    (fun bp => (bp.matchTarget ⟨⟨[], c!"bant/tool"⟩, c!"a_test"⟩,
      bp.matchTarget ⟨⟨[], c!"bant/tool"⟩, c!"a_tes"⟩)) = some (true, false) := by decide

end Bant.Props
