import Verif.Props.Patterns

/-!
# C08, patterns with dots behind the last `*`

Nothing in the text behind the last `*` is quoted. The dot is the character for which this matters most, as in
`//foo:*.cc`.
-/
namespace Bant.Props
open Bant Spec

/-- Shell globbing with `*` only, but a `.` with no `*` behind it stands for any one character. -/
def DotGlobMatches : Str → Str → Prop
  | [], s => s = []
  | c :: g, s =>
    if c = '*' then ∃ u v, s = u ++ v ∧ DotGlobMatches g v
    else ∃ d t, s = d :: t ∧ (d = c ∨ (c = '.' ∧ '*' ∉ g)) ∧ DotGlobMatches g t

/-- An item for a character that is not quoted. -/
def dotItem (c : Char) : ReItem := if c = '.' then .one .dot else .one (.lit c)

/-- Items of the regular expression that is made from a glob. -/
def dotItems (isFirst : Bool) (pre : Str) : Str → List ReItem
  | [] => pre.map dotItem
  | c :: g =>
    if c = '*' then
      pre.map (fun c => .one (.lit c)) ++ (if isFirst || pre ≠ [] then [.star .dot] else [])
        ++ dotItems false [] g
    else dotItems isFirst (pre ++ [c]) g

theorem dot_toks (pre : Str) (h : ∀ c ∈ pre, rePlain c = true ∨ c = '.') :
    reTokens pre = some ((pre.map dotItem).flatMap ReItem.toks) := by
  induction pre with
  | nil => rfl
  | cons c cs ih =>
    have ih := ih fun d hd => h d (by simp [hd])
    by_cases hc : c = '.'
    · subst hc
      rw [reTokens_simple (t := .atom .dot) (by decide) (by decide) rfl, ih]
      simp [dotItem, ReItem.toks]
    · have hp : rePlain c = true := by
        rcases h c (by simp) with hp | hp
        · exact hp
        · exact absurd hp hc
      rw [reTokens_plain hp, ih]
      simp [dotItem, hc, ReItem.toks]

theorem dotItems_tokens (g pre : Str) (isFirst : Bool)
    (h : ∀ c ∈ tailAfterStar pre g, rePlain c = true ∨ c = '.') :
    reTokens (globbingGo isFirst pre g) = some ((dotItems isFirst pre g).flatMap ReItem.toks) := by
  induction g generalizing pre isFirst with
  | nil => exact dot_toks pre h
  | cons c g ih =>
    by_cases hc : c = '*'
    · simp only [tailAfterStar, hc, if_true] at h
      have ih := ih [] false h
      simp only [globbingGo, dotItems, hc, if_true]
      rcases Bool.eq_false_or_eq_true (isFirst || pre ≠ []) with hcond | hcond
      · simp only [hcond, if_true, List.append_assoc]
        rw [reTokens_quoteMeta, reTokens_dotStar, ih]
        simp [List.flatMap_append, lits_toks, ReItem.toks]
      · simp only [hcond, Bool.false_eq_true, if_false, List.append_nil]
        rw [reTokens_quoteMeta, ih]
        simp [List.flatMap_append, lits_toks]
    · simp only [tailAfterStar, hc, if_false] at h
      simpa only [globbingGo, dotItems, hc, if_false] using ih (pre ++ [c]) isFirst h

theorem dotGlobMatches_lits_append (pre g s : Str) (h : '*' ∉ pre) (hg : '*' ∈ g) :
    DotGlobMatches (pre ++ g) s ↔ ∃ t, s = pre ++ t ∧ DotGlobMatches g t := by
  induction pre generalizing s with
  | nil => simp
  | cons c cs ih =>
    simp only [List.mem_cons, not_or] at h
    have hc : ¬ c = '*' := Ne.symm h.1
    simp only [List.cons_append, DotGlobMatches, hc, if_false]
    constructor
    · rintro ⟨d, t, rfl, hd, ht⟩
      obtain ⟨t', rfl, h'⟩ := (ih _ h.2).1 ht
      rcases hd with rfl | hd
      · exact ⟨t', rfl, h'⟩
      · exact absurd (List.mem_append_right _ hg) hd.2
    · rintro ⟨t, rfl, ht⟩
      exact ⟨c, cs ++ t, rfl, .inl rfl, (ih _ h.2).2 ⟨t, rfl, ht⟩⟩

theorem dotGlobMatches_last (pre s : Str) (h : '*' ∉ pre) (hs : '\n' ∉ s) :
    MatchesSeq ((pre.map dotItem).map ReItem.re) s ↔ DotGlobMatches pre s := by
  induction pre generalizing s with
  | nil => simp [MatchesSeq, DotGlobMatches]
  | cons c cs ih =>
    simp only [List.mem_cons, not_or] at h
    have hc : ¬ c = '*' := Ne.symm h.1
    simp only [List.map_cons, MatchesSeq, DotGlobMatches, hc, if_false]
    by_cases hd : c = '.'
    · subst hd
      simp only [dotItem, if_true, ReItem.re, Regex.dot]
      constructor
      · rintro ⟨u, v, rfl, h1, h2⟩
        cases h1 with
        | cls hx => exact ⟨_, v, rfl, .inr ⟨trivial, h.2⟩, (ih v h.2 (by intro hm; exact hs (by simp [hm]))).1 h2⟩
      · rintro ⟨d, t, rfl, _, ht⟩
        refine ⟨[d], t, rfl, .cls ?_, (ih t h.2 (by intro hm; exact hs (by simp [hm]))).2 ht⟩
        have : d ≠ '\n' := by intro e; subst e; exact hs (by simp)
        simpa using this
    · simp only [dotItem, hd, if_false, ReItem.re, Regex.lit]
      constructor
      · rintro ⟨u, v, rfl, h1, h2⟩
        cases h1 with
        | cls hx =>
          exact ⟨_, v, rfl, .inl (by simpa using hx), (ih v h.2 (by intro hm; exact hs (by simp [hm]))).1 h2⟩
      · rintro ⟨d, t, rfl, hd', ht⟩
        rcases hd' with rfl | hd'
        · exact ⟨[d], t, rfl, .cls (by simp), (ih t h.2 (by intro hm; exact hs (by simp [hm]))).2 ht⟩
        · exact absurd hd'.1 (by simp)

/-- Matching the items is matching the glob. -/
theorem dotItems_matches (g pre s : Str) (isFirst : Bool) (hpre : '*' ∉ pre) (hs : '\n' ∉ s) :
    ((isFirst = true ∨ pre ≠ []) →
      (MatchesSeq ((dotItems isFirst pre g).map ReItem.re) s ↔ DotGlobMatches (pre ++ g) s)) ∧
    (isFirst = false → pre = [] →
      ((∃ u v, s = u ++ v ∧ MatchesSeq ((dotItems isFirst pre g).map ReItem.re) v)
        ↔ ∃ u v, s = u ++ v ∧ DotGlobMatches g v)) := by
  induction g generalizing pre s isFirst with
  | nil =>
    have e1 : ∀ s, '\n' ∉ s → (MatchesSeq ((dotItems isFirst pre []).map ReItem.re) s ↔ DotGlobMatches pre s) :=
      fun s hs => dotGlobMatches_last pre s hpre hs
    constructor
    · intro _
      rw [e1 s hs]; simp
    · intro _ hp
      subst hp
      constructor
      · rintro ⟨u, v, rfl, h⟩
        exact ⟨u, v, rfl, (e1 v (by intro hm; exact hs (by simp [hm]))).1 h⟩
      · rintro ⟨u, v, rfl, h⟩
        exact ⟨u, v, rfl, (e1 v (by intro hm; exact hs (by simp [hm]))).2 h⟩
  | cons c g ih =>
    by_cases hc : c = '*'
    · subst hc
      have tail : ∀ s, '\n' ∉ s →
          ((∃ u v, s = u ++ v ∧ MatchesSeq ((dotItems false [] g).map ReItem.re) v)
            ↔ ∃ u v, s = u ++ v ∧ DotGlobMatches g v) :=
        fun s hs => (ih [] s false (by simp) hs).2 rfl rfl
      constructor
      · intro hcond
        have hcond' : (isFirst || pre ≠ []) = true := by
          rcases hcond with h | h <;> simp [h]
        simp only [dotItems, if_true, hcond', List.map_append, lits_re]
        rw [dotGlobMatches_lits_append _ _ _ hpre (by simp), List.append_assoc, matchesSeq_append]
        constructor
        · rintro ⟨u, v, rfl, h1, h2⟩
          rw [matchesSeq_lits] at h1
          subst h1
          refine ⟨v, rfl, ?_⟩
          simp only [List.map_cons, List.map_nil, List.cons_append, List.nil_append, MatchesSeq,
            ReItem.re] at h2
          obtain ⟨a, b, rfl, _, hb⟩ := h2
          have := (tail (a ++ b) (by intro h; exact hs (by simp [h]))).1 ⟨a, b, rfl, hb⟩
          simpa [DotGlobMatches] using this
        · rintro ⟨t, rfl, ht⟩
          simp only [DotGlobMatches, if_true] at ht
          have ht := (tail t (by intro h; exact hs (by simp [h]))).2 ht
          obtain ⟨a, b, rfl, hb⟩ := ht
          refine ⟨pre, a ++ b, rfl, matchesSeq_lits.2 rfl, ?_⟩
          simp only [List.map_cons, List.map_nil, List.cons_append, List.nil_append, MatchesSeq,
            ReItem.re]
          refine ⟨a, b, rfl, ?_, hb⟩
          rw [Regex.dot, Regex.matches_star_cls]
          intro d hd
          have : d ≠ '\n' := by
            intro e; subst e; exact hs (by simp [hd])
          simpa using this
      · intro hf hp
        subst hf hp
        simp only [dotItems, if_true]
        simp only [Bool.false_or, ne_eq, not_true, decide_false, List.map_nil, List.nil_append]
        simp only [Bool.false_eq_true, if_false, List.nil_append, DotGlobMatches, if_true]
        rw [tail s hs]
        constructor
        · rintro ⟨u, v, rfl, h⟩; exact ⟨u, v, rfl, [], v, rfl, h⟩
        · rintro ⟨u, _, rfl, a, b, rfl, h⟩; exact ⟨u ++ a, b, by simp, h⟩
    · have hpre' : '*' ∉ pre ++ [c] := by
        simp [hpre]; exact fun h => hc h.symm
      constructor
      · intro _
        have := (ih (pre ++ [c]) s isFirst hpre' hs).1 (.inr (by simp))
        simp only [dotItems, hc, if_false]
        rw [this]; simp
      · intro hf hp
        subst hf hp
        simp only [dotItems, hc, if_false]
        have key : ∀ v, '\n' ∉ v →
            (MatchesSeq ((dotItems false [c] g).map ReItem.re) v ↔ DotGlobMatches (c :: g) v) := by
          intro v hv
          have := (ih [c] v false (by simpa using Ne.symm hc) hv).1 (.inr (by simp))
          simpa using this
        constructor
        · rintro ⟨u, v, rfl, h⟩
          exact ⟨u, v, rfl, (key v (by intro h; exact hs (by simp [h]))).1 h⟩
        · rintro ⟨u, v, rfl, h⟩
          exact ⟨u, v, rfl, (key v (by intro h; exact hs (by simp [h]))).2 h⟩

/-- C08 for globs with dots: exactly what is selected, if the text after the last `*` has, besides dots, only characters
without special meaning in regular expressions. -/
theorem C08_dots_partial (pattern : Str) (ctx : BazelPackage) (t : BazelTarget)
    (h : BazelTarget.parseFrom pattern ctx = some t) (hstar : '*' ∈ t.name)
    (hpath : ∀ q, t.package.path ≠ q ++ c!"...")
    (hlast : ∀ c ∈ tailAfterStar [] t.name, c ∉ reSpecial ∨ c = '.') :
    ∃ bp, BazelPattern.parseFrom globCompile pattern ctx = some bp ∧
      ∀ u : BazelTarget, '\n' ∉ u.name →
        (bp.matchTarget u = true ↔ u.package = t.package ∧ DotGlobMatches t.name u.name) := by
  have n1 : t.name ≠ c!"__pkg__" := by intro e; rw [e] at hstar; revert hstar; decide
  have n2 : t.name ≠ c!"all" := by intro e; rw [e] at hstar; revert hstar; decide
  have n3 : t.name ≠ c!"__subpackages__" := by intro e; rw [e] at hstar; revert hstar; decide
  have n4 : t.name ≠ c!"..." := by intro e; rw [e] at hstar; revert hstar; decide
  by_cases hs : t.name = c!"*"
  · refine ⟨⟨⟨t.package, []⟩, .allTargetInPackage⟩, ?_, ?_⟩
    · simp [BazelPattern.parseFrom, h, hs]
    · intro u hu
      simp only [BazelPattern.matchTarget, hs, DotGlobMatches, beq_iff_eq, if_true]
      constructor
      · intro e; exact ⟨e, u.name, [], by simp, rfl⟩
      · exact fun e => e.1
  · have n5 : t.package.path ≠ c!"..." := by
      intro e; exact hpath [] (by rw [e]; rfl)
    have n6 : endsWith t.package.path c!"/..." = false := by
      cases hb : endsWith t.package.path c!"/..." with
      | false => rfl
      | true =>
        simp only [endsWith, List.isSuffixOf_iff_suffix] at hb
        obtain ⟨q, hq⟩ := hb
        exact absurd hq.symm (by
          have := hpath (q ++ ['/'])
          simpa using this)
    have hst : hasChar t.name '*' = true := by simpa [hasChar] using hstar
    have htok := dotItems_tokens t.name [] true fun c hc => (hlast c hc).imp_left rePlain_of
    obtain ⟨b', hrun⟩ := reRun_items (dotItems true [] t.name) none [] [] false
    have hre : re2Parse (globbingGo true [] t.name) = some
        (ReFrame.catRev ((dotItems true [] t.name).map ReItem.re).reverse) := by
      simp only [re2Parse, htok, hrun, List.append_nil, ReFrame.close]
    refine ⟨⟨⟨t.package, []⟩, .targetRegex (Regex.fullMatch
        (ReFrame.catRev ((dotItems true [] t.name).map ReItem.re).reverse))⟩, ?_, ?_⟩
    · simp [BazelPattern.parseFrom, h, n1, n2, n3, n4, n5, n6, hs, hst, globCompile, hre]
    · intro u hu
      have hmm := (dotItems_matches t.name [] u.name true (by simp) hu).1 (.inl rfl)
      simp only [BazelPattern.matchTarget]
      by_cases he : u.package = t.package
      · simp only [he, ne_eq, not_true, if_false, true_and, Regex.fullMatch_iff, matches_catRev,
          List.reverse_reverse]
        exact hmm
      · simp [he]

/-- What a glob stands for is selected. -/
theorem dotGlob_of_glob (g s : Str) (h : GlobMatches g s) : DotGlobMatches g s := by
  induction g generalizing s with
  | nil => exact h
  | cons c g ih =>
    by_cases hc : c = '*'
    · simp only [GlobMatches, DotGlobMatches, hc, if_true] at h ⊢
      obtain ⟨u, v, e, h⟩ := h
      exact ⟨u, v, e, ih v h⟩
    · simp only [GlobMatches, DotGlobMatches, hc, if_false] at h ⊢
      obtain ⟨t, e, h⟩ := h
      exact ⟨c, t, e, .inl rfl, ih t h⟩

/-- C08, nothing is missing: with dots, all that the glob stands for is selected. -/
theorem C08_complete_partial (pattern : Str) (ctx : BazelPackage) (t : BazelTarget)
    (h : BazelTarget.parseFrom pattern ctx = some t) (hstar : '*' ∈ t.name)
    (hpath : ∀ q, t.package.path ≠ q ++ c!"...")
    (hlast : ∀ c ∈ tailAfterStar [] t.name, c ∉ reSpecial ∨ c = '.') :
    ∃ bp, BazelPattern.parseFrom globCompile pattern ctx = some bp ∧
      ∀ u : BazelTarget, '\n' ∉ u.name → u.package = t.package → GlobMatches t.name u.name →
        bp.matchTarget u = true := by
  obtain ⟨bp, h1, h2⟩ := C08_dots_partial pattern ctx t h hstar hpath hlast
  exact ⟨bp, h1, fun u hu hp hg => (h2 u hu).2 ⟨hp, dotGlob_of_glob _ _ hg⟩⟩

/-- `//p:lib.*.cc` meets the hypotheses. The first dot is quoted, the second is not. -/
example : BazelTarget.parseFrom c!"//p:lib.*.cc" ⟨[], []⟩ = some ⟨⟨[], c!"p"⟩, c!"lib.*.cc"⟩ ∧
    (∀ c ∈ tailAfterStar [] c!"lib.*.cc", c ∉ reSpecial ∨ c = '.') := by decide
example : (BazelPattern.parse globCompile c!"//p:lib.*.cc").map
    (fun bp => [c!"lib.a.cc", c!"lib.a_cc", c!"lib_a.cc", c!"lib.acc", c!"lib.cc"].map fun n => bp.matchTarget ⟨⟨[], c!"p"⟩, n⟩)
    = some [true, true, false, true, false] := by decide +kernel

end Bant.Props
