import Verif.Lemmas.Str

/-! Helper lemmas for bant/types-bazel.cc. -/
namespace Bant
open Spec

theorem containsDouble_cons {c x : Char} {s : Str} (h : containsDouble c s = false)
    (hx : x ≠ c ∨ s.head? ≠ some c) : containsDouble c (x :: s) = false := by
  cases s with
  | nil => rfl
  | cons y ys =>
    simp only [containsDouble, h, Bool.or_false]
    rcases hx with hx | hx
    · simp [hx]
    · simp at hx; simp [hx]

theorem containsDouble_append_noSep {c : Char} {a s : Str} (ha : c ∉ a)
    (hs : containsDouble c s = false) : containsDouble c (a ++ s) = false := by
  induction a with
  | nil => simpa
  | cons x xs ih =>
    simp only [List.mem_cons, not_or] at ha
    exact containsDouble_cons (ih ha.2) (.inl (Ne.symm ha.1))

theorem joinPath_cons {x : Str} {xs : List Str} (h : xs ≠ []) :
    joinPath (x :: xs) = x ++ '/' :: joinPath xs := by
  cases xs with
  | nil => exact absurd rfl h
  | cons y ys => rfl

theorem joinPath_head {x : Str} {xs : List Str} (h : x ≠ []) :
    (joinPath (x :: xs)).head? = x.head? := by
  cases xs with
  | nil => rfl
  | cons y ys => cases x with
    | nil => exact absurd rfl h
    | cons c cs => simp [joinPath]

theorem joinPath_ne_nil {x : Str} {xs : List Str} (h : x ≠ []) : joinPath (x :: xs) ≠ [] := by
  cases x with
  | nil => exact absurd rfl h
  | cons c cs => cases xs <;> simp [joinPath]

theorem wfPath_facts {p : Str} (h : WfPath p) :
    p.head? ≠ some '/' ∧ p.getLast? ≠ some '/' ∧ containsDouble '/' p = false ∧ ':' ∉ p := by
  obtain ⟨comps, hc, rfl⟩ := h
  induction comps with
  | nil => simp [joinPath, containsDouble]
  | cons x xs ih =>
    have hx := hc x (by simp)
    have ihx := ih (fun c h => hc c (by simp [h]))
    refine ⟨?_, ?_, ?_, ?_⟩
    · rw [joinPath_head hx.1]
      intro hh
      exact hx.2.1 (List.mem_of_head? hh)
    · cases xs with
      | nil =>
        intro hh
        exact hx.2.1 (List.mem_of_getLast? hh)
      | cons y ys =>
        have hy := hc y (by simp)
        rw [joinPath_cons (by simp)]
        have : joinPath (y :: ys) ≠ [] := joinPath_ne_nil hy.1
        cases hj : joinPath (y :: ys) with
        | nil => exact absurd hj this
        | cons z zs =>
          rw [hj] at ihx
          simpa [List.getLast?_append, List.getLast?_cons_cons] using ihx.2.1
    · cases xs with
      | nil => 
        have := containsDouble_append_noSep (s := []) hx.2.1 rfl
        simpa [joinPath] using this
      | cons y ys =>
        rw [joinPath_cons (by simp)]
        apply containsDouble_append_noSep hx.2.1
        exact containsDouble_cons ihx.2.2.1 (.inr ihx.1)
    · cases xs with
      | nil => exact hx.2.2
      | cons y ys =>
        rw [joinPath_cons (by simp)]
        simp only [List.mem_append, List.mem_cons, not_or]
        exact ⟨hx.2.2, by decide, ihx.2.2.2⟩

theorem splitAll_head_ne_nil {x : Char} {xs : Str} (hx : x ≠ '/') :
    ∃ p ps, splitAll '/' (x :: xs) = (x :: p) :: ps ∧ splitAll '/' xs = p :: ps := by
  cases hs : splitAll '/' xs with
  | nil => exact absurd hs (splitAll_ne_nil _ _)
  | cons p ps => exact ⟨p, ps, by simp [splitAll, hx, hs], rfl⟩

theorem not_double_splitAll_tail {s : Str} (h : containsDouble '/' s = false)
    (hl : s.getLast? ≠ some '/') : ∀ c ∈ (splitAll '/' s).tail, c ≠ [] := by
  induction s with
  | nil => simp [splitAll]
  | cons x xs ih =>
    have hd : containsDouble '/' xs = false := by
      cases xs with
      | nil => rfl
      | cons y ys => simp [containsDouble] at h; exact h.2
    have hl' : xs.getLast? ≠ some '/' := by
      cases xs with
      | nil => simp
      | cons y ys => simpa [List.getLast?_cons_cons] using hl
    have ih := ih hd hl'
    by_cases hx : x = '/'
    · subst hx
      cases xs with
      | nil => simp at hl
      | cons y ys =>
        have hy : y ≠ '/' := by simp [containsDouble] at h; exact h.1
        obtain ⟨p, ps, h1, _⟩ := splitAll_head_ne_nil (xs := ys) hy
        rw [h1] at ih
        intro c hc
        simp only [splitAll, if_true, List.tail_cons] at hc
        change c ∈ splitAll '/' (y :: ys) at hc
        rw [h1] at hc
        rcases List.mem_cons.1 hc with rfl | hc
        · simp
        · exact ih c hc
    · obtain ⟨p, ps, h1, h2⟩ := splitAll_head_ne_nil (xs := xs) hx
      rw [h1]
      rw [h2] at ih
      exact ih

theorem wfPath_of_facts {p : Str} (hh : p.head? ≠ some '/') (hl : p.getLast? ≠ some '/')
    (hd : containsDouble '/' p = false) (hc : ':' ∉ p) : WfPath p := by
  cases p with
  | nil => exact ⟨[], by simp, rfl⟩
  | cons x xs =>
    simp at hh
    refine ⟨splitAll '/' (x :: xs), ?_, (joinPath_splitAll _).symm⟩
    intro c hmem
    refine ⟨?_, splitAll_pieces hmem, ?_⟩
    · have ht := not_double_splitAll_tail hd hl
      obtain ⟨p, ps, h1, _⟩ := splitAll_head_ne_nil (xs := xs) hh
      rw [h1] at hmem ht
      rcases List.mem_cons.1 hmem with rfl | hm
      · simp
      · exact ht c hm
    · exact fun hcc => hc (splitAll_mem hmem hcc)

/-! ### Printing and parsing -/

theorem strip_wfPath {p : Str} (h : WfPath p) :
    stripBack '/' (stripFront '/' ('/' :: '/' :: p)) = p := by
  have f := wfPath_facts h
  rw [stripFront_cons, stripFront_cons, stripFront_of_head f.1, stripBack_of_last f.2.1]

theorem packageToString_no_colon {p : BazelPackage} (h : WfPackage p) : ':' ∉ p.toString := by
  have f := wfPath_facts h.2
  rcases h.1 with h0 | ⟨r, hr, _, _, hc, _⟩
  · simp [BazelPackage.toString, h0, f.2.2.2]
  · simp [BazelPackage.toString, hr, f.2.2.2, hc]

theorem packageParse_toString {p : BazelPackage} (h : WfPackage p) :
    BazelPackage.parseFrom p.toString = some p := by
  have f := wfPath_facts h.2
  have nc := packageToString_no_colon h
  rcases h with ⟨h0 | ⟨r, hr, hrn, hs, hc, ht⟩, hp⟩
  · have e : p.toString = '/' :: '/' :: p.path := by simp [BazelPackage.toString, h0]
    simp only [BazelPackage.parseFrom, beforeLast_of_not_mem nc]
    rw [e]
    have := strip_wfPath hp
    cases p; simp_all [beforeFirst, BazelPackage.projectAndPath]
  · have e : p.toString = ('@' :: r) ++ '/' :: ('/' :: p.path) := by
      simp [BazelPackage.toString, hr]
    have hs' : '/' ∉ '@' :: r := by simp [hs]
    have ht' : '~' ∉ '@' :: r := by simp [ht]
    simp only [BazelPackage.parseFrom, beforeLast_of_not_mem nc]
    rw [e]
    simp only [List.cons_append, BazelPackage.projectAndPath]
    rw [← List.cons_append, beforeFirst_append hs', fromFirst_append hs']
    have : ('@' :: r = ['@']) = False := by simp [hrn]
    simp only [this, if_false, strip_wfPath hp, f.2.2.1, beforeFirst_of_not_mem ht']
    cases p; simp_all; omega

theorem projectOnly_parse {r : Str} (hrn : r ≠ []) (hs : '/' ∉ r) (hc : ':' ∉ r) (ht : '~' ∉ r) :
    BazelPackage.parseFrom ('@' :: r) = some ⟨'@' :: r, []⟩ := by
  have nc : ':' ∉ '@' :: r := by simp [hc]
  have hs' : '/' ∉ '@' :: r := by simp [hs]
  have ht' : '~' ∉ '@' :: r := by simp [ht]
  have : ('@' :: r = ['@']) = False := by simp [hrn]
  have hl : ¬ ('@' :: r).length < 2 := by
    cases r with
    | nil => exact absurd rfl hrn
    | cons a b => simp
  simp only [BazelPackage.parseFrom, beforeLast_of_not_mem nc, hl, if_false,
    BazelPackage.projectAndPath, beforeFirst_of_not_mem hs', fromFirst_of_not_mem hs', this,
    beforeFirst_of_not_mem ht']
  simp [stripFront, stripBack, containsDouble]

theorem assemble_toString {p : BazelPackage} (h : WfPackage p) (n : Str) (ctx : BazelPackage) :
    BazelTarget.assemble p.toString n ctx = some (inContext ⟨p, n⟩ ctx) := by
  have hne : p.toString ≠ [] := by simp [BazelPackage.toString]
  simp only [BazelTarget.assemble, hne, if_false, packageParse_toString h, inContext]
  split <;> simp_all

theorem targetParse_full {p : BazelPackage} (h : WfPackage p) {n : Str} (hn : ':' ∉ n)
    (ctx : BazelPackage) :
    BazelTarget.parseFrom (p.toString ++ ':' :: n) ctx = some (inContext ⟨p, n⟩ ctx) := by
  have nc := packageToString_no_colon h
  simp only [BazelTarget.parseFrom, splitAll_append nc, splitAll_of_not_mem hn]
  exact assemble_toString h n ctx

theorem targetParse_rel {n : Str} (hn : ':' ∉ n) (ctx : BazelPackage) :
    BazelTarget.parseFrom (':' :: n) ctx = some ⟨ctx, n⟩ := by
  have : splitAll ':' (':' :: n) = [] :: splitAll ':' n := by simp [splitAll]
  simp only [BazelTarget.parseFrom, this, splitAll_of_not_mem hn]
  simp [BazelTarget.assemble]

theorem lastSlash_toString {p : BazelPackage} (hp : p.path ≠ []) :
    ∃ a, splitLast '/' p.toString = some (a, p.lastElement) := by
  cases hs : splitLast '/' p.path with
  | none =>
    have := splitLast_eq_none.1 hs
    refine ⟨p.project ++ ['/'], ?_⟩
    have e : p.toString = (p.project ++ ['/']) ++ '/' :: p.path := by simp [BazelPackage.toString]
    rw [e, splitLast_append this]
    simp [BazelPackage.lastElement, hs, hp]
  | some ab =>
    obtain ⟨a, b⟩ := ab
    have := splitLast_eq_some hs
    refine ⟨p.project ++ c!"//" ++ a, ?_⟩
    have e : p.toString = (p.project ++ c!"//" ++ a) ++ '/' :: b := by
      simp [BazelPackage.toString, this.1]
    rw [e, splitLast_append this.2]
    simp [BazelPackage.lastElement, hs]

theorem targetParse_toString {t : BazelTarget} (h : WfTarget t) (ctx : BazelPackage) :
    BazelTarget.parseFrom t.toString ctx = some (inContext t ctx) := by
  obtain ⟨hp, hn, hc⟩ := h
  obtain ⟨p, n⟩ := t
  simp only at hp hn hc
  simp only [BazelTarget.toString]
  split
  · rename_i hl
    split
    · rename_i hpath
      -- just the project: @foo
      have hl' : n = p.project.drop 1 := by
        rw [← hl]; 
        by_cases hpr : p.project = [] <;> simp [BazelPackage.lastElement, hpath, splitLast, hpr]
      rcases hp.1 with h0 | ⟨r, hr, hrn, hs, hcr, ht⟩
      · simp [h0] at hl'; exact absurd hl' hn
      · have nc : ':' ∉ '@' :: r := by simp [hcr]
        have hs' : '/' ∉ '@' :: r := by simp [hs]
        have hnr : n = r := by simp [hl', hr]
        rw [hr]
        simp only [BazelTarget.parseFrom, splitAll_of_not_mem nc, splitLast_eq_none.2 hs']
        simp only [BazelTarget.assemble, projectOnly_parse hrn hs hcr ht]
        cases p
        simp_all [inContext]
    · rename_i hpath
      obtain ⟨a, ha⟩ := lastSlash_toString hpath
      simp only [BazelTarget.parseFrom, splitAll_of_not_mem (packageToString_no_colon hp), ha]
      rw [assemble_toString hp, hl]
  · exact targetParse_full hp hc ctx

theorem qualifiedTarget_package {p : BazelPackage} {n : Str} {t : BazelTarget}
    (h : p.qualifiedTarget n = some t) : t.package = p := by
  unfold BazelPackage.qualifiedTarget at h
  cases n with
  | nil => cases h
  | cons c cs =>
    by_cases hc : c = ':'
    · by_cases hcs : cs = [] <;> simp [hc, hcs] at h
      simp [← h]
    · simp [hc] at h
      simp [← h]

/-! ### Normal form of what parsing returns -/

theorem packageParse_wf {s : Str} {p : BazelPackage} (h : BazelPackage.parseFrom s = some p)
    (hc : ':' ∉ s) :
    WfPath p.path ∧ '~' ∉ p.project ∧ '/' ∉ p.project ∧ (p.project = ['@'] ∨ WfProject p.project) := by
  simp only [BazelPackage.parseFrom, beforeLast_of_not_mem hc] at h
  split at h
  · cases h
  · split at h
    · cases h
    · rename_i hd
      simp only [Option.some.injEq] at h
      subst h
      have hpath : ':' ∉ (BazelPackage.projectAndPath s).2 := by
        intro hm; apply hc
        unfold BazelPackage.projectAndPath at hm
        split at hm
        · simp only at hm; exact fromFirst_subset hm
        · exact hm
      refine ⟨?_, not_mem_beforeFirst _ _, ?_, ?_⟩
      · apply wfPath_of_facts
        · exact stripBack_head (stripFront_head _ _)
        · exact stripBack_last _ _
        · simpa using hd
        · exact fun hm => hpath (stripFront_subset (stripBack_subset hm))
      · intro hm
        have hm := beforeFirst_subset hm
        unfold BazelPackage.projectAndPath at hm
        split at hm
        · simp only at hm
          split at hm
          · simp at hm
          · exact not_mem_beforeFirst _ _ hm
        · simp at hm
      · unfold BazelPackage.projectAndPath
        split
        · rename_i rest _
          simp only
          split
          · right; left; simp [beforeFirst]
          · have hcons : beforeFirst '/' ('@' :: rest) = '@' :: beforeFirst '/' rest := by
              simp [beforeFirst]
            rw [hcons]
            have hcons2 : beforeFirst '~' ('@' :: beforeFirst '/' rest)
                = '@' :: beforeFirst '~' (beforeFirst '/' rest) := by simp [beforeFirst]
            rw [hcons2]
            by_cases he : beforeFirst '~' (beforeFirst '/' rest) = []
            · left; simp [he]
            · right; right
              refine ⟨_, rfl, he, ?_, ?_, not_mem_beforeFirst _ _⟩
              · exact fun hm => not_mem_beforeFirst _ _ (beforeFirst_subset hm)
              · intro hm
                exact hc (List.mem_cons_of_mem _ (beforeFirst_subset (beforeFirst_subset hm)))
        · right; left; simp [beforeFirst]

theorem assemble_wf {pk n : Str} {ctx : BazelPackage} {t : BazelTarget}
    (h : BazelTarget.assemble pk n ctx = some t) (hpk : ':' ∉ pk) (hctx : WfPackage ctx) :
    t.name = n ∧ WfPath t.package.path ∧ (t.package.project = ['@'] ∨ WfProject t.package.project) ∧
      (t.package.project = [] → ctx.project = []) := by
  simp only [BazelTarget.assemble] at h
  split at h
  · simp only [Option.some.injEq] at h
    subst h
    exact ⟨rfl, hctx.2, .inr hctx.1, id⟩
  · split at h
    · cases h
    · rename_i pp hpp
      have w := packageParse_wf hpp hpk
      simp only [Option.some.injEq] at h
      subst h
      refine ⟨rfl, ?_, ?_, ?_⟩
      · simp only; split <;> exact w.1
      · simp only; split
        · exact .inr hctx.1
        · exact w.2.2.2
      · simp only; split
        · exact id
        · intro hh; exact absurd hh ‹_›

/-- What `BazelTarget::ParseFrom` returns in a well-formed context. -/
theorem targetParse_wf {s : Str} {ctx : BazelPackage} {t : BazelTarget}
    (h : BazelTarget.parseFrom s ctx = some t) (hctx : WfPackage ctx) :
    ':' ∉ t.name ∧ WfPath t.package.path ∧
      (t.package.project = ['@'] ∨ WfProject t.package.project) ∧
      (t.package.project = [] → ctx.project = []) := by
  simp only [BazelTarget.parseFrom] at h
  split at h
  · rename_i package hsp
    have hpk : ':' ∉ package := splitAll_pieces (s := s) (by rw [hsp]; simp)
    split at h
    · rename_i a target hl
      have w := assemble_wf h hpk hctx
      have e := splitLast_eq_some hl
      exact ⟨by rw [w.1]; intro hm; apply hpk; rw [e.1]; simp [hm], w.2⟩
    · split at h
      · have w := assemble_wf h hpk hctx
        exact ⟨by rw [w.1]; intro hm; apply hpk; simp [hm], w.2⟩
      · have w := assemble_wf h (by simp) hctx
        have hs : ':' ∉ s := by
          intro hm
          obtain ⟨a, b, hab⟩ := List.append_of_mem hm
          have : ∀ a b : Str, (splitAll ':' (a ++ ':' :: b)).length ≥ 2 := by
            intro a b
            induction a with
            | nil =>
              simp only [List.nil_append, splitAll, if_true, List.length_cons]
              have := splitAll_ne_nil ':' b
              have := List.length_pos_iff.2 this
              omega
            | cons x xs ih =>
              simp only [List.cons_append, splitAll]
              split
              · simp only [List.length_cons]; omega
              · split
                · rename_i hh; simp [hh] at ih
                · rename_i hh; rw [hh] at ih; exact ih
          have := this a b
          rw [← hab, hsp] at this
          simp at this
        exact ⟨by rw [w.1]; exact hs, w.2⟩
  · rename_i package target hsp
    have hpk : ':' ∉ package := splitAll_pieces (s := s) (by rw [hsp]; simp)
    have htg : ':' ∉ target := splitAll_pieces (s := s) (by rw [hsp]; simp)
    have w := assemble_wf h hpk hctx
    exact ⟨by rw [w.1]; exact htg, w.2⟩
  · cases h

end Bant

/-! ### Patterns -/
namespace Bant
open Spec

theorem joinPath_snoc (comps : List Str) (x : Str) (h : comps ≠ []) :
    joinPath (comps ++ [x]) = joinPath comps ++ '/' :: x := by
  induction comps with
  | nil => exact absurd rfl h
  | cons c cs ih =>
    cases cs with
    | nil => rfl
    | cons d ds =>
      have e : joinPath (c :: d :: ds ++ [x]) = c ++ '/' :: joinPath (d :: ds ++ [x]) := rfl
      rw [e, ih (by simp), joinPath_cons (xs := d :: ds) (by simp)]
      simp

theorem wfPath_snoc {comps : List Str} (hc : ∀ c ∈ comps, WfComponent c) {x : Str}
    (hx : WfComponent x) : WfPath (joinPath (comps ++ [x])) :=
  ⟨comps ++ [x], by
    intro c hm
    rcases List.mem_append.1 hm with hm | hm
    · exact hc c hm
    · simp at hm; exact hm ▸ hx, rfl⟩

theorem lastElement_snoc (pr : Str) (comps : List Str) {x : Str} (hx : WfComponent x) :
    BazelPackage.lastElement ⟨pr, joinPath (comps ++ [x])⟩ = x := by
  cases comps with
  | nil => 
    simp [joinPath, BazelPackage.lastElement, splitLast_eq_none.2 hx.2.1, hx.1]
  | cons c cs =>
    rw [joinPath_snoc _ _ (by simp)]
    simp [BazelPackage.lastElement, splitLast_append hx.2.1]

/-- A label without colon names the target of the last path component. -/
theorem targetParse_compact (pr : Str) (hpr : WfProject pr) (comps : List Str) {x : Str}
    (hc : ∀ c ∈ comps, WfComponent c) (hx : WfComponent x) (ctx : BazelPackage) :
    BazelTarget.parseFrom (pr ++ c!"//" ++ joinPath (comps ++ [x])) ctx
      = some (inContext ⟨⟨pr, joinPath (comps ++ [x])⟩, x⟩ ctx) := by
  let p : BazelPackage := ⟨pr, joinPath (comps ++ [x])⟩
  have hp : WfPackage p := ⟨hpr, wfPath_snoc hc hx⟩
  have hne : p.path ≠ [] := by
    intro h
    have h2 : comps = [] ∨ comps ≠ [] := by by_cases h : comps = [] <;> simp [h]
    rcases h2 with h2 | h2
    · simp [p, h2, joinPath] at h; exact hx.1 h
    · have := joinPath_snoc comps x h2
      simp [p, this] at h
  obtain ⟨a, ha⟩ := lastSlash_toString hne
  have : pr ++ c!"//" ++ joinPath (comps ++ [x]) = p.toString := rfl
  rw [this]
  simp only [BazelTarget.parseFrom, splitAll_of_not_mem (packageToString_no_colon hp), ha]
  rw [assemble_toString hp, lastElement_snoc pr comps hx]

theorem stripDots_dots : BazelPattern.stripDots c!"..." = [] := by decide

theorem stripDots_path (p : Str) : BazelPattern.stripDots (p ++ c!"/...") = p := by
  simp [BazelPattern.stripDots]

theorem inContext_name (t : BazelTarget) (ctx : BazelPackage) : (inContext t ctx).name = t.name := by
  unfold inContext; split <;> rfl

theorem inContext_path (t : BazelTarget) (ctx : BazelPackage) :
    (inContext t ctx).package.path = t.package.path := by
  unfold inContext; split <;> rfl

end Bant
