import Verif.Lemmas.PrintCommand

/-! # Lemmas: the rules that `bant print` writes -/
namespace Bant
namespace Print
open Query Rules Parser Props

theorem printStatements_append (a b : List (Str × Node)) :
    printStatements (a ++ b) = printStatements a ++ printStatements b := by
  induction a with
  | nil => rfl
  | cons x a ih => simp [printStatements, ih]

theorem targetOf_eq (package : BazelPackage) (r : Result) : targetOf package r = package.qualifiedTarget r.name := by
  unfold targetOf
  split
  · next h => rw [h]; rfl
  · rfl

theorem qualified_package {package : BazelPackage} {name : Str} {t : BazelTarget}
    (h : package.qualifiedTarget name = some t) : t.package = package := by
  unfold BazelPackage.qualifiedTarget at h
  cases name with
  | nil => cases h
  | cons c rest =>
    simp only [] at h
    split at h
    · split at h
      · cases h
      · cases h; rfl
    · cases h; rfl

theorem asked_iff {pattern : BazelPattern} {package : BazelPackage} {r : Result} :
    Asked pattern package r ↔ (pattern.matchPackage package && wanted pattern package r) = true := by
  unfold Asked wanted
  rw [targetOf_eq, Bool.and_eq_true, Bool.or_eq_true]
  cases hq : package.qualifiedTarget r.name with
  | none => simp only [Bool.false_eq_true, or_false]; exact And.comm
  | some t =>
    have ht := qualified_package hq
    simp only []
    cases hk : pattern.kind <;>
      simp [BazelPattern.matchTarget, BazelPattern.matchPackage, BazelPattern.isRecursive, hk, ht]
    rintro rfl
    exact ht.symm

/-- The text for a visibility, if there is one. -/
def visibilityOf : Option ListRef → Str
  | some (_, xs) => c!" (visibility:" ++ (xs.filterMap Rules.text).flatMap (' ' :: ·) ++ c!")"
  | none => []

theorem visibilityWords_some {xs : List Node} {v : Str} (h : visibilityWords xs = some v) :
    v = (xs.filterMap Rules.text).flatMap (' ' :: ·) := by
  have : Node.null ∉ xs := by
    intro hm
    induction xs generalizing v with
    | nil => cases hm
    | cons x xs ih =>
      cases x with
      | null => cases h
      | str t tr rw' =>
        rw [visibilityWords] at h
        obtain ⟨w, hw, _⟩ := Option.map_eq_some_iff.1 h
        exact ih hw (by simpa using hm)
      | int rep v' =>
        rw [visibilityWords] at h
        obtain ⟨w, hw, _⟩ := Option.map_eq_some_iff.1 h
        exact ih hw (by simpa using hm)
      | _ => exact ih h (by simpa using hm)
  rw [visibilityWords_eq this] at h
  exact (Option.some.inj h).symm

theorem visibilityText_some {vis : Option ListRef} {v : Str} (h : visibilityText vis = some v) : v = visibilityOf vis := by
  cases vis with
  | none => cases h; rfl
  | some l =>
    obtain ⟨ty, xs⟩ := l
    simp only [visibilityText, Option.map_eq_some_iff] at h
    obtain ⟨w, hw, rfl⟩ := h
    rw [visibilityWords_some hw]
    rfl

/-- Rules as they are for the files of a project. -/
structure Sound (f : File) (rs : List Result) : Prop where
  found : findTargets true f.ast [] = some rs
  rules : rs = report kwArgsIn [] true none (sites f.ast)
  typed : ∀ r ∈ rs, wellTyped r.node = true

open ParserCalls in
mutual
theorem callsOk_wellTyped (n : Node) (h : callsOk n = true) : wellTyped n = true := by
  cases n with
  | null => rfl
  | str => rfl
  | int => rfl
  | ident => rfl
  | unary op e => exact callsOk_wellTyped e h
  | binop op a b =>
    simp only [callsOk, Bool.and_eq_true] at h
    simp [wellTyped, callsOk_wellTyped a h.1, callsOk_wellTyped b h.2]
  | list ty xs => exact callsOkAll_wellTyped xs h
  | compr ty e => exact callsOk_wellTyped e h
  | ternary a b c =>
    simp only [callsOk, Bool.and_eq_true] at h
    simp [wellTyped, callsOk_wellTyped a h.1.1, callsOk_wellTyped b h.1.2, callsOk_wellTyped c h.2]
  | assign a b =>
    simp only [callsOk, Bool.and_eq_true] at h
    simp [wellTyped, callsOk_wellTyped a h.1, callsOk_wellTyped b h.2]
  | call f args =>
    cases f with
    | ident i =>
      cases args with
      | list ty xs =>
        have := callsOkAll_wellTyped xs h
        simp [wellTyped, Node.asIdent, this]
      | _ => cases h
    | _ => cases h
theorem callsOkAll_wellTyped (xs : List Node) (h : callsOkAll xs = true) : wellTypedAll xs = true := by
  cases xs with
  | nil => rfl
  | cons x xs =>
    simp only [callsOkAll, Bool.and_eq_true] at h
    simp [wellTypedAll, callsOk_wellTyped x h.1, callsOkAll_wellTyped xs h.2]
end

open ParserCalls in
mutual
theorem callsOk_site (n : Node) (h : callsOk n = true) : ∀ s ∈ sites n, callsOk (.call s.1 s.2) = true := by
  cases n with
  | null => simp [sites]
  | str => simp [sites]
  | int => simp [sites]
  | ident => simp [sites]
  | unary op e => exact callsOk_site e h
  | binop op a b =>
    simp only [callsOk, Bool.and_eq_true] at h
    intro s hs
    simp only [sites, List.mem_append] at hs
    exact hs.elim (callsOk_site a h.1 s) (callsOk_site b h.2 s)
  | list ty xs => exact callsOkAll_site xs h
  | compr ty e => exact callsOk_site e h
  | ternary a b c =>
    simp only [callsOk, Bool.and_eq_true] at h
    intro s hs
    simp only [sites, List.mem_append] at hs
    exact hs.elim (fun hs => hs.elim (callsOk_site a h.1.1 s) (callsOk_site b h.1.2 s)) (callsOk_site c h.2 s)
  | assign => simp [sites]
  | call f args =>
    intro s hs
    simp only [sites, List.mem_singleton] at hs
    rw [hs]
    exact h
theorem callsOkAll_site (xs : List Node) (h : callsOkAll xs = true) :
    ∀ s ∈ sitesIn xs, callsOk (.call s.1 s.2) = true := by
  cases xs with
  | nil => simp [sitesIn]
  | cons x xs =>
    simp only [callsOkAll, Bool.and_eq_true] at h
    intro s hs
    simp only [sitesIn, List.mem_append] at hs
    exact hs.elim (callsOk_site x h.1 s) (callsOkAll_site xs h.2 s)
end

open ParserCalls in
theorem callsOkAll_mem {xs : List Node} (h : callsOkAll xs = true) : ∀ x ∈ xs, callsOk x = true := by
  induction xs with
  | nil => simp
  | cons y ys ih =>
    simp only [callsOkAll, Bool.and_eq_true] at h
    intro x hx
    rcases List.mem_cons.1 hx with rfl | hx
    · exact h.1
    · exact ih h.2 x hx

open ParserCalls in
theorem fromFile_calls {n : Node} (h : FromFile n) : ∃ xs, n = .list .list xs ∧ callsOkAll xs = true := by
  obtain ⟨content, ast, st, hp, hn⟩ := h
  obtain ⟨stmts, rfl, hc⟩ := parseFile_calls hp
  rcases hn with rfl | ⟨glob, he⟩
  · exact ⟨_, rfl, hc⟩
  · exact elabFile_calls hc he

open ParserCalls in
theorem sound_of_file {f : File} (h : FromFile f.ast) : ∃ rs, Sound f rs := by
  obtain ⟨xs, he, hc⟩ := fromFile_calls h
  have hsite := callsOkAll_site xs hc
  refine ⟨report kwArgsIn [] true none (sites f.ast), ?_, rfl, ?_⟩
  · exact findTargets_report _ (by rw [he]; exact callsOkAll_sites xs hc)
  · intro r hr
    obtain ⟨⟨s, hm, hn⟩, _⟩ := report_mem hr
    rw [hn]
    exact callsOk_wellTyped _ (hsite s (by rw [he] at hm; exact hm))

theorem fromFile_of {content : Str} {n : Node} (h : ReadAs content n) : FromFile n := by
  obtain ⟨st, h1, _⟩ := h
  exact ⟨content, n, st, h1, .inl rfl⟩

/-- In files without errors, what is printed are calls as in the grammar. -/
theorem call_of_parsed {ast : Node} {content : Str} (h : ReadAs content ast) {r : Result}
    (hr : r ∈ report kwArgsIn [] true none (sites ast)) : ∃ a b, r.node = .call a b ∧ Stmt r.node := by
  obtain ⟨st, h1, h2⟩ := h
  obtain ⟨xs, rfl, hs⟩ := parsed_stmts h1 h2
  obtain ⟨⟨s, hm, hn⟩, _⟩ := report_mem hr
  obtain ⟨z, hz, hc⟩ := callsIn_mem (sitesIn_callsIn xs s hm)
  exact ⟨_, _, hn, by rw [hn]; exact .call (stmt_calls (hs z hz) _ hc)⟩

/-- The rules that are printed. -/
def keep (o : Options) (pattern : BazelPattern) (x : File × Str × Result) : Bool :=
  (pattern.matchPackage x.1.package && wanted pattern x.1.package x.2.2) &&
    (o.find.isNone || ((printNode o.find o.color x.2.2.node).map (·.2)).getD false)

/-- A rule as it is printed. -/
def shown (x : File × Str × Result) : Str × Node := (commentOf x.1.package x.2.1 x.2.2, x.2.2.node)

/-- The text, with control sequences if there is colour. -/
def Written (color : Bool) (plain out : Str) : Prop := Colored plain out ∧ (color = false → out = plain)

theorem Written.nil {color : Bool} : Written color [] [] := ⟨.nil, fun _ => rfl⟩

theorem Written.append {color : Bool} {a b c d : Str} (h1 : Written color a b) (h2 : Written color c d) :
    Written color (a ++ c) (b ++ d) :=
  ⟨h1.1.append h2.1, fun h => by rw [h1.2 h, h2.2 h]⟩

theorem Written.seq {color : Bool} {s : Str} (h : Sequence s) : Written color [] (colored color s) :=
  ⟨.seq h color, fun h => by rw [h]; rfl⟩

theorem Written.refl {color : Bool} (s : Str) : Written color s s := ⟨.refl s, fun _ => rfl⟩

theorem printRule_eq {o : Options} {pattern : BazelPattern} {f : File} {loc : Str}
    {r : Result} {out : Str} (hm : pattern.matchPackage f.package = true)
    (h : printRule o pattern f.package loc r = some out) :
    Written o.color (printStatements (([(f, loc, r)].filter (keep o pattern)).map shown)) out ∧
    (wanted pattern f.package r = true → ∃ x, printNode o.find o.color r.node = some x) := by
  unfold printRule at h
  by_cases hw : wanted pattern f.package r = true
  · cases h1 : visibilityText r.visibility with
    | none => simp [hw, comment, h1] at h
    | some v =>
    have h2 := visibilityText_some h1
    simp only [hw, if_true, comment, h1, Option.map_some] at h
    cases hp : printNode o.find o.color r.node with
    | none => rw [hp] at h; cases h
    | some x =>
      obtain ⟨text, hit⟩ := x
      rw [hp] at h
      simp only [Option.some.injEq] at h
      refine ⟨?_, fun _ => ⟨_, rfl⟩⟩
      rw [← h]
      obtain ⟨ht1, ht2, _⟩ := printNode_sound hp
      have htext : Written o.color (print 0 r.node) text := ⟨ht1, ht2⟩
      by_cases hk : (o.find.isNone || hit) = true
      · have : keep o pattern (f, loc, r) = true := by simpa [keep, hm, hw, hp] using hk
        rw [if_pos hk, List.filter_cons_of_pos this]
        have hcm : commentOf f.package loc r = loc ++ (match f.package.qualifiedTarget r.name with
            | some t => ' ' :: t.toString
            | none => []) ++ v := by
          rw [h2]; rfl
        simp only [List.filter_nil, List.map_cons, List.map_nil, shown, printStatements, List.append_nil, targetOf_eq]
        refine (Written.append ?_ htext).append (.refl _)
        have h3 := ((Written.seq (color := o.color) seq_comment).append (.refl (c!"# " ++ commentOf f.package loc r))).append
          ((Written.seq (color := o.color) seq_reset).append (.refl c!"\n"))
        rw [hcm] at h3
        simp only [hcm, List.nil_append, List.append_assoc] at h3 ⊢
        cases hq : f.package.qualifiedTarget r.name <;> (rw [hq] at h3; exact h3)
      · have : ¬ keep o pattern (f, loc, r) = true := by simpa [keep, hm, hw, hp] using hk
        rw [if_neg hk, List.filter_cons_of_neg this]
        exact .nil
  · rw [if_neg hw] at h
    cases h
    refine ⟨?_, fun h => absurd h hw⟩
    rw [List.filter_cons_of_neg (by simp [keep, hw])]
    exact .nil

theorem printRules_eq {o : Options} {pattern : BazelPattern} {f : File}
    (hm : pattern.matchPackage f.package = true) :
    ∀ {rs : List Result} {k : Nat} {out : Str}, printRules o pattern f.package f.loc k rs = some out →
    Written o.color
      (printStatements ((((rs.zipIdx k).map fun r => (f, f.loc r.2, r.1)).filter (keep o pattern)).map shown)) out ∧
    ∀ r ∈ rs, wanted pattern f.package r = true → ∃ x, printNode o.find o.color r.node = some x
  | [], _, _, h => by cases h; exact ⟨.nil, by simp⟩
  | r :: rs, k, out, h => by
    simp only [printRules] at h
    cases h1 : printRule o pattern f.package (f.loc k) r with
    | none => rw [h1] at h; cases h
    | some a =>
      cases h2 : printRules o pattern f.package f.loc (k + 1) rs with
      | none => rw [h1, h2] at h; cases h
      | some b =>
        rw [h1, h2] at h
        simp only [Option.some.injEq] at h
        obtain ⟨e1, e2⟩ := printRule_eq hm h1
        obtain ⟨e3, e4⟩ := printRules_eq hm h2
        refine ⟨?_, ?_⟩
        · have e5 := e1.append e3
          rw [h, ← printStatements_append, ← List.map_append, ← List.filter_append] at e5
          exact e5
        · intro r' hr'
          rcases List.mem_cons.1 hr' with rfl | hr'
          · exact e2
          · exact e4 r' hr'

theorem rulesIn_cons (f : File) (fs : List File) : rulesIn (f :: fs) =
    ((report kwArgsIn [] true none (sites f.ast)).zipIdx.map fun r => (f, f.loc r.2, r.1)) ++ rulesIn fs := rfl

theorem rulesIn_mem {f : File} {rs : List Result} {x : File × Str × Result}
    (h : x ∈ rs.zipIdx.map fun r => (f, f.loc r.2, r.1)) : x.1 = f ∧ x.2.2 ∈ rs := by
  obtain ⟨r, hr, rfl⟩ := List.mem_map.1 h
  exact ⟨rfl, (List.mem_zipIdx hr).2.2 ▸ List.getElem_mem _⟩

theorem printProject_eq {o : Options} {pattern : BazelPattern} :
    ∀ {files : List File} {out : Str}, (∀ f ∈ files, ∃ rs, Sound f rs) →
    printProject o pattern files = some out →
    Written o.color (printStatements (((rulesIn (files.filter fun f => !o.onlyErrors || f.hasErrors)).filter
      (keep o pattern)).map shown)) out ∧
    ∀ x ∈ rulesIn (files.filter fun f => !o.onlyErrors || f.hasErrors),
      (pattern.matchPackage x.1.package && wanted pattern x.1.package x.2.2) = true →
      ∃ p, printNode o.find o.color x.2.2.node = some p
  | [], _, _, h => by cases h; exact ⟨.nil, by simp [rulesIn]⟩
  | f :: fs, out, hs, h => by
    have ih := fun {out} => printProject_eq (o := o) (files := fs) (out := out) (pattern := pattern)
      (fun f hf => hs f (by simp [hf]))
    obtain ⟨rs, hf⟩ := hs f (by simp)
    simp only [printProject] at h
    by_cases he : (!o.onlyErrors || f.hasErrors) = true
    · have he' : (o.onlyErrors && !f.hasErrors) = false := by
        cases h1 : o.onlyErrors <;> cases h2 : f.hasErrors <;> simp_all
      rw [List.filter_cons_of_pos (p := fun f : File => !o.onlyErrors || f.hasErrors) he, rulesIn_cons, ← hf.rules]
      by_cases hm : pattern.matchPackage f.package = true
      · rw [if_neg (by simp [he', hm]), hf.found] at h
        simp only [] at h
        cases h1 : printRules o pattern f.package f.loc 0 rs with
        | none => rw [h1] at h; cases h
        | some a =>
          cases h2 : printProject o pattern fs with
          | none => rw [h1, h2] at h; cases h
          | some b =>
            rw [h1, h2] at h
            simp only [Option.some.injEq] at h
            obtain ⟨e1, e2⟩ := printRules_eq hm h1
            obtain ⟨e3, e4⟩ := ih h2
            refine ⟨?_, ?_⟩
            · have e5 := e1.append e3
              rw [h, ← printStatements_append, ← List.map_append, ← List.filter_append] at e5
              exact e5
            · intro x hx hw
              rcases List.mem_append.1 hx with hx | hx
              · obtain ⟨hx1, hx2⟩ := rulesIn_mem hx
                rw [hx1, Bool.and_eq_true] at hw
                exact e2 _ hx2 hw.2
              · exact e4 x hx hw
      · rw [if_pos (by simp [hm])] at h
        obtain ⟨e3, e4⟩ := ih h
        refine ⟨?_, ?_⟩
        · rw [List.filter_append, List.map_append, printStatements_append]
          have : ((rs.zipIdx.map fun r => (f, f.loc r.2, r.1)).filter (keep o pattern)) = [] := by
            rw [List.filter_eq_nil_iff]
            intro x hx
            simp [keep, (rulesIn_mem hx).1, hm]
          rw [this]
          exact e3
        · intro x hx hw
          rcases List.mem_append.1 hx with hx | hx
          · rw [(rulesIn_mem hx).1] at hw
            simp [hm] at hw
          · exact e4 x hx hw
    · have he' : (o.onlyErrors && !f.hasErrors) = true := by
        cases h1 : o.onlyErrors <;> cases h2 : f.hasErrors <;> simp_all
      rw [if_pos (by simp [he'])] at h
      rw [List.filter_cons_of_neg (p := fun f : File => !o.onlyErrors || f.hasErrors) he]
      exact ih h

end Print
end Bant
