import Verif.Lemmas.SearchableFiles
import Verif.Lemmas.Workspace
import Verif.Model.WorkspaceCmd
import Verif.Spec.WorkspaceCmd

/-! Lemmas on the command `workspace`. -/
namespace Bant
namespace WorkspaceCmd
open Query Rules Workspace WorkspaceSpec WorkspaceCmdSpec

/-- A map that is part of `global`. -/
structure Part (global m : Map) : Prop where
  sorted : Sorted m
  sub : ∀ e ∈ m, e ∈ global

theorem insert_part {global m : Map} (hg : Sorted global) (h : Part global m) {e : VersionedProject × Str}
    (he : e ∈ global) : Part global (insert m e) ∧ ∀ x, x ∈ insert m e ↔ x ∈ m ∨ x = e := by
  unfold insert
  obtain ⟨k, p⟩ := e
  split
  · rename_i hk
    obtain ⟨⟨k', p'⟩, hx, hk⟩ := List.any_eq_true.1 hk
    have hk : k' = k := of_decide_eq_true hk
    subst hk
    have hp := hg.unique (h.sub _ hx) he
    subst hp
    refine ⟨h, fun x => ⟨.inl, ?_⟩⟩
    rintro (hm | rfl)
    · exact hm
    · exact hx
  · rename_i hk
    obtain ⟨h1, h2, h3⟩ := assign_spec h.sorted k p
    have key : ∀ x, x ∈ assign k p m ↔ x ∈ m ∨ x = (k, p) := by
      rintro ⟨k', p'⟩
      by_cases hx : k' = k
      · subst hx
        rw [h3]
        constructor
        · rintro rfl; exact .inr rfl
        · rintro (hm | hm)
          · exact absurd (List.any_eq_true.2 ⟨_, hm, decide_eq_true rfl⟩) hk
          · cases hm; rfl
      · rw [h2 k' p' hx]
        constructor
        · exact .inl
        · rintro (hm | hm)
          · exact hm
          · cases hm; exact absurd rfl hx
    refine ⟨⟨h1, ?_⟩, key⟩
    intro x hx
    rcases (key x).1 hx with hm | rfl
    · exact h.sub _ hm
    · exact he

/-- A reference adds an entry. -/
def Adds (global : Map) (pkg : BazelPackage) (ref : Str) (e : VersionedProject × Str) : Prop :=
  ∃ t, BazelTarget.parseFrom ref pkg = some t ∧ t.package.project ≠ [] ∧ t.package.project ≠ pkg.project ∧
    findEntry global t.package.project = some e

theorem addRef_part {global m : Map} (hg : Sorted global) (h : Part global m) (pkg : BazelPackage) (ref : Str) :
    Part global (addRef global pkg m ref) ∧
    ∀ x, x ∈ addRef global pkg m ref ↔ x ∈ m ∨ Adds global pkg ref x := by
  unfold addRef
  split
  · rename_i hp
    exact ⟨h, fun x => ⟨.inl, fun hx => hx.elim id fun ⟨t, ht, _⟩ => by rw [hp] at ht; cases ht⟩⟩
  · rename_i t hp
    split
    · rename_i hc
      refine ⟨h, fun x => ⟨.inl, fun hx => hx.elim id fun ⟨t', ht, h1, h2, _⟩ => ?_⟩⟩
      rw [hp] at ht; cases ht
      exact (hc.elim h1 h2).elim
    · rename_i hc
      split
      · rename_i hf
        refine ⟨h, fun x => ⟨.inl, fun hx => hx.elim id fun ⟨t', ht, _, _, h3⟩ => ?_⟩⟩
        rw [hp] at ht; cases ht
        rw [hf] at h3; cases h3
      · rename_i e hf
        obtain ⟨i1, i2⟩ := insert_part hg h ((findEntry_spec hg _ _).1 hf).2.1
        refine ⟨i1, fun x => ?_⟩
        rw [i2]
        constructor
        · rintro (hx | rfl)
          · exact .inl hx
          · exact .inr ⟨t, hp, fun h => hc (.inl h), fun h => hc (.inr h), hf⟩
        · rintro (hx | ⟨t', ht, _, _, h3⟩)
          · exact .inl hx
          · rw [hp] at ht; cases ht
            rw [hf] at h3; cases h3
            exact .inr rfl

theorem addRefs_part {global : Map} (hg : Sorted global) (pkg : BazelPackage) (refs : List Str) :
    ∀ m, Part global m → Part global (refs.foldl (addRef global pkg) m) ∧
      ∀ x, x ∈ refs.foldl (addRef global pkg) m ↔ x ∈ m ∨ ∃ ref ∈ refs, Adds global pkg ref x := by
  induction refs with
  | nil => intro m h; exact ⟨h, by simp⟩
  | cons ref refs ih =>
    intro m h
    obtain ⟨h1, h2⟩ := addRef_part hg h pkg ref
    obtain ⟨i1, i2⟩ := ih _ h1
    refine ⟨i1, fun x => ?_⟩
    rw [List.foldl_cons, i2, h2]
    simp only [List.mem_cons, exists_eq_or_imp, or_assoc]

/-- Named calls among all calls. -/
theorem report_named {k : List Node → List (Node × Node)} {kinds : List Str} (ss : List (Node × Node)) : ∀ vis,
    (report k kinds true vis ss).filter (fun r => r.name ≠ []) = report k kinds false vis ss := by
  induction ss with
  | nil => intro vis; rfl
  | cons s ss ih =>
    intro vis
    rw [report.eq_def, report.eq_def k kinds false]
    obtain ⟨f, a⟩ := s
    cases f <;> cases a <;> try exact ih vis
    rename_i fn ty args
    simp only []
    by_cases hp : fn = c!"package"
    · simp only [hp, if_true]; exact ih _
    · simp only [hp, if_false]
      by_cases hk : kinds = [] ∨ fn ∈ kinds
      · simp only [hk, true_and, true_or, if_true, Bool.false_eq_true, false_or]
        split
        · rename_i hn
          rw [List.filter_cons_of_pos (by simpa using hn), ih]
        · rename_i hn
          rw [List.filter_cons_of_neg (by simpa using hn), ih]
      · rw [if_neg (fun h => hk h.1), if_neg (fun h => hk h.1)]
        exact ih vis

theorem mem_rulesOf {kinds : List Str} {ast : Node} {r : Result} :
    r ∈ rulesOf kinds ast ↔ r ∈ report kwArgsIn kinds true none (sites ast) ∧ r.name ≠ [] := by
  rw [rulesOf, ← report_named, List.mem_filter]
  simp

/-- The references of a call, if nothing is missing. -/
def refsOf (pattern : BazelPattern) (pkg : BazelPackage) (r : Result) : List Str :=
  if r.rule = c!"load" then
    match r.node with
    | .call _ (.list ty args) => stringsOf (some (ty, args))
    | _ => []
  else
    match pkg.qualifiedTarget r.name with
    | none => []
    | some target =>
      if ¬ pattern.matchTarget target then []
      else stringsOf r.deps ++ if r.actual = [] then [] else [r.actual]

theorem refs_eq {pattern : BazelPattern} {pkg : BazelPackage} {ast : Node} (h : Searchable ast)
    (hl : ∀ ty args, (.ident c!"load", .list ty args) ∈ sites ast → Node.null ∉ args) {r : Result}
    (hr : r ∈ report kwArgsIn [] true none (sites ast)) :
    refs pattern pkg r = some (refsOf pattern pkg r) := by
  unfold refs refsOf
  split
  · rename_i hload
    obtain ⟨vis, fn, ty, args, hm, rfl, _⟩ := mem_report hr
    have hload : fn = c!"load" := hload
    subst hload
    exact strings_eq (hl ty args hm)
  · cases ht : pkg.qualifiedTarget r.name with
    | none => rfl
    | some t =>
      simp only []
      split
      · rfl
      · have hn : r.name ≠ [] := by rintro hn; rw [hn] at ht; cases ht
        rw [stringList_rule h (mem_rulesOf.2 ⟨hr, hn⟩) (by simp [listsOf])]
        rfl

/-- All calls are reported. -/
theorem report_mem {ss : List (Node × Node)} {k : List Node → List (Node × Node)} {fn : Str} {ty : ListType}
    {args : List Node} (hfn : fn ≠ c!"package") (hm : (.ident fn, .list ty args) ∈ ss) : ∀ vis,
    ∃ vis', attributes vis' fn (.list ty args) (k args) ∈ report k [] true vis ss := by
  induction ss with
  | nil => cases hm
  | cons s ss ih =>
    intro vis
    rw [report.eq_def]
    rcases List.mem_cons.1 hm with rfl | hm'
    · exact ⟨vis, by simp [hfn]⟩
    · obtain ⟨f, a⟩ := s
      cases f <;> cases a <;> try exact ih hm' vis
      simp only []
      split
      · exact ih hm' _
      · obtain ⟨v, hv⟩ := ih hm' vis
        refine ⟨v, ?_⟩
        split
        · exact .tail _ hv
        · exact hv

theorem refs_mentions {pattern : BazelPattern} {pkg : BazelPackage} {ast : Node} (s : Str) :
    s ∈ (report kwArgsIn [] true none (sites ast)).flatMap (refsOf pattern pkg) ↔ Mentions pattern pkg ast s := by
  rw [List.mem_flatMap]
  constructor
  · rintro ⟨r, hr, hs⟩
    unfold refsOf at hs
    split at hs
    · rename_i hload
      obtain ⟨vis, fn, ty, args, hm, rfl, _⟩ := mem_report hr
      have hload : fn = c!"load" := hload
      subst hload
      exact .load hm hs
    · rename_i hload
      split at hs
      · cases hs
      · rename_i t ht
        split at hs
        · cases hs
        · rename_i hp
          have hn : r.name ≠ [] := by rintro hn; rw [hn] at ht; cases ht
          have hm : Matching pattern pkg ast r := ⟨mem_rulesOf.2 ⟨hr, hn⟩, hload, t, ht, by simpa using hp⟩
          rcases List.mem_append.1 hs with hs | hs
          · exact .dep hm hs
          · split at hs
            · cases hs
            · rename_i ha
              rw [List.mem_singleton.1 hs]
              exact .alias hm ha
  · have mine : ∀ r, Matching pattern pkg ast r → r ∈ report kwArgsIn [] true none (sites ast) ∧
        refsOf pattern pkg r = stringsOf r.deps ++ if r.actual = [] then [] else [r.actual] := by
      rintro r ⟨h1, h2, t, h3, h4⟩
      refine ⟨(mem_rulesOf.1 h1).1, ?_⟩
      simp only [refsOf, if_neg h2, h3, h4, not_true, if_false]
    rintro (⟨hm, hs⟩ | ⟨hm, hs⟩ | ⟨hm, ha⟩)
    · obtain ⟨v, hv⟩ := report_mem (k := kwArgsIn) (by decide) hm none
      exact ⟨_, hv, by simpa [refsOf, attributes] using hs⟩
    · obtain ⟨h1, h2⟩ := mine _ hm
      exact ⟨_, h1, by rw [h2]; exact List.mem_append_left _ hs⟩
    · obtain ⟨h1, h2⟩ := mine _ hm
      exact ⟨_, h1, by rw [h2, if_neg ha]; simp⟩

theorem addFile_part {global : Map} (hg : Sorted global) (pattern : BazelPattern) (f : BazelPackage × Node)
    (hf : Complete f.2)
    {m : Map} (h : Part global m) :
    ∃ m', addFile global pattern m f = some m' ∧ Part global m' ∧
      ∀ x, x ∈ m' ↔ x ∈ m ∨ (pattern.matchPackage f.1 = true ∧
        ∃ ref, Mentions pattern f.1 f.2 ref ∧ Adds global f.1 ref x) := by
  unfold addFile
  split
  · rename_i hp
    exact ⟨m, rfl, h, fun x => ⟨.inl, fun hx => hx.elim id fun hx => absurd hx.1 hp⟩⟩
  · rename_i hp
    have hp : pattern.matchPackage f.1 = true := by simpa using hp
    rw [addFile.forTargetsAny, findTargets_report _ hf.proper, Option.bind_some,
      mapAll_eq (fun r hr => refs_eq hf.toSearchable hf.loads hr)]
    obtain ⟨i1, i2⟩ := addRefs_part hg f.1
      ((report kwArgsIn [] true none (sites f.2)).flatMap (refsOf pattern f.1)) m h
    refine ⟨_, rfl, i1, fun x => ?_⟩
    rw [i2]
    simp only [refs_mentions, hp, true_and]

theorem addFiles_part {global : Map} (hg : Sorted global) (pattern : BazelPattern)
    (files : List (BazelPackage × Node)) : Readable files → ∀ m, Part global m →
    ∃ m', files.foldlM (addFile global pattern) m = some m' ∧ Part global m' ∧
      ∀ x, x ∈ m' ↔ x ∈ m ∨ ∃ f ∈ files, pattern.matchPackage f.1 = true ∧
        ∃ ref, Mentions pattern f.1 f.2 ref ∧ Adds global f.1 ref x := by
  induction files with
  | nil => intro _ m h; exact ⟨m, rfl, h, by simp⟩
  | cons f files ih =>
    intro hr m h
    obtain ⟨m1, a1, a2, a3⟩ := addFile_part hg pattern f (hr f (by simp)) h
    obtain ⟨m2, b1, b2, b3⟩ := ih (fun g hgm => hr g (by simp [hgm])) m1 a2
    refine ⟨m2, by rw [List.foldlM_cons, a1]; exact b1, b2, fun x => ?_⟩
    rw [b3, a3]
    simp only [List.mem_cons, exists_eq_or_imp, or_assoc]

theorem filtered_spec {global : Map} (hg : Sorted global) (pattern : BazelPattern)
    {files : List (BazelPackage × Node)} (hr : Readable files) :
    ∃ m, filtered global pattern files = some m ∧ Sorted m ∧
      ∀ e, e ∈ m ↔ e ∈ global ∧ Lowest global e ∧
        ∃ project, Uses (Mentions pattern) pattern files project ∧ AskedAs project e.1.project := by
  obtain ⟨m, h1, h2, h3⟩ := addFiles_part hg pattern files hr [] ⟨by simp [Sorted], by simp⟩
  refine ⟨m, h1, h2.sorted, fun e => ?_⟩
  rw [h3]
  constructor
  · rintro (h | ⟨⟨pkg, ast⟩, hf, hp, ref, hm, t, ht, n1, n2, he⟩)
    · cases h
    · obtain ⟨e1, e2, e3⟩ := (findEntry_spec hg _ _).1 he
      exact ⟨e2, e3, _, ⟨pkg, ast, ref, t, hf, hp, hm, ht, rfl, n1, n2⟩, e1⟩
  · rintro ⟨e2, e3, _, ⟨pkg, ast, ref, t, hf, hp, hm, ht, rfl, n1, n2⟩, e1⟩
    exact .inr ⟨(pkg, ast), hf, hp, ref, hm, t, ht, n1, n2, (findEntry_spec hg _ _).2 ⟨e1, e2, e3⟩⟩

theorem sorted_filter {m : Map} (h : Sorted m) (p : VersionedProject × Str → Bool) : Sorted (m.filter p) :=
  List.Pairwise.filter p h

end WorkspaceCmd
end Bant
