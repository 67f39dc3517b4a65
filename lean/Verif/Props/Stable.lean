import Verif.Lemmas.Stable
import Verif.Props.Dwyu
import Verif.Props.Targets

/-!
C93, C94: what happens if the suggested edits are carried out.
-/
namespace Bant
namespace Props
open StableSpec Stable Query Rules Headers HeaderSpec DwyuSpec Dwyu

theorem filterMap_inj {α β : Type} {g : α → Option β} {l : List α} (h : (l.filterMap g).Nodup) {a b : α}
    (ha : a ∈ l) (hb : b ∈ l) {t : β} (ga : g a = some t) (gb : g b = some t) : a = b := by
  induction l with
  | nil => cases ha
  | cons x l ih =>
    have rest : (l.filterMap g).Nodup := by
      cases hx : g x with
      | none => rwa [List.filterMap_cons_none hx] at h
      | some y => rw [List.filterMap_cons_some hx] at h; exact (List.nodup_cons.1 h).2
    have no : ∀ y, y ∈ l → g x = some t → g y = some t → False := by
      intro y hy h1 h2
      rw [List.filterMap_cons_some h1] at h
      exact (List.nodup_cons.1 h).1 (List.mem_filterMap.2 ⟨y, hy, h2⟩)
    rcases List.mem_cons.1 ha with h1 | h1 <;> rcases List.mem_cons.1 hb with h2 | h2
    · rw [h1, h2]
    · exact (no b h2 (h1 ▸ ga) gb).elim
    · exact (no a h1 (h2 ▸ gb) ga).elim
    · exact ih rest h1 h2

/-- A rule is known by its name. -/
theorem rule_unique {files : Files} (hf : Sound files) {f f' : BazelPackage × Node} (h : f ∈ files) (h' : f' ∈ files)
    {r r' : Result} (hr : r ∈ rulesOf [] f.2) (hr' : r' ∈ rulesOf [] f'.2) {t : BazelTarget}
    (ht : f.1.qualifiedTarget r.name = some t) (ht' : f'.1.qualifiedTarget r'.name = some t) : f = f' ∧ r = r' := by
  have hp : f.1 = f'.1 := by rw [← qualifiedTarget_package ht, ← qualifiedTarget_package ht']
  have hff : f = f' := by
    have := filterMap_inj (g := fun f : BazelPackage × Node => some f.1) (l := files)
      (by simpa [List.filterMap_eq_map] using hf.packages) h h' rfl (by rw [hp])
    exact this
  subst hff
  exact ⟨rfl, filterMap_inj (hf.rules f h) hr hr' ht ht'⟩

/-- A library that provides a header is a rule in one of the files. -/
theorem provides_known {files : Files} {path : Str} {t : BazelTarget} (h : Provides files path t) :
    ∃ f ∈ files, ∃ r ∈ rulesOf [] f.2, f.1.qualifiedTarget r.name = some t := by
  cases h with
  | library h1 h2 h3 h4 h5 h6 h7 h8 =>
    rcases h8 with rfl | ⟨pkg, ast, r, g1, g2, g3, _⟩
    · exact ⟨_, h1, _, rulesOf_sub h2, h3⟩
    · exact ⟨_, g1, _, rulesOf_sub g2, g3⟩
  | @proto pkg ast r proto grpc src stem ext lib h1 h2 h3 h4 h5 h6 h7 =>
    rw [Option.map_eq_some_iff] at h4
    obtain ⟨⟨p, l⟩, h4, rfl⟩ := h4
    have := List.mem_of_find?_eq_some h4
    unfold protoRules at this
    rw [List.mem_flatMap] at this
    obtain ⟨r', hr', h⟩ := this
    split at h
    · cases h
    · rename_i lib hl
      rw [List.mem_filterMap] at h
      obtain ⟨d, _, h⟩ := h
      rw [Option.map_eq_some_iff] at h
      obtain ⟨_, _, h⟩ := h
      cases h
      exact ⟨_, h1, r', rulesOf_sub hr', hl⟩

/-- It has a name that can be written. -/
theorem provides_wf {files : Files} (hf : Sound files) {path : Str} {t : BazelTarget} (h : Provides files path t) :
    Spec.WfTarget t := by
  obtain ⟨f, h, r, hr, ht⟩ := provides_known h
  refine ⟨?_, ?_, hf.names f h r hr t ht⟩
  · rw [qualifiedTarget_package ht]; exact hf.wellFormed f h
  · unfold BazelPackage.qualifiedTarget at ht
    cases hn : r.name with
    | nil => rw [hn] at ht; cases ht
    | cons c rest =>
      rw [hn] at ht
      simp only [] at ht
      by_cases he : (if c = ':' then rest else c :: rest) = []
      · simp [he] at ht
      · simp only [he, if_false, Option.some.injEq] at ht
        rw [← ht]; exact he

/-- Edits of the rules that are looked at do not change what is provided. -/
theorem edited_same {files files' : Files} (hf : Sound files) {edits : List Edit} (h : Edited edits files files')
    (hk : ∀ e ∈ edits, ∃ pkg r, Rule files pkg r e.target) : SameFiles files files' := by
  refine pairs_mono (pairs_mem h) ?_
  rintro f f' ⟨hm, _, h1, h2⟩
  refine ⟨h1, pairs_mono (pairs_mem h2) ?_⟩
  rintro r r' ⟨hr, _, h3⟩
  refine ⟨h3.same, fun hp => ?_⟩
  rw [h3.others fun e he hq => ?_]
  obtain ⟨pkg, r2, ast, g1, g2, g3⟩ := hk e he
  obtain ⟨_, rfl⟩ := rule_unique hf hm g1 hr (rulesOf_sub g2) hq g3
  have := rule_kind g2 (by simp)
  rw [hp] at this
  exact absurd this (by decide)

/-- **C93**: if the edits that were suggested for a project are carried out, and the same packages are
read again, then there is nothing left to suggest. -/
theorem C93_stable_partial {files files' : Files} (hs : ∀ f ∈ files, Searchable f.2)
    (hs' : ∀ f ∈ files', Searchable f.2) (hf : Sound files) {env env' : Env} {pattern : BazelPattern}
    {edits : List Edit} (hc : createDependencyEdits env pattern files = some edits)
    (hmain : ∀ x ∈ selected files pattern, x.1.project = [])
    (hed : Edited edits files files') (hcm : CommentsStay env env' files files')
    (hread : SourcesStay env env' files) (hws : env'.workspace = env.workspace)
    (hkeep : env'.ignoreKeep = env.ignoreKeep) :
    createDependencyEdits env' pattern files' = some [] := by
  have hsame := edited_same hf hed fun e he => by
    obtain ⟨pkg, r, _, _, _, _, _, h, _⟩ := edit_account hs hc he
    exact ⟨pkg, r, h⟩
  obtain ⟨gen, gen', h1, h2, h3, h4, hg⟩ := gen_same hs hs' hsame
  rw [edits_of hs h1 h3] at hc
  rw [edits_of hs' h2 h4]
  congr 1
  rw [List.flatMap_eq_nil_iff]
  rintro ⟨pkg', r', t⟩ hsel'
  obtain ⟨⟨ast', hm', hr', hq'⟩, hpat⟩ := selected_iff.1 hsel'
  -- the rule as it was
  obtain ⟨⟨pkg, ast⟩, hm, ⟨hpk, hpairs⟩, hpairs'⟩ := pairs_right (pairs_and hed hcm) hm'
  simp only [] at hpk hpairs hpairs'
  subst hpk
  obtain ⟨r, hr, hedr, hcom⟩ := pairs_right (pairs_rules (pairs_and hpairs hpairs') (fun _ _ h => h.1.same.rule) _) hr'
  have hq : pkg'.qualifiedTarget r.name = some t := by rw [← hedr.same.name]; exact hq'
  have hrule : Rule files pkg' r t := ⟨ast, hm, hr, hq⟩
  have hsel : (pkg', r, t) ∈ selected files pattern := selected_iff.2 ⟨hrule, hpat⟩
  obtain ⟨es, sets, needed, removed, libs, acc, a1, ha, a2, a3, a4⟩ := rule_account_from h3 hs env hrule
  obtain ⟨es', sets', needed', removed', libs', acc', b1, hb, b2, b3, b4⟩ :=
    rule_account_from h4 hs' env' (pkg := pkg') (r := r') (target := t) ⟨ast', hm', hr', hq'⟩
  have hso : sourcesOf r' = sourcesOf r := by unfold sourcesOf; rw [hedr.same.srcs, hedr.same.hdrs]
  rw [hso, needed_same hg hws _ _ _ _ (hread pkg' r t hrule), a2] at b2
  cases b2
  rw [a3] at b3
  cases b3
  -- the edits for the rule
  have hes : ∀ e : Edit, e.target = t → (e ∈ edits ↔ e ∈ es) := by
    intro e het
    simp only [Option.some.injEq] at hc
    rw [← hc, List.mem_flatMap]
    constructor
    · rintro ⟨⟨p2, r2, t2⟩, hsel2, he⟩
      obtain ⟨⟨ast2, g1, g2, g3⟩, _⟩ := selected_iff.1 hsel2
      obtain ⟨es2, _, _, _, _, c1, c2⟩ := rule_account h3 hs env (pkg := p2) (r := r2) (target := t2) ⟨ast2, g1, g2, g3⟩
      simp only [c1, Option.getD_some] at he
      have : e.target = t2 := by
        have := he
        rw [c2.emitted, List.mem_append, List.mem_map, List.mem_map] at this
        rcases this with ⟨_, _, rfl⟩ | ⟨_, _, rfl⟩ <;> rfl
      have ht2 : t2 = t := this.symm.trans het
      subst ht2
      obtain ⟨e1, e2⟩ := rule_unique hf g1 hm (rulesOf_sub g2) (rulesOf_sub hr) g3 hq
      cases e1
      subst e2
      rw [a1] at c1
      cases c1
      exact he
    · intro he
      exact ⟨_, hsel, by simp only [a1, Option.getD_some]; exact he⟩
  have hrem : ∀ dep, (⟨.remove, t, dep, []⟩ : Edit) ∈ edits ↔ dep ∈ removed := by
    intro dep
    rw [hes _ rfl, ha.emitted, List.mem_append, List.mem_map, List.mem_map]
    constructor
    · rintro (⟨d, hd, he⟩ | ⟨_, _, he⟩)
      · injection he with _ _ he _
        subst he; exact hd
      · cases he
    · exact fun h => .inl ⟨dep, h, rfl⟩
  have hadd : ∀ dep, (⟨.add, t, [], dep⟩ : Edit) ∈ edits ↔ ∃ l ∈ libs, l.toStringRelativeTo t.package = dep := by
    intro dep
    rw [hes _ rfl, ha.emitted, List.mem_append, List.mem_map, List.mem_map]
    constructor
    · rintro (⟨_, _, he⟩ | ⟨l, hl, he⟩)
      · cases he
      · injection he with _ _ _ he
        exact ⟨l, hl, he⟩
    · rintro ⟨l, hl, rfl⟩
      exact .inr ⟨l, hl, rfl⟩
  have hren : ∀ a b, (⟨.rename, t, a, b⟩ : Edit) ∉ edits := by
    intro a b
    rw [hes _ rfl, ha.emitted, List.mem_append, List.mem_map, List.mem_map]
    rintro (⟨_, _, he⟩ | ⟨_, _, he⟩) <;> cases he
  have hdeps : ∀ dep, dep ∈ stringsOf r'.deps ↔ (dep ∈ stringsOf r.deps ∧ dep ∉ removed) ∨
      ∃ l ∈ libs, l.toStringRelativeTo t.package = dep := by
    intro dep
    rw [hedr.deps t hq, After, hrem, hadd]
    constructor
    · rintro (⟨a, b, _⟩ | h | ⟨_, _, h⟩)
      · exact .inl ⟨a, b⟩
      · exact .inr h
      · exact absurd h (hren _ _)
    · rintro (⟨a, b⟩ | h)
      · exact .inl ⟨a, b, hren dep⟩
      · exact .inr (.inl h)
  -- what is added can be read
  have hback : ∀ l, [l] ∈ needed → BazelTarget.parseFrom (l.toStringRelativeTo t.package) t.package = some l := by
    intro l hl
    obtain ⟨family, hne, hfam, hiff⟩ := ha.reduced.common [l] hl
    obtain ⟨s, hsf⟩ := List.exists_mem_of_ne_nil _ hne
    obtain ⟨_, _, inc, found, _, _, h⟩ := ha.alternatives.from_inc s (hfam s hsf)
    have hl' := ((h l).1 ((hiff l).1 (by simp) s hsf)).1
    refine C04_relative_roundtrip_partial l (provides_wf hf hl') _ (.inr ?_)
    rw [qualifiedTarget_package hq]
    exact hmain _ hsel
  have hacc : Accounted files' env' pkg' t r' ↔ Accounted files env pkg' t r := by rw [← a4, ← b4]
  have hno : removed' = [] := by
    refine List.eq_nil_iff_forall_not_mem.2 fun dep hd => ?_
    obtain ⟨n, l, g1, g2, g3, g4, g5, g6⟩ := (hb.removed_iff dep).1 hd
    rcases (hdeps dep).1 (List.mem_of_getElem? g1) with ⟨g7, g8⟩ | ⟨l', g7, rfl⟩
    · obtain ⟨k, k1, k2⟩ := hcom t hq n dep g1 g7
      refine g8 ((ha.removed_iff dep).2 ⟨k, l, k1, g2, hacc.1 g3, (alwayslink_same hsame l).2 g4, ?_, g6⟩)
      rw [← hkeep]
      exact g5.imp id fun h h' => h (k2 h')
    · have := ((ha.libs_iff l').1 g7).1
      rw [hback l' this] at g2
      cases g2
      exact g6 _ this (by simp)
  have hnone : libs' = [] := by
    refine List.eq_nil_iff_forall_not_mem.2 fun l hl => ?_
    obtain ⟨g1, g2, g3, g4⟩ := (hb.libs_iff l).1 hl
    apply g2
    by_cases hd : DependsOn t r l
    · obtain ⟨dep, d1, d2⟩ := hd
      refine ⟨dep, (hdeps dep).2 (.inl ⟨d1, fun hx => ?_⟩), d2⟩
      obtain ⟨_, l2, _, k2, _, _, _, k6⟩ := (ha.removed_iff dep).1 hx
      rw [d2] at k2
      cases k2
      exact k6 _ g1 (by simp)
    · refine ⟨_, (hdeps _).2 (.inr ⟨l, (ha.libs_iff l).2 ⟨g1, hd, ?_, ?_⟩, rfl⟩), hback l g1⟩
      · exact (visible_same hsame t l).2 g3
      · exact (testonly_same hsame t l).2 g4
  simp only [b1, Option.getD_some, hb.emitted, hno, hnone, List.map_nil, List.append_nil]

/-! ## C94: spelling -/

/-- What is added provides a header. -/
theorem added_provided {files : Files} (hs : ∀ f ∈ files, Searchable f.2) {env : Env} {pattern : BazelPattern}
    {edits : List Edit} (hc : createDependencyEdits env pattern files = some edits) {e : Edit} (he : e ∈ edits)
    (hop : e.op = .add) : ∃ path l, Provides files path l ∧ e.after = l.toStringRelativeTo e.target.package := by
  obtain ⟨pkg, r, es, sets, needed, removed, libs, hr, hp, ha, hin⟩ := edit_account hs hc he
  obtain ⟨op, target, before, after⟩ := e
  simp only at hop hr hp ha hin ⊢
  rw [ha.emitted, List.mem_append, List.mem_map, List.mem_map] at hin
  rcases hin with ⟨dep, hdep, h⟩ | ⟨l, hl, h⟩
  · injection h with h _ _ _
    rw [← h] at hop; cases hop
  · injection h with _ _ _ h
    obtain ⟨h1, _⟩ := (ha.libs_iff l).1 hl
    obtain ⟨family, hne, hfam, hiff⟩ := ha.reduced.common [l] h1
    obtain ⟨s, hsf⟩ := List.exists_mem_of_ne_nil _ hne
    obtain ⟨_, _, inc, found, _, _, hx⟩ := ha.alternatives.from_inc s (hfam s hsf)
    exact ⟨found, l, ((hx l).1 ((hiff l).1 (by simp) s hsf)).1, h.symm⟩

/-- **C94**, full statement: a dependency that is added is written in the shortest way, and means a rule that is
there. -/
def C94_statement : Prop :=
  ∀ (files : Files) (env : Env) (pattern : BazelPattern) (edits : List Edit), (∀ f ∈ files, Searchable f.2) →
    Sound files → createDependencyEdits env pattern files = some edits → ∀ e ∈ edits, e.op = .add →
    ∃ l, BazelTarget.parseFrom e.after e.target.package = some l ∧ e.after = l.toStringRelativeTo e.target.package ∧
      ∃ f ∈ files, ∃ r ∈ rulesOf [] f.2, f.1.qualifiedTarget r.name = some l

/-- **C94** for rules of the main project. -/
theorem C94_added_partial {files : Files} (hs : ∀ f ∈ files, Searchable f.2) (hf : Sound files) {env : Env}
    {pattern : BazelPattern} {edits : List Edit} (hc : createDependencyEdits env pattern files = some edits)
    (hmain : ∀ x ∈ selected files pattern, x.1.project = []) {e : Edit} (he : e ∈ edits) (hop : e.op = .add) :
    ∃ l, BazelTarget.parseFrom e.after e.target.package = some l ∧ e.after = l.toStringRelativeTo e.target.package ∧
      ∃ f ∈ files, ∃ r ∈ rulesOf [] f.2, f.1.qualifiedTarget r.name = some l := by
  obtain ⟨path, l, h1, h2⟩ := added_provided hs hc he hop
  refine ⟨l, ?_, h2, provides_known h1⟩
  rw [h2]
  refine C04_relative_roundtrip_partial l (provides_wf hf h1) _ (.inr ?_)
  obtain ⟨pkg, r, _, _, _, _, _, h3, h4, _⟩ := edit_account hs hc he
  have : e.target.package = pkg := by
    obtain ⟨_, _, _, h⟩ := h3
    exact qualifiedTarget_package h
  rw [this]
  exact hmain _ (selected_iff.2 ⟨h3, h4⟩)

/-- **C94**: the advice does not depend on how dependencies are written: if some of them are replaced by other
names for the same targets, the same edits are suggested, in the same order. -/
theorem C94_spelling {files files' : Files} (hs : ∀ f ∈ files, Searchable f.2)
    (hs' : ∀ f ∈ files', Searchable f.2) {env env' : Env} {pattern : BazelPattern}
    (h : Respelled env env' files files') (hread : SourcesStay env env' files)
    (hws : env'.workspace = env.workspace) (hkeep : env'.ignoreKeep = env.ignoreKeep) :
    ∃ edits edits', createDependencyEdits env pattern files = some edits ∧
      createDependencyEdits env' pattern files' = some edits' ∧ Pairs SameEdit edits edits' := by
  have hsame := respelled_same h
  obtain ⟨gen, gen', h1, h2, h3, h4, hg⟩ := gen_same hs hs' hsame
  refine ⟨_, _, edits_of hs h1 h3 env pattern, edits_of hs' h2 h4 env' pattern, ?_⟩
  unfold selected
  rw [List.flatMap_assoc, List.flatMap_assoc]
  refine pairs_flatMap (pairs_mem h) ?_
  rintro ⟨pkg, ast⟩ ⟨pkg', ast'⟩ ⟨hf, hf', hpk, hp⟩
  simp only [] at hpk hp
  subst hpk
  rw [List.flatMap_assoc, List.flatMap_assoc]
  refine pairs_flatMap (pairs_mem (pairs_rules hp (fun _ _ h => h.same.rule) _)) ?_
  rintro r r' ⟨hr, hr', hm⟩
  rw [hm.same.name]
  cases hq : pkg'.qualifiedTarget r.name with
  | none => exact .nil
  | some t =>
    simp only []
    cases hpat : pattern.matchTarget t with
    | false => exact .nil
    | true =>
      simp only [if_true, List.flatMap_cons, List.flatMap_nil, List.append_nil]
      obtain ⟨l1, l2, _, _, l5, _⟩ := lists (hs _ hf) hr
      obtain ⟨g1, g2, _, _, g5, _⟩ := lists (hs' _ hf') hr'
      have hrule : Rule files pkg' r t := ⟨ast, hf, hr, hq⟩
      obtain ⟨es, sets, needed, removed, libs, acc, a1, _, a2, a3, a4⟩ := rule_account_from h3 hs env hrule
      have b2 := needed_same hg hws t pkg' (sourcesOf r) (sourcesOf r) (hread pkg' r t hrule)
      have htp := qualifiedTarget_package hq
      have hd := hm.deps
      rw [← htp] at hd
      have hl := lookAtDeps_same (acc := acc) (target := t) hkeep (alwayslink_gen h3 h4 hsame) (hm.comments t hq) hd 0 needed []
      have hso : stringsOf r'.srcs ++ stringsOf r'.hdrs = sourcesOf r := by
        unfold sourcesOf; rw [hm.same.srcs, hm.same.hdrs]
      have e1 : createEditsForTarget env gen t r pkg' =
          (addNeeded gen t (lookAtDeps env gen t r acc 0 needed [] (stringsOf r.deps)).1).map
            ((lookAtDeps env gen t r acc 0 needed [] (stringsOf r.deps)).2 ++ ·) := by
        unfold createEditsForTarget
        have a2 : neededBySources env gen t pkg' (stringsOf r.srcs ++ stringsOf r.hdrs)
          (stringsOf r.srcs ++ stringsOf r.hdrs) = some (sets, acc) := a2
        simp only [l1, l2, l5, a2, a3]
      have e2 : createEditsForTarget env' gen' t r' pkg' =
          (addNeeded gen t (lookAtDeps env gen t r acc 0 needed [] (stringsOf r.deps)).1).map
            ((lookAtDeps env' gen' t r' acc 0 needed [] (stringsOf r'.deps)).2 ++ ·) := by
        unfold createEditsForTarget
        simp only [g1, g2, g5, hso, b2, a2, a3, hl.1, addNeeded_same hg (testonly_gen h3 h4 hsame)]
      rw [e1, e2]
      cases addNeeded gen t (lookAtDeps env gen t r acc 0 needed [] (stringsOf r.deps)).1 with
      | none => exact .nil
      | some adds => exact pairs_append hl.2 (pairs_refl (fun e => ⟨rfl, rfl, rfl, rfl⟩) adds)

end Props
end Bant
