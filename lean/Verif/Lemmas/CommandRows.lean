import Verif.Lemmas.CommandFiles
import Verif.Lemmas.DepGraphOrder
import Verif.Props.Table

/-! Lemmas about the commands: what is in the tables. -/
namespace Bant
namespace Commands
open Query Headers Cli Rules GraphSpec CommandSpec Props Table TableSpec

/-! ### Tables can be written -/

theorem jsonCells_total (headers : List Str) (cells : List Str) (c : Nat) (h : c + cells.length ≤ headers.length) :
    ∃ s, jsonCells headers c cells = some s := by
  induction cells generalizing c with
  | nil => exact ⟨[], rfl⟩
  | cons x xs ih =>
    simp only [List.length_cons] at h
    obtain ⟨s, hs⟩ := ih (c + 1) (by omega)
    rw [jsonCells, List.getElem?_eq_getElem (by omega), hs]
    exact ⟨_, rfl⟩

theorem sexprKey_total (plist : Bool) (headers : List Str) (c : Nat) (h : c < headers.length) :
    ∃ s, sexprKey plist headers c = some s := by
  unfold sexprKey
  rw [List.getElem?_eq_getElem h]
  split <;> exact ⟨_, rfl⟩

theorem sexprCells_total (plist : Bool) (headers : List Str) (cells : List Str) (c : Nat)
    (h : c + cells.length ≤ headers.length) : ∃ s, sexprCells plist headers c cells = some s := by
  induction cells generalizing c with
  | nil => exact ⟨[], rfl⟩
  | cons x xs ih =>
    simp only [List.length_cons] at h
    obtain ⟨s, hs⟩ := ih (c + 1) (by omega)
    obtain ⟨k, hk⟩ := sexprKey_total plist headers c (by omega)
    rw [sexprCells, hk, hs]
    exact ⟨_, rfl⟩

theorem mapM_total {α β : Type} {f : α → Option β} {l : List α} (h : ∀ x ∈ l, ∃ y, f x = some y) :
    ∃ ys, l.mapM f = some ys := by
  induction l with
  | nil => exact ⟨[], rfl⟩
  | cons x l ih =>
    obtain ⟨y, hy⟩ := h x (by simp)
    obtain ⟨ys, hys⟩ := ih fun z hz => h z (by simp [hz])
    exact ⟨y :: ys, by simp [List.mapM_cons, hy, hys]⟩

theorem output_total (format : Format) {headers : List Str} (hne : headers ≠ []) {ops : List Op}
    (hf : ∀ op ∈ ops, Fits headers op) : ∃ s, output format headers ops = some s := by
  have hs : ∀ plist, ∃ s, sexpr plist headers ops = some s := by
    intro plist
    obtain ⟨ys, hy⟩ := mapM_total (f := sexprOp plist headers) (l := ops) (by
      intro op hop
      have h := hf op hop
      cases op with
      | row cells =>
        obtain ⟨s, hs⟩ := sexprCells_total plist headers cells 0 (by simp only [Fits] at h; omega)
        exact ⟨_, by rw [sexprOp, hs]; rfl⟩
      | «repeated» pre values =>
        simp only [Fits] at h
        obtain ⟨s, hs⟩ := sexprCells_total plist headers pre 0 (by omega)
        obtain ⟨k, hk⟩ := sexprKey_total plist headers pre.length (by omega)
        exact ⟨_, by rw [sexprOp, hs, hk]⟩)
    exact ⟨_, by rw [sexpr, hy]; rfl⟩
  have hj : ∃ s, json headers ops = some s := by
    obtain ⟨ys, hy⟩ := mapM_total (f := jsonOp headers) (l := ops) (by
      intro op hop
      have h := hf op hop
      cases op with
      | row cells =>
        obtain ⟨s, hs⟩ := jsonCells_total headers cells 0 (by simp only [Fits] at h; omega)
        exact ⟨_, by rw [jsonOp, hs]; rfl⟩
      | «repeated» pre values =>
        simp only [Fits] at h
        obtain ⟨s, hs⟩ := jsonCells_total headers pre 0 (by omega)
        exact ⟨_, by rw [jsonOp, hs, List.getElem?_eq_getElem (by omega)]⟩)
    exact ⟨_, by rw [json, hy]; rfl⟩
  have ha : ∃ s, aligned headers ops = some s := by
    obtain ⟨_, _, h, _⟩ := C40_columns hne hf
    exact ⟨_, h⟩
  cases format with
  | sexpr => exact hs false
  | plist => exact hs true
  | json => exact hj
  | csv => exact ⟨_, rfl⟩
  | native => exact ha
  | graphviz => exact ha

/-! ### Running a command -/

theorem run_eq {m : Machine} {ws : Workspace.Map} (hw : workspaceOf m = some ws) (flags : Flags) (cmd : Command)
    (pattern : BazelPattern) : runCommand m flags cmd pattern =
      (prepareIn m ws flags cmd pattern).bind fun p =>
        (perform m flags cmd pattern p).map fun r => ⟨r.1, r.2, p.message⟩ := by
  unfold workspaceOf at hw
  unfold runCommand prepare
  cases hl : Workspace.load m.fs with
  | none => rw [hl] at hw; cases hw
  | some o =>
    cases o with
    | none => rw [hl] at hw; cases hw
    | some w0 =>
      rw [hl] at hw
      simp only [Option.some.injEq] at hw
      subst hw
      simp only []
      cases prepareIn m (Workspace.augment m.fs w0).2 flags cmd pattern <;> rfl

theorem run_of {m : Machine} {ws : Workspace.Map} (hw : workspaceOf m = some ws) {flags : Flags} {cmd : Command}
    {pattern : BazelPattern} {files l : Loaded} {msg out : Str} {g : DepGraph.Graph} {status : Nat}
    (ho : opened m ws flags cmd pattern = some (files, msg))
    (hf : follow m ws flags cmd pattern files = some (l, g))
    (hp : perform m flags cmd pattern ⟨ws, l, g, msg⟩ = some (status, out)) :
    runCommand m flags cmd pattern = some ⟨status, out, msg⟩ := by
  rw [run_eq hw, prepareIn, ho, Option.bind_some, hf, Option.map_some, Option.bind_some, hp]
  rfl

theorem table_total {flags : Flags} {headers : List Str} (hne : headers ≠ []) {ops : List Op}
    (hf : ∀ op ∈ ops, Fits headers op) :
    ∃ out, table flags headers (some ops) = some (0, out) ∧ output flags.format headers ops = some out := by
  obtain ⟨out, h⟩ := output_total flags.format hne hf
  exact ⟨out, by simp [table, h], h⟩

/-- What there is when the graph has been built. -/
structure Followed (m : Machine) (ws : Workspace.Map) (pattern : BazelPattern) (depth : Nat) (files l : Loaded)
    (now : Files) (g : DepGraph.Graph) : Prop where
  same : trees l = now
  listed : l = expanded (world m ws) files now
  grown : Grown m ws pattern depth files now
  searchable : ∀ f ∈ now, Searchable f.2
  sorted : GraphSorted g
  value : ∀ t ds, (t, ds) ∈ g.dependsOn ↔ Reached m ws pattern depth files t ∧
    ∃ r, Defines (world m ws) (trees files) t r ∧ ds = depsOf t.package r
  symmetric : ∀ a b, (dependents g a).count b = (dependencies g b).count a

theorem follow_spec {m : Machine} (hh : Healthy m) {ws : Workspace.Map} {flags : Flags} {cmd : Command}
    {pattern : BazelPattern} {files : Loaded} {msg : Str}
    (ho : opened m ws flags cmd pattern = some (files, msg)) (hu : usesGraph cmd = true)
    (hd : 0 ≤ depthOf flags cmd) :
    ∃ l now g, follow m ws flags cmd pattern files = some (l, g) ∧
      Followed m ws (searched cmd pattern) (depthOf flags cmd).toNat files l now g := by
  have hs := healthy_sound hh ho (searched cmd pattern) (depthOf flags cmd).toNat
  obtain ⟨now, g, h1, h2⟩ := build_spec (depthOf flags cmd) hs.loaded hs.needed
  have hasc := opened_ascending ho
  obtain ⟨h3, h4⟩ := build_sorted h1
  have h5 := h4 (by rw [trees_keys]; exact hasc)
  have hkeep : ∀ pkg ast, lookup (trees files) pkg = some ast → lookup now pkg = some ast := by
    intro pkg ast hl
    exact (h2.loaded pkg ast).2 ⟨by simp [GraphSpec.treeOf, hl], .inl (by rw [hl]; simp)⟩
  refine ⟨expanded (world m ws) files now, now, g, ?_, ?_⟩
  · unfold follow
    rw [hu]
    simp only [Bool.true_and, decide_eq_true_eq]
    rw [if_pos hd]
    change Option.map _ (DepGraph.build (world m ws) (searched cmd pattern) (depthOf flags cmd) (trees files)) = _
    rw [h1]
    rfl
  · refine ⟨expanded_trees hkeep h5.nodup, rfl, ⟨h5, ?_⟩, h2.searchable, h3, ?_, h2.symmetric⟩
    · intro pkg ast
      rw [mem_lookup h5.nodup, mem_lookup (by rw [trees_keys]; exact hasc.nodup), h2.loaded]
      have hk : pkg ∉ files.map (·.1) ↔ lookup (trees files) pkg = none := by rw [← trees_keys, lookup_none]
      rw [hk]
      unfold GraphSpec.treeOf Reached
      cases hl : lookup (trees files) pkg with
      | some a => simp
      | none =>
        simp only [ne_eq, not_true_eq_false, false_or, true_and, reduceCtorEq]
        constructor
        · rintro ⟨ha, j, t, hj, hr, ht⟩
          refine ⟨?_, t, ⟨j, by omega, hr⟩, ht⟩
          split at ha
          · next hx => rw [hx]; exact congrArg some ha
          · cases ha
        · rintro ⟨ha, t, ⟨j, hj, hr⟩, ht⟩
          exact ⟨by rw [ha], j, t, by omega, hr, ht⟩
    · intro t ds
      rw [mem_lookup h2.keys, h2.value, defn_iff]
      unfold Reached
      constructor
      · rintro ⟨⟨r, h6, h7⟩, j, hj, hr⟩
        exact ⟨⟨j, by omega, hr⟩, r, h6, h7⟩
      · rintro ⟨⟨j, hj, hr⟩, r, h6, h7⟩
        exact ⟨⟨r, h6, h7⟩, j, by omega, hr⟩

/-! ### Aliases -/

theorem extractAliasedBy_eq {files : Files} (h : ∀ f ∈ files, Searchable f.2) :
    ∃ l, extractAliasedBy files = some l ∧ ∀ t, (l.filter fun e => e.1 = t).map (·.2) = aliasesFor files t := by
  let g : BazelPackage × Node → List (BazelTarget × BazelTarget) := fun f =>
    (rulesOf [c!"alias"] f.2).flatMap fun r =>
      match f.1.qualifiedTarget r.name, actualOf f.1 r with
      | some alias, some actual => [(actual, alias)]
      | _, _ => []
  refine ⟨files.flatMap g, mapAll_eq (g := g) ?_, fun t => ?_⟩
  · intro f hf
    refine forTargets_eq (h f hf).proper ?_
    intro r _
    cases f.1.qualifiedTarget r.name <;> cases actualOf f.1 r <;> rfl
  · unfold aliasesFor
    rw [List.filter_flatMap, List.map_flatMap]
    refine congrArg (files.flatMap ·) (funext fun f => ?_)
    simp only [g]
    rw [List.filter_flatMap, List.map_flatMap]
    generalize rulesOf [c!"alias"] f.2 = rs
    induction rs with
    | nil => rfl
    | cons r rs ih =>
      rw [List.flatMap_cons, ih, List.filterMap_cons]
      cases f.1.qualifiedTarget r.name with
      | none => simp
      | some a =>
        simp only [← actualOf_some]
        cases actualOf f.1 r with
        | none => simp
        | some b =>
          by_cases hb : b = t
          · simp [hb]
          · simp [hb]

theorem pushAll_spec {α β : Type} [Ordered α] [LawfulOrdered α] [DecidableEq α] (l : List (α × β))
    (m : List (α × List β)) (hm : Ascending (m.map (·.1))) :
    let r := l.foldl (fun m e => push e.1 e.2 m) m
    Ascending (r.map (·.1)) ∧ (∀ k, k ∈ r.map (·.1) ↔ k ∈ m.map (·.1) ∨ ∃ e ∈ l, e.1 = k) ∧
      ∀ k, (lookup r k).getD [] = (lookup m k).getD [] ++ (l.filter fun e => e.1 = k).map (·.2) := by
  induction l generalizing m with
  | nil => exact ⟨hm, by simp, by simp⟩
  | cons e l ih =>
    obtain ⟨h1, h2, h3⟩ := ih (push e.1 e.2 m) (by rw [push_keys_eq]; exact add_ascending hm)
    refine ⟨h1, fun k => ?_, fun k => ?_⟩
    · rw [List.foldl_cons, h2, push_keys_eq, mem_add]
      simp only [List.mem_cons, exists_eq_or_imp]
      rw [or_comm (a := k = _), or_assoc, eq_comm (a := k)]
    · rw [List.foldl_cons, h3, lookup_push]
      by_cases hk : k = e.1
      · simp [hk]
      · rw [if_neg hk, List.filter_cons_of_neg (by simpa using Ne.symm hk)]

theorem aliasMap_spec {files : Files} (h : ∀ f ∈ files, Searchable f.2) :
    ∃ am, aliasMap files = some am ∧ Ascending (am.map (·.1)) ∧
      ∀ t as, (t, as) ∈ am ↔ as = aliasesFor files t ∧ as ≠ [] := by
  obtain ⟨l, h1, h2⟩ := extractAliasedBy_eq h
  obtain ⟨h3, h4, h5⟩ := pushAll_spec l [] List.Pairwise.nil
  refine ⟨_, by rw [aliasMap, h1]; rfl, h3, fun t as => ?_⟩
  rw [mem_lookup h3.nodup]
  have h5 := h5 t
  rw [show lookup ([] : List (BazelTarget × List BazelTarget)) t = none from rfl, h2] at h5
  simp only [Option.getD_none, List.nil_append] at h5
  have h4 := h4 t
  simp only [List.map_nil, List.not_mem_nil, false_or] at h4
  have h6 : (∃ e ∈ l, e.1 = t) ↔ aliasesFor files t ≠ [] := by
    rw [← h2]
    simp only [ne_eq, List.map_eq_nil_iff, List.filter_eq_nil_iff, decide_eq_true_eq]
    exact ⟨fun ⟨e, he, h⟩ h' => h' e he h, fun h' => Classical.byContradiction fun hc =>
      h' fun e he h => hc ⟨e, he, h⟩⟩
  rw [h6] at h4
  constructor
  · intro hl
    rw [hl] at h5
    refine ⟨h5, ?_⟩
    rw [show as = _ from h5]
    exact h4.1 (List.mem_map.2 ⟨_, lookup_mem hl, rfl⟩)
  · rintro ⟨rfl, hne⟩
    cases hl : lookup (l.foldl (fun m e => push e.1 e.2 m) []) t with
    | none => exact absurd (h4.2 hne) (lookup_none.1 hl)
    | some v => rw [hl] at h5; rw [show v = _ from h5]

/-! ### Headers and generated files -/

theorem updateAdd_spec (l : List (Str × BazelTarget)) (m : StrMap (List BazelTarget)) (hm : StrMap.Sorted m)
    (hv : ∀ e ∈ m, Ascending e.2) :
    let r := l.foldl (fun (m : StrMap (List BazelTarget)) e => m.update e.1 [] (Bant.add e.2)) m
    StrMap.Sorted r ∧ (∀ e ∈ r, Ascending e.2) ∧
      (∀ k, (∃ v, (k, v) ∈ r) ↔ (∃ v, (k, v) ∈ m) ∨ ∃ t, (k, t) ∈ l) ∧
      ∀ k v, (k, v) ∈ r → ∀ t, t ∈ v ↔ (∃ v', (k, v') ∈ m ∧ t ∈ v') ∨ (k, t) ∈ l := by
  induction l generalizing m with
  | nil =>
    refine ⟨hm, hv, by simp, fun k v hk t => ?_⟩
    simp only [List.not_mem_nil, or_false]
    exact ⟨fun h => ⟨v, hk, h⟩, fun ⟨v', h1, h2⟩ => hm.unique h1 hk ▸ h2⟩
  | cons e l ih =>
    obtain ⟨k0, t0⟩ := e
    obtain ⟨a1, a2, a3⟩ := StrMap.update_spec hm k0 [] (Bant.add t0)
    have a4 : ∀ e ∈ StrMap.update k0 [] (Bant.add t0) m, Ascending e.2 := by
      rintro ⟨k, v⟩ he
      by_cases hk : k = k0
      · subst hk
        rcases a3 with ⟨v0, b1, b2⟩ | ⟨b1, b2⟩
        · rw [(b2 v).1 he]; exact add_ascending (hv _ b1)
        · rw [(b2 v).1 he]; exact add_ascending List.Pairwise.nil
      · exact hv _ ((a2 k v hk).1 he)
    obtain ⟨h1, h2, h3, h4⟩ := ih _ a1 a4
    refine ⟨h1, h2, fun k => ?_, fun k v hk t => ?_⟩
    · rw [List.foldl_cons, h3]
      simp only [List.mem_cons, Prod.mk.injEq]
      by_cases hk : k = k0
      · subst hk
        have : ∃ v, (k, v) ∈ StrMap.update k [] (Bant.add t0) m := by
          rcases a3 with ⟨v0, b1, b2⟩ | ⟨b1, b2⟩
          · exact ⟨_, (b2 _).2 rfl⟩
          · exact ⟨_, (b2 _).2 rfl⟩
        simp only [this, true_or, true_and, true_iff]
        exact .inr ⟨t0, .inl rfl⟩
      · simp only [a2 k _ hk, hk, false_and, false_or]
    · rw [h4 k v hk]
      simp only [List.mem_cons, Prod.mk.injEq]
      by_cases hk' : k = k0
      · subst hk'
        rcases a3 with ⟨v0, b1, b2⟩ | ⟨b1, b2⟩
        · constructor
          · rintro (⟨v', c1, c2⟩ | c)
            · rw [(b2 v').1 c1] at c2
              rcases mem_add.1 c2 with rfl | c2
              · exact .inr (.inl ⟨rfl, rfl⟩)
              · exact .inl ⟨v0, b1, c2⟩
            · exact .inr (.inr c)
          · rintro (⟨v', c1, c2⟩ | ⟨_, rfl⟩ | c)
            · exact .inl ⟨_, (b2 _).2 rfl, mem_add.2 (.inr (hm.unique c1 b1 ▸ c2))⟩
            · exact .inl ⟨_, (b2 _).2 rfl, mem_add.2 (.inl rfl)⟩
            · exact .inr c
        · constructor
          · rintro (⟨v', c1, c2⟩ | c)
            · rw [(b2 v').1 c1] at c2
              rcases mem_add.1 c2 with rfl | c2
              · exact .inr (.inl ⟨rfl, rfl⟩)
              · cases c2
            · exact .inr (.inr c)
          · rintro (⟨v', c1, c2⟩ | ⟨_, rfl⟩ | c)
            · exact absurd c1 (b1 v')
            · exact .inl ⟨_, (b2 _).2 rfl, mem_add.2 (.inl rfl)⟩
            · exact .inr c
      · simp only [a2 k _ hk', hk', false_and, false_or]

theorem headerMap_spec {files : Files} (h : ∀ f ∈ files, Searchable f.2) :
    ∃ hm, headerMap files = some hm ∧ SortedKeys hm ∧ (∀ e ∈ hm, Ascending e.2) ∧
      (∀ p, (∃ ts, (p, ts) ∈ hm) ↔ ∃ t, HeaderSpec.Provides files p t) ∧
      ∀ p ts, (p, ts) ∈ hm → ∀ t, t ∈ ts ↔ HeaderSpec.Provides files p t := by
  obtain ⟨adds, h1, h2⟩ := headerAdds_spec h
  obtain ⟨h3, h4, h5, h6⟩ := updateAdd_spec adds [] List.Pairwise.nil (by simp)
  refine ⟨_, by rw [headerMap, h1]; rfl, h3, h4, fun p => ?_, fun p ts hp t => ?_⟩
  · refine (h5 p).trans ?_
    simp [h2]
  · refine (h6 p ts hp t).trans ?_
    simp [h2]

theorem updateFirst_spec (l : List (Str × BazelTarget)) (m : StrMap BazelTarget) (hm : StrMap.Sorted m) :
    let r := l.foldl (fun (m : StrMap BazelTarget) e => m.update e.1 e.2 id) m
    StrMap.Sorted r ∧ ∀ k t, (k, t) ∈ r ↔ (k, t) ∈ m ∨
      ((∀ v, (k, v) ∉ m) ∧ (l.find? (·.1 = k)).map (·.2) = some t) := by
  induction l generalizing m with
  | nil => exact ⟨hm, by simp⟩
  | cons e l ih =>
    obtain ⟨k0, t0⟩ := e
    obtain ⟨a1, a2, a3⟩ := StrMap.update_spec hm k0 t0 id
    obtain ⟨h1, h2⟩ := ih _ a1
    refine ⟨h1, fun k t => ?_⟩
    rw [List.foldl_cons, h2, List.find?_cons]
    by_cases hk : k = k0
    · subst hk
      simp only [decide_true, Option.map_some, Option.some.injEq]
      rcases a3 with ⟨v, b1, b2⟩ | ⟨b1, b2⟩
      · constructor
        · rintro (c | ⟨c, _⟩)
          · rw [(b2 t).1 c]; exact .inl b1
          · exact absurd ((b2 _).2 rfl) (c v)
        · rintro (c | ⟨c, _⟩)
          · exact .inl ((b2 t).2 (hm.unique c b1))
          · exact absurd b1 (c v)
      · constructor
        · rintro (c | ⟨c, _⟩)
          · exact .inr ⟨b1, ((b2 t).1 c).symm⟩
          · exact absurd ((b2 _).2 rfl) (c t0)
        · rintro (c | ⟨c, rfl⟩)
          · exact absurd c (b1 t)
          · exact .inl ((b2 _).2 rfl)
    · simp only [a2 k _ hk, Ne.symm hk, decide_false]

theorem genruleMap_spec {files : Files} (h : ∀ f ∈ files, Searchable f.2) :
    ∃ gm, genruleMap files = some gm ∧ SortedKeys gm ∧
      ∀ p t, (p, t) ∈ gm ↔ ((HeaderSpec.outputs files).find? (·.1 = p)).map (·.2) = some t := by
  obtain ⟨h3, h4⟩ := updateFirst_spec (HeaderSpec.outputs files) [] List.Pairwise.nil
  refine ⟨_, by rw [genruleMap, genruleAdds_eq h]; rfl, h3, fun p t => (h4 p t).trans ?_⟩
  simp

/-! ### Targets -/

theorem parseFrom_colon (pkg : BazelPackage) (name : Str) :
    BazelTarget.parseFrom (':' :: name) pkg = if ':' ∈ name then none else some ⟨pkg, name⟩ := by
  by_cases hc : ':' ∈ name
  · rw [if_pos hc]
    obtain ⟨a, b, rfl, ha⟩ := List.eq_append_cons_of_mem hc
    have : splitAll ':' (':' :: (a ++ ':' :: b)) = [] :: a :: splitAll ':' b := by
      rw [← splitAll_append ha]; simp [splitAll]
    cases hs : splitAll ':' b with
    | nil => exact absurd hs (splitAll_ne_nil _ _)
    | cons x xs => simp only [BazelTarget.parseFrom, this, hs]
  · rw [if_neg hc, targetParse_rel hc]

theorem targetRows_eq (loc : Nat → Str) (pattern : BazelPattern) (pkg : BazelPackage) (rs : List Query.Result) (k : Nat) :
    targetRows loc pattern pkg k rs =
      ((((rs.zipIdx k).filter fun x => ':' ∉ x.1.name).map fun x =>
        ((x.2, x.1.rule, ⟨pkg, x.1.name⟩) : Nat × Str × BazelTarget)).filter fun e => pattern.matchTarget e.2.2).map
        fun e => .row [loc e.1, e.2.1, e.2.2.toString] := by
  induction rs generalizing k with
  | nil => rfl
  | cons r rs ih =>
    rw [targetRows, ih, List.zipIdx_cons, parseFrom_colon]
    by_cases hc : ':' ∈ r.name
    · rw [List.filter_cons_of_neg (by simpa using hc), if_pos hc]
      rfl
    · rw [List.filter_cons_of_pos (by simpa using hc), if_neg hc, List.map_cons]
      simp only []
      by_cases hm : pattern.matchTarget ⟨pkg, r.name⟩ = true
      · rw [if_pos hm, List.filter_cons_of_pos (by exact hm)]
        rfl
      · rw [if_neg hm, List.filter_cons_of_neg (by exact hm)]
        rfl

theorem allTargetRows_eq {files : Files} (h : ∀ f ∈ files, Searchable f.2) (loc : BazelPackage → Nat → Str)
    (pattern : BazelPattern) :
    allTargetRows loc pattern files = some (files.flatMap fun f =>
      ((targetsOf f).filter fun e => pattern.matchTarget e.2.2).map fun e =>
        .row [loc f.1 e.1, e.2.1, e.2.2.toString]) := by
  induction files with
  | nil => rfl
  | cons f fs ih =>
    have : findTargets false f.2 [] = some (rulesOf [] f.2) := findTargets_report f.2 (h f (by simp)).proper
    rw [allTargetRows, this, ih fun f hf => h f (by simp [hf])]
    simp only [List.flatMap_cons]
    rw [targetRows_eq]
    rfl

end Commands
end Bant
