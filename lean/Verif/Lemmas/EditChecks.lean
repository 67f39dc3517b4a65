import Verif.Lemmas.Stable
import Verif.Spec.CommandEdits

/-! Checks, for examples, of what is said about edits that are carried out. -/
namespace Bant
namespace EditChecks
open StableSpec Query Rules Headers Commands CommandSpec

def pairsB {α β : Type} (f : α → β → Bool) : List α → List β → Bool
  | [], [] => true
  | a :: as, b :: bs => f a b && pairsB f as bs
  | _, _ => false

theorem pairsB_sound {α β : Type} {f : α → β → Bool} {R : α → β → Prop} (h : ∀ a b, f a b = true → R a b) :
    ∀ {l : List α} {l' : List β}, pairsB f l l' = true → Pairs R l l'
  | [], [], _ => .nil
  | [], _ :: _, h' => by cases h'
  | _ :: _, [], h' => by cases h'
  | a :: as, b :: bs, h' => by
    rw [pairsB, Bool.and_eq_true] at h'
    exact .cons (h _ _ h'.1) (pairsB_sound h h'.2)

def sameRuleB (r r' : Query.Result) : Bool :=
  r'.rule = r.rule && r'.name = r.name && r'.actual = r.actual && r'.hasActual = r.hasActual && r'.deprecation = r.deprecation &&
  r'.includePrefix = r.includePrefix && r'.stripIncludePrefix = r.stripIncludePrefix && r'.alwayslink = r.alwayslink &&
  r'.testonly = r.testonly && stringsOf r'.srcs = stringsOf r.srcs && stringsOf r'.hdrs = stringsOf r.hdrs &&
  stringsOf r'.textualHdrs = stringsOf r.textualHdrs && stringsOf r'.publicHdrs = stringsOf r.publicHdrs &&
  stringsOf r'.outs = stringsOf r.outs && stringsOf r'.includes = stringsOf r.includes &&
  textsOf r'.visibility = textsOf r.visibility

theorem sameRuleB_sound {r r' : Query.Result} (h : sameRuleB r r' = true) : SameRule r r' := by
  simp only [sameRuleB, Bool.and_eq_true, decide_eq_true_eq] at h
  obtain ⟨⟨⟨⟨⟨⟨⟨⟨⟨⟨⟨⟨⟨⟨⟨h1, h2⟩, h3⟩, h4⟩, h5⟩, h6⟩, h7⟩, h8⟩, h9⟩, h10⟩, h11⟩, h12⟩, h13⟩, h14⟩, h15⟩, h16⟩ := h
  exact ⟨h1, h2, h3, h4, h5, h6, h7, h8, h9, h10, h11, h12, h13, h14, h15, h16⟩

def afterB (edits : List Edit) (t : BazelTarget) (deps : List Str) (dep : Str) : Bool :=
  (decide (dep ∈ deps) && decide (⟨.remove, t, dep, []⟩ ∉ edits) &&
    edits.all fun e => !(decide (e.op = .rename) && decide (e.target = t) && decide (e.before = dep))) ||
  decide (⟨.add, t, [], dep⟩ ∈ edits) ||
  deps.any fun old => decide (⟨.rename, t, old, dep⟩ ∈ edits)

theorem afterB_iff {edits : List Edit} {t : BazelTarget} {deps : List Str} {dep : Str} :
    afterB edits t deps dep = true ↔ After edits t deps dep := by
  simp only [afterB, After, Bool.or_eq_true, Bool.and_eq_true, decide_eq_true_eq, List.all_eq_true, List.any_eq_true,
    Bool.not_eq_true', ← Bool.not_eq_true, or_assoc, and_assoc]
  have : (∀ e ∈ edits, ¬ (e.op = .rename ∧ e.target = t ∧ e.before = dep)) ↔
      ∀ new, (⟨.rename, t, dep, new⟩ : Edit) ∉ edits := by
    constructor
    · exact fun h new he => h _ he ⟨rfl, rfl, rfl⟩
    · rintro h ⟨op, target, before, after⟩ he ⟨h1, h2, h3⟩
      simp only at h1 h2 h3
      subst h1; subst h2; subst h3
      exact h _ he
  rw [this]

def editedRuleB (edits : List Edit) (pkg : BazelPackage) (r r' : Query.Result) : Bool :=
  sameRuleB r r' &&
  match pkg.qualifiedTarget r.name with
  | none => stringsOf r'.deps = stringsOf r.deps
  | some t =>
    (stringsOf r'.deps).all (afterB edits t (stringsOf r.deps)) &&
    (stringsOf r.deps ++ edits.map (·.after)).all (fun dep =>
      !afterB edits t (stringsOf r.deps) dep || decide (dep ∈ stringsOf r'.deps)) &&
    (edits.any (fun e => e.target = t) || decide (stringsOf r'.deps = stringsOf r.deps))

theorem editedRuleB_sound {edits : List Edit} {pkg : BazelPackage} {r r' : Query.Result}
    (h : editedRuleB edits pkg r r' = true) : EditedRule edits pkg r r' := by
  rw [editedRuleB, Bool.and_eq_true] at h
  obtain ⟨h1, h2⟩ := h
  refine ⟨sameRuleB_sound h1, ?_, ?_⟩
  · intro t ht dep
    rw [ht] at h2
    simp only [Bool.and_eq_true, List.all_eq_true, Bool.or_eq_true, Bool.not_eq_true', decide_eq_true_eq] at h2
    obtain ⟨⟨h2, h3⟩, _⟩ := h2
    refine ⟨fun hd => afterB_iff.1 (h2 dep hd), fun hd => ?_⟩
    have hm : dep ∈ stringsOf r.deps ++ edits.map (·.after) := by
      rcases hd with ⟨h, _⟩ | h | ⟨_, _, h⟩
      · exact List.mem_append_left _ h
      · exact List.mem_append_right _ (List.mem_map.2 ⟨_, h, rfl⟩)
      · exact List.mem_append_right _ (List.mem_map.2 ⟨_, h, rfl⟩)
    rcases h3 dep hm with h | h
    · rw [afterB_iff.2 hd] at h; cases h
    · exact h
  · intro hno
    cases hq : pkg.qualifiedTarget r.name with
    | none => rw [hq] at h2; exact of_decide_eq_true h2
    | some t =>
      rw [hq] at h2
      simp only [Bool.and_eq_true, Bool.or_eq_true, List.any_eq_true, decide_eq_true_eq] at h2
      rcases h2.2 with ⟨e, he, h⟩ | h
      · exact absurd (hq.trans (congrArg some h.symm)) (hno e he)
      · exact h

/-- The result of reading a file. -/
def readB (m : Machine) (evaluate : Bool) (pkg : BazelPackage) (name content : Str) : Option File :=
  match Parser.parseFile content with
  | none => none
  | some (ast, st) =>
    if evaluate then (Elab.elabFile (m.glob pkg) ast).map fun a => ⟨name, a, !st.errs.isEmpty⟩
    else some ⟨name, ast, !st.errs.isEmpty⟩

theorem readB_sound {m : Machine} {evaluate : Bool} {pkg : BazelPackage} {name content : Str} {f : File}
    (h : readB m evaluate pkg name content = some f) : ReadAs m evaluate pkg name content f := by
  unfold readB at h
  split at h
  · cases h
  · rename_i ast st hp
    cases evaluate with
    | false =>
      simp only [Bool.false_eq_true, if_false, Option.some.injEq] at h
      subst h
      exact ⟨ast, st, hp, rfl, by simp, by simp⟩
    | true =>
      simp only [if_true, Option.map_eq_some_iff] at h
      obtain ⟨a, ha, rfl⟩ := h
      exact ⟨ast, st, hp, rfl, by simp, by simp [ha]⟩

/-- The files that were found, one by one. -/
def buildB (edits : List Edit) (evaluate : Bool) (m m' : Machine) (ws : Workspace.Map) (project : Str)
    (found : List Str) : Bool :=
  found.all fun f =>
    match Collect.packageOf ws f project with
    | some (some pkg) =>
      match m.fs.content f, m'.fs.content f with
      | some text, some text' =>
        match readB m evaluate pkg f text, readB m' evaluate pkg f text' with
        | some file, some file' => pairsB (editedRuleB edits pkg) (rulesOf [] file.ast) (rulesOf [] file'.ast)
        | _, _ => false
      | _, _ => false
    | _ => false

theorem buildB_sound {edits : List Edit} {evaluate : Bool} {m m' : Machine} {ws : Workspace.Map} {project : Str}
    {found : List Str} (h : buildB edits evaluate m m' ws project found = true) (pkg : BazelPackage) :
    (firstReadable m ws project pkg found = none ∧ firstReadable m' ws project pkg found = none) ∨
    ∃ name text text' file file', firstReadable m ws project pkg found = some (name, text) ∧
      firstReadable m' ws project pkg found = some (name, text') ∧
      ReadAs m evaluate pkg name text file ∧ ReadAs m' evaluate pkg name text' file' ∧
      Pairs (EditedRule edits pkg) (rulesOf [] file.ast) (rulesOf [] file'.ast) := by
  induction found with
  | nil => exact .inl ⟨rfl, rfl⟩
  | cons f fs ih =>
    rw [buildB, List.all_cons, Bool.and_eq_true] at h
    obtain ⟨h, hrest⟩ := h
    split at h
    · rename_i pkg' hp
      split at h
      · rename_i text text' ht ht'
        split at h
        · rename_i file file' hf hf'
          by_cases he : pkg' = pkg
          · subst he
            refine .inr ⟨f, text, text', file, file', ?_, ?_, readB_sound hf, readB_sound hf',
              pairsB_sound (fun _ _ h => editedRuleB_sound h) h⟩
            · simp [firstReadable, hp, ht]
            · simp [firstReadable, hp, ht']
          · have hne : Collect.packageOf ws f project ≠ some (some pkg) := by rw [hp]; simpa using he
            simp only [firstReadable, hne, if_false]
            exact ih hrest
        · cases h
      · cases h
    · cases h

/-- The packages that are read. -/
def packagesB (edits : List Edit) (m m' : Machine) (ws : Workspace.Map) (files files' : Loaded) (now now' : Files) : Bool :=
  (now.map (·.1) ++ now'.map (·.1)).all fun pkg =>
    match GraphSpec.treeOf (world m ws) (trees files) pkg, GraphSpec.treeOf (world m' ws) (trees files') pkg with
    | some ast, some ast' => pairsB (editedRuleB edits pkg) (rulesOf [] ast) (rulesOf [] ast')
    | _, _ => false

theorem packagesB_sound {edits : List Edit} {m m' : Machine} {ws : Workspace.Map} {files files' : Loaded}
    {now now' : Files} (h : packagesB edits m m' ws files files' now now' = true) :
    EditedPackages edits m m' ws files files' now now' := by
  intro pkg hpkg
  rw [packagesB, List.all_eq_true] at h
  have h := h pkg (List.mem_append.2 hpkg)
  split at h
  · rename_i ast ast' h1 h2
    exact ⟨ast, ast', h1, h2, pairsB_sound (fun _ _ h => editedRuleB_sound h) h⟩
  · cases h

/-- A package in the main project, with a path of one component. -/
def plainB (pkg : BazelPackage) : Bool :=
  pkg.project = [] && pkg.path ≠ [] && '/' ∉ pkg.path && ':' ∉ pkg.path

theorem plainB_sound {pkg : BazelPackage} (h : plainB pkg = true) : Spec.WfPackage pkg := by
  simp only [plainB, Bool.and_eq_true, decide_eq_true_eq, ne_eq] at h
  obtain ⟨⟨⟨h1, h2⟩, h3⟩, h4⟩ := h
  refine ⟨.inl h1, [pkg.path], ?_, by simp [Spec.joinPath]⟩
  intro c hc
  rw [List.mem_singleton] at hc
  subst hc
  exact ⟨h2, h3, h4⟩

def soundB (files : Files) : Bool :=
  decide (files.map (·.1)).Nodup && files.all fun f => plainB f.1 &&
    decide ((rulesOf [] f.2).filterMap fun r => f.1.qualifiedTarget r.name).Nodup &&
    (rulesOf [] f.2).all fun r => (f.1.qualifiedTarget r.name).all fun t => ':' ∉ t.name

theorem soundB_sound {files : Files} (h : soundB files = true) : StableSpec.Sound files := by
  simp only [soundB, Bool.and_eq_true, decide_eq_true_eq, List.all_eq_true] at h
  obtain ⟨h1, h2⟩ := h
  refine ⟨h1, fun f hf => plainB_sound (h2 f hf).1.1, fun f hf => (h2 f hf).1.2, ?_⟩
  intro f hf r hr t ht
  have := (h2 f hf).2 r hr
  rw [ht] at this
  simpa using this

/-- If there are no comments. -/
theorem comments_of {env env' : Dwyu.Env} (h : ∀ r t k, env.line r t k = []) {edits : List Edit} {pkg : BazelPackage}
    {l l' : List Query.Result} (hp : Pairs (EditedRule edits pkg) l l') : Pairs (SameComments env env' pkg) l l' := by
  refine Stable.pairs_mono hp fun r r' _ t _ n dep _ hd => ?_
  obtain ⟨k, hk, hk'⟩ := List.mem_iff_getElem.1 hd
  refine ⟨k, by rw [List.getElem?_eq_getElem hk, hk'], ?_⟩
  rintro ⟨a, b, c, he, _⟩
  rw [h] at he
  have := congrArg List.length he
  simp at this

/-- The same files, but for how dependencies are written. -/
def respelledB (files files' : Files) : Bool :=
  pairsB (fun f f' => decide (f'.1 = f.1) && pairsB (fun r r' => sameRuleB r r' &&
    pairsB (fun d d' => decide (BazelTarget.parseFrom d' f.1 = BazelTarget.parseFrom d f.1))
      (stringsOf r.deps) (stringsOf r'.deps)) (rulesOf [] f.2) (rulesOf [] f'.2)) files files'

theorem respelledB_sound {env env' : Dwyu.Env} (h : ∀ r t k, env.line r t k = []) (h' : ∀ r t k, env'.line r t k = [])
    {files files' : Files} (hb : respelledB files files' = true) : Respelled env env' files files' := by
  refine pairsB_sound ?_ hb
  intro f f' hf
  rw [Bool.and_eq_true, decide_eq_true_eq] at hf
  refine ⟨hf.1, pairsB_sound ?_ hf.2⟩
  intro r r' hr
  rw [Bool.and_eq_true] at hr
  refine ⟨sameRuleB_sound hr.1, pairsB_sound (fun d d' hd => of_decide_eq_true hd) hr.2, fun t _ n => ?_⟩
  rw [h, h']

end EditChecks
end Bant
