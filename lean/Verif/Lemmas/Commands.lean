import Verif.Spec.Commands
import Verif.Lemmas.DepGraphOrder
import Verif.Lemmas.TableColumns
import Verif.Lemmas.Project
import Verif.Lemmas.Collect

/-! Lemmas about the commands: the files that are opened, and tables. -/
namespace Bant
namespace Commands
open Query Headers Cli Rules GraphSpec CommandSpec

/-! ### Files -/

/-- What is kept of a file. -/
def fileOf (f : Project.BuildFile) : File := ⟨f.source.name, f.ast, !f.errors.isEmpty⟩

theorem inOrder_fold (l : List (BazelPackage × Project.BuildFile)) (acc : Loaded)
    (hn : ((l.map (·.1)) ++ acc.map (·.1)).Nodup) (ha : Ascending (acc.map (·.1))) :
    let r := l.foldl (fun l f => place (·.1) (f.1, fileOf f.2) l) acc
    Ascending (r.map (·.1)) ∧ ∀ x, x ∈ r ↔ x ∈ acc ∨ ∃ f ∈ l, x = (f.1, fileOf f.2) := by
  induction l generalizing acc with
  | nil => exact ⟨ha, by simp⟩
  | cons f l ih =>
    simp only [List.map_cons, List.cons_append, List.nodup_cons, List.mem_append, not_or] at hn
    have h1 : Ascending ((place (·.1) (f.1, fileOf f.2) acc).map (·.1)) := by
      rw [map_place]; exact place_ascending ha hn.1.2
    have h2 : ((l.map (·.1)) ++ (place (·.1) (f.1, fileOf f.2) acc).map (·.1)).Nodup := by
      rw [map_place]
      have : ((l.map (·.1)) ++ place id f.1 (acc.map (·.1))).Perm (f.1 :: (l.map (·.1) ++ acc.map (·.1))) :=
        ((place_perm id f.1 _).append_left _).trans List.perm_middle
      rw [this.nodup_iff, List.nodup_cons, List.mem_append, not_or]
      exact hn
    obtain ⟨h3, h4⟩ := ih _ h2 h1
    refine ⟨h3, fun x => ?_⟩
    rw [List.foldl_cons, h4, mem_place]
    simp only [List.mem_cons, exists_eq_or_imp]
    rw [or_comm (a := x = _), or_assoc]

theorem inOrder_spec (p : Project.State) (hn : (p.files.map (·.1)).Nodup) :
    Ascending ((inOrder p).map (·.1)) ∧ ∀ pkg f, (pkg, f) ∈ inOrder p ↔ (p.find pkg).map fileOf = some f := by
  obtain ⟨h1, h2⟩ := inOrder_fold p.files [] (by simpa using hn) List.Pairwise.nil
  refine ⟨h1, fun pkg f => ?_⟩
  refine (h2 (pkg, f)).trans ?_
  have hf : p.find pkg = lookup p.files pkg := rfl
  rw [hf]
  simp only [List.not_mem_nil, false_or, Option.map_eq_some_iff, Prod.mk.injEq]
  constructor
  · rintro ⟨⟨k, v⟩, hm, rfl, rfl⟩
    exact ⟨v, (mem_lookup hn).1 hm, rfl⟩
  · rintro ⟨v, hv, rfl⟩
    exact ⟨(pkg, v), (mem_lookup hn).2 hv, rfl, rfl⟩

/-- What is known of a content. -/
def parsed (e : Str × Str) : Option File :=
  (Parser.parseFile e.2).map fun r => ⟨e.1, r.1, !r.2.errs.isEmpty⟩

theorem addContent_spec (p : Project.State) (pkg : BazelPackage) (name content : Str) (base : Nat)
    (hn : (p.files.map (·.1)).Nodup) :
    ∃ f p', p.addContent pkg name content base = some (f, p') ∧ (p'.files.map (·.1)).Nodup ∧
      ∀ q, (p'.find q).map fileOf =
        if q = pkg then ((p.find q).map fileOf).or (parsed (name, content)) else (p.find q).map fileOf := by
  unfold Project.State.addContent
  cases hf : p.find pkg with
  | some e =>
    refine ⟨e, p, rfl, hn, fun q => ?_⟩
    split
    · next h => rw [h, hf]; rfl
    · rfl
  | none =>
    obtain ⟨ast, st, hp, _⟩ := Parser.parseFile_total content
    simp only [hp]
    refine ⟨_, _, rfl, ?_, fun q => ?_⟩
    · simp only [Project.State.register, List.map_append, List.map_cons, List.map_nil]
      rw [(List.perm_append_comm).nodup_iff]
      refine List.nodup_cons.2 ⟨?_, by simpa using hn⟩
      simpa using lookup_none.1 (show lookup p.files pkg = none from hf)
    · unfold Project.State.register
      rw [Project.find_append]
      by_cases hq : q = pkg
      · subst hq
        rw [hf]
        simp [parsed, hp, fileOf]
      · rw [if_neg hq, if_neg (Ne.symm hq), Option.or_none]

theorem addFound_spec (m : Machine) (ws : Workspace.Map) (project : Str) (files : List Str) (p q : Project.State)
    (hn : (p.files.map (·.1)).Nodup)
    (h : files.foldlM (Collect.addFound ws project m.fs.content m.base) p = some q) :
    (q.files.map (·.1)).Nodup ∧ ∀ pkg, (q.find pkg).map fileOf =
      ((p.find pkg).map fileOf).or ((firstReadable m ws project pkg files).bind parsed) := by
  induction files generalizing p with
  | nil => cases h; exact ⟨hn, by simp [firstReadable]⟩
  | cons f files ih =>
    rw [List.foldlM_cons] at h
    cases ha : Collect.addFound ws project m.fs.content m.base p f with
    | none => rw [ha] at h; cases h
    | some p' =>
      rw [ha] at h
      unfold Collect.addFound at ha
      cases hpk : Collect.packageOf ws f project with
      | none => rw [hpk] at ha; cases ha
      | some o =>
        rw [hpk] at ha
        cases o with
        | none =>
          cases ha
          obtain ⟨h1, h2⟩ := ih _ hn h
          refine ⟨h1, fun pkg => ?_⟩
          rw [h2, firstReadable, hpk, if_neg (by simp)]
        | some pk =>
          simp only [Project.State.addFile] at ha
          cases hc : m.fs.content f with
          | none =>
            rw [hc] at ha
            simp only [Option.map_some, Option.some.injEq] at ha
            subst ha
            obtain ⟨h1, h2⟩ := ih _ (by exact hn) h
            refine ⟨h1, fun pkg => ?_⟩
            rw [h2, firstReadable, hpk]
            simp only [hc, ite_self]
            rfl
          | some content =>
            rw [hc] at ha
            obtain ⟨file, p2, e1, e2, e3⟩ := addContent_spec p pk f content (m.base f) hn
            simp only [e1, Option.map_some, Option.some.injEq] at ha
            subst ha
            obtain ⟨h1, h2⟩ := ih _ e2 h
            refine ⟨h1, fun pkg => ?_⟩
            rw [h2, e3, firstReadable, hpk]
            by_cases hq : pkg = pk
            · subst hq
              simp only [hc, if_pos, Option.bind_some]
              cases hpf : (p.find pkg).map fileOf with
              | some e => simp
              | none =>
                obtain ⟨ast, st, hp, _⟩ := Parser.parseFile_total content
                simp [parsed, hp]
            · have : ¬ (some (some pk) = some (some pkg)) := by simp [Ne.symm hq]
              rw [if_neg hq, if_neg this]

theorem parsed_iff {m : Machine} {pkg : BazelPackage} {name content : Str} {f : File} :
    parsed (name, content) = some f ↔ ReadAs m false pkg name content f := by
  unfold parsed ReadAs
  simp only [Option.map_eq_some_iff, Bool.false_eq_true, if_false]
  constructor
  · rintro ⟨⟨ast, st⟩, hp, rfl⟩
    exact ⟨ast, st, hp, rfl, by simp, rfl⟩
  · rintro ⟨ast, st, hp, h1, h2, h3⟩
    refine ⟨⟨ast, st⟩, hp, ?_⟩
    obtain ⟨n, a, e⟩ := f
    simp only at h1 h2 h3
    subst h1 h3
    congr 1
    rw [Bool.eq_iff_iff, h2]
    simp

theorem fill_spec {m : Machine} {ws : Workspace.Map} {cmd : Command} {pattern : BazelPattern} {l : Loaded}
    {msg : Str} (hneed : needsProject cmd pattern = true) (h : fill m ws cmd pattern = some (l, msg)) :
    ∃ found, OpenedFor m ws false (searched cmd pattern) found l ∧ msg = if found = [] then noBuildFile else [] := by
  unfold fill at h
  rw [if_pos hneed] at h
  unfold Collect.fillFromPattern at h
  change Option.map _ (match Collect.collectBuildFiles m.tree m.symlink ws (searched cmd pattern) m.steps with
    | none => none
    | some files => Option.map _ (files.foldlM (Collect.addFound ws (searched cmd pattern).pattern.package.project
        m.fs.content m.base) {})) = _ at h
  cases hc : Collect.collectBuildFiles m.tree m.symlink ws (searched cmd pattern) m.steps with
  | none => rw [hc] at h; cases h
  | some found =>
    rw [hc] at h
    simp only at h
    cases hf : found.foldlM (Collect.addFound ws (searched cmd pattern).pattern.package.project
        m.fs.content m.base) {} with
    | none => rw [hf] at h; cases h
    | some p =>
      rw [hf] at h
      simp only [Option.map_some, Option.some.injEq, Prod.mk.injEq] at h
      obtain ⟨rfl, rfl⟩ := h
      obtain ⟨h1, h2⟩ := addFound_spec m ws _ found {} p (by simp) hf
      obtain ⟨h3, h4⟩ := inOrder_spec p h1
      refine ⟨found, ⟨hc, h3, fun pkg f => ?_⟩, by simp [List.length_eq_zero_iff]⟩
      rw [h4, h2]
      simp only [Project.State.find, List.find?_nil, Option.map_none, Option.none_or, Option.bind_eq_some_iff]
      constructor
      · rintro ⟨⟨n, c⟩, h5, h6⟩
        exact ⟨n, c, h5, parsed_iff.1 h6⟩
      · rintro ⟨n, c, h5, h6⟩
        exact ⟨(n, c), h5, parsed_iff.2 h6⟩

theorem elaborateAll_spec {glob : BazelPackage → Elab.GlobFn} {l l' : Loaded} (h : elaborateAll glob l = some l') :
    l'.map (·.1) = l.map (·.1) ∧ ∀ pkg f', (pkg, f') ∈ l' ↔ ∃ f ast, (pkg, f) ∈ l ∧
      Elab.elabFile (glob pkg) f.ast = some ast ∧ f' = { f with ast := ast } := by
  induction l generalizing l' with
  | nil => cases h; simp
  | cons e l ih =>
    rw [elaborateAll] at h
    cases h1 : Elab.elabFile (glob e.1) e.2.ast with
    | none => rw [h1] at h; cases h
    | some ast =>
      cases h2 : elaborateAll glob l with
      | none => rw [h1, h2] at h; cases h
      | some rest =>
        rw [h1, h2] at h
        simp only [Option.some.injEq] at h
        subst h
        obtain ⟨h3, h4⟩ := ih h2
        refine ⟨by simp [h3], fun pkg f' => ?_⟩
        simp only [List.mem_cons, h4]
        constructor
        · rintro (h | ⟨f, a, h5, h6⟩)
          · cases h; exact ⟨e.2, ast, .inl rfl, h1, rfl⟩
          · exact ⟨f, a, .inr h5, h6⟩
        · rintro ⟨f, a, h5 | h5, h6, h7⟩
          · subst h5
            rw [h6] at h1
            cases h1
            exact .inl (by rw [h7])
          · exact .inr ⟨f, a, h5, h6, h7⟩

theorem evaluates_eq (flags : Flags) (cmd : Command) : evaluates flags cmd = elaborates flags cmd := by
  cases cmd <;> simp [evaluates, elaborates]

theorem opened_spec {m : Machine} {ws : Workspace.Map} {flags : Flags} {cmd : Command} {pattern : BazelPattern}
    {l : Loaded} {msg : Str} (hneed : needsProject cmd pattern = true)
    (h : opened m ws flags cmd pattern = some (l, msg)) :
    ∃ found, OpenedFor m ws (evaluates flags cmd) (searched cmd pattern) found l ∧
      msg = if found = [] then noBuildFile else [] := by
  unfold opened at h
  obtain ⟨⟨l0, msg0⟩, h1, h2⟩ := Option.bind_eq_some_iff.1 h
  obtain ⟨found, ⟨h3, h4, h5⟩, h6⟩ := fill_spec hneed h1
  rw [evaluates_eq]
  cases he : elaborates flags cmd with
  | false =>
    rw [he, if_neg (by simp)] at h2
    cases h2
    exact ⟨found, ⟨h3, h4, h5⟩, h6⟩
  | true =>
    rw [he, if_pos rfl] at h2
    simp only [Option.map_eq_some_iff, Prod.mk.injEq] at h2
    obtain ⟨l1, h7, rfl, rfl⟩ := h2
    obtain ⟨h8, h9⟩ := elaborateAll_spec h7
    refine ⟨found, ⟨h3, h8 ▸ h4, fun pkg f' => ?_⟩, h6⟩
    rw [h9]
    constructor
    · rintro ⟨f, ast, h10, h11, rfl⟩
      obtain ⟨n, c, h12, a, st, h13, h14, h15, h16⟩ := (h5 pkg f).1 h10
      simp only [Bool.false_eq_true, if_false] at h16
      exact ⟨n, c, h12, a, st, h13, h14, h15, by rw [← h16]; simpa using h11⟩
    · rintro ⟨n, c, h12, a, st, h13, h14, h15, h16⟩
      simp only [if_true] at h16
      exact ⟨⟨f'.name, a, f'.hasErrors⟩, f'.ast, (h5 pkg _).2 ⟨n, c, h12, a, st, h13, h14, h15, by simp⟩, h16, rfl⟩

end Commands
end Bant
