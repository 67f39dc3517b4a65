import Verif.Lemmas.StderrGraph

/-! What is said about files. -/
namespace Bant
namespace Stderr
open Commands Headers Cli GraphSpec StderrSpec CommandSpec Props
open Located (each each_some each_map each_mem)

/-! ### Files that are found -/

theorem firstReadable_append (m : Machine) (ws : Workspace.Map) (project : Str) (pkg : BazelPackage) (l l' : List Str) :
    firstReadable m ws project pkg (l ++ l') =
      (firstReadable m ws project pkg l).or (firstReadable m ws project pkg l') := by
  induction l with
  | nil => rfl
  | cons f l ih =>
    simp only [List.cons_append, firstReadable, ih]
    split
    · cases m.fs.content f <;> rfl
    · rfl

theorem find_name {m : Machine} {ws : Workspace.Map} {project : Str} {before : List Str} {p : Project.State}
    (h : before.foldlM (Collect.addFound ws project m.fs.content m.base) {} = some p) (pkg : BazelPackage) :
    (p.find pkg).map (·.source.name) = (firstReadable m ws project pkg before).map (·.1) := by
  have h1 := (addFound_spec m ws project before {} p (by simp) h).2 pkg
  have h2 := congrArg (Option.map File.name) h1
  rw [Option.map_map] at h2
  rw [show (p.find pkg).map (·.source.name) = (p.find pkg).map (File.name ∘ fileOf) from rfl, h2]
  simp only [Project.State.find, List.find?_nil, Option.map_none, Option.none_or]
  cases firstReadable m ws project pkg before with
  | none => rfl
  | some x =>
    obtain ⟨ast, st, hp, _⟩ := Parser.parseFile_total x.2
    simp [parsed, hp]

theorem addAll_said {m : Machine} {ws : Workspace.Map} {project : Str} {files before : List Str} {p : Project.State}
    {said : List Said} (hb : before.foldlM (Collect.addFound ws project m.fs.content m.base) {} = some p)
    (h : addAll m ws project p files = some said) : said = aboutAll m ws project before files := by
  induction files generalizing before p said with
  | nil => cases h; rfl
  | cons f files ih =>
    rw [addAll] at h
    split at h
    · rename_i s q h1 h2
      obtain ⟨rest, h3, rfl⟩ := Option.map_eq_some_iff.1 h
      have h4 := ih (before := before ++ [f]) (by rw [List.foldlM_append, hb]; simp [h2]) h3
      rw [aboutAll, ← h4]
      congr 1
      unfold addFound at h1
      unfold aboutFound
      cases hp : Collect.packageOf ws f project with
      | none => rw [hp] at h1; cases h1
      | some o =>
        rw [hp] at h1
        cases o with
        | none => cases h1; rfl
        | some pkg =>
          simp only at h1 ⊢
          unfold addFile at h1
          have hn := find_name hb pkg
          cases hc : m.fs.content f with
          | none => rw [hc] at h1; cases h1; rfl
          | some content =>
            rw [hc] at h1
            simp only [reduceCtorEq, if_false] at h1 ⊢
            cases hf : p.find pkg with
            | some e =>
              rw [hf] at h1 hn
              cases h1
              cases hr : firstReadable m ws project pkg before with
              | none => rw [hr] at hn; cases hn
              | some x =>
                rw [hr] at hn
                simp only [Option.map_some, Option.some.injEq] at hn
                simp only [hn, alreadySeen]
            | none =>
              rw [hf] at h1 hn
              cases hr : firstReadable m ws project pkg before with
              | some x => rw [hr] at hn; cases hn
              | none =>
                obtain ⟨ms, h5, rfl⟩ := Option.map_eq_some_iff.1 h1
                simp [textsFor, hc, h5]
    · cases h

theorem addAll_packages {m : Machine} {ws : Workspace.Map} {project : Str} {files : List Str} {p : Project.State}
    {said : List Said} (h : addAll m ws project p files = some said) :
    ∀ f ∈ files, Collect.packageOf ws f project ≠ none := by
  induction files generalizing p said with
  | nil => simp
  | cons f files ih =>
    rw [addAll] at h
    split at h
    · rename_i s q h1 h2
      obtain ⟨rest, h3, rfl⟩ := Option.map_eq_some_iff.1 h
      intro g hg
      rcases List.mem_cons.1 hg with rfl | hg
      · intro hn
        unfold addFound at h1
        rw [hn] at h1
        cases h1
      · exact ih h3 g hg
    · cases h

/-- If something is found, the project is known. -/
theorem found_packages {m : Machine} {ws : Workspace.Map} {pattern : BazelPattern} {found : List Str}
    (hc : Collect.collectBuildFiles m.tree m.symlink ws pattern m.steps = some found)
    (h : ∀ f ∈ found, Collect.packageOf ws f pattern.pattern.package.project ≠ none) :
    ∀ f ∈ found, ∃ pkg, Collect.packageOf ws f pattern.pattern.package.project = some (some pkg) := by
  intro f hf
  cases hp : Collect.packageOf ws f pattern.pattern.package.project with
  | none => exact absurd hp (h f hf)
  | some o =>
    cases o with
    | some pkg => exact ⟨pkg, rfl⟩
    | none =>
      unfold Collect.packageOf at hp
      split at hp
      · cases hp
      · rename_i hne
        split at hp
        · rename_i hfind
          unfold Collect.collectBuildFiles Collect.searchDir at hc
          simp only [hne, ne_eq, not_false_eq_true, if_true, hfind] at hc
          cases hc
          cases hf
        · split at hp <;> cases hp

/-- What is said about files that are found. -/
theorem fill_said {m : Machine} {ws : Workspace.Map} {cmd : Command} {pattern : BazelPattern} {said : List Said}
    (hneed : needsProject cmd pattern = true) (h : fill m ws cmd pattern = some said) :
    ∃ found, Collect.collectBuildFiles m.tree m.symlink ws (searched cmd pattern) m.steps = some found ∧
      (∀ f ∈ found, ∃ pkg, Collect.packageOf ws f (searched cmd pattern).pattern.package.project = some (some pkg)) ∧
      said = (if (Collect.searchDir ws (searched cmd pattern)).isNone then
          [.direct (unknownProject (searched cmd pattern).pattern.package.project)] else []) ++
        aboutAll m ws (searched cmd pattern).pattern.package.project [] found ++
        if found = [] then [.session noBuildFile] else [] := by
  unfold fill at h
  rw [if_pos hneed] at h
  obtain ⟨found, h1, h2⟩ := Option.bind_eq_some_iff.1 h
  obtain ⟨a, h3, rfl⟩ := Option.map_eq_some_iff.1 h2
  refine ⟨found, h1, found_packages h1 (addAll_packages h3), ?_⟩
  rw [addAll_said (before := []) rfl h3]
  simp only [List.length_eq_zero_iff]
  rfl

theorem textsFor_nil {fs : Workspace.FileSystem} {path : Str} :
    textsFor fs path = [] ↔ ∀ text, fs.content path = some text → ¬ Project.Malformed text := by
  unfold textsFor
  cases hc : fs.content path with
  | none => simp
  | some text =>
    obtain ⟨ms, h1, h2, _⟩ := ofFile_known path text
    simp only [Option.bind_some, h1, Option.getD_some, Option.some.injEq, forall_eq']
    rw [← h2]
    simp

theorem firstReadable_none {m : Machine} {ws : Workspace.Map} {project : Str} {pkg : BazelPackage} {l : List Str}
    (hr : ∀ f ∈ l, m.fs.content f ≠ none) :
    firstReadable m ws project pkg l = none ↔ ∀ f ∈ l, Collect.packageOf ws f project ≠ some (some pkg) := by
  induction l with
  | nil => simp [firstReadable]
  | cons f l ih =>
    rw [firstReadable, List.forall_mem_cons, ← ih fun g hg => hr g (by simp [hg])]
    split
    · rename_i hp
      cases hc : m.fs.content f with
      | none => exact absurd hc (hr f (by simp))
      | some text => simp [hp]
    · rename_i hp; simp [hp]

/-- Nothing is said about files if they are for different packages, can be read, and have no syntax errors. -/
theorem aboutAll_nil {m : Machine} {ws : Workspace.Map} {project : Str} {files before : List Str}
    (hp : ∀ f ∈ files, ∃ pkg, Collect.packageOf ws f project = some (some pkg))
    (hb : ∀ f ∈ before, m.fs.content f ≠ none) :
    aboutAll m ws project before files = [] ↔
      (∀ f ∈ files, ∃ text, m.fs.content f = some text ∧ ¬ Project.Malformed text) ∧
      (files.map fun f => Collect.packageOf ws f project).Nodup ∧
      ∀ f ∈ files, ∀ g ∈ before, Collect.packageOf ws g project ≠ Collect.packageOf ws f project := by
  induction files generalizing before with
  | nil => simp [aboutAll]
  | cons f files ih =>
    obtain ⟨pkg, hpk⟩ := hp f (by simp)
    have hp' := fun g (hg : g ∈ files) => hp g (by simp [hg])
    rw [aboutAll, List.append_eq_nil_iff]
    cases hc : m.fs.content f with
    | none =>
      have e1 : aboutFound m ws project before f ≠ [] := by simp [aboutFound, hpk, hc]
      simp only [e1, false_and, List.mem_cons, forall_eq_or_imp, hc, reduceCtorEq, exists_false]
    | some text =>
      have hb' : ∀ g ∈ before ++ [f], m.fs.content g ≠ none := by
        intro g hg
        rcases List.mem_append.1 hg with hg | hg
        · exact hb g hg
        · rw [List.mem_singleton.1 hg, hc]; simp
      rw [ih hp' hb']
      have e1 : aboutFound m ws project before f = [] ↔
          (∀ g ∈ before, Collect.packageOf ws g project ≠ some (some pkg)) ∧ ¬ Project.Malformed text := by
        rw [← firstReadable_none hb]
        unfold aboutFound
        simp only [hpk, hc, reduceCtorEq, if_false]
        cases firstReadable m ws project pkg before with
        | some x => simp
        | none => simp [textsFor_nil, hc]
      rw [e1]
      simp only [List.forall_mem_cons, List.map_cons, List.nodup_cons, hpk, hc, Option.some.injEq, exists_eq_left']
      constructor
      · rintro ⟨⟨h1, h2⟩, h3, h4, h5⟩
        refine ⟨⟨h2, h3⟩, ⟨?_, h4⟩, h1, fun g hg x hx => h5 g hg x (by simp [hx])⟩
        intro hm
        obtain ⟨g, hg, he⟩ := List.mem_map.1 hm
        exact h5 g hg f (by simp) (hpk.trans he.symm)
      · rintro ⟨⟨h2, h3⟩, ⟨h6, h4⟩, h1, h5⟩
        refine ⟨⟨h1, h2⟩, h3, h4, fun g hg x hx => ?_⟩
        rcases List.mem_append.1 hx with hx | hx
        · exact h5 g hg x hx
        · rw [List.mem_singleton.1 hx, hpk]
          exact fun he => h6 (List.mem_map.2 ⟨g, hg, he.symm⟩)

/-! ### The workspace -/

/-- A note about a project that is not there: the location of its name, and the declaration. -/
def AtName (fs : Workspace.FileSystem) (file : Str) (x : Str × Query.Result) : Prop :=
  ∃ content pos, fs.content file = some content ∧ pos + x.2.name.length ≤ content.length ∧
    piece content pos (pos + x.2.name.length) = x.2.name ∧
    x.1 = whereIs file (Project.asCounted content) pos (pos + x.2.name.length)

theorem workspaceFile_said {fs : Workspace.FileSystem} {file : Str} {ps ls : List Str}
    (h : workspaceFile fs file = some (ps, ls)) :
    ps = textsFor fs file ∧ ∃ notes : List (Str × Query.Result), ls = notes.map (fun x => notExtracted x.1 x.2.name) ∧
      notes.map (·.2) = absentIn fs file ∧ ∀ x ∈ notes, AtName fs file x := by
  unfold workspaceFile at h
  unfold textsFor absentIn
  cases hc : fs.content file with
  | none => rw [hc] at h; cases h; exact ⟨rfl, [], rfl, rfl, by simp⟩
  | some content =>
    rw [hc] at h
    simp only at h
    split at h
    · rename_i parser tree st h1 h2
      obtain ⟨rs, h3, h4⟩ := Option.bind_eq_some_iff.1 h
      obtain ⟨l, h5, h6⟩ := Option.map_eq_some_iff.1 h4
      cases h6
      obtain ⟨hp, hall⟩ := Located.parseFile_located h2
      have hparse : Parser.parseFile content = some (tree.plain, st) := hp
      obtain ⟨stmts, hs1, hs2⟩ := ParserCalls.parseFile_calls hparse
      have hproper : ∀ s ∈ Rules.sites tree.plain, Rules.Proper s := by
        rw [hs1]; exact ParserCalls.callsOkAll_sites stmts hs2
      have hrules : rs.map Located.Rule.plain = Rules.rulesOf [c!"http_archive", c!"bazel_dep"] tree.plain := by
        have := Query.findTargets_report (ae := false) (rules := [c!"http_archive", c!"bazel_dep"]) tree.plain hproper
        rw [Located.findTargets_plain, h3] at this
        simpa [Rules.rulesOf] using this
      have h7 := Located.findTargets_all hall h3
      have h8 := findTargets_named h3 rfl
      refine ⟨by simp [h1], ?_⟩
      have key : ∀ (rs' : List Located.Rule) (ls : List Str),
          (∀ r ∈ rs', Located.InFile content r.name) →
          each (fun r => ((⟨file, content, (Project.scanTimes st.scans (Scanner.init content)).lines⟩ :
            Located.Source).loc r.name).map fun loc => notExtracted loc r.name.text) rs' = some ls →
          ∃ notes : List (Str × Query.Result), ls = notes.map (fun x => notExtracted x.1 x.2.name) ∧
            notes.map (·.2) = rs'.map Located.Rule.plain ∧ ∀ x ∈ notes, AtName fs file x := by
        intro rs'
        induction rs' with
        | nil => intro ls _ h; cases h; exact ⟨[], rfl, rfl, by simp⟩
        | cons r rs' ih =>
          intro ls hin h
          rw [each] at h
          split at h
          · rename_i y ys g1 g2
            cases h
            obtain ⟨loc, g3, rfl⟩ := Option.map_eq_some_iff.1 g1
            obtain ⟨notes, rfl, g4, g5⟩ := ih _ (fun r hr => hin r (by simp [hr])) g2
            refine ⟨(loc, r.plain) :: notes, rfl, by simp [g4], fun x hx => ?_⟩
            rcases List.mem_cons.1 hx with rfl | hx
            · obtain ⟨pos, e1, e2, e3⟩ := hin r (by simp)
              refine ⟨content, pos, hc, e2, ?_, ?_⟩
              · rw [piece, Nat.add_sub_cancel_left]; exact e3.symm
              · unfold Located.Source.loc at g3
                rw [e1] at g3
                have hlines : (Project.scanTimes st.scans (Scanner.init content)).lines = Project.linesOf content := by
                  simp [Project.linesOf, hparse]
                simp only [hlines, getLocation_asCounted (Nat.le_add_right pos _) e2, Option.map_some,
                  Option.some.injEq] at g3
                exact g3.symm
            · exact g5 x hx
          · cases h
      obtain ⟨notes, e1, e2, e3⟩ := key _ ls (fun r hr => by
        have hr := (List.mem_filter.1 hr).1
        exact (h7 r hr).name (h8 r hr)) h5
      refine ⟨notes, e1, ?_, e3⟩
      rw [e2]
      simp only [Option.bind_some, hparse, ← hrules, List.filter_map]
      congr 1
      refine List.filter_congr fun r _ => ?_
      simp only [Function.comp, WorkspaceSpec.entryOf, Workspace.projectDir_eq, Option.isNone_map]
    · cases h

/-- What is said about the workspace. -/
theorem workspace_said {fs : Workspace.FileSystem} {said : List Said} (h : workspace fs = some said) :
    ∃ notes : List (Str × Str × Query.Result),
      notes.map (fun x => (x.1, x.2.2)) = Workspace.wsFiles.flatMap (fun f => (absentIn fs f).map (f, ·)) ∧
      (∀ x ∈ notes, AtName fs x.1 x.2) ∧
      said = (Workspace.wsFiles.flatMap (textsFor fs)).map .session ++
        if (Workspace.wsFiles.take 2).flatMap (absentIn fs) ≠ [] ∧ (Workspace.wsFiles.drop 2).flatMap (absentIn fs) ≠ []
        then (notes.map fun x => .session (notExtracted x.2.1 x.2.2.name)) ++ [.session needBuild] else [] := by
  unfold workspace at h
  obtain ⟨l, h1, rfl⟩ := Option.map_eq_some_iff.1 h
  have key : ∀ (files : List Str) (l : List (List Str × List Str)), each (workspaceFile fs) files = some l →
      l.map (·.1) = files.map (textsFor fs) ∧ ∃ notes : List (List (Str × Str × Query.Result)),
        l.map (·.2) = notes.map (·.map fun x => notExtracted x.2.1 x.2.2.name) ∧
        notes.map (·.map fun x => (x.1, x.2.2)) = files.map (fun f => (absentIn fs f).map (f, ·)) ∧
        ∀ n ∈ notes, ∀ x ∈ n, AtName fs x.1 x.2 := by
    intro files
    induction files with
    | nil => intro l h; cases h; exact ⟨rfl, [], rfl, rfl, by simp⟩
    | cons f files ih =>
      intro l h
      rw [each] at h
      split at h
      · rename_i y ys g1 g2
        cases h
        obtain ⟨g3, notes, g4, g5, g6⟩ := ih _ g2
        obtain ⟨g7, n, g8, g9, g10⟩ := workspaceFile_said (ps := y.1) (ls := y.2) g1
        refine ⟨by simp [g3, g7], n.map (fun x => (f, x)) :: notes, ?_, ?_, ?_⟩
        · simp only [List.map_cons, g4, g8, List.map_map]; rfl
        · simp only [List.map_cons, g5, List.map_map, ← g9]; rfl
        · intro k hk x hx
          rcases List.mem_cons.1 hk with rfl | hk
          · obtain ⟨y, hy, rfl⟩ := List.mem_map.1 hx
            exact g10 y hy
          · exact g6 k hk x hx
      · cases h
  obtain ⟨h2, notes, h3, h4, h5⟩ := key _ _ h1
  refine ⟨notes.flatten, ?_, ?_, ?_⟩
  · rw [List.map_flatten, h4, List.flatMap_def]
  · intro x hx
    obtain ⟨n, hn, hx⟩ := List.mem_flatten.1 hx
    exact h5 n hn x hx
  · have e1 : l.flatMap (·.1) = Workspace.wsFiles.flatMap (textsFor fs) := by
      rw [List.flatMap_def, h2, List.flatMap_def]
    have hne : ∀ (a : List (List (Str × Str × Query.Result))) (fs' : List Str),
        a.map (·.map fun x => (x.1, x.2.2)) = fs'.map (fun f => (absentIn fs f).map (f, ·)) →
        ((a.map (·.map fun x => notExtracted x.2.1 x.2.2.name)).flatten.flatten = [] ↔
          fs'.flatMap (absentIn fs) = []) := by
      intro a
      induction a with
      | nil => intro fs' h; cases fs' with
        | nil => simp
        | cons _ _ => cases h
      | cons n a ih =>
        intro fs' h
        cases fs' with
        | nil => cases h
        | cons f fs' =>
          simp only [List.map_cons, List.cons.injEq] at h
          have := ih fs' h.2
          simp only [List.map_cons, List.flatten_cons, List.flatten_append, List.flatMap_cons,
            List.append_eq_nil_iff]
          refine and_congr ?_ this
          have hl := congrArg List.length h.1
          simp only [List.length_map] at hl
          cases n with
          | nil =>
            have : absentIn fs f = [] := List.length_eq_zero_iff.1 (by simpa using hl.symm)
            simp [this]
          | cons x n =>
            cases ha : absentIn fs f with
            | nil => rw [ha] at hl; cases hl
            | cons _ _ => simp [notExtracted]
    have e2 : (l.take 2).flatMap (·.2) ++ (l.drop 2).flatMap (·.2) =
        notes.flatten.map fun x => notExtracted x.2.1 x.2.2.name := by
      rw [← List.flatMap_append, List.take_append_drop, List.flatMap_def, h3, List.map_flatten]
    have e3 : ((l.take 2).flatMap (·.2)).flatten ≠ [] ↔ (Workspace.wsFiles.take 2).flatMap (absentIn fs) ≠ [] := by
      refine not_congr ?_
      rw [← hne (notes.take 2) (Workspace.wsFiles.take 2) (by rw [List.map_take, h4, List.map_take]), List.map_take, ← h3,
        ← List.map_take, List.flatMap_def]
    have e4 : ((l.drop 2).flatMap (·.2)).flatten ≠ [] ↔ (Workspace.wsFiles.drop 2).flatMap (absentIn fs) ≠ [] := by
      refine not_congr ?_
      rw [← hne (notes.drop 2) (Workspace.wsFiles.drop 2) (by rw [List.map_drop, h4, List.map_drop]), List.map_drop, ← h3,
        ← List.map_drop, List.flatMap_def]
    simp only [e1, e2, e3, e4]
    congr 1
    split
    · simp only [List.map_append, List.map_map, List.map_cons, List.map_nil]
      rfl
    · rfl

end Stderr
end Bant
