import Verif.Spec.Parts
import Verif.Lemmas.Invariance

/-! Lemmas for patterns that ask for a part of a project. -/
namespace Bant
namespace Commands
open Query Headers Cli Rules GraphSpec CommandSpec InvarianceSpec Props FileUtils FileSpec CollectSpec PartSpec Spec

/-! ### Directories -/

theorem along_append (d : Str) (a b : List Str) : along d (a ++ b) = along (along d a) b := by
  simp [along, List.foldl_append]

theorem below_along {t : Tree} {symlink : Str → Bool} {start : Str} {names : List Str} {d : Str}
    (h : Below t symlink start names d) : d = along start names := by
  induction h with
  | start => rfl
  | sub _ hin _ _ ih =>
    obtain ⟨_, _, rfl⟩ := in_iff.1 hin
    rw [along_append, ← ih]
    rfl

theorem below_trans {t : Tree} {symlink : Str → Bool} {start : Str} {a b : List Str} {x d : Str}
    (h1 : Below t symlink start a x) (h2 : Below t symlink x b d) : Below t symlink start (a ++ b) d := by
  induction h2 with
  | start => rw [List.append_nil]; exact h1
  | sub _ hin hd hs ih => rw [← List.append_assoc]; exact .sub ih hin hd hs

theorem below_split {t : Tree} {symlink : Str → Bool} {start : Str} {a : List Str} {d : Str} :
    ∀ {b : List Str}, Below t symlink start (a ++ b) d →
      Below t symlink start a (along start a) ∧ Below t symlink (along start a) b d := by
  intro b h
  generalize hn : a ++ b = n at h
  induction h generalizing b with
  | start =>
    obtain ⟨rfl, rfl⟩ := List.append_eq_nil_iff.1 hn
    exact ⟨.start, .start⟩
  | @sub names dir e path i hb hin hd hs ih =>
    rcases List.eq_nil_or_concat b with rfl | ⟨b', x, rfl⟩
    · rw [List.append_nil] at hn
      subst hn
      have := Below.sub hb hin hd hs
      have hw := below_along this
      rw [hw] at this ⊢
      exact ⟨this, .start⟩
    · rw [List.concat_eq_append, ← List.append_assoc] at hn
      obtain ⟨h1, h2⟩ := List.append_inj' hn rfl
      cases h2
      obtain ⟨i1, i2⟩ := ih h1
      rw [List.concat_eq_append]
      exact ⟨i1, .sub i2 hin hd hs⟩

theorem in_alike {m : Machine} {d d' : Str} (h : Alike m d d') {names : List Str} {e : Dirent} {path : Str}
    (hin : In m.tree (along d names) e path) :
    In m.tree (along d' names) e (along d' (names ++ [e.name])) ∧ path = along d (names ++ [e.name]) := by
  obtain ⟨h1, h2, rfl⟩ := in_iff.1 hin
  refine ⟨in_iff.2 ⟨?_, h2, ?_⟩, ?_⟩
  · rwa [← (h names).1]
  · rw [along_append]; rfl
  · rw [along_append]; rfl

theorem isDir_alike {m : Machine} {d d' : Str} (h : Alike m d d') {names : List Str} {e : Dirent} {i : Nat}
    (hd : IsDir m.tree (along d names) e i) : IsDir m.tree (along d' names) e i := by
  cases hd with
  | plain h => exact .plain h
  | link h1 h2 => exact .link h1 ((h names).2.1 ▸ h2)

theorem alike_symm {m : Machine} {d d' : Str} (h : Alike m d d') : Alike m d' d := fun names =>
  let ⟨h1, h2, h3, h4⟩ := h names
  ⟨h1.symm, h2.symm, h3.symm, h4.symm⟩

theorem below_alike {m : Machine} {d d' : Str} (h : Alike m d d') {names : List Str} {x : Str}
    (hb : Below m.tree m.symlink d names x) : Below m.tree m.symlink d' names (along d' names) := by
  induction hb with
  | start => exact .start
  | sub hb hin hd hs ih =>
    rw [below_along hb] at hin
    obtain ⟨h1, rfl⟩ := in_alike h hin
    exact .sub ih h1 (isDir_alike h hd) (by rw [← (h _).2.2.1]; exact hs)

/-! ### Paths -/

/-- What is added to a path. -/
def rest (names : List Str) : Str := names.flatMap fun n => '/' :: n

theorem joinPath_rest (x : Str) (names : List Str) : joinPath (x :: names) = x ++ rest names := by
  induction names generalizing x with
  | nil => simp [joinPath, rest]
  | cons y ys ih => rw [joinPath, ih]; simp [rest]

theorem rest_head (names : List Str) : rest names = [] ∨ (rest names).head? = some '/' := by
  cases names with
  | nil => exact .inl rfl
  | cons n ns => exact .inr rfl

theorem name_unique {x y r s : Str} (hx : '/' ∉ x) (hy : '/' ∉ y) (hr : r = [] ∨ r.head? = some '/')
    (hs : s = [] ∨ s.head? = some '/') (h : x ++ r = y ++ s) : x = y ∧ r = s := by
  induction x generalizing y with
  | nil =>
    cases y with
    | nil => exact ⟨rfl, h⟩
    | cons c y =>
      rw [List.nil_append] at h
      subst h
      rcases hr with hr | hr
      · cases hr
      · simp only [List.cons_append, List.head?_cons, Option.some.injEq] at hr
        subst hr
        exact absurd (List.mem_cons_self ..) hy
  | cons c x ih =>
    cases y with
    | nil =>
      rw [List.nil_append] at h
      subst h
      rcases hs with hs | hs
      · cases hs
      · simp only [List.cons_append, List.head?_cons, Option.some.injEq] at hs
        subst hs
        exact absurd (List.mem_cons_self ..) hx
    | cons c' y =>
      simp only [List.cons_append, List.cons.injEq] at h
      obtain ⟨rfl, h⟩ := h
      obtain ⟨rfl, h2⟩ := ih (fun h => hx (.tail _ h)) (fun h => hy (.tail _ h)) h
      exact ⟨rfl, h2⟩

theorem rest_split {a b : List Str} {r : Str} (ha : ∀ n ∈ a, '/' ∉ n) (hb : ∀ n ∈ b, '/' ∉ n)
    (hr : r = [] ∨ r.head? = some '/') (h : rest b = rest a ++ r) : ∃ c, b = a ++ c ∧ rest c = r := by
  induction a generalizing b with
  | nil => exact ⟨b, rfl, h⟩
  | cons x a ih =>
    cases b with
    | nil => simp [rest] at h
    | cons y b =>
      have h' : y ++ rest b = x ++ (rest a ++ r) := by
        simpa [rest] using h
      have hr' : rest a ++ r = [] ∨ (rest a ++ r).head? = some '/' := by
        rcases rest_head a with h1 | h1
        · rw [h1]; exact hr
        · cases hra : rest a with
          | nil => rw [hra] at h1; cases h1
          | cons c l => rw [hra] at h1; exact .inr h1
      obtain ⟨rfl, h2⟩ := name_unique (hb y (by simp)) (ha x (by simp)) (rest_head b) hr' h'
      obtain ⟨c, rfl, h3⟩ := ih (fun n hn => ha n (by simp [hn])) (fun n hn => hb n (by simp [hn])) h2
      exact ⟨c, rfl, h3⟩

/-- Names on the way to a package below another. -/
theorem below_prefix {path : Str} {a b : List Str} {r : Str} (ha : ∀ n ∈ a, n ≠ [] ∧ '/' ∉ n)
    (hb : ∀ n ∈ b, n ≠ [] ∧ '/' ∉ n) (hne : below path a ≠ []) (hr : r = [] ∨ r.head? = some '/')
    (h : below path b = below path a ++ r) : ∃ c, b = a ++ c := by
  unfold below at h hne
  by_cases hp : path = []
  · simp only [hp, if_true, List.nil_append] at h hne
    cases a with
    | nil => exact ⟨b, rfl⟩
    | cons x a =>
      cases b with
      | nil =>
        rw [joinPath_rest] at h
        have := (ha x (by simp)).1
        simp [joinPath, this] at h
      | cons y b =>
        rw [joinPath_rest, joinPath_rest, List.append_assoc] at h
        have hr' : rest a ++ r = [] ∨ (rest a ++ r).head? = some '/' := by
          rcases rest_head a with h1 | h1
          · rw [h1]; exact hr
          · cases hra : rest a with
            | nil => rw [hra] at h1; cases h1
            | cons c l => rw [hra] at h1; exact .inr h1
        obtain ⟨rfl, h2⟩ := name_unique (hb y (by simp)).2 (ha x (by simp)).2 (rest_head b) hr' h
        obtain ⟨c, rfl, _⟩ := rest_split (fun n hn => (ha n (by simp [hn])).2) (fun n hn => (hb n (by simp [hn])).2) hr h2
        exact ⟨c, rfl⟩
  · simp only [hp, if_false, List.singleton_append] at h
    rw [joinPath_rest, joinPath_rest, List.append_assoc] at h
    obtain ⟨c, rfl, _⟩ := rest_split (fun n hn => (ha n hn).2) (fun n hn => (hb n hn).2) hr (List.append_cancel_left h)
    exact ⟨c, rfl⟩

theorem below_nil {path : Str} {names : List Str} (hn : ∀ n ∈ names, n ≠ [] ∧ '/' ∉ n) :
    below path names = [] ↔ path = [] ∧ names = [] := by
  unfold below
  by_cases hp : path = []
  · simp only [hp, if_true, List.nil_append, true_and]
    cases names with
    | nil => simp [joinPath]
    | cons x l => simp [joinPath_rest, (hn x (by simp)).1]
  · simp [hp, joinPath_rest]

theorem below_append {path : Str} {a b : List Str} (ha : ∀ n ∈ a, n ≠ [] ∧ '/' ∉ n) :
    below path (a ++ b) = below (below path a) b := by
  by_cases h : below path a = []
  · obtain ⟨rfl, rfl⟩ := (below_nil ha).1 h
    rfl
  · rw [below, below]
    simp only [if_neg h, List.singleton_append, joinPath_rest]
    by_cases hp : path = []
    · subst hp
      cases a with
      | nil => exact absurd rfl h
      | cons x l => simp [below, joinPath_rest, rest]
    · simp [below, hp, joinPath_rest, rest]

/-! ### The BUILD files -/

theorem matchPackage_below {p : BazelPattern} {names : List Str} (hr : names = [] ∨ p.isRecursive = true) :
    p.matchPackage ⟨p.pattern.package.project, below p.pattern.package.path names⟩ = true := by
  have hself : ∀ {k}, names = [] →
      ((⟨p.pattern.package.project, below p.pattern.package.path names⟩ : BazelPackage) == p.pattern.package) = k → k = true := by
    rintro k rfl rfl
    rw [beq_iff_eq]
    cases hp : p.pattern.package with
    | mk project path =>
      by_cases h : path = [] <;> simp [below, h, joinPath]
  unfold BazelPattern.matchPackage
  cases hk : p.kind with
  | alwaysMatch => rfl
  | exact => exact hself (hr.resolve_right (by simp [BazelPattern.isRecursive, hk])) rfl
  | targetRegex re => exact hself (hr.resolve_right (by simp [BazelPattern.isRecursive, hk])) rfl
  | allTargetInPackage => exact hself (hr.resolve_right (by simp [BazelPattern.isRecursive, hk])) rfl
  | recursive =>
    simp only [ne_eq, not_true_eq_false, if_false]
    split
    · rfl
    · next hne =>
      simp only [below, if_neg hne, List.singleton_append, joinPath_rest]
      rw [Bool.and_eq_true]
      constructor
      · simp [startsWith]
      · rcases rest_head names with h | h
        · simp [h]
        · cases hrn : rest names with
          | nil => rw [hrn] at h; cases h
          | cons c l =>
            rw [hrn] at h
            cases h
            simp

theorem matchPackage_path {p : BazelPattern} {pkg : BazelPackage} (hk : p.kind ≠ .alwaysMatch)
    (h : p.matchPackage pkg = true) :
    pkg.project = p.pattern.package.project ∧
      (p.isRecursive = true ∧ p.pattern.package.path = [] ∨
      ∃ r, pkg.path = p.pattern.package.path ++ r ∧ (r = [] ∨ p.isRecursive = true ∧ r.head? = some '/')) := by
  unfold BazelPattern.matchPackage at h
  cases hk' : p.kind with
  | alwaysMatch => exact absurd hk' hk
  | exact =>
    rw [hk'] at h
    rw [beq_iff_eq.1 h]
    exact ⟨rfl, .inr ⟨[], by simp, .inl rfl⟩⟩
  | targetRegex re =>
    rw [hk'] at h
    rw [beq_iff_eq.1 h]
    exact ⟨rfl, .inr ⟨[], by simp, .inl rfl⟩⟩
  | allTargetInPackage =>
    rw [hk'] at h
    rw [beq_iff_eq.1 h]
    exact ⟨rfl, .inr ⟨[], by simp, .inl rfl⟩⟩
  | recursive =>
    rw [hk'] at h
    simp only [ne_eq, ite_not] at h
    have hrec : p.isRecursive = true := by simp [BazelPattern.isRecursive, hk']
    split at h
    · next hp =>
      refine ⟨hp, ?_⟩
      split at h
      · next he => exact .inl ⟨hrec, he⟩
      · rw [Bool.and_eq_true, Bool.or_eq_true] at h
        obtain ⟨h1, h2⟩ := h
        obtain ⟨r, hr⟩ := List.isPrefixOf_iff_prefix.1 (show List.isPrefixOf p.pattern.package.path pkg.path = true from h1)
        refine .inr ⟨r, hr.symm, ?_⟩
        rw [← hr] at h2
        cases r with
        | nil => exact .inl rfl
        | cons c l =>
          right
          refine ⟨hrec, ?_⟩
          rcases h2 with h2 | h2
          · simp at h2
          · simpa using h2
    · cases h

theorem start_total {ws : Workspace.Map} {a b : BazelPackage} (hp : a.project = b.project) {start : Str}
    (h : Start ws a start) : ∃ start', Start ws b start' := by
  obtain ⟨project, path⟩ := b
  cases h with
  | top =>
    cases hp
    by_cases hb : path = []
    · subst hb; exact ⟨_, .top⟩
    · exact ⟨_, .main hb⟩
  | main _ =>
    cases hp
    by_cases hb : path = []
    · subst hb; exact ⟨_, .top⟩
    · exact ⟨_, .main hb⟩
  | external h1 h2 =>
    cases hp
    exact ⟨_, .external h1 h2⟩

variable {m : Machine} {ws : Workspace.Map} {p q : BazelPattern} {names : List Str}

theorem isRecursive_kind (p : BazelPattern) :
    p.isRecursive = true ↔ p.kind = .recursive ∨ p.kind = .alwaysMatch := by
  unfold BazelPattern.isRecursive
  cases p.kind <;> simp

theorem part_found (hw : Within m ws p q names) {n : List Str} {pkg : BazelPackage} {f : Str}
    (h : BuildFileOf m.tree m.symlink ws p n pkg f) :
    p.matchPackage pkg = true ∧ ∃ f', BuildFileOf m.tree m.symlink ws q (names ++ n) pkg f' ∧
      m.fs.content f' = m.fs.content f := by
  obtain ⟨start, dir, e, hst, hb, hrec, hin, hno, hname, rfl⟩ := h
  rw [← isRecursive_kind] at hrec
  refine ⟨matchPackage_below hrec, ?_⟩
  obtain ⟨start', hst'⟩ := start_total hw.project hst
  have hal := hw.same _ _ hst hst'
  have hlist : ∃ es, m.tree.list start = some es := by
    cases n with
    | nil =>
      rw [below_along hb] at hin
      obtain ⟨⟨es, h1, _⟩, _⟩ := in_iff.1 hin
      exact ⟨es, h1⟩
    | cons x n =>
      have h1 := (below_split (a := [x]) (b := n) (show Below _ _ _ ([x] ++ n) dir from hb)).1
      generalize hx : [x] = l at h1
      cases h1 with
      | start => cases hx
      | @sub ns d e' _ i hb' hin' _ _ =>
        have : ns = [] := by
          cases ns with
          | nil => rfl
          | cons a b => simp at hx
        subst this
        rw [below_along hb'] at hin'
        obtain ⟨⟨es, h2, _⟩, _⟩ := in_iff.1 hin'
        exact ⟨es, h2⟩
  obtain ⟨es, hes⟩ := hlist
  have hb' := (hw.there _ _ hst hst').resolve_left (by rw [hes]; simp)
  have hd := below_along hb
  subst hd
  obtain ⟨h1, rfl⟩ := in_alike hal hin
  refine ⟨_, ⟨start', _, e, hst', below_trans hb' (below_alike hal hb), ?_, h1, ?_, hname, ?_⟩, (hal _).2.2.2.symm⟩
  · rw [← isRecursive_kind]
    by_cases hq : q.isRecursive = true
    · exact .inr hq
    · exact .inl (by rw [hw.deeper.resolve_right hq, hrec.resolve_right fun h => hq (hw.recursive h)]; rfl)
  · rintro ⟨i, hi⟩
    exact hno ⟨i, isDir_alike (alike_symm hal) hi⟩
  · rw [hw.project, hw.path, below_append hw.plain]

theorem found_part (hn : Named m.tree) (hw : Within m ws p q names) {n : List Str} {pkg : BazelPackage} {f : Str}
    (h : BuildFileOf m.tree m.symlink ws q n pkg f) (hp : p.matchPackage pkg = true) :
    ∃ n' f', n = names ++ n' ∧ BuildFileOf m.tree m.symlink ws p n' pkg f' ∧ m.fs.content f' = m.fs.content f := by
  obtain ⟨start', dir, e, hst', hb, hrec, hin, hno, hname, rfl⟩ := h
  obtain ⟨start, hst⟩ := start_total hw.project.symm hst'
  have hal := hw.same _ _ hst hst'
  have hnames := (Collect.Below.path hn hb).1
  have key : ∃ n', n = names ++ n' ∧ (n' = [] ∨ p.isRecursive = true) := by
    have hempty : p.isRecursive = true → p.pattern.package.path = [] →
        ∃ n', n = names ++ n' ∧ (n' = [] ∨ p.isRecursive = true) := by
      intro h1 h2
      rw [hw.path, below_nil hw.plain] at h2
      exact ⟨n, by rw [h2.2]; rfl, .inr h1⟩
    by_cases hk : p.kind = .alwaysMatch
    · exact hempty ((isRecursive_kind p).2 (.inr hk)) (by rw [hw.always hk])
    obtain ⟨_, h1⟩ := matchPackage_path hk hp
    rcases h1 with ⟨h1, h2⟩ | ⟨r, h1, h2⟩
    · exact hempty h1 h2
    · rw [hw.path] at h1
      dsimp only at h1
      by_cases he : below q.pattern.package.path names = []
      · obtain ⟨h3, rfl⟩ := (below_nil hw.plain).1 he
        rcases h2 with rfl | ⟨h2, _⟩
        · rw [he] at h1
          exact ⟨n, rfl, .inl ((below_nil hnames).1 h1).2⟩
        · exact ⟨n, rfl, .inr h2⟩
      · obtain ⟨c, rfl⟩ := below_prefix hw.plain hnames he (h2.imp id And.right) h1
        refine ⟨c, rfl, ?_⟩
        rcases h2 with rfl | ⟨h2, _⟩
        · obtain ⟨d, hd⟩ := below_prefix (path := q.pattern.package.path) (r := []) hnames hw.plain
            (by rw [h1]; simpa using he) (.inl rfl) (by rw [h1]; simp)
          rw [List.append_assoc] at hd
          have : c ++ d = [] := by simpa using hd
          exact .inl (List.append_eq_nil_iff.1 this).1
        · exact .inr h2
  obtain ⟨n', rfl, hrec'⟩ := key
  obtain ⟨_, hb'⟩ := below_split hb
  have hd := below_along hb'
  subst hd
  obtain ⟨h1, rfl⟩ := in_alike (alike_symm hal) hin
  refine ⟨n', _, rfl, ⟨start, _, e, hst, below_alike (alike_symm hal) hb', ?_, h1, ?_, hname, ?_⟩, (hal _).2.2.2⟩
  · rwa [← isRecursive_kind]
  · rintro ⟨i, hi⟩
    exact hno ⟨i, isDir_alike hal hi⟩
  · rw [hw.project, hw.path, below_append hw.plain]

/-- What is opened for a pattern in an orderly project. -/
theorem orderly_opened {steps : Nat} (hm : steps ≤ m.steps) (hroots : Roots ws) {pattern : BazelPattern}
    (ho : Orderly m ws pattern steps) {evaluate : Bool} {found : List Str} {l : Loaded}
    (h : OpenedFor m ws evaluate pattern found l) (pkg : BazelPackage) (file : File) :
    (pkg, file) ∈ l ↔ ∃ n name content, BuildFileOf m.tree m.symlink ws pattern n pkg name ∧ (∀ x ∈ n, x ∉ skipped) ∧
      m.fs.content name = some content ∧ ReadAs m evaluate pkg name content file := by
  obtain ⟨found', hc, hf⟩ := orderly_found (steps := m.steps) ho.named (fun start hs => by
      obtain ⟨dirs, h1, h2⟩ := ho.finite start hs
      exact ⟨dirs, by omega, h2⟩) ho.apart
  obtain rfl := Option.some.inj (h.files.symm.trans hc)
  have hpkg : ∀ n pkg' name, BuildFileOf m.tree m.symlink ws pattern n pkg' name → (∀ x ∈ n, x ∉ skipped) →
      Collect.packageOf ws name pattern.pattern.package.project = some (some pkg') := fun n pkg' name b s =>
    Collect.buildFile_package ho.named hroots ho.tidy b (ho.visible _ _ _ b s)
  rw [h.each]
  have hone : ∀ f ∈ found, ∀ g ∈ found,
      Collect.packageOf ws f pattern.pattern.package.project = some (some pkg) →
      Collect.packageOf ws g pattern.pattern.package.project = some (some pkg) → f = g := by
    intro f hfm g hgm hpf hpg
    obtain ⟨n1, p1, b1, s1⟩ := (hf f).1 hfm
    obtain ⟨n2, p2, b2, s2⟩ := (hf g).1 hgm
    rw [hpkg _ _ _ b1 s1] at hpf
    rw [hpkg _ _ _ b2 s2] at hpg
    cases hpf
    cases hpg
    exact ho.single _ _ _ _ _ b1 b2
  constructor
  · rintro ⟨name, content, h1, h2⟩
    obtain ⟨h3, h4, h5⟩ := (firstReadable_iff hone).1 h1
    obtain ⟨n, pkg', h6, h7⟩ := (hf name).1 h3
    rw [hpkg _ _ _ h6 h7] at h4
    cases h4
    exact ⟨n, name, content, h6, h7, h5, h2⟩
  · rintro ⟨n, name, content, h1, h2, h3, h4⟩
    exact ⟨name, content, (firstReadable_iff hone).2 ⟨(hf name).2 ⟨n, pkg, h1, h2⟩, hpkg _ _ _ h1 h2, h3⟩, h4⟩

/-- What is read of the files. -/
def views (l : Loaded) : List (BazelPackage × Node × Bool) := l.map fun f => (f.1, f.2.ast, f.2.hasErrors)

theorem views_trees (l : Loaded) : trees l = (views l).map fun v => (v.1, v.2.1) := by
  simp [trees, views]

/-- What is opened for a part is this part of what is opened. -/
theorem views_part {steps : Nat} (hm : steps ≤ m.steps) (hroots : Roots ws) (hp : Orderly m ws p steps)
    (hq : Orderly m ws q steps) (hw : Within m ws p q names) {evaluate : Bool} {found found' : List Str}
    {files files' : Loaded} (h : OpenedFor m ws evaluate p found files) (h' : OpenedFor m ws evaluate q found' files') :
    views files = (views files').filter fun f => p.matchPackage f.1 := by
  have hsort : ∀ {l : Loaded}, (l.map (·.1)).Pairwise (fun a b => Ordered.lt a b = true) →
      ((views l).map (·.1)).Pairwise (fun a b => Ordered.lt a b = true) := by
    intro l hl
    simpa [views, Function.comp_def] using hl
  refine sorted_ext (hsort h.order) (List.pairwise_map.2 ((List.pairwise_map.1 (hsort h'.order)).filter _)) ?_
  rintro ⟨pkg, ast, bad⟩
  rw [List.mem_filter]
  have hmem : ∀ l : Loaded, (pkg, ast, bad) ∈ views l ↔ ∃ name, (pkg, ⟨name, ast, bad⟩) ∈ l := by
    intro l
    simp only [views, List.mem_map, Prod.mk.injEq, Prod.exists]
    constructor
    · rintro ⟨a, ⟨n, t, b⟩, h1, rfl, rfl, rfl⟩; exact ⟨n, h1⟩
    · rintro ⟨n, h1⟩; exact ⟨_, _, h1, rfl, rfl, rfl⟩
  rw [hmem, hmem]
  constructor
  · rintro ⟨file, h1⟩
    obtain ⟨n, name, content, h2, h3, h4, tree, st, h5, h6, h7, h8⟩ := (orderly_opened hm hroots hp h _ _).1 h1
    obtain ⟨h9, f', h10, h11⟩ := part_found hw h2
    refine ⟨⟨f', (orderly_opened hm hroots hq h' _ _).2 ⟨names ++ n, f', content, h10, ?_,
      h11.trans h4, tree, st, h5, rfl, h7, h8⟩⟩, h9⟩
    intro x hx
    rcases List.mem_append.1 hx with hx | hx
    · exact hw.seen x hx
    · exact h3 x hx
  · rintro ⟨⟨file, h1⟩, h9⟩
    obtain ⟨n, name, content, h2, h3, h4, tree, st, h5, h6, h7, h8⟩ := (orderly_opened hm hroots hq h' _ _).1 h1
    obtain ⟨n', f', rfl, h10, h11⟩ := found_part hq.named hw h2 h9
    exact ⟨f', (orderly_opened hm hroots hp h _ _).2 ⟨n', f', content, h10,
      fun x hx => h3 x (List.mem_append_right _ hx), h11.trans h4, tree, st, h5, rfl, h7, h8⟩⟩

/-- The packages that are opened match. -/
theorem opened_matches {steps : Nat} (hm : steps ≤ m.steps) (hroots : Roots ws) (hp : Orderly m ws p steps)
    {evaluate : Bool} {found : List Str} {files : Loaded} (h : OpenedFor m ws evaluate p found files) :
    ∀ f ∈ files, p.matchPackage f.1 = true := by
  rintro ⟨pkg, file⟩ hf
  obtain ⟨n, name, content, ⟨_, _, _, _, _, hrec, _, _, _, rfl⟩, _⟩ := (orderly_opened hm hroots hp h _ _).1 hf
  rw [← isRecursive_kind] at hrec
  exact matchPackage_below hrec

theorem matchTarget_package {t : BazelTarget} (h : p.matchTarget t = true) : p.matchPackage t.package = true := by
  unfold BazelPattern.matchTarget at h
  cases hk : p.kind with
  | recursive => rw [hk] at h; exact h
  | alwaysMatch => simp [BazelPattern.matchPackage, hk]
  | exact =>
    rw [hk] at h
    simp [BazelPattern.matchPackage, hk, beq_iff_eq.1 h]
  | allTargetInPackage =>
    rw [hk] at h
    simpa [BazelPattern.matchPackage, hk] using h
  | targetRegex re =>
    rw [hk] at h
    simp only at h
    split at h
    · cases h
    · next hne => simpa [BazelPattern.matchPackage, hk] using hne

end Commands
end Bant
