import Verif.Spec.Collect
import Verif.Lemmas.FileUtils
import Verif.Lemmas.TypesBazel

/-! Lemmas about finding BUILD files (C50, C63). -/
namespace Bant
namespace Collect
open FileUtils FileSpec CollectSpec Spec Headers

/-- The names, each behind a slash. -/
def slashed (names : List Str) : Str := names.flatMap fun n => '/' :: n

theorem slashed_cons (n : Str) (ns : List Str) : slashed (n :: ns) = '/' :: n ++ slashed ns := by
  simp [slashed]

theorem slashed_snoc (ns : List Str) (n : Str) : slashed (ns ++ [n]) = slashed ns ++ '/' :: n := by
  simp [slashed]

theorem joinPath_slashed (x : Str) (xs : List Str) : joinPath (x :: xs) = x ++ slashed xs := by
  induction xs generalizing x with
  | nil => simp [joinPath, slashed]
  | cons y ys ih => rw [joinPath, ih, slashed_cons]; simp

theorem below_path (path : Str) (names : List Str) (h : path ≠ []) :
    below path names = path ++ slashed names := by
  rw [below, if_neg h, List.singleton_append, joinPath_slashed]

theorem below_nil_cons (n : Str) (ns : List Str) : below [] (n :: ns) = n ++ slashed ns := by
  rw [below, if_pos rfl, List.nil_append, joinPath_slashed]

/-- Names of directories are not empty, and have no slashes. -/
def Names (names : List Str) : Prop := ∀ n ∈ names, n ≠ [] ∧ '/' ∉ n

theorem Below.path {t : Tree} (hn : Named t) {symlink : Str → Bool} {start dir : Str} {names : List Str}
    (h : Below t symlink start names dir) :
    Names names ∧ stripBack '/' dir = stripBack '/' start ++ slashed names := by
  induction h with
  | start => exact ⟨(by intro n h; cases h), (by simp [slashed])⟩
  | sub _ hin _ _ ih =>
    obtain ⟨⟨es, hl, he⟩, _, rfl⟩ := in_iff.1 hin
    obtain ⟨h1, h2⟩ := (hn _ es hl).2 _ he
    refine ⟨?_, ?_⟩
    · intro n hm
      rcases List.mem_append.1 hm with hm | hm
      · exact ih.1 n hm
      · simp only [List.mem_singleton] at hm; subst hm; exact ⟨h1, h2⟩
    · rw [stripBack_join _ _ h1 h2, Workspace.join, ih.2, slashed_snoc]; simp

theorem filename_join (d n : Str) (h : '/' ∉ n) : Workspace.filename (Workspace.join d n) = n := by
  rw [Workspace.filename, Workspace.join, splitLast_append h]

theorem beforeLast_append (s n : Str) (h : '/' ∉ n) : beforeLast '/' (s ++ '/' :: n) = s := by
  rw [beforeLast, splitLast_append h]

/-- Nothing is removed from paths that do not begin with a dot or slash. -/
theorem dropWhile_tidy {s : Str} (h1 : s.head? ≠ some '.') (h2 : s.head? ≠ some '/') :
    s.dropWhile (fun c => c == '.' || c == '/') = s := by
  cases s with
  | nil => rfl
  | cons c s =>
    simp only [List.head?_cons, ne_eq, Option.some.injEq] at h1 h2
    rw [List.dropWhile_cons, if_neg (by simp [h1, h2])]

theorem target_path {s n : Str} (h : '/' ∉ n) :
    targetPathFromBuildFile (s ++ '/' :: n) = s.dropWhile (fun c => c == '.' || c == '/') := by
  rw [targetPathFromBuildFile, beforeLast_append s n h]

theorem below_head {path : Str} {names : List Str} (hp : Tidy path) (hn : Names names) :
    (below path names).head? ≠ some '/' := by
  by_cases h : path = []
  · subst h
    cases names with
    | nil => simp [below, joinPath]
    | cons n ns =>
      rw [below_nil_cons]
      obtain ⟨h1, h2⟩ := hn n (by simp)
      cases n with
      | nil => exact absurd rfl h1
      | cons c n =>
        simp only [List.mem_cons, not_or] at h2
        simp only [List.cons_append, List.head?_cons, ne_eq, Option.some.injEq]
        exact fun h => h2.1 h.symm
  · rw [below_path path names h]
    cases path with
    | nil => exact absurd rfl h
    | cons c p => exact hp.1

/-- What is left after the root. -/
theorem slashed_below {path : Str} {names : List Str} (hp : Tidy path) (hn : Names names)
    (hdot : (below path names).head? ≠ some '.') :
    ((if path = [] then [] else '/' :: path) ++ slashed names).dropWhile (fun c => c == '.' || c == '/') =
      below path names := by
  by_cases h : path = []
  · subst h
    rw [if_pos rfl]
    cases names with
    | nil => simp [below, joinPath, slashed]
    | cons n ns =>
      have := dropWhile_tidy hdot (below_head hp hn)
      rw [below_nil_cons] at this ⊢
      rw [slashed_cons]
      simpa [List.dropWhile] using this
  · rw [if_neg h]
    have := dropWhile_tidy hdot (below_head hp hn)
    rw [below_path path names h] at this ⊢
    simpa [List.dropWhile] using this

theorem searchDir_iff {ws : Workspace.Map} {pattern : BazelPattern} {start : Str} :
    searchDir ws pattern = some start ↔ Start ws pattern.pattern.package start := by
  unfold searchDir
  generalize pattern.pattern.package = pkg
  obtain ⟨project, path⟩ := pkg
  by_cases hp : project = []
  · subst hp
    simp only [ne_eq, not_true, if_false, Option.some.injEq]
    by_cases h : path = []
    · subst h
      constructor
      · rintro rfl; exact .top
      · intro h; cases h with
        | top => rfl
        | main h => exact absurd rfl h
        | external h => exact absurd rfl h
    · rw [if_neg h]
      constructor
      · rintro rfl; exact .main h
      · intro h; cases h with
        | top => exact absurd rfl h
        | main h => rfl
        | external h => exact absurd rfl h
  · simp only [ne_eq, hp, not_false_eq_true, if_true]
    cases hf : Workspace.findPath ws project with
    | none =>
      simp only [reduceCtorEq, false_iff]
      intro h; cases h with
      | top => exact hp rfl
      | main => exact hp rfl
      | external _ h => rw [hf] at h; cases h
    | some root =>
      simp only [Option.some.injEq]
      rw [if_neg (by simp)]
      constructor
      · rintro rfl; exact .external hp hf
      · intro h; cases h with
        | top => exact absurd rfl hp
        | main => exact absurd rfl hp
        | external _ h => rw [hf] at h; cases h; rfl

theorem packageOf_found {ws : Workspace.Map} (hroots : Roots ws) {base : BazelPackage} {start : Str}
    (hs : Start ws base start) (hp : Tidy base.path) {names : List Str} (hn : Names names)
    (hdot : (below base.path names).head? ≠ some '.') {name : Str} (hname : '/' ∉ name) :
    packageOf ws (stripBack '/' start ++ slashed names ++ '/' :: name) base.project =
      some (some ⟨base.project, below base.path names⟩) := by
  unfold packageOf
  cases hs with
  | top =>
    rw [if_pos rfl, target_path hname]
    have := slashed_below hp hn hdot
    simp only [if_pos] at this
    rw [show stripBack '/' c!"." = c!"." from rfl]
    simpa [List.dropWhile] using this
  | main h =>
    rw [if_pos rfl, target_path hname, stripBack_of_last hp.2, ← below_path _ _ h,
      dropWhile_tidy hdot (below_head hp hn)]
  | @external project path root h1 h2 =>
    simp only [if_neg h1, h2]
    have hr := hroots _ _ h2
    have e : stripBack '/' (root ++ c!"/" ++ path) = root ++ (if path = [] then [] else '/' :: path) := by
      by_cases h : path = []
      · subst h
        have := stripBack_append '/' root 1 hr
        simpa using this
      · rw [if_neg h, stripBack_of_last (by
          rw [List.getLast?_append]
          have hl := hp.2
          simp only at hl
          cases hc : path.getLast? with
          | none => exact absurd (List.getLast?_eq_none_iff.1 hc) h
          | some c => rw [hc] at hl; simpa using hl)]
        simp
    rw [e, if_pos (by simp)]
    rw [show root ++ (if path = [] then [] else '/' :: path) ++ slashed names ++ '/' :: name =
      root ++ (((if path = [] then [] else '/' :: path) ++ slashed names) ++ '/' :: name) by simp,
      List.drop_left, target_path hname, slashed_below hp hn hdot]

theorem isRecursive_iff (p : BazelPattern) :
    p.isRecursive = true ↔ (p.kind = .recursive ∨ p.kind = .alwaysMatch) := by
  unfold BazelPattern.isRecursive
  cases p.kind <;> simp

theorem wantDir_iff {symlink : Str → Bool} {recursive : Bool} {d n : Str} (h : '/' ∉ n) :
    wantDir symlink recursive (Workspace.join d n) = true ↔
      recursive = true ∧ symlink (Workspace.join d n) = false ∧ n ∉ skipped := by
  unfold wantDir skipped
  rw [filename_join d n h]
  cases recursive <;> cases symlink (Workspace.join d n) <;> simp

theorem isBuildFile_iff {d n : Str} (h : '/' ∉ n) :
    isBuildFile (Workspace.join d n) = true ↔ (n = c!"BUILD" ∨ n = c!"BUILD.bazel") := by
  unfold isBuildFile
  rw [filename_join d n h]
  simp

theorem entered_below {t : Tree} (hn : Named t) {symlink : Str → Bool} {recursive : Bool} {start d : Str}
    (h : Entered t (wantDir symlink recursive) start d) :
    ∃ names, Below t symlink start names d ∧ (names = [] ∨ recursive = true) ∧ ∀ n ∈ names, n ∉ skipped := by
  induction h with
  | start => exact ⟨[], .start, .inl rfl, by simp⟩
  | sub _ hin hdir hw ih =>
    obtain ⟨names, h1, h2, h3⟩ := ih
    have hin' := hin
    obtain ⟨⟨es, hl, he⟩, _, rfl⟩ := in_iff.1 hin
    obtain ⟨_, hs⟩ := (hn _ es hl).2 _ he
    obtain ⟨w1, w2, w3⟩ := (wantDir_iff hs).1 hw
    refine ⟨_, .sub h1 hin' hdir w2, .inr w1, ?_⟩
    intro n hm
    rcases List.mem_append.1 hm with hm | hm
    · exact h3 n hm
    · simp only [List.mem_singleton] at hm; subst hm; exact w3

theorem below_entered {t : Tree} (hn : Named t) {symlink : Str → Bool} {recursive : Bool} {start d : Str}
    {names : List Str} (h : Below t symlink start names d) (hr : names = [] ∨ recursive = true)
    (hs : ∀ n ∈ names, n ∉ skipped) : Entered t (wantDir symlink recursive) start d := by
  induction h with
  | start => exact .start
  | sub _ hin hdir hw ih =>
    have hrec : recursive = true := hr.resolve_left (by simp)
    have hin' := hin
    obtain ⟨⟨es, hl, he⟩, _, rfl⟩ := in_iff.1 hin
    obtain ⟨_, hsl⟩ := (hn _ es hl).2 _ he
    exact .sub (ih (.inr hrec) fun n hm => hs n (by simp [hm])) hin' hdir
      ((wantDir_iff hsl).2 ⟨hrec, hw, hs _ (by simp)⟩)

/-- What the walk reports, in terms of packages. -/
theorem wanted_iff {t : Tree} (hn : Named t) {symlink : Str → Bool} {ws : Workspace.Map}
    {pattern : BazelPattern} {start : Str} (hs : searchDir ws pattern = some start) (file : Str) :
    Wanted t (wantDir symlink pattern.isRecursive) isBuildFile start file ↔
      ∃ names pkg, BuildFileOf t symlink ws pattern names pkg file ∧ ∀ n ∈ names, n ∉ skipped := by
  constructor
  · rintro ⟨dir, e, hd, hin, hno, hw⟩
    obtain ⟨names, h1, h2, h3⟩ := entered_below hn hd
    have hin' := hin
    obtain ⟨⟨es, hl, he⟩, _, rfl⟩ := in_iff.1 hin
    obtain ⟨_, hsl⟩ := (hn _ es hl).2 _ he
    refine ⟨names, _, ⟨start, dir, e, searchDir_iff.1 hs, h1, ?_, hin', hno, (isBuildFile_iff hsl).1 hw, rfl⟩, h3⟩
    rw [isRecursive_iff] at h2; exact h2
  · rintro ⟨names, pkg, ⟨start', dir, e, hst, hb, hr, hin, hno, hname, _⟩, hskip⟩
    rw [← isRecursive_iff] at hr
    have := searchDir_iff.2 hst
    rw [hs] at this
    cases this
    refine ⟨dir, e, below_entered hn hb hr hskip, hin, hno, ?_⟩
    obtain ⟨⟨es, hl, he⟩, _, rfl⟩ := in_iff.1 hin
    exact (isBuildFile_iff ((hn _ es hl).2 _ he).2).2 hname

/-- The package of a BUILD file is recognised. -/
theorem buildFile_package {t : Tree} (hn : Named t) {symlink : Str → Bool} {ws : Workspace.Map}
    (hroots : Roots ws) {pattern : BazelPattern} (hp : Tidy pattern.pattern.package.path) {names : List Str}
    {pkg : BazelPackage} {file : Str} (h : BuildFileOf t symlink ws pattern names pkg file)
    (hdot : pkg.path.head? ≠ some '.') :
    packageOf ws file pattern.pattern.package.project = some (some pkg) := by
  obtain ⟨start, dir, e, hst, hb, _, hin, _, _, rfl⟩ := h
  obtain ⟨hnames, hpath⟩ := Below.path hn hb
  obtain ⟨⟨es, hl, he⟩, _, rfl⟩ := in_iff.1 hin
  rw [Workspace.join, hpath]
  exact packageOf_found hroots hst hp hnames hdot ((hn _ es hl).2 _ he).2

/-- Loading files of known packages is a history of the project. -/
theorem foldlM_steps (ws : Workspace.Map) (project : Str) (read : Str → Option Str) (base : Str → Nat)
    (pk : Str → BazelPackage) (files : List Str) (p : Project.State)
    (hp : ∀ f ∈ files, packageOf ws f project = some (some (pk f))) (as : List (Option Project.BuildFile))
    (q : Project.State)
    (h : p.steps (files.map fun f => .add (pk f) f (read f) (base f)) = some (as, q)) :
    files.foldlM (addFound ws project read base) p = some q := by
  induction files generalizing p as with
  | nil => simp only [List.map_nil, Project.State.steps, Option.some.injEq, Prod.mk.injEq] at h; simp [h.2]
  | cons f fs ih =>
    rw [List.map_cons, Project.State.steps] at h
    simp only [Project.State.step] at h
    rw [List.foldlM_cons, addFound, hp f (by simp)]
    cases ha : p.addFile (pk f) f (read f) (base f) with
    | none => rw [ha] at h; simp at h
    | some r =>
      obtain ⟨a, p'⟩ := r
      rw [ha] at h
      simp only at h
      cases hs : p'.steps (fs.map fun f => .add (pk f) f (read f) (base f)) with
      | none => rw [hs] at h; simp at h
      | some r =>
        obtain ⟨as', q'⟩ := r
        rw [hs] at h
        simp only [Option.some.injEq, Prod.mk.injEq] at h
        have := ih p' (fun f hf => hp f (by simp [hf])) as' (h.2 ▸ hs)
        simpa [ha] using this

/-- The package matches the pattern. -/
theorem buildFile_match {t : Tree} {symlink : Str → Bool} {ws : Workspace.Map}
    {pattern : BazelPattern} {names : List Str}
    {pkg : BazelPackage} {file : Str} (h : BuildFileOf t symlink ws pattern names pkg file) :
    pattern.matchPackage pkg = true := by
  obtain ⟨start, dir, e, _, _, hr, _, _, _, rfl⟩ := h
  rw [← isRecursive_iff] at hr
  obtain ⟨⟨⟨project, path⟩, name⟩, kind⟩ := pattern
  have e0 : below path [] = path := by
    by_cases hp : path = []
    · subst hp; rfl
    · rw [below_path path [] hp]; simp [slashed]
  simp only [BazelPattern.matchPackage]
  cases kind with
  | alwaysMatch => rfl
  | recursive =>
    simp only [ne_eq, not_true, if_false]
    by_cases hp : path = []
    · rw [if_pos hp]
    · rw [if_neg hp, below_path path names hp]
      simp only [startsWith, Bool.and_eq_true, List.isPrefixOf_iff_prefix, List.prefix_append, true_and]
      cases names with
      | nil => simp [slashed]
      | cons n ns => simp [slashed_cons]
  | exact | targetRegex | allTargetInPackage =>
    have : names = [] := hr.resolve_right (by simp [BazelPattern.isRecursive])
    subst this
    simp only [e0, beq_self_eq_true]

end Collect
end Bant
