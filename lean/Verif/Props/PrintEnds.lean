import Verif.Props.CommandOutput
import Verif.Props.CompDb

/-! # Exactly when commands do not end (C68, C97) -/
namespace Bant
namespace Props
open Commands CommandSpec Cli Query Rules Headers GraphSpec Print

/-- A rule that can not be printed: an element of its visibility is missing (which is looked at, also if the rule
does not match the regular expression), or, in one of its words, the regular expression finds nothing in front of what is
left, again and again. -/
def Unprintable (find : Option Find) (r : Query.Result) : Prop :=
  (∃ ty xs, r.visibility = some (ty, xs) ∧ Node.null ∈ xs) ∨
    ∃ f w s, find = some f ∧ Word r.node w ∧ Behind f w s ∧ f s = some (0, 0)

theorem visibilityWords_none {xs : List Node} : visibilityWords xs = none ↔ Node.null ∈ xs := by
  constructor
  · intro h
    by_cases hn : Node.null ∈ xs
    · exact hn
    · rw [visibilityWords_eq hn] at h; cases h
  · intro h
    induction xs with
    | nil => cases h
    | cons x xs ih =>
      rcases List.mem_cons.1 h with rfl | h'
      · rfl
      · cases x <;> simp [visibilityWords, ih h']

theorem visibilityText_none {v : Option ListRef} :
    visibilityText v = none ↔ ∃ ty xs, v = some (ty, xs) ∧ Node.null ∈ xs := by
  cases v with
  | none => simp [visibilityText]
  | some l =>
    obtain ⟨ty, xs⟩ := l
    rw [visibilityText, Option.map_eq_none_iff, visibilityWords_none]
    constructor
    · exact fun h => ⟨_, _, rfl, h⟩
    · rintro ⟨_, _, h1, h2⟩; cases h1; exact h2

theorem printRule_none {o : Options} {pattern : BazelPattern} {pkg : BazelPackage} {loc : Str} {r : Query.Result}
    (ht : wellTyped r.node = true) (hin : ∀ f, o.find = some f → Within f) :
    printRule o pattern pkg loc r = none ↔ wanted pattern pkg r = true ∧ Unprintable o.find r := by
  have hn : printNode o.find o.color r.node = none ↔
      ∃ f w s, o.find = some f ∧ Word r.node w ∧ Behind f w s ∧ f s = some (0, 0) := by
    cases hf : o.find with
    | none => simp [printNode, ht, highlight]
    | some f =>
      rw [printNode_none ht (hin f hf)]
      constructor
      · rintro ⟨w, s, h⟩; exact ⟨f, w, s, rfl, h⟩
      · rintro ⟨g, w, s, hg, h⟩; cases hg; exact ⟨w, s, h⟩
  unfold printRule Unprintable
  rw [← hn, ← visibilityText_none]
  by_cases hw : wanted pattern pkg r = true
  · rw [if_pos hw]
    simp only [hw, true_and, comment]
    cases visibilityText r.visibility with
    | none => simp
    | some v => cases printNode o.find o.color r.node <;> simp
  · rw [if_neg hw]
    simp [hw]

theorem printRules_none {o : Options} {pattern : BazelPattern} {pkg : BazelPackage} {loc : Nat → Str}
    (hin : ∀ f, o.find = some f → Within f) : ∀ (rs : List Query.Result) (k : Nat), (∀ r ∈ rs, wellTyped r.node = true) →
    (printRules o pattern pkg loc k rs = none ↔ ∃ r ∈ rs, wanted pattern pkg r = true ∧ Unprintable o.find r)
  | [], _, _ => by simp [printRules]
  | r :: rs, k, ht => by
    have h1 := printRule_none (pattern := pattern) (pkg := pkg) (loc := loc k) (ht r (by simp)) hin
    have h2 := printRules_none (pattern := pattern) (pkg := pkg) (loc := loc) hin rs (k + 1) fun r hr => ht r (by simp [hr])
    simp only [List.mem_cons, exists_eq_or_imp]
    rw [← h1, ← h2, printRules]
    cases printRule o pattern pkg (loc k) r with
    | none => simp
    | some a => cases printRules o pattern pkg loc (k + 1) rs <;> simp

/-- **C68**, exactly when printing does not end: one of the rules that are asked for can not be printed. -/
theorem C68_ends_exact (o : Options) (pattern : BazelPattern) (files : List Print.File)
    (hp : ∀ f ∈ files, FromFile f.ast) (hin : ∀ f, o.find = some f → Within f) :
    printProject o pattern files = none ↔
      ∃ x ∈ rulesIn (files.filter fun f => !o.onlyErrors || f.hasErrors),
        Asked pattern x.1.package x.2.2 ∧ Unprintable o.find x.2.2 := by
  induction files with
  | nil => simp [printProject, rulesIn]
  | cons f fs ih =>
    have ih := ih fun f hf => hp f (by simp [hf])
    obtain ⟨rs, hs⟩ := sound_of_file (hp f (by simp))
    have hr := printRules_none (pattern := pattern) (pkg := f.package) (loc := f.loc) hin rs 0 hs.typed
    simp only [printProject, hs.found]
    by_cases he : (!o.onlyErrors || f.hasErrors) = true
    · have he' : (o.onlyErrors && !f.hasErrors) = false := by
        cases h1 : o.onlyErrors <;> cases h2 : f.hasErrors <;> simp_all
      rw [List.filter_cons_of_pos (p := fun f : Print.File => !o.onlyErrors || f.hasErrors) he, he', Bool.false_or]
      have hx : ∀ P : Print.File × Str × Query.Result → Prop, (∃ x ∈ rulesIn (f :: fs.filter fun f => !o.onlyErrors || f.hasErrors), P x) ↔
          (∃ k r, rs[k]? = some r ∧ P (f, f.loc k, r)) ∨ ∃ x ∈ rulesIn (fs.filter fun f => !o.onlyErrors || f.hasErrors), P x := by
        intro P
        rw [rulesIn_cons, ← hs.rules]
        simp only [List.mem_append, or_and_right, exists_or, List.mem_map, Prod.exists]
        refine or_congr_left ?_
        constructor
        · rintro ⟨a, b, c, ⟨r, k, hk, he⟩, hP⟩
          cases he
          exact ⟨k, c, by simpa [List.mem_zipIdx_iff_getElem?] using hk, hP⟩
        · rintro ⟨k, r, hk, hP⟩
          exact ⟨_, _, _, ⟨r, k, by simpa [List.mem_zipIdx_iff_getElem?] using hk, rfl⟩, hP⟩
      rw [hx, ← ih]
      simp only [asked_iff]
      by_cases hm : pattern.matchPackage f.package = true
      · rw [if_neg (by simp [hm])]
        simp only [hm, Bool.true_and]
        have hr' : (∃ (k : Nat) (r : Query.Result), rs[k]? = some r ∧ wanted pattern f.package r = true ∧ Unprintable o.find r) ↔
            printRules o pattern f.package f.loc 0 rs = none := by
          rw [hr]
          constructor
          · rintro ⟨k, r, hk, h⟩; exact ⟨r, List.mem_of_getElem? hk, h⟩
          · rintro ⟨r, hm, h⟩
            obtain ⟨k, hk⟩ := List.mem_iff_getElem?.1 hm
            exact ⟨k, r, hk, h⟩
        rw [hr']
        cases printRules o pattern f.package f.loc 0 rs with
        | none => simp
        | some a => cases printProject o pattern fs <;> simp
      · rw [if_pos (by simp [hm])]
        simp [hm]
    · have he' : (o.onlyErrors && !f.hasErrors) = true := by
        cases h1 : o.onlyErrors <;> cases h2 : f.hasErrors <;> simp_all
      rw [List.filter_cons_of_neg (p := fun f : Print.File => !o.onlyErrors || f.hasErrors) he, he', Bool.true_or, if_pos rfl]
      exact ih

/-- In this rule the regular expression finds nothing in front of what is left, again and again. -/
def Endless (f : Find) (r : Query.Result) : Prop := ∃ w s, Word r.node w ∧ Behind f w s ∧ f s = some (0, 0)

theorem printed_none {m : Machine} {flags : Flags} {pattern : BazelPattern} {files : Loaded}
    (hf : ∀ f ∈ files, Print.FromFile f.2.ast) (hs : ∀ f ∈ files, Searchable f.2.ast)
    (hin : ∀ find, LooksFor m flags (some find) → Within find) :
    printed m flags pattern files = none ↔ ∃ find, LooksFor m flags (some find) ∧
      ∃ x ∈ rulesFor m flags files, Asked pattern x.1.package x.2.2 ∧ Endless find x.2.2 := by
  have hvis : ∀ x ∈ rulesFor m flags files, ¬ ∃ ty xs, x.2.2.visibility = some (ty, xs) ∧ Node.null ∈ xs := by
    rintro x hx ⟨ty, xs, h1, h2⟩
    obtain ⟨f, h3, h4⟩ := List.mem_flatMap.1 hx
    obtain ⟨g, h5, rfl⟩ := List.mem_map.1 h3
    exact visibility_complete (hs g (List.mem_filter.1 h5).1) _ (rulesIn_mem h4).2 ty xs h1 h2
  have key : ∀ find : Option Find, (∀ f, find = some f → Within f) →
      (Print.printProject ⟨flags.onlyErrors, find, m.color⟩ pattern
        (files.map fun f => ⟨f.1, f.2.ast, f.2.hasErrors, m.callLoc f.1⟩) = none ↔
      ∃ f, find = some f ∧ ∃ x ∈ rulesFor m flags files, Asked pattern x.1.package x.2.2 ∧ Endless f x.2.2) := by
    intro find hw
    rw [C68_ends_exact ⟨flags.onlyErrors, find, m.color⟩ pattern _ (by
      intro f hf'
      obtain ⟨x, hx, rfl⟩ := List.mem_map.1 hf'
      exact hf x hx) hw, List.filter_map]
    change (∃ x ∈ rulesFor m flags files, _) ↔ _
    constructor
    · rintro ⟨x, h1, h2, h3 | ⟨f, w, s, h3, h4⟩⟩
      · exact absurd h3 (hvis x h1)
      · exact ⟨f, h3, x, h1, h2, w, s, h4⟩
    · rintro ⟨f, h3, x, h1, h2, w, s, h4⟩
      exact ⟨x, h1, h2, .inr ⟨f, w, s, h3, h4⟩⟩
  unfold printed
  simp only []
  split
  · next hg =>
    rw [key none (by simp)]
    constructor
    · rintro ⟨f, h, _⟩; cases h
    · rintro ⟨f, h, _⟩
      cases h with
      | regex h _ => exact absurd hg h
  · next hg =>
    split
    · next hn =>
      simp only [reduceCtorEq, false_iff]
      rintro ⟨f, h, _⟩
      cases h with
      | regex _ h => rw [hn] at h; cases h
    · next find hn =>
      rw [key (some find) (by intro f h; cases h; exact hin find (.regex hg hn))]
      constructor
      · rintro ⟨f, h, h'⟩; cases h; exact ⟨_, .regex hg hn, h'⟩
      · rintro ⟨f, h, h'⟩
        cases h with
        | regex _ h => rw [hn] at h; cases h; exact ⟨_, rfl, h'⟩

/-- **C97**, exactly when `print` does not end, if nothing is missing in the BUILD files: if in a rule that is asked for
the regular expression matches nothing, in front of what is left. -/
theorem C97_print_partial {m : Machine} (hh : Healthy m) {flags : Flags} {pattern : BazelPattern} {ws : Workspace.Map}
    {found : List Str} {files : Loaded} (hs : Starts m flags .print pattern ws found files)
    (hin : ∀ find, LooksFor m flags (some find) → Within find) :
    runCommand m flags .print pattern = none ↔ ∃ find, LooksFor m flags (some find) ∧
      ∃ x ∈ rulesFor m flags files, Asked pattern x.1.package x.2.2 ∧ Endless find x.2.2 := by
  have ho := starts_opened hh hs (by simp [needsProject])
  have hfol : follow m ws flags .print pattern files = some (files, {}) := by simp [follow, usesGraph]
  have hse := opened_searchable hh ho
  rw [← printed_none (openedFor_file hs.opened) (fun f hf => hse _ (List.mem_map_of_mem hf)) hin,
    run_eq hs.workspace, prepareIn, ho, Option.bind_some, hfol, Option.map_some, Option.bind_some]
  simp [perform]

/-- **C97**, exactly when `parse` does not end, likewise: only if it writes something, but then also because of rules in
files of dependencies. -/
theorem C97_parse_partial {m : Machine} (hh : Healthy m) {flags : Flags} {pattern : BazelPattern} {ws : Workspace.Map}
    {found : List Str} {files : Loaded} (hs : Starts m flags .parse pattern ws found files)
    (hin : ∀ find, LooksFor m flags (some find) → Within find) :
    ∃ l, (if 0 ≤ flags.depth then GrownTo m ws pattern flags.depth.toNat files l else l = files) ∧
      (runCommand m flags .parse pattern = none ↔ (flags.printAst = true ∨ flags.onlyErrors = true) ∧
        ∃ find, LooksFor m flags (some find) ∧
          ∃ x ∈ rulesFor m flags l, Asked pattern x.1.package x.2.2 ∧ Endless find x.2.2) := by
  have ho := starts_opened hh hs (by simp [needsProject])
  have hse := opened_searchable hh ho
  have hdep : depthOf flags .parse = flags.depth := by simp [depthOf]
  have hfol : ∃ l g, follow m ws flags .parse pattern files = some (l, g) ∧ (∀ f ∈ trees l, Searchable f.2) ∧
      (if 0 ≤ flags.depth then GrownTo m ws pattern flags.depth.toNat files l else l = files) := by
    by_cases hd : 0 ≤ flags.depth
    · obtain ⟨l, now, g, h1, h2⟩ := follow_spec hh ho rfl (by rw [hdep]; exact hd)
      have h3 := h2.searchable
      rw [← h2.same] at h3
      rw [hdep] at h2
      exact ⟨l, g, h1, h3, by rw [if_pos hd]; exact grownTo_of h2 (opened_ascending ho)⟩
    · refine ⟨files, {}, ?_, hse, by rw [if_neg hd]⟩
      unfold follow
      rw [hdep, if_neg (by simp [hd])]
  obtain ⟨l, g, h1, h2, h3⟩ := hfol
  refine ⟨l, h3, ?_⟩
  have hl : ∀ f ∈ l, Print.FromFile f.2.ast := by
    split at h3
    · exact grownTo_file h3 (openedFor_file hs.opened)
    · subst h3; exact openedFor_file hs.opened
  rw [← printed_none hl (fun f hf => h2 _ (List.mem_map_of_mem hf)) hin,
    run_eq hs.workspace, prepareIn, ho, Option.bind_some, h1, Option.map_some, Option.bind_some,
    Option.map_eq_none_iff]
  simp only [perform]
  by_cases hc : (flags.printAst || flags.onlyErrors) = true
  · rw [if_pos hc]
    simp only [Bool.or_eq_true] at hc
    simp [hc]
  · rw [if_neg hc]
    simp only [Bool.or_eq_true] at hc
    simp [hc]

/-- **C97**, exactly when `compilation-db` and `compile-flags` crash, if nothing is missing in the BUILD files: if among
the files that are opened, with those of dependencies, there is a rule called `:`, or one of the main project
with `include_prefix`. -/
theorem C97_compile_partial {m : Machine} (hh : Healthy m) {flags : Flags} {cmd : Command} {pattern : BazelPattern}
    {ws : Workspace.Map} {found : List Str} {files : Loaded} (hs : Starts m flags cmd pattern ws found files)
    (hcmd : cmd = .compilationDB ∨ cmd = .compileFlags) {now : Files}
    (hg : Grown m ws pattern (limit flags) files now) :
    runCommand m flags cmd pattern = none ↔
      ∃ pkg r, CompDbSpec.CcRule now pkg r ∧ (r.name = c!":" ∨ (r.includePrefix ≠ [] ∧ pkg.project = [])) := by
  have hn : needsProject cmd pattern = true := by rcases hcmd with rfl | rfl <;> simp [needsProject]
  have hsp : searched cmd pattern = pattern := by rcases hcmd with rfl | rfl <;> rfl
  have hu : usesGraph cmd = true := by rcases hcmd with rfl | rfl <;> rfl
  have ho := starts_opened hh hs hn
  obtain ⟨hd1, hd2⟩ := compile_depth flags hcmd
  obtain ⟨l, now', g, h1, h2⟩ := follow_spec hh ho hu hd1
  have hg' := h2.grown
  rw [hd2, hsp] at hg'
  have := grown_unique hg' hg
  subst this
  have hse := h2.searchable
  rw [← h2.same] at hse ⊢
  have hc : (∃ pkg r, CompDbSpec.CcRule (trees l) pkg r ∧ (r.name = c!":" ∨ (r.includePrefix ≠ [] ∧ pkg.project = []))) ↔
      ¬ ∀ pkg r, CompDbSpec.CcRule (trees l) pkg r → r.name ≠ c!":" ∧ (r.includePrefix ≠ [] → pkg.project ≠ []) := by
    constructor
    · rintro ⟨pkg, r, h1, h2⟩ h3
      obtain ⟨h4, h5⟩ := h3 pkg r h1
      rcases h2 with h2 | ⟨h2, h6⟩
      · exact h4 h2
      · exact h5 h2 h6
    · intro h
      apply Classical.byContradiction
      intro h'
      refine h fun pkg r h1 => ⟨fun h2 => h' ⟨pkg, r, h1, .inl h2⟩, fun h2 h3 => h' ⟨pkg, r, h1, .inr ⟨h2, h3⟩⟩⟩
  obtain ⟨h3, h4⟩ := C77_commands_partial ws m.cwd (m.fs.content c!".bazelrc") pattern _ hse
  rw [hc, run_eq hs.workspace, prepareIn, ho, Option.bind_some, h1, Option.map_some, Option.bind_some,
    Option.map_eq_none_iff]
  rcases hcmd with rfl | rfl
  · rw [← h3]
    simp [perform]
  · rw [← h4]
    simp [perform]

/-- **C97** for BUILD files without syntax errors in which no function is called that is assigned: with the remaining
conditions of `C97_ends_partial`, all commands end. -/
theorem C97_clean_partial {m : Machine} {flags : Flags} {cmd : Command} {pattern : BazelPattern}
    (hr : ∀ path, IsBuild path → m.fs.canRead path = true → m.fs.content path ≠ none)
    (hc : ∀ path text, IsBuild path → m.fs.content path = some text → ∃ stmts st,
      Parser.parseFile text = some (.list .list stmts, st) ∧ st.errs = [] ∧
        ∀ f ∈ Meaning.calledIn stmts, f ∉ Meaning.assigned stmts)
    (hf : Findable m cmd pattern)
    (hgrep : cmd = .print ∨ cmd = .parse → ∀ find, LooksFor m flags (some find) →
      Within find ∧ ∀ s, find s ≠ some (0, 0))
    (htame : cmd = .compilationDB ∨ cmd = .compileFlags → Tame m) :
    ∃ ran, runCommand m flags cmd pattern = some ran := by
  refine C97_ends_partial ⟨hr, fun path text h1 h2 => ?_⟩ hf hgrep htame
  obtain ⟨stmts, st, h3, h4, h5⟩ := hc path text h1 h2
  exact C56_usable text stmts st h3 h4 h5

/-- A library with `include_prefix`; to print its name with `-g 'a*'`. -/
def prefixed : Machine :=
  { disk [(c!"p/BUILD", c!"cc_library(name = \"l\", include_prefix = \"x\")\ncc_library(name = \"aa\")")] with
    regex := fun _ => some findMany }

/- With `a*`, `print` does not end; `parse` writes nothing and does; other commands do not look for it. -/
example : runCommand prefixed { grep := c!"a*" } .print (pat c!"//p:l") = none ∧
    runCommand prefixed { grep := c!"a*" } .parse (pat c!"//p:l") = some ⟨0, [], []⟩ ∧
    (runCommand prefixed { grep := c!"a*" } .listTargets (pat c!"//p:l")).isSome = true ∧
    (runCommand prefixed {} .print (pat c!"//p:l")).isSome = true := by decide +kernel
/- The rule with `include_prefix` need not match. -/
example : runCommand prefixed {} .compileFlags (pat c!"//p:l") = none ∧
    runCommand prefixed {} .compileFlags (pat c!"//p:aa") = none ∧
    (runCommand prefixed {} .dependsOn (pat c!"//p:l")).isSome = true := by decide +kernel

end Props
end Bant
