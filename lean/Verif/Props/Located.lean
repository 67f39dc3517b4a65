import Verif.Lemmas.LocatedCommands
import Verif.Props.Project
import Verif.Lemmas.Counted
import Verif.Props.CommandOutput

/-!
C110 (locations that are written), C111 (`# keep`), C112 (commands with places are the commands).
-/
namespace Bant
namespace Props
open Commands CommandSpec Cli Located LocatedSpec Parser

/-! ## Files and pieces of them -/

/-- The piece of a text between two offsets. -/
def piece (content : Str) (b e : Nat) : Str := (content.drop b).take (e - b)

/-- A location as it is written: the name of the file, line and column of begin and end, counted from one. -/
def whereIs (file content : Str) (b e : Nat) : Str := file ++ ':' :: showRange (trueLocation content b e)

/-- The tree is what is read from the file, the BUILD file of the package. -/
def ReadFrom (m : Machine) (evaluated : Bool) (pkg : BazelPackage) (file content : Str) (tree : Tree) : Prop :=
  m.fs.content file = some content ∧ ∃ t st, Located.parseFile content = some (t, st) ∧
    if evaluated then Located.elabFile (m.glob pkg) t = some tree else tree = t

/-- There is no syntax error in the file, and no `not in` with a newline in it. -/
def Clear (content : Str) : Prop :=
  ¬ Project.Malformed content ∧ ∀ ts, TokensOf content ts → ∀ t ∈ ts, t.type = .kNotIn → '\n' ∉ t.text

theorem from_readFrom {m : Machine} {evaluated : Bool} {pkg : BazelPackage} {f : Held} (h : Located.From m evaluated pkg f) :
    ReadFrom m evaluated pkg f.source.name f.source.content f.tree := by
  obtain ⟨h1, _, t, st, h2, _, h3⟩ := h
  exact ⟨h1, t, st, h2, h3⟩

/-- Then all newlines are counted. -/
theorem Clear.counted {content : Str} (hc : Clear content) : Project.asCounted content = content :=
  Project.asCounted_clear hc.1 hc.2

theorem getLocation_asCounted {content : Str} {b e : Nat} (hb : b ≤ e) (he : e ≤ content.length) :
    getLocation content (Project.linesOf content) b e = some (trueLocation (Project.asCounted content) b e) := by
  rw [Project.getLocation_counted content hb he]
  rfl

theorem loc_file {m : Machine} {evaluated : Bool} {pkg : BazelPackage} {f : Held} (h : Located.From m evaluated pkg f)
    {v : View} (hv : InFile f.source.content v) {loc : Str} (hl : f.source.loc v = some loc) :
    ∃ b e, loc = whereIs f.source.name (Project.asCounted f.source.content) b e ∧ b ≤ e ∧ e ≤ f.source.content.length ∧
      v.place = .file b ∧ piece f.source.content b e = v.text := by
  obtain ⟨pos, h1, h2, h3⟩ := hv
  unfold Source.loc at hl
  rw [h1] at hl
  simp only [h.lines, getLocation_asCounted (Nat.le_add_right pos _) h2, Option.map_some, Option.some.injEq] at hl
  exact ⟨pos, pos + v.text.length, hl.symm, Nat.le_add_right _ _, h2, h1,
    by rw [piece, Nat.add_sub_cancel_left]; exact h3.symm⟩

theorem loc_made {m : Machine} {evaluated : Bool} {pkg : BazelPackage} {f : Held} (h : Located.From m evaluated pkg f)
    {v : View} {b e : Nat} (hp : v.place = .made b e) (hb : b ≤ e)
    (he : e ≤ f.source.content.length) {loc : Str} (hl : f.source.loc v = some loc) :
    loc = whereIs f.source.name (Project.asCounted f.source.content) b e := by
  unfold Source.loc at hl
  rw [hp] at hl
  simp only [h.lines, getLocation_asCounted hb he, Option.map_some, Option.some.injEq] at hl
  exact hl.symm

/-! ## C110 -/

theorem colon_target {s : Str} {pkg : BazelPackage} {t : BazelTarget}
    (h : BazelTarget.parseFrom (':' :: s) pkg = some t) : t = ⟨pkg, s⟩ := by
  rw [parseFrom_colon] at h
  split at h
  · cases h
  · exact (Option.some.inj h).symm

/-- A row of `list-targets`. -/
structure Listed where
  loc : Str
  rule : Str
  target : BazelTarget

def Listed.row (x : Listed) : Table.Op := .row [x.loc, x.rule, x.target.toString]

theorem targetRows_listed {s : Source} {pattern : BazelPattern} {pkg : BazelPackage} {rs : List Rule}
    {rows : List Table.Op} (h : Located.targetRows s pattern pkg rs = some rows) :
    ∃ xs : List Listed, rows = xs.map Listed.row ∧ ∀ x ∈ xs, x.target.package = pkg ∧
      ∃ r ∈ rs, s.loc r.name = some x.loc ∧ x.rule = r.rule ∧ x.target.name = r.name.text := by
  induction rs generalizing rows with
  | nil => cases h; exact ⟨[], rfl, by simp⟩
  | cons r rs ih =>
    have later : ∀ xs : List Listed, (∀ x ∈ xs, x.target.package = pkg ∧
        ∃ r ∈ rs, s.loc r.name = some x.loc ∧ x.rule = r.rule ∧ x.target.name = r.name.text) →
        ∀ x ∈ xs, x.target.package = pkg ∧
          ∃ r' ∈ r :: rs, s.loc r'.name = some x.loc ∧ x.rule = r'.rule ∧ x.target.name = r'.name.text :=
      fun xs hx x hm => ⟨(hx x hm).1, let ⟨r', h1, h2⟩ := (hx x hm).2; ⟨r', .tail _ h1, h2⟩⟩
    rw [Located.targetRows] at h
    split at h
    · obtain ⟨xs, h1, h2⟩ := ih h
      exact ⟨xs, h1, later xs h2⟩
    · rename_i t ht
      split at h
      · obtain ⟨xs, h1, h2⟩ := ih h
        exact ⟨xs, h1, later xs h2⟩
      · split at h
        · rename_i loc rest h3 h4
          cases h
          obtain ⟨xs, h1, h2⟩ := ih h4
          obtain rfl := colon_target ht
          refine ⟨⟨loc, r.rule, _⟩ :: xs, by rw [h1]; rfl, fun x hx => ?_⟩
          rcases List.mem_cons.1 hx with rfl | hx
          · exact ⟨rfl, r, .head _, h3, rfl, rfl⟩
          · exact later xs h2 x hx
        · cases h

theorem allTargetRows_listed {pattern : BazelPattern} {files : Holding} {rows : List Table.Op}
    (h : Located.allTargetRows pattern files = some rows) :
    ∃ xs : List Listed, rows = xs.map Listed.row ∧ ∀ x ∈ xs, ∃ f rs, (x.target.package, f) ∈ files ∧
      findTargets false f.tree [] = some rs ∧
      ∃ r ∈ rs, f.source.loc r.name = some x.loc ∧ x.rule = r.rule ∧ x.target.name = r.name.text := by
  induction files generalizing rows with
  | nil => cases h; exact ⟨[], rfl, by simp⟩
  | cons f files ih =>
    rw [Located.allTargetRows] at h
    split at h
    · rename_i rows1 rest h1 h2
      cases h
      obtain ⟨rs, h3, h4⟩ := Option.bind_eq_some_iff.1 h1
      obtain ⟨xs, rfl, h5⟩ := targetRows_listed h4
      obtain ⟨ys, rfl, h6⟩ := ih h2
      refine ⟨xs ++ ys, by simp, fun x hx => ?_⟩
      rcases List.mem_append.1 hx with hx | hx
      · obtain ⟨h7, h8⟩ := h5 x hx
        exact ⟨f.2, rs, by rw [h7]; exact .head _, h3, h8⟩
      · obtain ⟨g, rs', h7, h8⟩ := h6 x hx
        exact ⟨g, rs', .tail _ h7, h8⟩
    · cases h

/-- Where the row of a target is from: a call in the BUILD file of its package, with the name as keyword argument. -/
structure Origin110 (m : Machine) (x : Listed) (evaluated : Bool) (file content : Str) (v : View) : Prop where
  call : ∃ tree kind ty xs, ReadFrom m evaluated x.target.package file content tree ∧
    (Tree.ident kind, Tree.list ty xs) ∈ sites tree ∧ kind.text = x.rule ∧ last c!"name" text (kwArgsIn xs) = some v
  name : v.text = x.target.name

/-- **C110** for `list-targets` (exact): each row is for a call in the BUILD file of the package: its name is the
argument `name`. The location is that of the name in this file, with lines as they are counted (`C24_counted`: but for
newlines in a `not in`, and behind a syntax error); if expressions are evaluated, it may also be that of the `+` or
`glob` that the name was made by. -/
theorem C110_list_targets_exact_partial {m : Machine} {flags : Flags} {pattern : BazelPattern} {ran : Ran}
    (h : Located.runCommand m flags .listTargets pattern = some ran) (hs : ran.status = 0) :
    ∃ rows : List Listed,
      Table.output flags.format [c!"file-location", c!"rule", c!"target"] (rows.map Listed.row) = some ran.out ∧
      ∀ x ∈ rows, ∃ evaluated file content v, Origin110 m x evaluated file content v ∧
        (evaluated = true → flags.elaborate = true ∨ 0 ≤ flags.depth) ∧
        (∃ b e, x.loc = whereIs file (Project.asCounted content) b e ∧ b ≤ e ∧ e ≤ content.length ∧
          (v.place = .file b ∧ piece content b e = x.target.name ∨
            evaluated = true ∧ v.place = .made b e ∧ (piece content b e = c!"+" ∨ piece content b e = c!"glob"))) := by
  rcases prepare_plain m flags .listTargets pattern with ⟨h1, _⟩ | ⟨h1, _⟩ | ⟨p, h1, _, h3⟩
  · rw [Located.runCommand, h1] at h; cases h
  · rw [Located.runCommand, h1] at h; cases h; cases hs
  rw [Located.runCommand, h1] at h
  obtain ⟨r, h4, rfl⟩ := Option.map_eq_some_iff.1 h
  simp only [Located.perform, table] at h4
  obtain ⟨rows, h5, h6⟩ := Option.bind_eq_some_iff.1 h4
  obtain ⟨out, h7, rfl⟩ := Option.map_eq_some_iff.1 h6
  obtain ⟨xs, rfl, h8⟩ := allTargetRows_listed h5
  refine ⟨xs, h7, fun x hx => ?_⟩
  obtain ⟨f, rs, h9, h10, r, hr, h11, h12, h13⟩ := h8 x hx
  obtain ⟨evaluated, hfrom, _, hev⟩ := h3.files _ h9
  obtain ⟨kind, ty, ys, h14, _, h15, _, h16, _, h17⟩ := findTargets_sites h10 r hr
  have hne := h17 rfl
  obtain ⟨v, hv⟩ : ∃ v, last c!"name" text (kwArgsIn ys) = some v := by
    cases hl : last c!"name" text (kwArgsIn ys) with
    | some v => exact ⟨v, rfl⟩
    | none => rw [hl] at h16; rw [h16] at hne; exact absurd rfl hne
  have hname : r.name = v := by rw [h16, hv]; rfl
  subst hname
  refine ⟨evaluated, f.source.name, f.source.content, r.name,
    ⟨⟨f.tree, kind, ty, ys, from_readFrom hfrom, h14, h15.symm.trans h12.symm, hv⟩, h13.symm⟩, ?_, ?_⟩
  · intro he
    have := hev he
    simpa [elaborates, usesGraph, depthOf] using this
  · have hfile : InFile f.source.content r.name → ∃ b e, x.loc = whereIs f.source.name (Project.asCounted f.source.content) b e ∧ b ≤ e ∧
        e ≤ f.source.content.length ∧ (r.name.place = .file b ∧ piece f.source.content b e = x.target.name ∨
          evaluated = true ∧ r.name.place = .made b e ∧
            (piece f.source.content b e = c!"+" ∨ piece f.source.content b e = c!"glob")) := fun hin => by
      obtain ⟨b, e, h1, h2, h3, h4, h5⟩ := loc_file hfrom hin h11
      exact ⟨b, e, h1, h2, h3, .inl ⟨h4, h5.trans h13.symm⟩⟩
    cases evaluated with
    | false => exact hfile ((findTargets_all hfrom.inFile h10 r hr).name hne)
    | true =>
      rcases (findTargets_all hfrom.fine h10 r hr).name hne with hin | ⟨b, e, h18, h19, h20, h21⟩
      · exact hfile hin
      · exact ⟨b, e, loc_made hfrom h18 h19 h20 h11, h19, h20, .inr ⟨rfl, h18, h21⟩⟩

/-- **C110** for `list-targets`: each row is for a call in the BUILD file of the package: its name is the argument
`name`. In a file without syntax errors, and without a newline in a `not in`, the location is that of the name in this
file; if expressions are evaluated, it may also be that of the `+` or `glob` that the name was made by. -/
theorem C110_list_targets_partial {m : Machine} {flags : Flags} {pattern : BazelPattern} {ran : Ran}
    (h : Located.runCommand m flags .listTargets pattern = some ran) (hs : ran.status = 0) :
    ∃ rows : List Listed,
      Table.output flags.format [c!"file-location", c!"rule", c!"target"] (rows.map Listed.row) = some ran.out ∧
      ∀ x ∈ rows, ∃ evaluated file content v, Origin110 m x evaluated file content v ∧
        (evaluated = true → flags.elaborate = true ∨ 0 ≤ flags.depth) ∧
        (Clear content → ∃ b e, x.loc = whereIs file content b e ∧ b ≤ e ∧ e ≤ content.length ∧
          (v.place = .file b ∧ piece content b e = x.target.name ∨
            evaluated = true ∧ v.place = .made b e ∧ (piece content b e = c!"+" ∨ piece content b e = c!"glob"))) := by
  obtain ⟨rows, h1, h2⟩ := C110_list_targets_exact_partial h hs
  refine ⟨rows, h1, fun x hx => ?_⟩
  obtain ⟨evaluated, file, content, v, h3, h4, h5⟩ := h2 x hx
  exact ⟨evaluated, file, content, v, h3, h4, fun hc => by rwa [hc.counted] at h5⟩

/-- A rule that is printed. -/
structure Shown where
  package : BazelPackage
  loc : Str
  rule : Query.Result

/-- The comment line, and the rule. -/
def Shown.text (x : Shown) : Str × Node := (Print.commentOf x.package x.loc x.rule, x.rule.node)

theorem printRules_shown {o : Print.Options} {s : Source} {pattern : BazelPattern} {pkg : BazelPackage} {rs : List Rule}
    {out : Str} (hm : pattern.matchPackage pkg = true) (h : Located.printRules o s pattern pkg rs = some out) :
    ∃ xs : List Shown, Print.Written o.color (Print.printStatements (xs.map Shown.text)) out ∧
      ∀ x ∈ xs, x.package = pkg ∧ ∃ r ∈ rs, (kindOf r).bind s.loc = some x.loc ∧ x.rule = r.plain := by
  induction rs generalizing out with
  | nil => cases h; exact ⟨[], .nil, by simp⟩
  | cons r rs ih =>
    rw [Located.printRules] at h
    split at h
    · obtain ⟨xs, h1, h2⟩ := ih h
      exact ⟨xs, h1, fun x hx => ⟨(h2 x hx).1, let ⟨r', h3, h4⟩ := (h2 x hx).2; ⟨r', .tail _ h3, h4⟩⟩⟩
    · split at h
      · rename_i a b h1 h2
        cases h
        obtain ⟨xs, h3, h4⟩ := ih h2
        obtain ⟨loc, h5, h6⟩ := Option.bind_eq_some_iff.1 h1
        have h7 := (Print.printRule_eq (f := ⟨pkg, .null, false, fun _ => []⟩) hm h6).1
        have later : ∀ x ∈ xs, x.package = pkg ∧
            ∃ r' ∈ r :: rs, (kindOf r').bind s.loc = some x.loc ∧ x.rule = r'.plain :=
          fun x hx => ⟨(h4 x hx).1, let ⟨r', h3, h4⟩ := (h4 x hx).2; ⟨r', .tail _ h3, h4⟩⟩
        rw [List.filter_cons, List.filter_nil] at h7
        split at h7
        · refine ⟨⟨pkg, loc, r.plain⟩ :: xs, ?_, fun x hx => ?_⟩
          · have := h7.append h3
            rw [← Print.printStatements_append] at this
            exact this
          · rcases List.mem_cons.1 hx with rfl | hx
            · exact ⟨rfl, r, .head _, h5, rfl⟩
            · exact later x hx
        · exact ⟨xs, h7.append h3, later⟩
      · cases h

theorem printProject_shown {o : Print.Options} {pattern : BazelPattern} {files : Holding} {out : Str}
    (h : Located.printProject o pattern files = some out) :
    ∃ xs : List Shown, Print.Written o.color (Print.printStatements (xs.map Shown.text)) out ∧
      ∀ x ∈ xs, ∃ f rs, (x.package, f) ∈ files ∧ findTargets true f.tree [] = some rs ∧
        ∃ r ∈ rs, (kindOf r).bind f.source.loc = some x.loc ∧ x.rule = r.plain := by
  induction files generalizing out with
  | nil => cases h; exact ⟨[], .nil, by simp⟩
  | cons f files ih =>
    rw [Located.printProject] at h
    split at h
    · obtain ⟨xs, h1, h2⟩ := ih h
      exact ⟨xs, h1, fun x hx => let ⟨g, rs, h3, h4⟩ := h2 x hx; ⟨g, rs, .tail _ h3, h4⟩⟩
    · rename_i hcond
      have hm : pattern.matchPackage f.1 = true := by
        cases hm : pattern.matchPackage f.1 with
        | true => rfl
        | false => rw [hm] at hcond; simp at hcond
      split at h
      · rename_i a b h1 h2
        cases h
        obtain ⟨rs, h3, h4⟩ := Option.bind_eq_some_iff.1 h1
        obtain ⟨xs, h5, h6⟩ := printRules_shown hm h4
        obtain ⟨ys, h7, h8⟩ := ih h2
        refine ⟨xs ++ ys, ?_, fun x hx => ?_⟩
        · have := h5.append h7
          rw [← Print.printStatements_append, ← List.map_append] at this
          exact this
        · rcases List.mem_append.1 hx with hx | hx
          · obtain ⟨h9, h10⟩ := h6 x hx
            exact ⟨f.2, rs, by rw [h9]; exact .head _, h3, h10⟩
          · obtain ⟨g, rs', h9, h10⟩ := h8 x hx
            exact ⟨g, rs', .tail _ h9, h10⟩
      · cases h

/-- **C110** for `print` (exact): what is printed are calls in the BUILD files, each with a comment line in front. The
location in the comment is that of the name of the function that is called, with lines as they are counted
(`C24_counted`). -/
theorem C110_print_exact_partial {m : Machine} {flags : Flags} {pattern : BazelPattern} {ran : Ran}
    (h : Located.runCommand m flags .print pattern = some ran) (hs : ran.status = 0) :
    ∃ rules : List Shown, Print.Colored (Print.printStatements (rules.map Shown.text)) ran.out ∧
      (m.color = false → ran.out = Print.printStatements (rules.map Shown.text)) ∧
      ∀ x ∈ rules, ∃ file content tree kind ty xs, ReadFrom m flags.elaborate x.package file content tree ∧
        (Tree.ident kind, Tree.list ty xs) ∈ sites tree ∧
        x.rule.node = (Tree.call (.ident kind) (.list ty xs)).plain ∧
        (∃ b e, x.loc = whereIs file (Project.asCounted content) b e ∧ b ≤ e ∧ e ≤ content.length ∧
          kind.place = .file b ∧ piece content b e = x.rule.rule) := by
  rcases prepare_plain m flags .print pattern with ⟨h1, _⟩ | ⟨h1, _⟩ | ⟨p, h1, _, h3⟩
  · rw [Located.runCommand, h1] at h; cases h
  · rw [Located.runCommand, h1] at h; cases h; cases hs
  rw [Located.runCommand, h1] at h
  obtain ⟨r, h4, rfl⟩ := Option.map_eq_some_iff.1 h
  simp only [Located.perform] at h4
  obtain ⟨out, h5, rfl⟩ := Option.map_eq_some_iff.1 h4
  have key : ∃ rules : List Shown, Print.Written m.color (Print.printStatements (rules.map Shown.text)) out ∧
      ∀ x ∈ rules, ∃ f rs, (x.package, f) ∈ p.files ∧ findTargets true f.tree [] = some rs ∧
        ∃ r ∈ rs, (kindOf r).bind f.source.loc = some x.loc ∧ x.rule = r.plain := by
    unfold Located.printed at h5
    split at h5
    · exact printProject_shown h5
    · split at h5
      · cases h5; exact ⟨[], .nil, by simp⟩
      · exact printProject_shown h5
  obtain ⟨rules, h6, h7⟩ := key
  refine ⟨rules, h6.1, h6.2, fun x hx => ?_⟩
  obtain ⟨f, rs, h8, h9, r, hr, h10, h11⟩ := h7 x hx
  obtain ⟨evaluated, hfrom, he1, he2⟩ := h3.files _ h8
  have he : evaluated = flags.elaborate := by
    have e1 : elaborates flags .print = flags.elaborate := by simp [elaborates]
    rw [e1] at he1 he2
    cases evaluated <;> cases hf : flags.elaborate <;> simp_all [usesGraph]
  subst he
  obtain ⟨kind, ty, xs, h12, h13, h14, _⟩ := findTargets_sites h9 r hr
  have hk : kindOf r = some kind := by rw [kindOf, h13]
  rw [hk, Option.bind_some] at h10
  refine ⟨f.source.name, f.source.content, f.tree, kind, ty, xs, from_readFrom hfrom, h12, ?_, ?_⟩
  · rw [h11]
    show r.node.plain = _
    rw [h13]
  · have hin : InFile f.source.content kind := by
      have hn := (findTargets_all hfrom.fine h9 r hr).node
      rw [h13] at hn
      exact hn.1
    obtain ⟨b, e, e1, e2, e3, e4, e5⟩ := loc_file hfrom hin h10
    refine ⟨b, e, e1, e2, e3, e4, e5.trans ?_⟩
    rw [h11]
    exact h14.symm

/-- **C110** for `print`: what is printed are calls in the BUILD files, each with a comment line in front. In a file
without syntax errors, and without a newline in a `not in`, the location in the comment is that of the name of the
function that is called. -/
theorem C110_print_partial {m : Machine} {flags : Flags} {pattern : BazelPattern} {ran : Ran}
    (h : Located.runCommand m flags .print pattern = some ran) (hs : ran.status = 0) :
    ∃ rules : List Shown, Print.Colored (Print.printStatements (rules.map Shown.text)) ran.out ∧
      (m.color = false → ran.out = Print.printStatements (rules.map Shown.text)) ∧
      ∀ x ∈ rules, ∃ file content tree kind ty xs, ReadFrom m flags.elaborate x.package file content tree ∧
        (Tree.ident kind, Tree.list ty xs) ∈ sites tree ∧
        x.rule.node = (Tree.call (.ident kind) (.list ty xs)).plain ∧
        (Clear content → ∃ b e, x.loc = whereIs file content b e ∧ b ≤ e ∧ e ≤ content.length ∧
          kind.place = .file b ∧ piece content b e = x.rule.rule) := by
  obtain ⟨rules, h1, h2, h3⟩ := C110_print_exact_partial h hs
  refine ⟨rules, h1, h2, fun x hx => ?_⟩
  obtain ⟨file, content, tree, kind, ty, xs, h4, h5, h6, h7⟩ := h3 x hx
  exact ⟨file, content, tree, kind, ty, xs, h4, h5, h6, fun hc => by rwa [hc.counted] at h7⟩

/-! ## C111 -/

/-- The line of a text that stands in the file. -/
theorem line_file {s : Source} {v : View} {l : Str} (hv : InFile s.content v) (hl : s.line v = some l) :
    ∃ pos b e, v.place = .file pos ∧ IsLineAround s.content pos (pos + v.text.length) b e ∧ l = piece s.content b e := by
  obtain ⟨pos, h1, h2, _⟩ := hv
  unfold Source.line at hl
  rw [h1] at hl
  obtain ⟨b, e, h3, h4⟩ := C09_surrounding_line s.content pos (pos + v.text.length) h2
  simp only [h3, Option.map_some, Option.some.injEq] at hl
  exact ⟨pos, b, e, h1, h4, hl.symm⟩

/-- **C111**: if `dwyu` suggests to remove a dependency, then there is a rule for C++ of that name in the BUILD file of
the package; among its dependencies there is this one; and there is no comment with `keep` in its line (or
`-k` is given). If the dependency was made (by `+` or `glob`), lines do not matter. -/
theorem C111_removed_partial {m : Machine} {flags : Flags} {pattern : BazelPattern} {ran : Ran}
    (h : Located.runCommand m flags .dwyu pattern = some ran) (hs : ran.status ≠ 1) :
    ∃ es, ran.out = buildozerScript es ∧ ∀ e ∈ es, e.op = .remove →
      ∃ pkg file content tree kind ty xs ds v, ReadFrom m true pkg file content tree ∧
        (Tree.ident kind, Tree.list ty xs) ∈ sites tree ∧
        kind.text ∈ [c!"cc_library", c!"cc_binary", c!"cc_test"] ∧
        (∃ name, last c!"name" text (kwArgsIn xs) = some name ∧ pkg.qualifiedTarget name.text = some e.target) ∧
        last c!"deps" elements (kwArgsIn xs) = some ds ∧ v ∈ texts ds ∧ v.text = e.before ∧
        (flags.ignoreKeep = true ∨
          (∃ pos b t, v.place = .file pos ∧ IsLineAround content pos (pos + v.text.length) b t ∧
            ¬ DwyuSpec.KeepComment (piece content b t)) ∨
          ∃ b t, v.place = .made b t ∧ (piece content b t = c!"+" ∨ piece content b t = c!"glob")) := by
  rcases prepare_plain m flags .dwyu pattern with ⟨h1, _⟩ | ⟨h1, _⟩ | ⟨p, h1, _, h3⟩
  · rw [Located.runCommand, h1] at h; cases h
  · rw [Located.runCommand, h1] at h; cases h; exact absurd rfl hs
  rw [Located.runCommand, h1] at h
  obtain ⟨r, h4, rfl⟩ := Option.map_eq_some_iff.1 h
  simp only [Located.perform, edits] at h4
  obtain ⟨es, h5, rfl⟩ := Option.map_eq_some_iff.1 h4
  refine ⟨es, rfl, fun e he hop => ?_⟩
  unfold Located.dependencyEdits at h5
  obtain ⟨gen, _, h6⟩ := Option.bind_eq_some_iff.1 h5
  obtain ⟨⟨pkg, f⟩, hf, zs, h7, h8⟩ := mapAll_mem h6 e he
  unfold Located.editsForFile at h7
  split at h7
  · cases h7; cases h8
  obtain ⟨rs, h9, h10⟩ := Option.bind_eq_some_iff.1 h7
  obtain ⟨r, hr, ws, h11, h12⟩ := mapAll_mem h10 e h8
  unfold Located.editsForRule at h11
  split at h11
  · cases h11; cases h12
  rename_i target ht
  split at h11
  · cases h11; cases h12
  obtain ⟨lines, h13, h14⟩ := Option.bind_eq_some_iff.1 h11
  obtain ⟨h15, deps, i, h16, h17, h18⟩ := createEdits_removed h14 e h12 hop
  obtain ⟨evaluated, hfrom, he1, _⟩ := h3.files _ hf
  obtain rfl := he1 (by simp [elaborates])
  obtain ⟨kind, ty, xs, s1, s2, s3, s4, s5, s6, s7⟩ := findTargets_sites h9 r hr
  unfold Located.depLines at h13
  obtain ⟨vs, h19, h20⟩ := Option.bind_eq_some_iff.1 h13
  have hne := s7 rfl
  rw [show r.plain.deps = plainRef r.deps from rfl, stringList_plain, h19] at h16
  cases h16
  rw [List.getElem?_map] at h17
  obtain ⟨v, hv, hvt⟩ := Option.map_eq_some_iff.1 h17
  have hvm := List.mem_of_getElem? hv
  obtain ⟨ds, hd1, hd2⟩ : ∃ ds, r.deps.map (·.2) = some ds ∧ vs = texts ds := by
    cases hd : r.deps with
    | none => rw [hd] at h19; cases h19; cases hvm
    | some d => rw [hd] at h19; exact ⟨d.2, rfl, strings_texts h19⟩
  have hk : kind.text ∈ [c!"cc_library", c!"cc_binary", c!"cc_test"] := by
    unfold Query.isRelevant at s4
    split at s4
    · cases s4
    · split at s4
      · rename_i h; cases h
      · split at s4
        · rename_i h; exact h
        · cases s4
  obtain ⟨name, hn⟩ : ∃ v, last c!"name" text (kwArgsIn xs) = some v := by
    cases hl : last c!"name" text (kwArgsIn xs) with
    | some v => exact ⟨v, rfl⟩
    | none => rw [hl] at s5; rw [s5] at hne; exact absurd rfl hne
  have hname : r.name = name := by rw [s5, hn]; rfl
  refine ⟨pkg, f.source.name, f.source.content, f.tree, kind, ty, xs, ds, v, from_readFrom hfrom, s1, hk,
    ⟨name, hn, by rw [← hname, h15]; exact ht⟩, by rw [← s6, hd1], hd2 ▸ hvm, hvt, ?_⟩
  rcases h18 with h18 | h18
  · exact .inl h18
  refine .inr ?_
  have hline := each_getElem h20 i
  rw [hv, Option.bind_some] at hline
  have hfine : Fine f.source.content v := stringList_all (findTargets_all hfrom.fine h9 r hr).deps h19 v hvm
  obtain ⟨l, hl⟩ := fine_line hfine
  have hkeep : ¬ DwyuSpec.KeepComment l := by
    rw [← Dwyu.hasKeepComment_iff, Bool.not_eq_true]
    simpa [List.getD_eq_getElem?_getD, hline, hl] using h18
  rcases hfine with hin | ⟨b, t, h1, _, _, h2⟩
  · obtain ⟨pos, b, t, h1, h2, rfl⟩ := line_file hin hl
    exact .inl ⟨pos, b, t, h1, h2, hkeep⟩
  · exact .inr ⟨b, t, h1, h2⟩

/-! ## C110 and C111, full statements -/

/-- **C110**, full statement: the location that `list-targets` gives for a target is where its name is in a file.
(In the format that can be read back.) -/
def C110_statement : Prop :=
  ∀ (m : Machine) (flags : Flags) (pattern : BazelPattern) (ran : Ran) (rows : List Listed),
    Located.runCommand m flags .listTargets pattern = some ran → flags.format = .sexpr →
    C39_table [c!"file-location", c!"rule", c!"target"] (rows.map Listed.row) →
    Table.output .sexpr [c!"file-location", c!"rule", c!"target"] (rows.map Listed.row) = some ran.out →
    ∀ x ∈ rows, ∃ file content b e, m.fs.content file = some content ∧ b ≤ e ∧ e ≤ content.length ∧
      x.loc = whereIs file content b e ∧ piece content b e = x.target.name

theorem disk_content {path t file content : Str} (h : (disk [(path, t)]).fs.content file = some content) :
    content = [] ∨ (content = t ∧ (file = path ∨ file = '.' :: '/' :: path)) := by
  simp only [disk] at h
  split at h
  · cases h; exact .inl rfl
  · simp only [Headers.lookup, List.find?_cons, List.find?_nil] at h
    split at h
    · cases h
      rename_i hp
      have hp : path = plainPath file := by simpa using hp
      refine .inr ⟨rfl, ?_⟩
      unfold plainPath at hp
      split at hp
      · exact .inr (by rw [hp])
      · exact .inl hp.symm
    · cases h

/-- A newline in `not in` is not counted: the name is in the third line. -/
def uncounted : Machine := disk [(c!"p/BUILD", c!"x = 1 not\nin y\nf(name='a')")]

theorem C110_counterexample : ¬ C110_statement := by
  intro hs
  have h1 : Located.runCommand uncounted { format := .sexpr } .listTargets everything =
      some ⟨0, c!"((\"./p/BUILD:2:9:\" \"f\" \"//p:a\"))\n", []⟩ := by decide +kernel
  obtain ⟨file, content, b, e, h2, h3, h4, h5, h6⟩ := hs uncounted { format := .sexpr } everything _
    [⟨c!"./p/BUILD:2:9:", c!"f", ⟨⟨[], c!"p"⟩, c!"a"⟩⟩] h1 rfl
    ⟨by decide, by unfold TableSpec.Bytes; decide, by simp [TableSpec.Fits, Listed.row], by
      simp only [List.map_cons, List.map_nil, List.mem_singleton, forall_eq]
      unfold TableSpec.Bytes; decide +kernel⟩ (by decide +kernel) _ (.head _)
  rcases disk_content h2 with rfl | ⟨rfl, hf⟩
  · simp [piece] at h6
  · have key : ∀ file ∈ [c!"p/BUILD", c!"./p/BUILD"], ∀ e < 27, ∀ b < 27,
        piece c!"x = 1 not\nin y\nf(name='a')" b e = c!"a" →
          c!"./p/BUILD:2:9:" ≠ whereIs file c!"x = 1 not\nin y\nf(name='a')" b e := by decide +kernel
    have hl : (c!"x = 1 not\nin y\nf(name='a')").length = 26 := by decide
    exact key file (by rcases hf with rfl | rfl <;> simp) e (by omega) b (by omega) h6 h5

/-- The names are in line 1, columns 18 and following; the name that is made has the location of the `+`. -/
def summed : Machine :=
  disk [(c!"p/BUILD", c!"cc_library(name=\"a\")\ncc_library(\n  name = 'b' + 'c')")]

example : Located.runCommand summed {} .listTargets everything =
    some ⟨0, c!"./p/BUILD:1:18: cc_library //p:a\n", []⟩ := by decide +kernel
example : Located.runCommand summed { elaborate := true } .listTargets everything =
    some ⟨0, c!"./p/BUILD:1:18: cc_library //p:a\n./p/BUILD:3:14: cc_library //p:bc\n", []⟩ := by decide +kernel
example : Located.runCommand summed { elaborate := true } .print (pat c!"//p:bc") =
    some ⟨0, c!"# p/BUILD:2:1-10: //p:bc\ncc_library(name = \"bc\",)\n", []⟩ := by decide +kernel

/-- **C111**, full statement: a dependency with a comment with `keep` in the line where it is written is not suggested to
be removed (if not asked for with `-k`). -/
def C111_statement : Prop :=
  ∀ (m : Machine) (flags : Flags) (pattern : BazelPattern) (ran : Ran) (p : Ready) (pkg : BazelPackage) (f : Held)
    (kind : View) (ty : ListType) (xs ds : List Tree) (name v : View) (b e : Nat),
    Located.runCommand m flags .dwyu pattern = some ran → flags.ignoreKeep = false →
    Located.prepare m flags .dwyu pattern = some (some p) → (pkg, f) ∈ p.files →
    (Tree.ident kind, Tree.list ty xs) ∈ sites f.tree → last c!"name" text (kwArgsIn xs) = some name →
    last c!"deps" elements (kwArgsIn xs) = some ds → v ∈ texts ds →
    IsLineAround f.source.content v.range.1 v.range.2 b e → DwyuSpec.KeepComment (piece f.source.content b e) →
    ¬ buildozerLine ⟨.remove, ⟨pkg, name.text⟩, v.text, []⟩ <:+: ran.out

/-- The first of the dependencies is kept, the second is not: its text is made by `+`. -/
def keeps : Machine :=
  disk [(c!"p/BUILD", c!"cc_library(name='a',srcs=['a.cc'],deps=['//q:x', # keep\n'//q:'+'y', # keep\n])"),
    (c!"q/BUILD", c!"cc_library(name='x',hdrs=['x.h'])\ncc_library(name='y',hdrs=['y.h'])"), (c!"p/a.cc", c!"int x;")]

example : Located.runCommand keeps {} .dwyu everything = some ⟨3, c!"buildozer 'remove deps //q:y' //p:a\n", []⟩ := by
  decide +kernel
example : Located.runCommand keeps { ignoreKeep := true } .dwyu everything =
    some ⟨3, c!"buildozer 'remove deps //q:x' //p:a\nbuildozer 'remove deps //q:y' //p:a\n", []⟩ := by decide +kernel

/-- Is there such a rule ? -/
def hasRule (content : Str) (pkg : BazelPackage) (name dep : Str) (place : Place) (f : BazelPackage × Held) : Bool :=
  f.1 = pkg && f.2.source.content = content && (sites f.2.tree).any fun s =>
    match s with
    | (.ident _, .list _ xs) => ((last c!"name" text (kwArgsIn xs)).map (·.text)) = some name &&
        ((last c!"deps" elements (kwArgsIn xs)).map fun ds => (texts ds).any fun v => v.text = dep && v.place = place) =
          some true
    | _ => false

theorem hasRule_spec {content : Str} {pkg : BazelPackage} {name dep : Str} {place : Place} {f : BazelPackage × Held}
    (h : hasRule content pkg name dep place f = true) :
    f.1 = pkg ∧ f.2.source.content = content ∧ ∃ kind ty xs ds n v, (Tree.ident kind, Tree.list ty xs) ∈ sites f.2.tree ∧
      last c!"name" text (kwArgsIn xs) = some n ∧ n.text = name ∧ last c!"deps" elements (kwArgsIn xs) = some ds ∧
      v ∈ texts ds ∧ v.text = dep ∧ v.place = place := by
  simp only [hasRule, Bool.and_eq_true, decide_eq_true_eq, List.any_eq_true] at h
  obtain ⟨⟨h1, h2⟩, s, h3, h4⟩ := h
  refine ⟨h1, h2, ?_⟩
  split at h4
  · rename_i kind ty xs
    simp only [Bool.and_eq_true, decide_eq_true_eq] at h4
    obtain ⟨n, h5, h6⟩ := Option.map_eq_some_iff.1 h4.1
    obtain ⟨ds, h7, h8⟩ := Option.map_eq_some_iff.1 h4.2
    obtain ⟨v, h9, h10⟩ := List.any_eq_true.1 h8
    simp only [Bool.and_eq_true, decide_eq_true_eq] at h10
    exact ⟨kind, ty, xs, ds, n, v, h3, h5, h6, h7, h9, h10.1, h10.2⟩
  · cases h4

theorem C111_counterexample : ¬ C111_statement := by
  intro hs
  have h1 : Located.runCommand keeps {} .dwyu everything =
      some ⟨3, c!"buildozer 'remove deps //q:y' //p:a\n", []⟩ := by decide +kernel
  have h2 : ((Located.prepare keeps {} .dwyu everything).map fun o => o.map fun p => p.files.any
      (hasRule c!"cc_library(name='a',srcs=['a.cc'],deps=['//q:x', # keep\n'//q:'+'y', # keep\n])" ⟨[], c!"p"⟩ c!"a"
        c!"//q:y" (.made 62 63))) = some (some true) := by decide +kernel
  obtain ⟨o, h3, h4⟩ := Option.map_eq_some_iff.1 h2
  obtain ⟨p, rfl, h5⟩ := Option.map_eq_some_iff.1 h4
  obtain ⟨⟨pkg, f⟩, h6, h7⟩ := List.any_eq_true.1 h5
  obtain ⟨rfl, h8, kind, ty, xs, ds, n, v, h9, h10, h11, h12, h13, h14, h15⟩ := hasRule_spec h7
  obtain ⟨b, e, h16, h17⟩ := C09_surrounding_line
    c!"cc_library(name='a',srcs=['a.cc'],deps=['//q:x', # keep\n'//q:'+'y', # keep\n])" 62 63 (by decide)
  have h18 : getSurroundingLine c!"cc_library(name='a',srcs=['a.cc'],deps=['//q:x', # keep\n'//q:'+'y', # keep\n])" 62 63 =
      some (56, 74) := by decide +kernel
  rw [h18] at h16
  cases h16
  have hr : v.range = (62, 63) := by rw [View.range, h15]
  refine hs keeps {} everything _ p ⟨[], c!"p"⟩ f kind ty xs ds n v 56 74 h1 rfl h3 h6 h9 h10 h12 h13
    (by rw [h8, hr]; exact h17) (by rw [h8, ← Dwyu.hasKeepComment_iff]; decide +kernel) ?_
  rw [h11, h14]
  exact ⟨[], [], by decide +kernel⟩

/-- The same dependency twice, with and without the comment: it is suggested to be removed. -/
example : Located.runCommand (disk [(c!"p/BUILD", c!"cc_library(name='a',srcs=['a.cc'],deps=['//q:x', # keep\n'//q:x'])"),
      (c!"q/BUILD", c!"cc_library(name='x',hdrs=['x.h'])"), (c!"p/a.cc", c!"int x;")]) {} .dwyu everything =
    some ⟨3, c!"buildozer 'remove deps //q:x' //p:a\n", []⟩ := by decide +kernel

/-! ## C112 -/

/-- **C112**: a command with the locations that are computed is the command (that C81 to C107 are about) with some locations
given. For `dwyu`, if no two rules of a file are the same. -/
theorem C112_same_partial (m : Machine) (flags : Flags) (cmd : Command) (pattern : BazelPattern)
    (hd : cmd = .dwyu → ∀ p, Located.prepare m flags .dwyu pattern = some (some p) → NoTwins p.files) :
    ∃ nameLoc callLoc line, Located.runCommand m flags cmd pattern =
      Commands.runCommand { m with nameLoc := nameLoc, callLoc := callLoc, line := line } flags cmd pattern := by
  rcases runCommand_placed m flags cmd pattern with ⟨h1, h2⟩ | ⟨h1, h2⟩ | ⟨p, h1, _, _, h4⟩
  · exact ⟨m.nameLoc, m.callLoc, m.line, by rw [h2, Commands.runCommand, h1]⟩
  · exact ⟨m.nameLoc, m.callLoc, m.line, by rw [h2, Commands.runCommand, h1]⟩
  · exact ⟨_, _, _, h4 fun hcmd => hd hcmd p (by rw [hcmd] at h1; exact h1)⟩

theorem placed_healthy {m : Machine} (hh : Healthy m) (files : Holding) : Healthy (placed files m) :=
  ⟨hh.1, hh.2⟩

/-- **C112**: all locations are known. A command ends if it ends with locations given: whenever C97 says so. -/
theorem C112_ends_partial {m : Machine} (hh : Healthy m) {flags : Flags} {cmd : Command} {pattern : BazelPattern}
    (hf : Findable m cmd pattern)
    (hgrep : cmd = .print ∨ cmd = .parse → ∀ find, LooksFor m flags (some find) →
      Within find ∧ ∀ s, find s ≠ some (0, 0))
    (htame : cmd = .compilationDB ∨ cmd = .compileFlags → Tame m) :
    ∃ ran, Located.runCommand m flags cmd pattern = some ran := by
  obtain ⟨ran, hran⟩ := C97_ends_partial hh (flags := flags) hf hgrep htame
  rcases runCommand_placed m flags cmd pattern with ⟨h1, _⟩ | ⟨_, h2⟩ | ⟨p, h1, h2, h3, h4⟩
  · rw [Commands.runCommand, h1] at hran; cases hran
  · exact ⟨_, h2⟩
  by_cases hcmd : cmd = .dwyu
  · subst hcmd
    rw [Commands.runCommand, h2] at hran
    obtain ⟨r, h5, _⟩ := Option.map_eq_some_iff.1 hran
    simp only [Commands.perform, edits] at h5
    obtain ⟨es, h6, _⟩ := Option.map_eq_some_iff.1 h5
    have h7 := dependencyEdits_ends h3.each flags p.workspace pattern m.line
    rw [show trees (plainOf p.files) = trees p.plain.files from rfl] at h7
    rw [show p.workspace = p.plain.workspace from rfl, h6] at h7
    obtain ⟨es', h8⟩ := Option.isSome_iff_exists.1 h7
    rw [Located.runCommand, h1]
    simp only [Located.perform, show p.workspace = p.plain.workspace from rfl, h8, edits, Option.map_some]
    exact ⟨_, rfl⟩
  · obtain ⟨ran', h5⟩ := C97_ends_partial (placed_healthy hh p.files) (flags := flags) (cmd := cmd) (pattern := pattern)
      hf (by
        intro hc find hl
        refine hgrep hc find ?_
        cases hl with
        | regex h1 h2 => exact .regex h1 h2) htame
    exact ⟨ran', (h4 fun h => absurd h hcmd).trans h5⟩

/-- **C112**, full statement: no command crashes or runs for ever for want of a location, or else (as in C97). -/
def C112_statement : Prop :=
  ∀ (m : Machine) (flags : Flags) (cmd : Command) (pattern : BazelPattern), Findable m cmd pattern →
    (∀ path, GraphSpec.IsBuild path → m.fs.canRead path = true → m.fs.content path ≠ none) →
    (∀ find, LooksFor m flags (some find) → Within find) →
    ∃ ran, Located.runCommand m flags cmd pattern = some ran

theorem C112_counterexample : ¬ C112_statement := by
  intro h
  have hw : workspaceOf holed = some [] := by decide +kernel
  obtain ⟨ran, hr⟩ := h holed (steps 0) .dependsOn everything (by
    intro ws hws
    rw [hw] at hws
    cases hws
    refine ⟨roots_nil, fun _ => ?_⟩
    decide +kernel) (by
    intro path _ hr
    simp only [holed, disk] at hr ⊢
    split
    · simp
    · intro hn; rw [hn] at hr; cases hr) (by
    intro find hl
    cases hl with
    | regex h _ => exact absurd rfl h)
  have := congrArg Option.isSome hr
  rw [Option.isSome_some] at this
  revert this
  decide +kernel

/-- The locations of the two runs are different, nothing else is. -/
example : Located.runCommand summed { elaborate := true } .listTargets everything =
    Commands.runCommand { summed with nameLoc := fun _ i => if i = 0 then c!"./p/BUILD:1:18:" else c!"./p/BUILD:3:14:" } { elaborate := true } .listTargets everything := by decide +kernel

/-- Two rules that are the same but for a comment: for one of them, the dependency is to be removed. -/
example : Located.runCommand (disk [(c!"p/BUILD",
      c!"cc_library(name='a',srcs=['a.cc'],deps=['//q:x', # keep\n])\ncc_library(name='a',srcs=['a.cc'],deps=['//q:x'])"),
    (c!"q/BUILD", c!"cc_library(name='x',hdrs=['x.h'])"), (c!"p/a.cc", c!"int x;")]) {} .dwyu everything =
    some ⟨3, c!"buildozer 'remove deps //q:x' //p:a\n", []⟩ := by decide +kernel

end Props
end Bant
