import Verif.Lemmas.GlobMeaning
import Verif.Model.Workspace
import Verif.Model.Elab
import Verif.Props.FileUtils
import Verif.Props.Parser

/-! # File patterns and `glob()` (C35, C36, C69) -/
namespace Bant
namespace Props
open Glob GlobSpec FileUtils FileSpec Headers

/-! ## C35: included, not excluded; pruning -/

/-- **C35**, full statement: a file is accepted if and only if it matches an include pattern and no
exclude pattern; all directories on the way to a file that matches an include pattern are accepted. -/
def C35_statement : Prop :=
  ∀ (incl excl : List Str) (f : Str), f ≠ [] →
    (fileMatches incl excl f = true ↔ Chosen incl excl f) ∧
    ∀ p ∈ incl, Accepts p f → ∀ d rest, f = d ++ '/' :: rest → directoryMatches incl d = true

/-- Newlines: what follows `**` in the same segment may match them in a file, but not in a directory. -/
theorem C35_counterexample : ¬ C35_statement := by
  intro h
  have hb : Accepts c!"**x/y" c!"\nx/y" :=
    .star (u := []) (by decide) (by simp) (.star (u := c!"\n") (by decide) (by decide)
        (.char (by decide) (.char (by decide) (.char (by decide) .nil))))
  have := (h [c!"**x/y"] [] c!"\nx/y" (by decide)).2 _ (by simp) hb c!"\nx" c!"y" rfl
  revert this
  decide +kernel

/-- **C35**, selection: a file is accepted if and only if it matches an include pattern and no exclude
pattern, for all patterns and paths. -/
theorem C35_selection (incl excl : List Str) (f : Str) (hf : f ≠ []) :
    fileMatches incl excl f = true ↔ Chosen incl excl f := by
  unfold fileMatches Chosen
  rw [Bool.and_eq_true, filename_matches hf, Bool.not_eq_true', ← Bool.not_eq_true, filename_matches hf]
  simp

/-- **C35**, pruning: for paths without newlines. -/
theorem C35_pruning_partial (incl : List Str) (p f d rest : Str) (hp : p ∈ incl) (ha : Accepts p f)
    (hn : '\n' ∉ f) (hf : f = d ++ '/' :: rest) : directoryMatches incl d = true :=
  directoryMatches_prunes hp ha hn hf

example : fileMatches [c!"**/*.cc", c!"a.h"] [c!"**/*_test.cc"] c!"x/y/z.cc" = true := by decide +kernel
example : fileMatches [c!"**/*.cc", c!"a.h"] [c!"**/*_test.cc"] c!"x/y/z_test.cc" = false := by
  decide +kernel
example : fileMatches [c!"**/*.cc", c!"a.h"] [c!"**/*_test.cc"] c!"a.h" = true := by decide +kernel
example : directoryMatches [c!"x/**/*.cc"] c!"x/y/z" = true := by decide +kernel
example : directoryMatches [c!"x/**/*.cc"] c!"y" = false := by decide +kernel

/-! ## C36: meaning -/

/-- **C36**, full statement: for patterns in which `**` is a segment, what is accepted is what the
pattern means. -/
def C36_statement : Prop :=
  ∀ (p f : Str), Proper p → (∀ s ∈ segments f, s ≠ []) → (fileMatches [p] [] f = true ↔ Means p f)

/-- Too much: `**/foo.txt` accepts `xfoo.txt`. -/
theorem C36_too_much_counterexample : ¬ C36_statement := by
  intro h
  have := (h c!"**/foo.txt" c!"xfoo.txt" (by unfold Proper; decide +kernel) (by decide)).1 (by decide +kernel)
  cases this with
  | none h => cases h with
    | seg _ h _ => cases h
  | more h => cases h with
    | none h => cases h
  | seg h _ _ => exact h rfl

/-- Too little: `a/**` does not accept `a/b/c`. -/
theorem C36_too_little_counterexample : ¬ C36_statement := by
  intro h
  have := (h c!"a/**" c!"a/b/c" (by unfold Proper; decide +kernel) (by decide)).2
    (.seg (by decide) (.char (by decide) .nil) (.more (.more (.none .nil))))
  revert this
  decide +kernel

/-- **C36**: what is accepted, for all patterns: `**/` stands for any text without newlines, another
`*` for text without slashes, another character for itself. -/
theorem C36_account (p f : Str) (hf : f ≠ []) : fileMatches [p] [] f = true ↔ Accepts p f := by
  rw [C35_selection _ _ _ hf]
  simp [Chosen]

/-- **C36**, patterns without `**`: what is accepted is what the pattern means. Missing: patterns
with `**`, for which this is false. -/
theorem C36_single_partial (p f : Str) (hp : ¬ c!"**" <:+: p) (hf : f ≠ []) :
    fileMatches [p] [] f = true ↔ Means p f := by
  rw [C36_account p f hf]
  refine ⟨fun h => accepts_means h hp, fun h => ?_⟩
  have := means_accepts' h (fun q hq hi => absurd (hi.trans (segments_infix hq)) hp)
    (fun x hx => segments_mem hx)
  rwa [joined_segments, joined_segments] at this

/-- **C36**, patterns with `**`: no file that is meant is missing, if the pattern does not end in `**`
and there are no newlines in the path. -/
theorem C36_complete_partial (p f l : Str) (hp : Proper p) (hl : (segments p).getLast? = some l)
    (hne : l ≠ c!"**") (hf : f ≠ []) (hn : '\n' ∉ f) (h : Means p f) : fileMatches [p] [] f = true := by
  rw [C36_account p f hf]
  have := means_accepts h l hl hne hp (fun x hx =>
    ⟨segments_mem hx, fun hm => hn ((segments_infix hx).subset hm)⟩)
  rwa [joined_segments, joined_segments] at this

/-- The two differ. -/
example : Means c!"a/**/*.cc" c!"a/b/c/x.cc" :=
  .seg (by decide) (.char (by decide) .nil) (.more (.more (.none (.seg (by decide)
    (.star (u := c!"x") (.char (by decide) (.char (by decide) (.char (by decide) .nil)))) .nil))))
example : fileMatches [c!"a/**/*.cc"] [] c!"a/x.cc" = true := by decide +kernel
example : fileMatches [c!"a/*.cc"] [] c!"a/b/x.cc" = false := by decide +kernel
example : fileMatches [c!"a/*b.cc"] [] c!"a/b.cc" = true := by decide +kernel

/-! ## C69: the files of `glob()` -/

/-- The call `glob([incl..], exclude = [excl..])`. -/
def globCall (incl excl : List Str) : Node :=
  .call (.ident c!"glob") (.list .tuple [.list .list (incl.map fun s => .str s false false),
    .assign (.ident c!"exclude") (.list .list (excl.map fun s => .str s false false))])

theorem walks_strs (g : Elab.GlobFn) (nest : Nat) (vars : Elab.Vars) (l : List Str) :
    Elab.walks g nest vars (l.map fun s => .str s false false) =
      some (l.map fun s => .str s false false, vars) := by
  induction l with
  | nil => rfl
  | cons s l ih => simp [Elab.walks, Elab.walk, ih]

theorem stringList_strs (l : List Str) (hl : [] ∉ l) : Elab.stringList (l.map fun s => .str s false false) = some l := by
  induction l with
  | nil => rfl
  | cons s l ih =>
    simp only [List.mem_cons, not_or] at hl
    have : s ≠ [] := fun e => hl.1 e.symm
    simp [Elab.stringList, ih hl.2, this]

theorem fullyQualified_dot (package : BazelPackage) (ws : Workspace.Map) :
    (package.fullyQualifiedFile ws c!".").getLast? ≠ some '/' := by
  unfold BazelPackage.fullyQualifiedFile BazelPackage.qualifiedFile
  have h : ∀ a b : Str, (a ++ (if b = [] then c!"." else b ++ c!"/.")).getLast? ≠ some '/' := by
    intro a b
    split <;> simp
  exact h _ _

/-- **C69**: in a package whose directory is a tree (finitely many directories, told apart by their
inodes), `glob()` is replaced by the list of those files below the directory of the package that match
an include pattern and no exclude pattern, relative to it, each once. The search ends, and no check
fails. (Files with newlines in their path may be missing.) -/
theorem C69_glob (t : Tree) (package : BazelPackage) (ws : Workspace.Map) (start : Str) (paths : List Str)
    (hs : start = package.fullyQualifiedFile ws c!".") (hn : Named t)
    (hfin : ∀ d, Entered t (fun _ => true) start d → d ∈ paths) (hdist : Distinct t (fun _ => true) start) :
    ∃ g : Elab.GlobFn,
      (∀ incl excl n, paths.length ≤ n → globFiles t start incl excl n = some (some (g incl excl))) ∧
      (∀ incl excl, (g incl excl).Nodup ∧
        (∀ r ∈ g incl excl, Wanted t (fun _ => true) (fun _ => true) start (start ++ '/' :: r) ∧
          Chosen incl excl r) ∧
        (∀ r, Wanted t (fun _ => true) (fun _ => true) start (start ++ '/' :: r) → Chosen incl excl r →
          '\n' ∉ r → r ∈ g incl excl)) ∧
      (∀ incl excl, [] ∉ incl → [] ∉ excl → Elab.elabFile g (globCall incl excl) =
        some (.list .list ((g incl excl).map fun s => .str s false false))) := by
  have hlast : start.getLast? ≠ some '/' := hs ▸ fullyQualified_dot package ws
  have each : ∀ incl excl : List Str, ∃ out : List Str,
      (∀ n, paths.length ≤ n → globFiles t start incl excl n = some (some out)) ∧ out.Nodup ∧
      (∀ r ∈ out, Wanted t (fun _ => true) (fun _ => true) start (start ++ '/' :: r) ∧ Chosen incl excl r) ∧
      (∀ r, Wanted t (fun _ => true) (fun _ => true) start (start ++ '/' :: r) → Chosen incl excl r →
        '\n' ∉ r → r ∈ out) := by
    intro incl excl
    obtain ⟨out, h1, h2, h3⟩ := C33_tree_partial t
      (fun dir => directoryMatches incl (dir.drop (start.length + 1)))
      (fun file => fileMatches incl excl (file.drop (start.length + 1))) start paths hn
      (fun d hd => hfin d (entered_mono hd))
      (fun d₁ e₁ p₁ d₂ e₂ p₂ i a b c d e f g => hdist d₁ e₁ p₁ d₂ e₂ p₂ i (entered_mono a) b c (entered_mono d) e f g)
    have rel : ∀ f ∈ out, ∃ r, f = start ++ '/' :: r ∧ r ≠ [] := fun f hf => file_rel hn hlast ((h3 f).1 hf)
    have drop_rel : ∀ r : Str, (start ++ '/' :: r).drop (start.length + 1) = r := by
      intro r; rw [List.drop_append]; simp
    refine ⟨out.map (·.drop (start.length + 1)), ?_, ?_, ?_, ?_⟩
    · intro n hn'
      have hm : multiGlob t start incl excl n = some out := h1 n hn'
      unfold globFiles
      rw [hm]
      have hall : out.all (fun f => start.length + 1 < f.length) = true := by
        rw [List.all_eq_true]
        intro f hf
        obtain ⟨r, rfl, hr⟩ := rel f hf
        have := List.length_pos_iff.2 hr
        simp only [List.length_append, List.length_cons, decide_eq_true_eq]
        omega
      simp only [Option.map_some, hall, if_true]
    · rw [List.Nodup, List.pairwise_map]
      refine h2.imp_of_mem ?_
      intro a b ha hb hab e
      obtain ⟨r, rfl, _⟩ := rel a ha
      obtain ⟨r', rfl, _⟩ := rel b hb
      rw [drop_rel, drop_rel] at e
      exact hab (by rw [e])
    · intro r hr
      obtain ⟨f, hf, rfl⟩ := List.mem_map.1 hr
      obtain ⟨r, rfl, hne⟩ := rel f hf
      rw [drop_rel]
      obtain ⟨dir, e, w1, w2, w3, w4⟩ := (h3 _).1 hf
      simp only [drop_rel, C35_selection _ _ _ hne] at w4
      exact ⟨⟨dir, e, entered_mono w1, w2, w3, rfl⟩, w4⟩
    · intro r hw hc hnl
      refine List.mem_map.2 ⟨start ++ '/' :: r, (h3 _).2 ?_, drop_rel r⟩
      obtain ⟨r', he, hne⟩ := file_rel hn hlast hw
      have hr : r ≠ [] := by
        have : r = r' := by simpa using he
        rw [this]; exact hne
      obtain ⟨dir, e, w1, w2, w3, _⟩ := hw
      have ⟨⟨p, hp, ha⟩, _⟩ := hc
      refine ⟨dir, e, ?_, w2, w3, ?_⟩
      · have hdir : dir.getLast? ≠ some '/' := by
          rcases entered_rel hn hlast w1 with rfl | ⟨_, _, _, h⟩
          · exact hlast
          · exact h
        exact entered_pruned hn hlast hp ha hnl w1 (in_path w2 hdir)
      · simp only [drop_rel, C35_selection _ _ _ hr]
        exact hc
  refine ⟨fun incl excl => (each incl excl).choose, fun incl excl => (each incl excl).choose_spec.1,
    fun incl excl => (each incl excl).choose_spec.2, ?_⟩
  intro incl excl hi he
  simp only [Elab.elabFile, globCall, Elab.walk, Elab.Vars.find, List.find?_nil, Option.map_none,
    Option.getD_none, Elab.walks, walks_strs, Elab.finishCall, if_true, Elab.handleGlob, Elab.globArgs]
  simp [Elab.castList, Elab.extractStringList, stringList_strs _ hi, stringList_strs _ he]

/-- A package with a directory that has a package of its own: `glob()` does not stop there. -/
def workTree : Tree := listing
  [(c!"p/.", [⟨c!"a.cc", 2, .other⟩, ⟨c!"b.cc", 3, .other⟩, ⟨c!"sub", 4, .dir⟩, ⟨c!"doc", 5, .dir⟩]),
   (c!"p/./sub", [⟨c!"BUILD", 6, .other⟩, ⟨c!"c.cc", 7, .other⟩]),
   (c!"p/./doc", [⟨c!"d.txt", 8, .other⟩])] []

example : globFiles workTree ((⟨[], c!"p"⟩ : BazelPackage).fullyQualifiedFile [] c!".") [c!"**/*.cc"] [c!"b*"] 3 =
    some (some [c!"a.cc", c!"sub/c.cc"]) := by decide +kernel
example : globFiles workTree c!"p/." [c!"*.cc", c!"doc/d.txt", c!"nothing"] [] 3 =
    some (some [c!"a.cc", c!"b.cc", c!"doc/d.txt"]) := by decide +kernel

/-- The assumptions of `C69_glob` are met by it. -/
theorem workTree_meets : Named workTree ∧
    (∀ d, Entered workTree (fun _ => true) c!"p/." d → d ∈ [c!"p/.", c!"p/./sub", c!"p/./doc"]) ∧
    Distinct workTree (fun _ => true) c!"p/." := by
  have only : ∀ d e p i, In workTree d e p → IsDir workTree p e i →
      (p = c!"p/./sub" ∧ i = 4) ∨ (p = c!"p/./doc" ∧ i = 5) := by
    intro d e p i hin hdir
    obtain ⟨⟨es, hl, he⟩, _, rfl⟩ := in_iff.1 hin
    rw [isDir_iff] at hdir
    have := lookup_mem hl
    simp only [List.mem_cons, Prod.mk.injEq, List.not_mem_nil, or_false] at this
    rcases this with ⟨rfl, rfl⟩ | ⟨rfl, rfl⟩ | ⟨rfl, rfl⟩ <;>
      simp only [List.mem_cons, List.not_mem_nil, or_false] at he
    · rcases he with rfl | rfl | rfl | rfl
      · exact absurd hdir (by simp [directoryInode])
      · exact absurd hdir (by simp [directoryInode])
      · cases hdir; exact .inl ⟨rfl, rfl⟩
      · cases hdir; exact .inr ⟨rfl, rfl⟩
    · rcases he with rfl | rfl <;> exact absurd hdir (by simp [directoryInode])
    · subst he; exact absurd hdir (by simp [directoryInode])
  refine ⟨?_, ?_, ?_⟩
  · intro d es hl
    have := lookup_mem hl
    simp only [List.mem_cons, Prod.mk.injEq, List.not_mem_nil, or_false] at this
    rcases this with ⟨rfl, rfl⟩ | ⟨rfl, rfl⟩ | ⟨rfl, rfl⟩ <;> decide
  · intro d hd
    cases hd with
    | start => simp
    | sub _ h1 h2 _ => rcases only _ _ _ _ h1 h2 with ⟨rfl, _⟩ | ⟨rfl, _⟩ <;> simp
  · intro d₁ e₁ p₁ d₂ e₂ p₂ i _ h1 h2 _ h3 h4 _
    rcases only _ _ _ _ h1 h2 with ⟨rfl, h⟩ | ⟨rfl, h⟩ <;>
      rcases only _ _ _ _ h3 h4 with ⟨rfl, h'⟩ | ⟨rfl, h'⟩ <;> first | rfl | omega

example : ∃ g : Elab.GlobFn, (∀ incl excl, globFiles workTree c!"p/." incl excl 3 = some (some (g incl excl))) ∧
    Elab.elabFile g (globCall [c!"**/*.cc"] [c!"b*"]) =
      some (.list .list [.str c!"a.cc" false false, .str c!"sub/c.cc" false false]) := by
  obtain ⟨h1, h2, h3⟩ := workTree_meets
  obtain ⟨g, h4, _, h5⟩ := C69_glob workTree ⟨[], c!"p"⟩ [] c!"p/." _ (by decide) h1 h2 h3
  refine ⟨g, fun i e => h4 i e 3 (by decide), ?_⟩
  have e : globFiles workTree c!"p/." [c!"**/*.cc"] [c!"b*"] 3 = some (some [c!"a.cc", c!"sub/c.cc"]) := by
    decide +kernel
  rw [h4 _ _ 3 (by decide)] at e
  have : g [c!"**/*.cc"] [c!"b*"] = [c!"a.cc", c!"sub/c.cc"] := by simpa using e
  rw [h5 _ _ (by simp) (by simp), this]
  rfl

/-- It is that call. -/
example : outcome c!"glob([\"**/*.cc\"], exclude = [\"b*\"])" =
    some (.list .list [globCall [c!"**/*.cc"] [c!"b*"]], []) := by decide +kernel

end Props
end Bant
