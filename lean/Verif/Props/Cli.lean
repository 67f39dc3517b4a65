import Verif.Lemmas.CliOptions

/-! # The command line (C43, C44, C70-C74) -/
namespace Bant
namespace Props
open Cli CliSpec

/-- What `RunCommand` does. -/
abbrev Runner := List Str → Flags → Command → BazelPattern → Option Ran

/-- The arguments that are not options. -/
abbrev words (args : List Str) : List Str := (getopt optstring args).2

abbrev opts (args : List Str) : List Opt := (getopt optstring args).1

theorem main_go {env : Env} {run : Runner} {args : List Str} {s : Setup}
    (h : options env {} (opts args) = .go s) :
    main env run args =
      match choose (words args) with
      | .stop status message =>
        some { status := status
               err := (if s.quiet then [] else message) ++
                 (if status = 2 then (if s.quiet then [] else c!"\n\n") ++ env.help else [])
               outFile := s.out, truncated := s.truncated }
      | .run cmd pattern =>
        (run s.cd (finishGrep s) cmd pattern).map fun r =>
          { status := r.status, out := r.out, outFile := s.out
            err := (if s.quiet then [] else r.err) ++
              (if r.status = 2 then (if s.quiet then [] else c!"\n\n") ++ env.help else [])
            truncated := s.truncated, ran := some (finishGrep s, cmd, pattern) } := by
  unfold main
  simp only [h]
  rfl

/-! ## C43: unique prefixes -/

/-- Patterns that are written never match everything, whatever their project. -/
theorem parse_not_matchall {p : Str} {pat : BazelPattern} (h : BazelPattern.parse globCompile p = some pat) :
    pat.isMatchall = false := by
  unfold BazelPattern.parse BazelPattern.parseFrom at h
  cases hp : BazelTarget.parseFrom p ⟨[], []⟩ with
  | none => simp [hp] at h
  | some t =>
    simp only [hp] at h
    repeat' split at h
    all_goals first
      | (cases h; rfl)
      | cases h

/-- **C43**: a word that is a prefix of exactly one command stands for it: that command is run, with the
pattern if there is one, with the flags that are set by the options; status and output are those of the command. -/
theorem C43_unique {env : Env} {run : Runner} {args : List Str} {s : Setup}
    (hs : options env {} (opts args) = .go s) {w : Str} {cmd : Command} (hw : StandsFor commands w cmd) :
    (∀ p pat, words args = [w, p] → BazelPattern.parse globCompile p = some pat →
      ∃ flags, (main env run args).map (fun r => (r.ran, r.status, r.out)) =
        (run s.cd flags cmd pat).map fun r => (some (flags, cmd, pat), r.status, r.out)) ∧
    (words args = [w] → cmd ∉ [.dwyu, .canonicalizeDeps, .print] →
      ∃ flags, (main env run args).map (fun r => (r.ran, r.status, r.out)) =
        (run s.cd flags cmd .always).map fun r => (some (flags, cmd, .always), r.status, r.out)) := by
  have hf := (find_command w cmd).2 hw
  constructor
  · intro p pat hargs hp
    have hc : choose (words args) = .run cmd pat := by
      rw [hargs]
      simp [choose, hf, withPattern, hp, checked, parse_not_matchall hp]
    rw [main_go hs, hc]
    refine ⟨finishGrep s, ?_⟩
    simp [Function.comp_def]
  · intro hargs hn
    have hc : choose (words args) = .run cmd .always := by
      rw [hargs]
      simp only [List.mem_cons, List.not_mem_nil, or_false, not_or] at hn
      simp [choose, hf, withPattern, checked, needsPattern, hn]
    rw [main_go hs, hc]
    refine ⟨finishGrep s, ?_⟩
    simp [Function.comp_def]

/-- **C43**: it does not matter whether a prefix or the name is written. -/
theorem C43_prefix (w name : Str) (args : List Str) {cmd : Command} (hw : StandsFor commands w cmd)
    (hn : (name, cmd) ∈ commands) : choose (w :: args) = choose (name :: args) := by
  have h2 : ∀ e ∈ commands, StandsFor commands e.1 e.2 := by
    have : ∀ e ∈ commands, ∀ f ∈ commands, e.1.isPrefixOf f.1 = true → f.1 = e.1 := by decide +kernel
    intro e he
    exact ⟨e.1, he, List.prefix_rfl, fun f hf hp => this e he f hf (List.isPrefixOf_iff_prefix.2 hp)⟩
  simp only [choose, (find_command _ _).2 hw, (find_command _ _).2 (h2 _ hn)]

/-- **C43**: a word that is a prefix of several commands or of none: nothing is run, nothing is written, and the
status is failure. -/
theorem C43_otherwise {env : Env} {run : Runner} {args : List Str} {s : Setup}
    (hs : options env {} (opts args) = .go s) {w : Str} {rest : List Str} (hargs : words args = w :: rest)
    (hw : ¬ ∃ cmd, StandsFor commands w cmd) :
    ∃ r, main env run args = some r ∧ r.ran = none ∧ r.out = [] ∧ r.status = 2 := by
  have hc : ∃ m, choose (words args) = .stop 2 m := by
    rw [hargs]
    simp only [choose]
    cases h : findUnique commandNames w with
    | one cmd => exact absurd ⟨cmd, (find_command w cmd).1 h⟩ hw
    | several a b => exact ⟨_, rfl⟩
    | nothing => exact ⟨_, rfl⟩
  obtain ⟨m, hc⟩ := hc
  rw [main_go hs, hc]
  exact ⟨_, rfl, rfl, rfl, rfl⟩

/-- Non-vacuity: `pri` is `print`, `p` is ambiguous, `x` unknown; the empty word is a prefix of all. -/
example : (choose [c!"pri", c!"//..."] matches .run .print _) = true ∧
    (choose [c!"p", c!"//..."] matches .stop 2 _) = true ∧ (choose [c!"x"] matches .stop 2 _) = true ∧
    (choose [c!""] matches .stop 2 _) = true ∧ (choose [c!"compil"] matches .stop 2 _) = true ∧
    (choose [c!"compila"] matches .run .compilationDB _) = true ∧ (choose [] matches .stop 2 _) = true := by
  decide +kernel

example : StandsFor commands c!"pri" .print ∧ ¬ ∃ cmd, StandsFor commands c!"p" cmd := by
  refine ⟨(find_command _ _).1 (by decide +kernel), ?_⟩
  rintro ⟨cmd, h⟩
  have := (find_command _ _).2 h
  revert this
  cases cmd <;> decide +kernel

/-! ## C44: commands that need a pattern -/

/-- **C44**: if `dwyu`, `canonicalize` or `print` are run, then a pattern has been written, and that is the pattern
they run with; it does not match everything that is known. -/
theorem C44_pattern {env : Env} {run : Runner} {args : List Str} {r : Outcome} (hr : main env run args = some r)
    {flags : Flags} {cmd : Command} {pat : BazelPattern} (hran : r.ran = some (flags, cmd, pat))
    (hcmd : cmd ∈ [.dwyu, .canonicalizeDeps, .print]) :
    ∃ w p, words args = [w, p] ∧ StandsFor commands w cmd ∧ BazelPattern.parse globCompile p = some pat ∧
      pat.isMatchall = false := by
  cases hs : options env {} (opts args) with
  | undefined => simp [main, hs] at hr
  | exit s st e =>
    simp only [main, hs, Option.some.injEq] at hr
    rw [← hr] at hran
    cases hran
  | go s =>
    rw [main_go hs] at hr
    cases hc : choose (words args) with
    | stop st m =>
      rw [hc] at hr
      cases hr
      cases hran
    | run cmd' pat' =>
      rw [hc] at hr
      obtain ⟨r', _, rfl⟩ := Option.map_eq_some_iff.1 hr
      simp only [Option.some.injEq, Prod.mk.injEq] at hran
      obtain ⟨_, rfl, rfl⟩ := hran
      cases hw : words args with
      | nil => simp [hw, choose] at hc
      | cons w rest =>
        rw [hw] at hc
        simp only [choose] at hc
        cases hf : findUnique commandNames w with
        | several a b => simp [hf] at hc
        | nothing => simp [hf] at hc
        | one c =>
          simp only [hf] at hc
          cases rest with
          | nil =>
            simp only [withPattern, checked] at hc
            split at hc
            · cases hc
            · rename_i hn
              cases hc
              simp only [List.mem_cons, List.not_mem_nil, or_false] at hcmd
              rcases hcmd with rfl | rfl | rfl <;> exact absurd rfl hn
          | cons p rest =>
            simp only [withPattern] at hc
            cases hp : BazelPattern.parse globCompile p with
            | none => simp [hp] at hc
            | some pat =>
              simp only [hp] at hc
              cases rest with
              | cons q rest => simp at hc
              | nil =>
                simp only [checked] at hc
                split at hc
                · cases hc
                · cases hc
                  exact ⟨w, p, rfl, (find_command _ _).1 hf, hp, parse_not_matchall hp⟩

/-- **C44**: without a pattern these commands end with a failure and write nothing; so do all commands if
the pattern is malformed, and if there is more than one. -/
theorem C44_stops {env : Env} {run : Runner} {args : List Str} {s : Setup}
    (hs : options env {} (opts args) = .go s) {w : Str} {rest : List Str} (hargs : words args = w :: rest)
    {cmd : Command} (hw : StandsFor commands w cmd)
    (h : (rest = [] ∧ cmd ∈ [.dwyu, .canonicalizeDeps, .print]) ∨
      (∃ p more, rest = p :: more ∧ (BazelPattern.parse globCompile p = none ∨ more ≠ []))) :
    ∃ r, main env run args = some r ∧ r.ran = none ∧ r.out = [] ∧ r.status = 1 := by
  have hf := (find_command w cmd).2 hw
  have hc : ∃ m, choose (words args) = .stop 1 m := by
    rw [hargs]
    simp only [choose, hf]
    rcases h with ⟨rfl, hcmd⟩ | ⟨p, more, rfl, h⟩
    · simp only [List.mem_cons, List.not_mem_nil, or_false] at hcmd
      rcases hcmd with rfl | rfl | rfl <;> exact ⟨_, rfl⟩
    · simp only [withPattern]
      cases hp : BazelPattern.parse globCompile p with
      | none => exact ⟨_, rfl⟩
      | some pat =>
        rcases h with h | h
        · rw [hp] at h; cases h
        · cases more with
          | nil => exact absurd rfl h
          | cons q more => exact ⟨_, rfl⟩
  obtain ⟨m, hc⟩ := hc
  rw [main_go hs, hc]
  exact ⟨_, rfl, rfl, rfl, rfl⟩

/-- Non-vacuity: with a pattern they are run; a malformed one, two of them. -/
example : (choose [c!"dwyu", c!"//foo:bar"] matches .run .dwyu _) = true ∧
    (choose [c!"dwyu"] matches .stop 1 _) = true ∧ (choose [c!"parse"] matches .run .parse _) = true ∧
    (choose [c!"parse", c!"//foo:..."] matches .stop 1 _) = true ∧
    (choose [c!"dwyu", c!"//a", c!"//b"] matches .stop 1 _) = true := by decide +kernel

/-! ## C70: exit status -/

/-- **C70**, full statement: if the exit status is 0, then a command has been run, or a text was asked for
with `-h` or `-V`. -/
def C70_statement : Prop :=
  ∀ (env : Env) (run : Runner) (args : List Str) (r : Outcome), main env run args = some r → r.status = 0 →
    r.ran ≠ none ∨ ∃ o ∈ opts args, asksForText o = true

/-- An option that is not known: the help is printed, and the status is 0, as if `dwyu` had found nothing. -/
theorem C70_counterexample : ¬ C70_statement := by
  intro h
  have := h ⟨fun _ => true, fun _ _ => true, c!"help", c!"version"⟩ (fun _ _ _ _ => some ⟨3, c!"edits", []⟩)
    [c!"-x", c!"dwyu", c!"//..."] { status := 0, err := c!"help" } (by rfl) rfl
  revert this
  simp only [ne_eq, not_true_eq_false, false_or]
  decide +kernel

theorem options_exit_zero {env : Env} {s s' : Setup} {os : List Opt} {e : Str} (ho : ∀ o ∈ os, WellFormed optstring o)
    (h : options env s os = .exit s' 0 e) : ∃ o ∈ os, asksForText o = true ∨ unknown o = true := by
  induction os generalizing s with
  | nil => cases h
  | cons o os ih =>
    rw [options] at h
    cases hs : option env s o with
    | undefined => simp [hs] at h
    | exit s1 st e1 =>
      rw [hs] at h
      cases h
      have hx := (option_exit (ho o (by simp)) hs).2
      rcases hx with hx | hx
      · exact ⟨o, by simp, hx.2⟩
      · exact absurd hx.1 (by decide)
    | go s1 =>
      rw [hs] at h
      obtain ⟨o', h1, h2⟩ := ih (fun o ho' => ho o (by simp [ho'])) h
      exact ⟨o', by simp [h1], h2⟩

theorem choose_status {args : List Str} {st : Nat} {m : Str} (h : choose args = .stop st m) :
    (st = 1 ∨ st = 2) ∧ m ≠ [] := by
  cases args with
  | nil => cases h; simp
  | cons w rest =>
    simp only [choose] at h
    split at h
    · cases h; simp
    · cases h; simp
    · cases rest with
      | nil =>
        simp only [withPattern, checked] at h
        split at h <;> cases h
        simp
      | cons p rest =>
        simp only [withPattern] at h
        split at h
        · cases h; simp
        · split at h
          · simp only [checked] at h
            split at h <;> cases h
            simp
          · cases h; simp

/-- **C70**: holds if all options are known. -/
theorem C70_status_partial {env : Env} {run : Runner} {args : List Str} {r : Outcome}
    (hknown : ∀ o ∈ opts args, unknown o = false) (hr : main env run args = some r) (h0 : r.status = 0) :
    r.ran ≠ none ∨ ∃ o ∈ opts args, asksForText o = true := by
  cases hs : options env {} (opts args) with
  | undefined => simp [main, hs] at hr
  | exit s st e =>
    simp only [main, hs, Option.some.injEq] at hr
    rw [← hr] at h0
    simp only at h0
    subst h0
    obtain ⟨o, h1, h2⟩ := options_exit_zero (fun o ho => getopt_wellFormed _ _ o ho) hs
    rcases h2 with h2 | h2
    · exact .inr ⟨o, h1, h2⟩
    · rw [hknown o h1] at h2; cases h2
  | go s =>
    rw [main_go hs] at hr
    cases hc : choose (words args) with
    | stop st m =>
      rw [hc] at hr
      cases hr
      rcases (choose_status hc).1 with h | h <;> simp [h] at h0
    | run cmd' pat' =>
      rw [hc] at hr
      obtain ⟨r', _, rfl⟩ := Option.map_eq_some_iff.1 hr
      exact .inl (by simp)

/-- **C70**: if a command has been run, the exit status is what it returned. -/
theorem C70_command {env : Env} {run : Runner} {args : List Str} {r : Outcome} (hr : main env run args = some r)
    {flags : Flags} {cmd : Command} {pat : BazelPattern} (hran : r.ran = some (flags, cmd, pat)) :
    ∃ cd res, run cd flags cmd pat = some res ∧ r.status = res.status ∧ r.out = res.out := by
  cases hs : options env {} (opts args) with
  | undefined => simp [main, hs] at hr
  | exit s st e =>
    simp only [main, hs, Option.some.injEq] at hr
    rw [← hr] at hran
    cases hran
  | go s =>
    rw [main_go hs] at hr
    cases hc : choose (words args) with
    | stop st m =>
      rw [hc] at hr
      cases hr
      cases hran
    | run cmd' pat' =>
      rw [hc] at hr
      obtain ⟨r', h1, rfl⟩ := Option.map_eq_some_iff.1 hr
      simp only [Option.some.injEq, Prod.mk.injEq] at hran
      obtain ⟨rfl, rfl, rfl⟩ := hran
      exact ⟨_, _, h1, rfl, rfl⟩

/-- **C70**: there is no outcome only if the number of a `-r` does not fit into an `int`, or if the command has none. -/
theorem C70_defined {env : Env} {run : Runner} {args : List Str} (h : main env run args = none) :
    (∃ n, .opt 'r' (some n) ∈ opts args ∧ atoi n = none) ∨ ∃ cd flags cmd pat, run cd flags cmd pat = none := by
  cases hs : options env {} (opts args) with
  | undefined => exact .inl (options_undefined (fun o ho => getopt_wellFormed _ _ o ho) hs)
  | exit s st e => simp [main, hs] at h
  | go s =>
    rw [main_go hs] at h
    cases hc : choose (words args) with
    | stop st m => rw [hc] at h; cases h
    | run cmd pat =>
      rw [hc] at h
      exact .inr ⟨_, _, _, _, Option.map_eq_none_iff.1 h⟩

/-- Non-vacuity: a command that is run and succeeds, one that fails; help. -/
example :
    let env : Env := ⟨fun _ => true, fun _ _ => true, c!"help", c!"version"⟩
    (main env (fun _ _ _ _ => some ⟨0, c!"out", []⟩) [c!"parse"]).map (fun r => (r.status, r.out, r.ran.isSome)) =
      some (0, c!"out", true) ∧
    (main env (fun _ _ _ _ => some ⟨3, c!"out", []⟩) [c!"dwyu", c!"//..."]).map (fun r => (r.status, r.ran.isSome)) =
      some (3, true) ∧
    (main env (fun _ _ _ _ => some ⟨3, [], []⟩) [c!"-h", c!"dwyu"]).map (fun r => (r.status, r.err, r.ran.isSome)) =
      some (0, c!"help", false) := by
  decide +kernel

/-! ## C71: options -/

/-- Everything can be opened. -/
def open_ (env : Env) : Prop := (∀ d, env.canEnter d = true) ∧ ∀ d f, env.canWrite d f = true

/-- **C71**, full statement: the options in the help are accepted: the command is run. -/
def C71_statement : Prop :=
  ∀ (env : Env) (run : Runner), open_ env → (∀ cd fl cmd p, run cd fl cmd p ≠ none) → ∀ o ∈ documented,
    ∀ r, main env run (o ++ [c!"print", c!"//..."]) = some r → r.ran ≠ none

/-- `-E` is in the help and in the `switch`, not in the text given to `getopt`: the help is printed. -/
theorem C71_counterexample : ¬ C71_statement := by
  intro h
  have := h ⟨fun _ => true, fun _ _ => true, c!"help", c!"version"⟩ (fun _ _ _ _ => some ⟨0, [], []⟩)
    ⟨fun _ => rfl, fun _ _ => rfl⟩ (by simp) [c!"-E"] (by decide +kernel) { status := 0, err := c!"help" } (by rfl)
  exact this rfl

/-- Options of the help that take no argument, those that take one, and `-r`; without `-E` and `-h`. -/
def helpOptions : Str := c!"C:qo:f:r::veg:ik"

/-- **C71**: all other options of the help are accepted, in any number and order, as one word or several, before
and after the command, with any argument (for `-f`: that begins the name of a format; for `-r`: a number that fits);
the words that are left are those that are neither options nor their arguments. -/
theorem C71_accepted_partial {env : Env} (henv : open_ env) {args : List Str}
    (hk : Opt.bad ∉ (getopt helpOptions args).1)
    (hf : ∀ w, .opt 'f' (some w) ∈ (getopt helpOptions args).1 → ∃ e ∈ formats, w <+: e.1)
    (hr : ∀ n, .opt 'r' (some n) ∈ (getopt helpOptions args).1 → atoi n ≠ none) :
    opts args = (getopt helpOptions args).1 ∧ words args = (getopt helpOptions args).2 ∧
      ∃ s, options env {} (opts args) = .go s := by
  have hg : getopt optstring args = getopt helpOptions args := by
    apply getopt_congr _ hk
    intro c k h
    have hm := takes_mem h
    simp only [helpOptions, List.mem_cons, List.not_mem_nil, or_false] at hm
    rw [← h]
    rcases hm with rfl | rfl | rfl | rfl | rfl | rfl | rfl | rfl | rfl | rfl | rfl | rfl | rfl | rfl | rfl | rfl <;>
      decide
  refine ⟨by rw [opts, hg], by rw [words, hg], ?_⟩
  rw [opts, hg]
  have hw : ∀ o ∈ (getopt helpOptions args).1, WellFormed helpOptions o := getopt_wellFormed _ _
  generalize (getopt helpOptions args).1 = os at hk hf hr hw
  generalize ({} : Setup) = s0
  induction os generalizing s0 with
  | nil => exact ⟨s0, rfl⟩
  | cons o os ih =>
    obtain ⟨s1, h1⟩ : ∃ s1, option env s0 o = .go s1 := by
      cases o with
      | bad => simp at hk
      | opt c arg =>
        obtain ⟨k, hck, hka⟩ := hw (.opt c arg) (by simp)
        have hm := takes_mem hck
        simp only [helpOptions, List.mem_cons, List.not_mem_nil, or_false] at hm
        have hcolon : takes helpOptions ':' = none := by decide
        have hC : takes helpOptions 'C' = some .argument := by decide
        have ho : takes helpOptions 'o' = some .argument := by decide
        have hff : takes helpOptions 'f' = some .argument := by decide
        have hgg : takes helpOptions 'g' = some .argument := by decide
        rcases hm with rfl | rfl | rfl | rfl | rfl | rfl | rfl | rfl | rfl | rfl | rfl | rfl | rfl | rfl | rfl | rfl
        · rw [hC] at hck
          cases hck
          cases arg with
          | none => simp at hka
          | some a => exact ⟨_, by simp [option, henv.1]; rfl⟩
        · rw [hcolon] at hck; cases hck
        · exact ⟨_, rfl⟩
        · rw [ho] at hck
          cases hck
          cases arg with
          | none => simp at hka
          | some a =>
            by_cases ha : a = c!"-"
            · exact ⟨_, by simp [option, ha]; rfl⟩
            · exact ⟨_, by simp [option, henv.2, ha]; rfl⟩
        · rw [hcolon] at hck; cases hck
        · rw [hff] at hck
          cases hck
          cases arg with
          | none => simp at hka
          | some a =>
            obtain ⟨e, he, hp⟩ := hf a (by simp)
            obtain ⟨f, hfind⟩ := findFormat_some ⟨e, he, hp⟩
            exact ⟨_, by simp [option, hfind]; rfl⟩
        · rw [hcolon] at hck; cases hck
        · cases arg with
          | none => exact ⟨_, rfl⟩
          | some n =>
            cases hn : atoi n with
            | none => exact absurd hn (hr n (by simp))
            | some d => exact ⟨_, by simp [option, hn]; rfl⟩
        · rw [hcolon] at hck; cases hck
        · rw [hcolon] at hck; cases hck
        · exact ⟨_, rfl⟩
        · exact ⟨_, rfl⟩
        · rw [hgg] at hck
          cases hck
          cases arg with
          | none => simp at hka
          | some a => exact ⟨_, rfl⟩
        · rw [hcolon] at hck; cases hck
        · exact ⟨_, rfl⟩
        · exact ⟨_, rfl⟩
    obtain ⟨s2, h2⟩ := ih (fun h => hk (by simp [h])) (fun w h => hf w (by simp [h])) (fun n h => hr n (by simp [h]))
      (fun o h => hw o (by simp [h])) s1
    exact ⟨s2, by rw [options, h1]; exact h2⟩

/-- **C71**: what a command is run with is what the options say: switches are set if the option is there,
`-v` counts, and of options with an argument the last one is used. -/
theorem C71_effects {env : Env} {run : Runner} {args : List Str} {r : Outcome} (hr : main env run args = some r)
    {flags : Flags} {cmd : Command} {pat : BazelPattern} (hran : r.ran = some (flags, cmd, pat)) :
    flags.elaborate = (opts args).any (fun o => is 'e' o || is 'b' o) ∧
    flags.ignoreKeep = (opts args).any (is 'k') ∧ flags.printAst = (opts args).any (is 'p') ∧
    flags.verbose = (opts args).countP (is 'v') ∧
    flags.onlyErrors = false ∧
    some flags.depth = (match last 'r' (opts args) with
      | none => some 0
      | some o => depthOf (argOf o)) ∧
    (match last 'f' (opts args) with
      | none => flags.format = .native
      | some o => ∃ w, argOf o = some w ∧ (w ≠ [] → StandsFor formats w flags.format)) ∧
    r.outFile = (match last 'o' (opts args) with
      | none => none
      | some o => (argOf o).filter (· ≠ c!"-")) ∧
    (flags.grep = match last 'g' (opts args) with
      | none => []
      | some o => match argOf o with
        | none => []
        | some [] => []
        | some re => c!"(" ++ (if (opts args).any (is 'i') then c!"(?i)" else []) ++ re ++ c!")") := by
  cases hs : options env {} (opts args) with
  | undefined => simp [main, hs] at hr
  | exit s st e =>
    simp only [main, hs, Option.some.injEq] at hr
    rw [← hr] at hran
    cases hran
  | go s =>
    have e := options_effects hs
    rw [main_go hs] at hr
    cases hc : choose (words args) with
    | stop st m =>
      rw [hc] at hr
      cases hr
      cases hran
    | run cmd' pat' =>
      rw [hc] at hr
      obtain ⟨r', h1, rfl⟩ := Option.map_eq_some_iff.1 hr
      simp only [Option.some.injEq, Prod.mk.injEq] at hran
      obtain ⟨rfl, rfl, rfl⟩ := hran
      have hE : (opts args).any (is 'E') = false := by
        rw [List.any_eq_false]
        intro o ho
        have := getopt_wellFormed optstring args o ho
        cases o with
        | bad => simp [is]
        | opt c arg =>
          obtain ⟨k, hk, _⟩ := this
          have hm := takes_mem hk
          simp only [is, decide_eq_true_eq]
          rintro rfl
          revert hm
          decide
      have hg := e.grep
      have hd := e.depth
      have hf := e.format
      have ho := e.out
      rw [foldl_last] at hg hd hf ho
      have hflags : (finishGrep s).elaborate = s.flags.elaborate ∧ (finishGrep s).ignoreKeep = s.flags.ignoreKeep ∧
          (finishGrep s).printAst = s.flags.printAst ∧ (finishGrep s).verbose = s.flags.verbose ∧
          (finishGrep s).onlyErrors = s.flags.onlyErrors ∧ (finishGrep s).depth = s.flags.depth ∧
          (finishGrep s).format = s.flags.format := by
        unfold finishGrep
        split <;> simp
      obtain ⟨f1, f2, f3, f4, f5, f6, f7⟩ := hflags
      refine ⟨?_, ?_, ?_, ?_, ?_, ?_, ?_, ?_, ?_⟩
      · rw [f1, e.elaborate]; simp
      · rw [f2, e.ignoreKeep]; simp
      · rw [f3, e.printAst]; simp
      · rw [f4, e.verbose]; simp
      · rw [f5, e.onlyErrors, hE]; rfl
      · rw [f6, hd]; cases last 'r' (opts args) <;> rfl
      · rw [f7]
        cases hl : last 'f' (opts args) with
        | none => rw [hl] at hf; simpa using hf
        | some o =>
          rw [hl] at hf
          obtain ⟨w, h2, h3⟩ := Option.bind_eq_some_iff.1 hf.symm
          exact ⟨w, h2, fun hw => (findFormat_standsFor hw _).1 h3⟩
      · simp only [ho]; cases last 'o' (opts args) <;> rfl
      · have hi : s.insensitive = (opts args).any (is 'i') := by rw [e.insensitive]; simp
        have hfin : (finishGrep s).grep = if s.flags.grep = [] then [] else
            c!"(" ++ (if (opts args).any (is 'i') then c!"(?i)" else []) ++ s.flags.grep ++ c!")" := by
          unfold finishGrep
          rw [hi]
          by_cases h0 : s.flags.grep = []
          · simp [h0]
          · simp only [if_neg h0]
            split <;> simp
        rw [hfin, hg]
        cases last 'g' (opts args) with
        | none => rfl
        | some o =>
          cases ha : argOf o with
          | none => simp [ha]
          | some re => cases re <;> simp [ha]

/-- **C71**: `-rN` follows `N` levels, for all `N` that fit into an `int`; `-r` all levels that there can be, and
`-r0` is as if it were not there. -/
theorem C71_depth (n : Nat) (hn : (n : Int) ≤ 2147483647) (args : List Str) :
    getopt optstring ((c!"-r" ++ decimal n) :: args) =
      (.opt 'r' (some (decimal n)) :: opts args, words args) ∧
    depthOf (some (decimal n)) = some (n : Int) ∧ depthOf none = some 2147483647 ∧
    ∀ env s, option env s (.opt 'r' (some (decimal 0))) = .go { s with flags := { s.flags with depth := 0 } } := by
  have ha : atoi (decimal n) = some (n : Int) := atoi_decimal n hn
  refine ⟨?_, ha, rfl, ?_⟩
  · have hne := decimal_ne_nil n
    rw [getopt.eq_def]
    have h1 : c!"-r" ++ decimal n ≠ c!"--" := by simp
    have h2 : (c!"-r" ++ decimal n).head? = some '-' ∧ c!"-r" ++ decimal n ≠ c!"-" := by simp
    simp only [h1, if_false, h2]
    have : cluster optstring ((c!"-r" ++ decimal n).drop 1) = ([.opt 'r' (some (decimal n))], none) := by
      simp only [List.cons_append, List.nil_append, List.drop_succ_cons, List.drop_zero, cluster]
      rw [show takes optstring 'r' = some .maybeArgument by decide]
      simp [hne]
    rw [this]
    rfl
  · intro env s
    have : atoi (decimal 0) = some 0 := by decide +kernel
    simp [option, this]

theorem leadingNumber_stop (n : Nat) (s rest : Str) (hs : ∀ c ∈ s, '0' ≤ c ∧ c ≤ '9')
    (hr : ∀ c, rest.head? = some c → ¬ ('0' ≤ c ∧ c ≤ '9')) : leadingNumber n (s ++ rest) = leadingNumber n s := by
  induction s generalizing n with
  | nil =>
    cases rest with
    | nil => rfl
    | cons c rest => simp only [List.nil_append, leadingNumber, if_neg (hr c rfl)]
  | cons c s ih =>
    simp only [List.cons_append, leadingNumber]
    rw [if_pos (hs c (by simp)), if_pos (hs c (by simp))]
    exact ih _ (fun c hc => hs c (by simp [hc]))

/-- **C71**: how the number of `-r` is read: blanks, a sign, digits; what follows does not matter. A text without
digits is zero. If the number does not fit into an `int`, the behaviour is undefined. -/
theorem C71_number (blanks rest : Str) (n : Nat) (hb : ∀ c ∈ blanks, c ∈ c!" \t\n\x0b\x0c\r")
    (hr : ∀ c, rest.head? = some c → ¬ ('0' ≤ c ∧ c ≤ '9')) :
    depthOf (some (blanks ++ decimal n ++ rest)) = (if (n : Int) ≤ 2147483647 then some (n : Int) else none) ∧
    depthOf (some (blanks ++ '+' :: decimal n ++ rest)) = (if (n : Int) ≤ 2147483647 then some (n : Int) else none) ∧
    depthOf (some (blanks ++ '-' :: decimal n ++ rest)) = (if (n : Int) ≤ 2147483648 then some (-n : Int) else none) ∧
    (rest.head? ≠ some '-' → rest.head? ≠ some '+' → (∀ c, rest.head? = some c → c ∉ c!" \t\n\x0b\x0c\r") →
      depthOf (some (blanks ++ rest)) = some 0) := by
  have hat : ∀ (t : Str) (v : Int), (∀ c, t.head? = some c → Cli.isSpace c = false) →
      (match t with
        | '-' :: t => -(leadingNumber 0 t : Int)
        | '+' :: t => leadingNumber 0 t
        | t => leadingNumber 0 t) = v →
      depthOf (some (blanks ++ t)) = if -2147483648 ≤ v ∧ v ≤ 2147483647 then some v else none := by
    intro t v ht hv
    have hskip : (blanks ++ t).dropWhile Cli.isSpace = t := by
      rw [List.dropWhile_append_of_pos]
      · cases t with
        | nil => rfl
        | cons c t => rw [List.dropWhile_cons, ht c rfl]; rfl
      · intro c hc
        have hall : ∀ c ∈ c!" \t\n\x0b\x0c\r", Cli.isSpace c = true := by decide
        exact hall c (hb c hc)
    show atoi (blanks ++ t) = _
    unfold atoi
    rw [hskip]
    subst hv
    rfl
  have hval : leadingNumber 0 (decimal n ++ rest) = n := by
    rw [leadingNumber_stop 0 _ _ (decimal_digits n) hr, decimal_value]
  refine ⟨?_, ?_, ?_, ?_⟩
  · have hd := decimal_digits n
    have hne := decimal_ne_nil n
    rw [List.append_assoc, hat (decimal n ++ rest) n]
    · by_cases h : (n : Int) ≤ 2147483647
      · rw [if_pos h, if_pos ⟨by omega, h⟩]
      · rw [if_neg h, if_neg fun hx => h hx.2]
    · intro c hc
      cases hx : decimal n with
      | nil => exact absurd hx hne
      | cons d ds =>
        rw [hx] at hd hc
        have hc : d = c := Option.some.inj hc
        subst hc
        have h1 : 48 ≤ d.toNat := (hd d (by simp)).1
        have : d ≠ ' ' := by rintro rfl; revert h1; decide
        simp only [Cli.isSpace, this, decide_false, Bool.false_or, Bool.and_eq_false_iff, decide_eq_false_iff_not]
        right; omega
    · cases hx : decimal n with
      | nil => exact absurd hx hne
      | cons d ds =>
        rw [hx] at hd hval
        have h1 : 48 ≤ d.toNat := (hd d (by simp)).1
        simp only [List.cons_append] at hval ⊢
        split
        · rename_i h; cases h; exact absurd h1 (by decide)
        · rename_i h; cases h; exact absurd h1 (by decide)
        · rw [hval]
  · rw [List.append_assoc, List.cons_append, hat _ n (by rintro x hx; cases hx; decide) (by simp only [hval])]
    by_cases h : (n : Int) ≤ 2147483647
    · rw [if_pos h, if_pos ⟨by omega, h⟩]
    · rw [if_neg h, if_neg fun hx => h hx.2]
  · rw [List.append_assoc, List.cons_append, hat _ (-n) (by rintro x hx; cases hx; decide) (by simp only [hval])]
    by_cases h : (n : Int) ≤ 2147483648
    · rw [if_pos h, if_pos ⟨by omega, by omega⟩]
    · rw [if_neg h, if_neg fun hx => h (by omega)]
  · intro h1 h2 h3
    have hsp : ∀ c, Cli.isSpace c = true → c ∈ c!" \t\n\x0b\x0c\r" := by
      intro c hc
      simp only [Cli.isSpace, Bool.or_eq_true, decide_eq_true_eq, Bool.and_eq_true] at hc
      rcases hc with rfl | hc
      · decide
      · have : c.toNat = 9 ∨ c.toNat = 10 ∨ c.toNat = 11 ∨ c.toNat = 12 ∨ c.toNat = 13 := by omega
        have hof : c = Char.ofNat c.toNat := (Char.ofNat_toNat c).symm
        rcases this with h | h | h | h | h <;> rw [h] at hof <;> subst hof <;> decide
    rw [hat rest 0]
    · decide
    · intro c hc
      cases hx : Cli.isSpace c with
      | false => rfl
      | true => exact absurd (hsp c hx) (h3 c hc)
    · have hz : leadingNumber 0 rest = 0 := by
        have := leadingNumber_stop 0 [] rest (by simp) hr
        simpa [leadingNumber] using this
      split
      · exact absurd rfl h1
      · exact absurd rfl h2
      · rw [hz]; rfl

/-- **C71**: options are looked at from left to right. The first that asks for the version or the help gets that, and
nothing else happens, except that files for the output have been opened. -/
theorem C71_texts {env : Env} {run : Runner} {args : List Str} {before after : List Opt} {o : Opt} {s : Setup}
    (ho : opts args = before ++ o :: after) (hs : options env {} before = .go s) (ht : asksForText o = true ∨ o = .bad) :
    main env run args = some { status := 0, err := if is 'V' o then env.version else env.help, truncated := s.truncated } := by
  have hgo : ∀ (s0 : Setup) (os : List Opt), options env s0 os = .go s → options env s0 (os ++ o :: after) = options env s (o :: after) := by
    intro s0 os
    induction os generalizing s0 with
    | nil => intro h; cases h; rfl
    | cons x os ih =>
      intro h
      rw [options] at h
      rw [List.cons_append, options]
      cases hx : option env s0 x with
      | go s1 => rw [hx] at h; exact ih s1 h
      | exit _ _ _ => rw [hx] at h; cases h
      | undefined => rw [hx] at h; cases h
  have hopt : option env s o = .exit s 0 (if is 'V' o then env.version else env.help) := by
    rcases ht with ht | rfl
    · cases o with
      | bad => cases ht
      | opt c a =>
        simp only [asksForText, Bool.or_eq_true, decide_eq_true_eq] at ht
        rcases ht with rfl | rfl <;> rfl
    · rfl
  have : options env {} (opts args) = .exit s 0 (if is 'V' o then env.version else env.help) := by
    rw [ho, hgo _ _ hs, options, hopt]
  unfold main
  simp only [this]

/-- **C71**: options do not have to come first, as words are set aside wherever they are: what does not begin
with a dash, a single dash, and everything after `--`. -/
theorem C71_words :
    (∀ w args, (w.head? ≠ some '-' ∨ w = c!"-") → opts (w :: args) = opts args ∧ words (w :: args) = w :: words args) ∧
    (∀ args, opts (c!"--" :: args) = [] ∧ words (c!"--" :: args) = args) ∧
    (∀ ws args, (∀ w ∈ ws, w.head? ≠ some '-' ∨ w = c!"-") →
      opts (ws ++ args) = opts args ∧ words (ws ++ args) = ws ++ words args) := by
  have one : ∀ w args, (w.head? ≠ some '-' ∨ w = c!"-") →
      opts (w :: args) = opts args ∧ words (w :: args) = w :: words args := by
    intro w args h
    have h1 : w ≠ c!"--" := by
      rintro rfl
      rcases h with h | h
      · exact h rfl
      · exact absurd h (by decide)
    have h2 : ¬ (w.head? = some '-' ∧ w ≠ c!"-") := by
      rintro ⟨a, b⟩
      exact h.elim (· a) b
    constructor
    · rw [opts, getopt.eq_def]
      simp only [if_neg h1, if_neg h2]
    · rw [words, getopt.eq_def]
      simp only [if_neg h1, if_neg h2]
  refine ⟨one, fun args => ⟨rfl, rfl⟩, ?_⟩
  intro ws args h
  induction ws with
  | nil => exact ⟨rfl, rfl⟩
  | cons w ws ih =>
    have h1 := one w (ws ++ args) (h w (by simp))
    have h2 := ih fun x hx => h x (.tail _ hx)
    exact ⟨h1.1.trans h2.1, by rw [List.cons_append, h1.2, h2.2]; rfl⟩

/-- Non-vacuity: options before and after, several in one word; the last `-r` counts. -/
example :
    let env : Env := ⟨fun _ => true, fun _ _ => true, c!"help", c!"version"⟩
    (main env (fun _ _ _ _ => some ⟨0, [], []⟩)
      [c!"-evvg", c!"foo", c!"-r3", c!"print", c!"-ir", c!"-fjs", c!"//...", c!"-kr12", c!"-oout"]).bind
      (fun r => r.ran.map fun x => (x.1, x.2.1, r.outFile)) =
    some ({ verbose := 2, elaborate := true, ignoreKeep := true, depth := 12, format := .json,
            grep := c!"((?i)foo)" }, .print, some c!"out") := by decide +kernel

example : depthOf (some c!" -12x") = some (-12) ∧ depthOf (some c!"+7") = some 7 ∧ depthOf (some c!"all") = some 0 ∧
    depthOf (some c!"99999999999") = none := by decide +kernel
example :
    let env : Env := ⟨fun _ => true, fun _ _ => true, c!"help", c!"version"⟩
    (main env (fun _ _ _ _ => none) [c!"-vV", c!"-h"]).map (fun r => (r.status, r.err)) = some (0, c!"version") := by
  decide +kernel

/-! ## C72: the output format -/

/-- **C72**, full statement: `-f` with the unique prefix of the name of a format selects that format; with another
text it fails, nothing is run. -/
def C72_statement : Prop :=
  ∀ (env : Env) (run : Runner) (w : Str) (args : List Str) (r : Outcome),
    main env run (c!"-f" :: w :: args) = some r → r.ran ≠ none → ∃ f, StandsFor formats w f

/-- The empty text is a prefix of all formats; it selects csv. -/
theorem C72_counterexample : ¬ C72_statement := by
  intro h
  obtain ⟨f, name, _, _, h3⟩ := h ⟨fun _ => true, fun _ _ => true, c!"help", c!"version"⟩
    (fun _ _ _ _ => some ⟨0, [], []⟩) [] [c!"parse"] _ (by rfl) (by simp)
  have h1 := h3 (c!"csv", .csv) (by decide +kernel) (List.nil_prefix)
  have h2 := h3 (c!"json", .json) (by decide +kernel) (List.nil_prefix)
  rw [← h1] at h2
  revert h2
  decide

/-- **C72**: for a text that is not empty. `-f` in one word or two. -/
theorem C72_format_partial {env : Env} {s : Setup} {w : Str} (hw : w ≠ []) :
    (∀ f, StandsFor formats w f ↔
      option env s (.opt 'f' (some w)) = .go { s with flags := { s.flags with format := f } }) ∧
    ((¬ ∃ f, StandsFor formats w f) → ∃ e, option env s (.opt 'f' (some w)) = .exit s 1 e) ∧
    (∀ args, opts (c!"-f" :: w :: args) = .opt 'f' (some w) :: opts args ∧
      opts ((c!"-f" ++ w) :: args) = .opt 'f' (some w) :: opts args) := by
  have hb := findFormat_standsFor hw
  refine ⟨?_, ?_, ?_⟩
  · intro f
    rw [← hb]
    constructor
    · intro h
      simp [option, h]
    · intro h
      simp only [option, Char.reduceEq, if_false, if_true, or_self] at h
      cases hfmt : findFormat w with
      | none => rw [hfmt] at h; cases h
      | some g =>
        rw [hfmt] at h
        simp only [Step.go.injEq, Setup.mk.injEq, Flags.mk.injEq, true_and, and_true] at h
        rw [h]
  · intro h
    cases hfmt : findFormat w with
    | some g => exact absurd ⟨g, (hb g).1 hfmt⟩ h
    | none => exact ⟨_, by simp [option, hfmt]; rfl⟩
  · intro args
    constructor
    · rw [opts, getopt.eq_def]
      simp only [show (c!"-f" : Str) ≠ c!"--" by decide, if_false, show (c!"-f" : Str).head? = some '-' by rfl,
        show (c!"-f" : Str) ≠ c!"-" by decide, ne_eq, not_false_eq_true, and_self, if_true,
        show cluster optstring ((c!"-f" : Str).drop 1) = ([], some 'f') by decide]
      rfl
    · rw [opts, getopt.eq_def]
      have h1 : c!"-f" ++ w ≠ c!"--" := by simp
      have h2 : (c!"-f" ++ w).head? = some '-' ∧ c!"-f" ++ w ≠ c!"-" := by simp
      simp only [h1, if_false, h2]
      have : cluster optstring ((c!"-f" ++ w).drop 1) = ([.opt 'f' (some w)], none) := by
        simp only [List.cons_append, List.nil_append, List.drop_succ_cons, List.drop_zero, cluster]
        rw [show takes optstring 'f' = some .argument by decide]
        simp [hw]
      rw [this]
      rfl

/-- **C72**: if a command is run, then all texts given with `-f` that are not empty stand for a format. -/
theorem C72_run_partial {env : Env} {run : Runner} {args : List Str} {r : Outcome} (hr : main env run args = some r)
    (hran : r.ran ≠ none) {w : Str} (hw : w ≠ []) (hmem : .opt 'f' (some w) ∈ opts args) :
    ∃ f, StandsFor formats w f := by
  cases hs : options env {} (opts args) with
  | undefined => simp [main, hs] at hr
  | exit s st e =>
    simp only [main, hs, Option.some.injEq] at hr
    rw [← hr] at hran
    exact absurd rfl hran
  | go s =>
    obtain ⟨s1, s2, h⟩ := options_go_mem hs _ hmem
    have h1 := (option_effect h).format
    simp only [is, decide_true, if_true, argOf, Option.bind_some] at h1
    exact ⟨_, (findFormat_standsFor hw _).1 h1.symm⟩

/-- **C72**: the prefixes that the help gives. -/
theorem C72_help : StandsFor formats c!"s" .sexpr ∧ StandsFor formats c!"p" .plist ∧ StandsFor formats c!"j" .json ∧
    StandsFor formats c!"c" .csv ∧ StandsFor formats c!"n" .native :=
  ⟨(findFormat_standsFor (by decide) _).1 (by decide +kernel), (findFormat_standsFor (by decide) _).1 (by decide +kernel),
   (findFormat_standsFor (by decide) _).1 (by decide +kernel), (findFormat_standsFor (by decide) _).1 (by decide +kernel),
   (findFormat_standsFor (by decide) _).1 (by decide +kernel)⟩

/-! ## C73: failures say something -/

/-- **C73**, full statement: if nothing is run and the status is a failure, then there is something on standard error. -/
def C73_statement : Prop :=
  ∀ (env : Env) (run : Runner) (args : List Str) (r : Outcome), env.help ≠ [] → main env run args = some r →
    r.status ≠ 0 → r.ran = none → r.err ≠ []

/-- "Please provide a bazel pattern" goes the way of the info messages. -/
theorem C73_counterexample : ¬ C73_statement := by
  intro h
  exact h ⟨fun _ => true, fun _ _ => true, c!"help", c!"version"⟩ (fun _ _ _ _ => some ⟨0, [], []⟩)
    [c!"-q", c!"dwyu"] { status := 1 } (by decide) (by rfl) (by simp) rfl rfl

/-- **C73**: without `-q`. With `-q` the help is still printed if there is no command of that name (status 2). -/
theorem C73_message_partial {env : Env} {run : Runner} {args : List Str} {r : Outcome} (hhelp : env.help ≠ [])
    (hr : main env run args = some r) (hst : r.status ≠ 0) (hran : r.ran = none)
    (hq : (∀ o ∈ opts args, is 'q' o = false) ∨ r.status = 2) : r.err ≠ [] := by
  cases hs : options env {} (opts args) with
  | undefined => simp [main, hs] at hr
  | exit s st e =>
    simp only [main, hs, Option.some.injEq] at hr
    rw [← hr] at hst ⊢
    exact options_exit_err (fun o ho => getopt_wellFormed _ _ o ho) hs hst
  | go s =>
    have e := options_effects hs
    rw [main_go hs] at hr
    cases hc : choose (words args) with
    | run cmd' pat' =>
      rw [hc] at hr
      obtain ⟨r', h1, rfl⟩ := Option.map_eq_some_iff.1 hr
      cases hran
    | stop st m =>
      rw [hc] at hr
      cases hr
      rcases hq with hq | hq
      · have : s.quiet = false := by
          rw [e.quiet]
          simp only [Bool.false_or, List.any_eq_false]
          intro o ho
          rw [hq o ho]
          simp
        simp [this, (choose_status hc).2]
      · simp only at hq
        simp [hq, hhelp]

example : (main ⟨fun _ => true, fun _ _ => true, c!"help", c!"version"⟩ (fun _ _ _ _ => none) [c!"dwyu"]).map (·.err) =
    some c!"Please provide a bazel pattern for this command.\nExamples: //... or //foo/bar:baz\n" := by decide +kernel

/-! ## C74: the output file -/

/-- **C74**, full statement: files lose their content only if a command is run. -/
def C74_statement : Prop :=
  ∀ (env : Env) (run : Runner) (args : List Str) (r : Outcome), main env run args = some r → r.ran = none →
    r.truncated = []

/-- The file is opened as soon as the option is seen. -/
theorem C74_counterexample : ¬ C74_statement := by
  intro h
  have := h ⟨fun _ => true, fun _ _ => true, c!"help", c!"version"⟩ (fun _ _ _ _ => some ⟨0, [], []⟩)
    [c!"-o", c!"BUILD", c!"dwyu"] _ (by rfl) rfl
  cases this

/-- **C74**: what holds: only files that are given with `-o` lose their content, whatever else is on the command line;
if a command is run, its output is in the last of them, and the others are empty. -/
theorem C74_files_partial {env : Env} {run : Runner} {args : List Str} {r : Outcome} (hr : main env run args = some r) :
    (∀ f ∈ r.truncated, .opt 'o' (some f) ∈ opts args ∧ f ≠ c!"-") ∧
    (r.ran ≠ none → ∀ f, .opt 'o' (some f) ∈ opts args → f ≠ c!"-" → f ∈ r.truncated) ∧
    (∀ f, r.outFile = some f → f ∈ r.truncated) := by
  cases hs : options env {} (opts args) with
  | undefined => simp [main, hs] at hr
  | exit s st e =>
    simp only [main, hs, Option.some.injEq] at hr
    rw [← hr]
    refine ⟨?_, by simp, by simp⟩
    intro f hf
    rcases options_exit_truncated (fun o ho => getopt_wellFormed _ _ o ho) hs f hf with h | h
    · simp at h
    · exact h
  | go s =>
    have e := options_effects hs
    have hout : ∀ f, s.out = some f → f ∈ s.truncated := by
      intro f hf
      rw [e.out, foldl_last] at hf
      rw [e.truncated]
      cases hl : last 'o' (opts args) with
      | none => rw [hl] at hf; simp at hf
      | some o =>
        rw [hl] at hf
        simp only [Option.map_some, Option.getD_some] at hf
        simp only [List.nil_append, List.mem_flatMap]
        obtain ⟨h1, h2⟩ := last_mem hl
        exact ⟨o, h1, by rw [if_pos h2, hf]; simp⟩
    have htr : ∀ f, f ∈ s.truncated ↔ .opt 'o' (some f) ∈ opts args ∧ f ≠ c!"-" := by
      intro f
      rw [e.truncated]
      simp only [List.nil_append, List.mem_flatMap]
      constructor
      · rintro ⟨o, h1, h2⟩
        cases o with
        | bad => simp [is] at h2
        | opt c arg =>
          by_cases hc : c = 'o'
          · subst hc
            simp only [is, decide_true, if_true, argOf, Option.mem_toList] at h2
            obtain ⟨h3, h4⟩ := Option.filter_eq_some_iff.1 h2
            subst h3
            exact ⟨h1, by simpa using h4⟩
          · simp [is, hc] at h2
      · rintro ⟨h1, h2⟩
        exact ⟨_, h1, by simp [is, argOf, Option.filter, h2]⟩
    rw [main_go hs] at hr
    cases hc : choose (words args) with
    | run cmd' pat' =>
      rw [hc] at hr
      obtain ⟨r', h1, rfl⟩ := Option.map_eq_some_iff.1 hr
      exact ⟨fun f hf => (htr f).1 hf, fun _ f h1 h2 => (htr f).2 ⟨h1, h2⟩, hout⟩
    | stop st m =>
      rw [hc] at hr
      cases hr
      exact ⟨fun f hf => (htr f).1 hf, by simp, hout⟩

/-- Non-vacuity: two files. -/
example : (main ⟨fun _ => true, fun _ _ => true, c!"help", c!"version"⟩ (fun _ _ _ _ => some ⟨0, c!"x", []⟩)
    [c!"-oa", c!"parse", c!"-ob"]).map (fun r => (r.truncated, r.outFile, r.out)) =
    some ([c!"a", c!"b"], some c!"b", c!"x") := by decide +kernel

end Props
end Bant
