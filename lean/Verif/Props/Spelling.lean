import Verif.Props.Stderr

/-! Options at other places or with other names: `-q` anywhere (C119), `-b` (C141). -/
namespace Bant
namespace Props
open Commands CommandSpec Cli GraphSpec StderrSpec Headers Project
open Stderr (Said)

/-! ## C119 -/

/-- Without `-q`. -/
def withoutQuiet (os : List Opt) : List Opt := os.filter fun o => !CliSpec.is 'q' o

theorem hush_hush (s : Setup) : hush (hush s) = hush s := rfl

theorem option_is_quiet {env : Env} {s : Setup} {o : Opt} (h : CliSpec.is 'q' o = true) :
    option env s o = .go (hush s) := by
  cases o with
  | bad => cases h
  | opt c arg =>
    simp only [CliSpec.is, decide_eq_true_eq] at h
    subst h
    rfl

theorem options_without (env : Env) (os : List Opt) : ∀ s : Setup,
    hushed (options env s os) = options env (hush s) (withoutQuiet os) ∧
      Stderr.notes env s os = Stderr.notes env (hush s) (withoutQuiet os) := by
  induction os with
  | nil => intro s; exact ⟨rfl, rfl⟩
  | cons o os ih =>
    intro s
    by_cases h : CliSpec.is 'q' o = true
    · have hw : withoutQuiet (o :: os) = withoutQuiet os := by simp [withoutQuiet, List.filter_cons, h]
      have hb : o ≠ .opt 'b' none := by rintro rfl; simp [CliSpec.is] at h
      rw [hw]
      simp only [options, Stderr.notes, option_is_quiet h, if_neg hb, List.nil_append]
      have := ih (hush s)
      rw [hush_hush] at this
      exact this
    · have hw : withoutQuiet (o :: os) = o :: withoutQuiet os := by simp [withoutQuiet, List.filter_cons, h]
      rw [hw]
      simp only [options, Stderr.notes, option_quiet]
      cases option env s o with
      | go s => exact ⟨(ih s).1, congrArg (_ ++ ·) (ih s).2⟩
      | exit s st e => exact ⟨rfl, rfl⟩
      | undefined => exact ⟨rfl, rfl⟩

theorem withoutQuiet_none {os : List Opt} (h : ∀ x ∈ os, CliSpec.is 'q' x = false) : withoutQuiet os = os := by
  simp only [withoutQuiet, List.filter_eq_self]
  intro a ha
  rw [h a ha]
  rfl

/-- **C119** for `-q` at whatever place: if the options are the same but for that, a run does the same, and ends in the
same way. On standard error, just what is said by the session is missing. -/
theorem C119_anywhere (env : Env) (w : Stderr.World) {args args' : List Str}
    (hq : ∀ x ∈ (getopt optstring args).1, CliSpec.is 'q' x = false)
    (hq' : ∃ x ∈ (getopt optstring args').1, CliSpec.is 'q' x = true)
    (hos : withoutQuiet (getopt optstring args').1 = (getopt optstring args).1)
    (hrest : (getopt optstring args').2 = (getopt optstring args).2) :
    (Stderr.bant env w args = none → Stderr.bant env w args' = none) ∧
    ∀ o, Stderr.bant env w args = some o → ∃ l : List Said,
      Stderr.bant env w args' = some { o with err := (l.filter isDirect).flatMap textOf } ∧ o.err = l.flatMap textOf ∧
      ∀ flags cmd pattern, o.ran = some (flags, cmd, pattern) → ∃ cd run before after,
        Stderr.runCommand (w.machine cd) w.regexError flags cmd pattern = some run ∧ l = before ++ run.said ++ after := by
  have h1 := options_without env (getopt optstring args').1 {}
  have h2 := options_without env (getopt optstring args).1 {}
  rw [hos] at h1
  rw [withoutQuiet_none hq] at h2
  have ho : hushed (options env {} (getopt optstring args').1) = hushed (options env {} (getopt optstring args).1) :=
    h1.1.trans h2.1.symm
  have hn : Stderr.notes env {} (getopt optstring args').1 = Stderr.notes env {} (getopt optstring args).1 :=
    h1.2.trans h2.2.symm
  have key : Stderr.bant env w args' = Stderr.bant env w (c!"-q" :: args) := by
    have hget : getopt optstring (c!"-q" :: args) =
        (.opt 'q' none :: (getopt optstring args).1, (getopt optstring args).2) := rfl
    have hopts : options env {} (.opt 'q' none :: (getopt optstring args).1) =
        options env (hush {}) (getopt optstring args).1 := rfl
    have hnotes : Stderr.notes env {} (.opt 'q' none :: (getopt optstring args).1) =
        Stderr.notes env (hush {}) (getopt optstring args).1 := rfl
    unfold Stderr.bant
    rw [hget]
    simp only [hopts, hnotes, options_quiet, notes_quiet, hn, hrest, ← ho]
    cases hs : options env {} (getopt optstring args').1 with
    | undefined => rfl
    | exit s status err => rfl
    | go s =>
      have hqs : s.quiet = true := by
        rw [(options_effects hs).quiet]
        obtain ⟨x, hx, h⟩ := hq'
        simp only [Bool.false_or, List.any_eq_true]
        exact ⟨x, hx, h⟩
      have : hush s = s := by cases s; simp only [hush] at *; rw [hqs]
      simp only [hushed, this]
  rw [key]
  have := C119_quiet env w args
  exact ⟨this.1, fun o h => by
    obtain ⟨l, a, b, c⟩ := this.2 o h
    exact ⟨l, a, b hq, c⟩⟩

/-! ## C141 -/

/-- The new name of `-b` is `-e`. -/
def newName (o : Opt) : Opt := if o = .opt 'b' none then .opt 'e' none else o

/-- The note about that. -/
def oldNameNote : Str := c!"Note, the name of -b option changed to -e\n"

theorem option_newName (env : Env) (s : Setup) (o : Opt) : option env s (newName o) = option env s o := by
  unfold newName
  split
  · next h => rw [h]; rfl
  · rfl

theorem options_newName (env : Env) (os : List Opt) : ∀ s, options env s (os.map newName) = options env s os := by
  induction os with
  | nil => intro s; rfl
  | cons o os ih =>
    intro s
    simp only [List.map_cons, options, option_newName]
    cases option env s o with
    | go s => exact ih s
    | exit => rfl
    | undefined => rfl

theorem notes_newName (env : Env) (os : List Opt) : ∀ s, Stderr.notes env s (os.map newName) = [] := by
  induction os with
  | nil => intro s; rfl
  | cons o os ih =>
    intro s
    have : newName o ≠ .opt 'b' none := by
      unfold newName
      split
      · simp
      · assumption
    simp only [List.map_cons, Stderr.notes, if_neg this, List.nil_append]
    cases option env s (newName o) with
    | go s => exact ih s
    | exit => rfl
    | undefined => rfl

theorem notes_count (env : Env) (os : List Opt) : ∀ s, ∃ n, n ≤ os.count (.opt 'b' none) ∧
    Stderr.notes env s os = (List.replicate n oldNameNote).flatten ∧
    ∀ s', options env s os = .go s' → n = os.count (.opt 'b' none) := by
  induction os with
  | nil => intro s; exact ⟨0, Nat.le_refl _, rfl, fun _ _ => rfl⟩
  | cons o os ih =>
    intro s
    simp only [Stderr.notes, options, List.count_cons]
    by_cases hb : o = .opt 'b' none
    · subst hb
      obtain ⟨n, h1, h2, h3⟩ := ih { s with flags := { s.flags with elaborate := true } }
      refine ⟨n + 1, by simpa using h1, ?_, ?_⟩
      · rw [if_pos rfl, List.replicate_succ, List.flatten_cons, ← h2]
        rfl
      · intro s' h
        have := h3 s' h
        simpa using this
    · have hb' : (o == Opt.opt 'b' none) = false := by simpa using hb
      simp only [if_neg hb, List.nil_append, hb']
      cases ho : option env s o with
      | go t => simpa using ih t
      | exit t st e => exact ⟨0, Nat.zero_le _, rfl, fun s' h => by cases h⟩
      | undefined => exact ⟨0, Nat.zero_le _, rfl, fun s' h => by cases h⟩

/-- **C141**: with `-b`, the program does what it does with `-e` at these places, with the same output and status. For
each `-b` there is a note on standard error, ahead of all else; if the program ends because of another option, only for
those before it. -/
theorem C141_old_name (env : Env) (w : Stderr.World) {args args' : List Str}
    (hos : (getopt optstring args').1 = (getopt optstring args).1.map newName)
    (hrest : (getopt optstring args').2 = (getopt optstring args).2) :
    ∃ n ≤ (getopt optstring args).1.count (.opt 'b' none),
      Stderr.bant env w args = (Stderr.bant env w args').map (fun o =>
        { o with err := (List.replicate n oldNameNote).flatten ++ o.err }) ∧
      ((∃ s, options env {} (getopt optstring args).1 = .go s) → n = (getopt optstring args).1.count (.opt 'b' none)) := by
  obtain ⟨n, h1, h2, h3⟩ := notes_count env (getopt optstring args).1 {}
  refine ⟨n, h1, ?_, fun ⟨s, h⟩ => h3 s h⟩
  unfold Stderr.bant
  simp only [hos, hrest, options_newName, notes_newName, h2]
  cases options env {} (getopt optstring args).1 with
  | undefined => rfl
  | exit s status err => rfl
  | go s =>
    simp only
    cases choose (getopt optstring args).2 with
    | stop status message => simp only [Option.map_some, List.nil_append, List.append_assoc]
    | run cmd pattern =>
      simp only
      cases Stderr.runCommand (w.machine s.cd) w.regexError (finishGrep s) cmd pattern with
      | none => rfl
      | some r => simp only [Option.map_some, List.nil_append, List.append_assoc]

/-- **C141** for `-b` as first argument. -/
theorem C141_first (env : Env) (w : Stderr.World) (args : List Str)
    (hno : ∀ x ∈ (getopt optstring args).1, CliSpec.is 'b' x = false) :
    Stderr.bant env w (c!"-b" :: args) = (Stderr.bant env w (c!"-e" :: args)).map fun o =>
      { o with err := oldNameNote ++ o.err } := by
  have hg : ∀ c, c = 'b' ∨ c = 'e' → getopt optstring (['-', c] :: args) =
      (.opt c none :: (getopt optstring args).1, (getopt optstring args).2) := by
    rintro c (rfl | rfl) <;> rfl
  have hb := hg 'b' (.inl rfl)
  have he := hg 'e' (.inr rfl)
  have hnone : ∀ x ∈ (getopt optstring args).1, x ≠ .opt 'b' none := by
    rintro x hx rfl
    have := hno _ hx
    simp [CliSpec.is] at this
  have hmap : (getopt optstring args).1.map newName = (getopt optstring args).1 := by
    have : ∀ x ∈ (getopt optstring args).1, newName x = id x := fun x hx => if_neg (hnone x hx)
    rw [List.map_congr_left this, List.map_id]
  have hn : Stderr.notes env {} (.opt 'b' none :: (getopt optstring args).1) = oldNameNote := by
    have h0 := notes_newName env (getopt optstring args).1 { ({} : Setup) with flags := { ({} : Flags) with elaborate := true } }
    rw [hmap] at h0
    have : Stderr.notes env {} (.opt 'b' none :: (getopt optstring args).1) = oldNameNote ++
      Stderr.notes env { ({} : Setup) with flags := { ({} : Flags) with elaborate := true } } (getopt optstring args).1 := rfl
    rw [this, h0, List.append_nil]
  have hn' : Stderr.notes env {} (.opt 'e' none :: (getopt optstring args).1) = [] := by
    have h0 := notes_newName env (.opt 'b' none :: (getopt optstring args).1) {}
    rw [List.map_cons, hmap] at h0
    exact h0
  have hopt : options env {} (.opt 'e' none :: (getopt optstring args).1) =
    options env {} (.opt 'b' none :: (getopt optstring args).1) := rfl
  unfold Stderr.bant
  rw [show c!"-b" = ['-', 'b'] from rfl, show c!"-e" = ['-', 'e'] from rfl, hb, he]
  simp only [hn, hn', hopt]
  cases options env {} (.opt 'b' none :: (getopt optstring args).1) with
  | undefined => rfl
  | exit s status err => rfl
  | go s =>
    simp only
    cases choose (getopt optstring args).2 with
    | stop status message => simp only [Option.map_some, List.nil_append, List.append_assoc]
    | run cmd pattern =>
      simp only
      cases Stderr.runCommand (w.machine s.cd) w.regexError (finishGrep s) cmd pattern with
      | none => rfl
      | some r => simp only [Option.map_some, List.nil_append, List.append_assoc]

/-! ### Examples -/

/-- `-q` after the command, with other options. -/
example : (∀ x ∈ (getopt optstring [c!"-v", c!"parse"]).1, CliSpec.is 'q' x = false) ∧
    (∃ x ∈ (getopt optstring [c!"parse", c!"-qv"]).1, CliSpec.is 'q' x = true) ∧
    withoutQuiet (getopt optstring [c!"parse", c!"-qv"]).1 = (getopt optstring [c!"-v", c!"parse"]).1 ∧
    (getopt optstring [c!"parse", c!"-qv"]).2 = (getopt optstring [c!"-v", c!"parse"]).2 ∧
    call [c!"-v", c!"parse"] = some (0, [], c!"./p/BUILD:2:6: got ''; expected value of sorts\n" ++
      c!"Dependency graph expanded build file# from initial 1 to 1; 1 targets and 0 that depend on these.\n" ++ c!"stats\n") ∧
    call [c!"parse", c!"-qv"] = some (0, [], c!"stats\n") := by
  decide +kernel

/-- Twice `-b`, and once more after an option that ends it all. -/
example : (getopt optstring [c!"-vee", c!"-h", c!"-e", c!"parse"]).1 =
      (getopt optstring [c!"-vbb", c!"-h", c!"-b", c!"parse"]).1.map newName ∧
    (getopt optstring [c!"-vee", c!"-h", c!"-e", c!"parse"]).2 = (getopt optstring [c!"-vbb", c!"-h", c!"-b", c!"parse"]).2 ∧
    call [c!"-vee", c!"-h", c!"-e", c!"parse"] = some (0, [], c!"help\n") ∧
    call [c!"-vbb", c!"-h", c!"-b", c!"parse"] = some (0, [], oldNameNote ++ oldNameNote ++ c!"help\n") := by
  decide +kernel

example : call [c!"-e", c!"parse"] = some (0, [], c!"./p/BUILD:2:6: got ''; expected value of sorts\n") ∧
    call [c!"-b", c!"parse"] = some (0, [], oldNameNote ++ c!"./p/BUILD:2:6: got ''; expected value of sorts\n") := by
  decide +kernel

end Props
end Bant
