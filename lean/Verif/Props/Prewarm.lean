import Verif.Lemmas.Prewarm
import Verif.Props.ThreadPool

/-!
C38: the access log contains each path once and replays to the same accesses.
C65: the name of the access log stands for the invocation.
-/
namespace Bant
namespace Props
open Prewarm PrewarmSpec

/-- **C38**, as stated: after a run, the log has a record for each access, once, in the order of first
access, one per line; the next run requests these. -/
def C38_statement : Prop :=
  ∀ (before : Option Str) (accesses : List Access) (writable : Bool) (later : List Access),
    ∃ log, (session before true accesses).2 = some log ∧
      log = (firsts accesses).flatMap record ∧
      (getlines log).length = (firsts accesses).length ∧
      (session (some log) writable later).1 = firsts accesses

/-- A directory that is accessed as a file before: `open` succeeds for directories, so reading a
directory that is called BUILD is recorded as access to a file. The second access is not
recorded. -/
theorem C38_counterexample : ¬ C38_statement := by
  intro h
  obtain ⟨log, h1, h2, _⟩ := h none [⟨true, c!"BUILD"⟩, ⟨false, c!"BUILD"⟩] true []
  rw [h2] at h1
  revert h1
  decide

/-- A newline in a path: the replay asks for something else. -/
theorem C38_newline_counterexample :
    (session (session none true [⟨true, c!"a\nFetc"⟩]).2 true []).1 = [⟨true, c!"a"⟩, ⟨true, c!"etc"⟩] := by
  decide

/-- **C38** for paths that can be passed to the operating system (not empty, no NUL) and have no
newline, of which none is accessed both as file and as directory. -/
theorem C38_log_partial (before : Option Str) (accesses : List Access) (writable : Bool) (later : List Access)
    (hp : ∀ a ∈ accesses, Plain a.path) (hk : OneKind accesses) :
    ∃ log, (session before true accesses).2 = some log ∧
      log = (firsts accesses).flatMap record ∧
      (getlines log).length = (firsts accesses).length ∧
      (session (some log) writable later).1 = firsts accesses := by
  obtain ⟨seen, h1, _⟩ := fold_access accesses [] hk
  have hf : ∀ a ∈ firsts accesses, Plain a.path := fun a ha => hp a ((mem_firsts _ _).mp ha)
  refine ⟨(firsts accesses).flatMap record, ?_, rfl, ?_, ?_⟩
  · simp only [session, Prewarm.init, if_true, h1, List.nil_append]
  · rw [lines_records _ hf, List.length_map]
  · exact replay_records _ hf

/-- Many runs, one after the other: each one replays what the one before has accessed; what was
accessed earlier is gone. -/
theorem C38_runs_partial (before : Option Str) (runs : List (List Access)) (last : List Access)
    (hp : ∀ a ∈ last, Plain a.path) (hk : OneKind last) :
    (session ((runs ++ [last]).foldl (fun log r => (session log true r).2) before) true []).1 = firsts last := by
  rw [List.foldl_append]
  obtain ⟨log, h1, _, _, h2⟩ :=
    C38_log_partial (runs.foldl (fun log r => (session log true r).2) before) last true [] hp hk
  simp only [List.foldl_cons, List.foldl_nil, h1, h2]

/-- A log that cannot be written stays as it is. -/
theorem C38_readonly (before : Option Str) (accesses : List Access) :
    (session before false accesses).2 = before := by
  simp only [session, Prewarm.init, Bool.false_eq_true, if_false, fold_none]

/-- The job that stops the pool is handed in after all others. When it is started, in whatever
order the threads go, all accesses have been started: none is left out because of it. -/
theorem C38_all_requested (count n : Nat) (s : ThreadPool.State) (es : List ThreadPool.Event)
    (h : PoolSpec.Reachable count s es) (hs : PoolSpec.submitted es = List.range (n + 1))
    (hlast : n ∈ PoolSpec.started es) : PoolSpec.started es = List.range (n + 1) := by
  have h1 := (C37_order count s es h).2.1
  rw [hs] at h1
  suffices s.queue = [] by rw [this, List.append_nil] at h1; exact h1
  rcases List.eq_nil_or_concat s.queue with hq | ⟨q, x, hq⟩
  · exact hq
  · exfalso
    rw [hq, List.concat_eq_append, List.range_succ, ← List.append_assoc] at h1
    obtain ⟨h2, h3⟩ := List.append_inj' h1 rfl
    have : n ∈ List.range n := by rw [← h2]; exact List.mem_append_left _ hlast
    simp at this

/-- Two runs; the second one reads less. -/
example : session none true [⟨false, c!"/p"⟩, ⟨true, c!"/p/BUILD"⟩, ⟨true, c!"/p/a.cc"⟩, ⟨true, c!"/p/BUILD"⟩] =
    ([], some c!"D/p\nF/p/BUILD\nF/p/a.cc\n") := by decide
example : session (some c!"D/p\nF/p/BUILD\nF/p/a.cc\n") true [⟨true, c!"/q"⟩] =
    ([⟨false, c!"/p"⟩, ⟨true, c!"/p/BUILD"⟩, ⟨true, c!"/p/a.cc"⟩], some c!"F/q\n") := by decide
/-- What is not understood in a log is ignored. -/
example : (session (some c!"hello\nF\n\nF/x") true []).1 = [⟨true, c!"/x"⟩] := by decide

/-! ### C65 -/

/-- **C65** as stated: two invocations share a log exactly if they are for the same directory and have
the same arguments, up to those that do not matter. For any hash function. -/
def C65_statement (hash : Str → BitVec 64) : Prop :=
  ∀ cwd cwd' args args', logNumber hash cwd args = logNumber hash cwd' args' ↔
    cwd = cwd' ∧ relevant args = relevant args'

/-- False whatever the hash function: an argument that is given twice cancels itself. -/
theorem C65_counterexample (hash : Str → BitVec 64) : ¬ C65_statement hash := by
  intro h
  have := (h c!"/p" c!"/p" [c!"print", c!"print"] []).mp (by
    simp [logNumber, hashArgs, ignoredFlags, ignoredOptions, BitVec.xor_assoc])
  revert this
  decide +kernel

/-- Flags that do not matter do not matter, wherever they are; neither does the order of arguments. -/
theorem C65_same_partial (hash : Str → BitVec 64) (cwd : Str) (args args' : List Str)
    (h : (relevant args).Perm (relevant args')) : logNumber hash cwd args = logNumber hash cwd args' := by
  rw [logNumber, logNumber, hashArgs_relevant hash _ args (Nat.le_refl _), hashArgs_relevant hash _ args' (Nat.le_refl _)]
  congr 1
  apply h.foldl_eq'
  intro x _ y _ z
  rw [BitVec.xor_assoc, BitVec.xor_assoc, BitVec.xor_comm (hash x)]

/-- Directories, and arguments, are told apart as well as the hash function does it. -/
theorem C65_different_partial (hash : Str → BitVec 64) (cwd cwd' : Str) (args : List Str)
    (h : logNumber hash cwd args = logNumber hash cwd' args) : (hash cwd).setWidth 32 = (hash cwd').setWidth 32 := by
  rw [logNumber, logNumber, hashArgs_relevant hash _ args (Nat.le_refl _), hashArgs_relevant hash _ args (Nat.le_refl _)] at h
  rw [foldl_xor, foldl_xor hash _ (hash cwd'), BitVec.setWidth_xor, BitVec.setWidth_xor] at h
  exact xor_cancel h

/-- …and so is an argument that is different. -/
theorem C65_argument_partial (hash : Str → BitVec 64) (cwd a b : Str) (args args' l m : List Str)
    (ha : relevant args = l ++ a :: m) (hb : relevant args' = l ++ b :: m)
    (h : logNumber hash cwd args = logNumber hash cwd args') : (hash a).setWidth 32 = (hash b).setWidth 32 := by
  rw [logNumber, logNumber, hashArgs_relevant hash _ args (Nat.le_refl _), hashArgs_relevant hash _ args' (Nat.le_refl _),
    ha, hb, List.foldl_append, List.foldl_append, List.foldl_cons, List.foldl_cons, foldl_xor,
    foldl_xor hash m (_ ^^^ hash b)] at h
  simp only [BitVec.setWidth_xor] at h
  have h := xor_cancel h
  rw [BitVec.xor_comm, BitVec.xor_comm _ (BitVec.setWidth 32 (hash b))] at h
  exact xor_cancel h

example : relevant [c!"-v", c!"dwyu", c!"-C", c!"/src", c!"//..."] = [c!"dwyu", c!"//..."] := by decide +kernel

end Props
end Bant
