import Verif.Lemmas.ThreadPoolRuns

/-!
C37: the worker pool runs each job at most once, in order, and shuts down.
C64: a submitted job is not forgotten.

All statements are about every schedule: which thread does the next step, which waiting worker
`notify_one` wakes, when calls begin (any number of them, of any kind, also at the same time), and
which waiting workers wake up without being notified.
-/
namespace Bant
namespace Props
open ThreadPool PoolSpec

/-- No schedule gets to undefined behaviour: the front of the queue is only looked at when there is
one. -/
theorem C37_defined (count : Nat) (as : List Action) : run (init count) as ≠ .undefined :=
  run_defined (P := Inv) (fun _ _ _ _ h hs => inv_did h (step_did hs)) (fun _ a h => step_defined h a) as _
    (inv_init count)

/-- The mutex does its work: of all the threads, at most one is at a place where shared data is
looked at or changed. -/
theorem C37_exclusive (count : Nat) (s : State) (es : List Event) (h : Reachable count s es) :
    (∀ (i j : Nat) v w, s.workers[i]? = some v → s.workers[j]? = some w → Worker.Critical v → Worker.Critical w →
      i = j) ∧
    (∀ (i j : Nat) v w, s.calls[i]? = some v → s.calls[j]? = some w → CallState.Critical v →
      CallState.Critical w → i = j) ∧
    ∀ (i j : Nat) v w, s.workers[i]? = some v → s.calls[j]? = some w → Worker.Critical v →
      ¬ CallState.Critical w := by
  have hi := (reachable_spec h).1
  refine ⟨?_, ?_, ?_⟩
  · intro i j v w hv hw cv cw
    have := ((hi.worker i v hv).mp cv).symm.trans ((hi.worker j w hw).mp cw)
    cases this; rfl
  · intro i j v w hv hw cv cw
    have := ((hi.call i v hv).mp cv).symm.trans ((hi.call j w hw).mp cw)
    cases this; rfl
  · intro i j v w hv hw cv cw
    have := ((hi.worker i v hv).mp cv).symm.trans ((hi.call j w hw).mp cw)
    cases this

/-- At any time, the jobs that have been started are the first ones of those that have been
submitted, in the same order, each as often as it was submitted; the others are in the queue. -/
theorem C37_order (count : Nat) (s : State) (es : List Event) (h : Reachable count s es) :
    started es <+: submitted es ∧ started es ++ s.queue = submitted es ∧
    ∀ j, (started es).count j ≤ (submitted es).count j := by
  have hs := (reachable_spec h).2.order
  refine ⟨⟨_, hs⟩, hs, fun j => ?_⟩
  rw [← hs, List.count_append]; omega

/-- Jobs that are submitted once are started at most once, and finish at most once. -/
theorem C37_once (count : Nat) (s : State) (es : List Event) (h : Reachable count s es)
    (hd : (submitted es).Nodup) : (started es).Nodup ∧ (finished es).Nodup := by
  have hs := (reachable_spec h).2
  have h1 : (started es).Nodup := by
    rw [← hs.order] at hd; exact (List.nodup_append.mp hd).1
  refine ⟨h1, ?_⟩
  rw [List.nodup_iff_count]
  intro j
  have := List.nodup_iff_count.mp h1 j
  have := hs.count j
  omega

/-- What finishes has been started before. -/
theorem C37_finished (count : Nat) (s : State) (es : List Event) (h : Reachable count s es) (j : Job) :
    (finished es).count j ≤ (started es).count j := by
  have := (reachable_spec h).2.count j
  omega

/-- After shutdown no job is started. -/
theorem C37_shutdown (count : Nat) (s : State) (pre post : List Event)
    (h : Reachable count s (pre ++ .shutdown :: post)) : started post = [] :=
  (reachable_spec h).2.after pre post rfl

/-- Threads that are there get to their end: from any state that can occur, if no further calls
begin, there is a number of steps after which nobody can proceed, whoever goes first. -/
theorem C37_ends (count : Nat) (s : State) (es : List Event) (_h : Reachable count s es) :
    ∃ n, ∀ as s' es', (∀ a ∈ as, proper a = true) → run s as = .next s' es' → as.length ≤ n :=
  ⟨bound s, fun as s' es' ha hr => by have := run_length as s s' es' ha hr; omega⟩

/-- …and once shutdown was requested, nobody can proceed only when every worker has terminated, and
every call has returned – the destructor too, which waits for the workers. So there is no deadlock.
Other jobs need not have been run. -/
theorem C37_terminates (count : Nat) (s : State) (es : List Event) (h : Reachable count s es)
    (hx : .shutdown ∈ es) (hi : Idle s) :
    (∀ w ∈ s.workers, w = .returned) ∧ (∀ pc ∈ s.calls, ∃ c, pc = .returned c) := by
  obtain ⟨hinv, hseen⟩ := reachable_spec h
  obtain ⟨h1, h2⟩ := idle_spec hinv hi
  have he := hseen.shut.mp hx
  rcases h2 with ⟨_, h2⟩ | ⟨h2, _⟩
  · exact ⟨h2, h1⟩
  · rw [he] at h2; cases h2

/-- Workers terminate only when there is a shutdown. -/
theorem C37_workers_stay (count : Nat) (s : State) (es : List Event) (h : Reachable count s es)
    (hx : .shutdown ∉ es) : .returned ∉ s.workers := by
  obtain ⟨hinv, hseen⟩ := reachable_spec h
  intro hw
  obtain ⟨i, hi⟩ := List.getElem?_of_mem hw
  exact hx (hseen.shut.mpr (hinv.returned i hi))

/-- When the destructor returns, all workers have terminated: none of them can touch the pool that
is gone. -/
theorem C37_destructor (count : Nat) (s : State) (es : List Event) (h : Reachable count s es)
    (hd : .returned .destroy ∈ s.calls) : ∀ w ∈ s.workers, w = .returned := by
  intro w hw
  obtain ⟨i, hi⟩ := List.getElem?_of_mem hd
  obtain ⟨j, hj⟩ := List.getElem?_of_mem hw
  exact (reachable_spec h).1.destroyed i hi j w hj

/-- When shutdown was requested and the call has returned, nobody waits for jobs any more. -/
theorem C37_cancel (count : Nat) (s : State) (es : List Event) (h : Reachable count s es)
    (hd : .returned .cancel ∈ s.calls) : .waiting ∉ s.workers := by
  intro hw
  obtain ⟨i, hi⟩ := List.getElem?_of_mem hd
  obtain ⟨j, hj⟩ := List.getElem?_of_mem hw
  exact (reachable_spec h).1.cancelled i hi j hj

/-- The number of workers does not change. -/
theorem C37_workers (count : Nat) (s : State) (es : List Event) (h : Reachable count s es) :
    s.workers.length = count := by
  obtain ⟨as, hr⟩ := h
  have hl : ∀ (s : State) (es : List Event) a s' es', s.workers.length = count → step s a = .next s' es' →
      s'.workers.length = count := by
    intro s es a s' es' h hs
    have := step_did hs
    generalize proper a = b at this
    cases this <;> simp_all [wakeAll]
  exact run_induct (P := fun s _ => s.workers.length = count) hl as (init count) s [] es
    (by simp [init]) hr

/-- Put together: a schedule that begins `CancelAllWork` or the destructor, after which nobody can
proceed, has terminated every worker and returned from every call. -/
theorem C37_terminates_all (count : Nat) (as : List Action) (s : State) (es : List Event)
    (h : run (init count) as = .next s es) (hb : .cancel ∈ begun as ∨ .destroy ∈ begun as) (hi : Idle s) :
    s.workers = List.replicate count .returned ∧ (∀ pc ∈ s.calls, ∃ c, pc = .returned c) := by
  have hr : Reachable count s es := ⟨as, h⟩
  obtain ⟨hinv, hseen⟩ := reachable_spec hr
  obtain ⟨h1, h2⟩ := idle_spec hinv hi
  have he : s.exiting = true := by
    rw [← (run_done h).1] at hb
    rcases hb with hb | hb <;>
    · obtain ⟨pc, hpc, hk⟩ := List.mem_map.mp hb
      obtain ⟨c, rfl⟩ := h1 pc hpc
      obtain ⟨k, hk'⟩ := List.getElem?_of_mem hpc
      simp only [kindOf] at hk
      subst hk
      exact hinv.exit k _ (.inr (.inr hk')) (by simp)
  obtain ⟨h3, h4⟩ := C37_terminates count s es hr (hseen.shut.mpr he) hi
  exact ⟨List.eq_replicate_iff.mpr ⟨C37_workers count s es hr, h3⟩, h4⟩

/-- **C64** A submitted job is not forgotten: if there is at least one worker and shutdown is not
requested, then after a schedule that ends in a state in which nobody can proceed, all jobs that
were handed in have been run to their end, each once. -/
theorem C64_not_forgotten (count : Nat) (as : List Action) (s : State) (es : List Event)
    (h : run (init count) as = .next s es) (hc : 0 < count) (hb : .cancel ∉ begun as ∧ .destroy ∉ begun as)
    (hi : Idle s) :
    (finished es).Perm (jobs (begun as)) ∧ started es = submitted es ∧ ∀ w ∈ s.workers, w = .waiting := by
  have hr : Reachable count s es := ⟨as, h⟩
  obtain ⟨hinv, hseen⟩ := reachable_spec hr
  obtain ⟨h1, h2⟩ := idle_spec hinv hi
  have hl := C37_workers count s es hr
  obtain ⟨hk, hdone⟩ := run_done h
  have key : (∀ w ∈ s.workers, w = .waiting) ∧ s.queue = [] := by
    rcases h2 with ⟨he, _⟩ | ⟨_, hw, hq | hq⟩
    · have := hdone.exit he
      rw [hk] at this
      exact absurd this (by simp [hb])
    · exact ⟨hw, hq⟩
    · rw [hq] at hl; simp at hl; omega
  have ho := hseen.order
  rw [key.2, List.append_nil] at ho
  refine ⟨?_, ho, key.1⟩
  refine List.Perm.trans ?_ (submitted_all h h1)
  rw [← ho, List.perm_iff_count]
  intro j
  have h0 : active s j = 0 := by
    unfold active
    rw [List.sum_eq_zero_iff_forall_eq_nat]
    intro n hn
    obtain ⟨w, hw, rfl⟩ := List.mem_map.mp hn
    rw [key.1 w hw]; rfl
  have := hseen.count j
  omega

/-- …and such a state is reached: any schedule can be completed to one, without further calls. With
`C37_ends`, the threads that are there get to it in whatever order they go. -/
theorem C64_completes (count : Nat) (as : List Action) (s : State) (es : List Event)
    (h : run (init count) as = .next s es) :
    ∃ bs s' es', (∀ a ∈ bs, proper a = true) ∧ run (init count) (as ++ bs) = .next s' es' ∧ Idle s' := by
  obtain ⟨bs, s', es', h1, h2, h3⟩ := idle_exists (bound s) s (Nat.le_refl _) (reachable_spec ⟨as, h⟩).1
  exact ⟨bs, s', _, h1, run_append h h2, h3⟩

/-! ### Concrete cases -/

/-- One worker, one job: the worker waits, is woken and runs it. -/
def demo : List Action :=
  [.worker 0, .worker 0, .begin (.exec 7), .call 0 0, .call 0 0, .call 0 0, .call 0 0,
   .worker 0, .worker 0, .worker 0, .worker 0, .worker 0]

example : ∃ s, run (init 1) demo = .next s [.submitted 7, .started 7, .finished 7] ∧ s.workers = [.lock] ∧
    s.calls = [.returned (.exec 7)] := ⟨_, rfl, rfl, rfl⟩

/-- Two steps later, nobody can proceed. -/
example : (run (init 1) (demo ++ [.worker 0, .worker 0]) =
    .next { workers := [.waiting], calls := [.returned (.exec 7)] } [.submitted 7, .started 7, .finished 7]) := by
  decide

/-- Two jobs and shutdown while the first one runs: the second one is not started. -/
example : ∃ s, run (init 1) [.begin (.exec 1), .begin (.exec 2), .call 0 0, .call 0 0, .call 0 0, .call 0 0,
      .call 1 0, .call 1 0, .call 1 0, .call 1 0, .worker 0, .worker 0, .worker 0, .worker 0,
      .begin .destroy, .call 2 0, .call 2 0, .call 2 0, .call 2 0, .worker 0, .worker 0, .worker 0, .worker 0,
      .call 2 0, .call 2 0] =
    .next s [.submitted 1, .submitted 2, .started 1, .shutdown, .finished 1] ∧
    s.workers = [.returned] ∧ s.queue = [2] ∧ s.calls[2]? = some (.returned .destroy) :=
  ⟨_, rfl, rfl, rfl, rfl⟩

/-- The destructor has to wait for the worker. -/
example : run (init 1) [.begin .destroy, .call 0 0, .call 0 0, .call 0 0, .call 0 0, .call 0 0] = .blocked := by
  decide

/-- Two workers, one job, two that wait: one is woken, either of them. -/
example : ∃ s, run (init 2) [.worker 0, .worker 0, .worker 1, .worker 1, .begin (.exec 3), .call 0 0, .call 0 0,
    .call 0 0, .call 0 1] = .next s [.submitted 3] ∧ s.workers = [.waiting, .woken] := ⟨_, rfl, rfl⟩

/-- A spurious wake-up: the worker finds nothing and waits again. -/
example : ∃ s, run (init 1) [.worker 0, .worker 0, .spurious 0, .worker 0, .worker 0] = .next s [] ∧
    s.workers = [.waiting] := ⟨_, rfl, rfl⟩

/-- Without workers, jobs stay where they are: `0 < count` is needed. -/
example : ∃ s, run (init 0) [.begin (.exec 3), .call 0 0, .call 0 0, .call 0 0, .call 0 0] = .next s [.submitted 3] ∧
    s.queue = [3] := ⟨_, rfl, rfl⟩

end Props
end Bant
