import Verif.Base.Str

/-!
The thread pool of the pre-warm cache: bant/util/filesystem-prewarm-cache.cc 47-96.

Threads are interleaved. A step of a thread is what it does between two operations on mutex or
condition variable, so each access to shared data is a step of its own. The order of the steps is
chosen by the environment: it is a list of actions. Jobs are numbers; what a job does is not
modelled, except that it may make calls (any call may begin at any time), and that it returns.
-/
namespace Bant
namespace ThreadPool

abbrev Job := Nat

/-- Where a worker thread is in `Runner`, filesystem-prewarm-cache.cc:79-89. -/
inductive Worker
  /-- Before line 81: about to lock the mutex. -/
  | lock
  /-- Has the mutex, about to evaluate the condition of line 82. -/
  | test
  /-- Blocked in `cv_.wait`. -/
  | waiting
  /-- In `cv_.wait`, notified, about to lock the mutex again. -/
  | woken
  /-- Has the mutex, after line 82. -/
  | tested
  /-- Has the mutex, after line 85. -/
  | popped (job : Job)
  /-- Line 87. -/
  | running (job : Job)
  /-- Has returned. -/
  | returned
deriving DecidableEq, Repr

/-- What can be called: `ExecAsync`, `CancelAllWork` and the destructor. -/
inductive Call
  | exec (job : Job)
  | cancel
  | destroy
deriving DecidableEq, Repr

/-- Where a call is. `ExecAsync`: filesystem-prewarm-cache.cc:64-69; `CancelAllWork`: 71-76;
destructor: 56-62. -/
inductive CallState
  /-- About to lock the mutex. -/
  | lock (c : Call)
  /-- Has the mutex, about to change queue or flag. -/
  | write (c : Call)
  /-- Has the mutex, about to unlock it. -/
  | unlock (c : Call)
  /-- About to notify. -/
  | notify (c : Call)
  /-- Destructor: about to join the worker with that number. -/
  | join (n : Nat)
  | returned (c : Call)
deriving DecidableEq, Repr

/-- Who has the mutex. -/
inductive Owner
  | worker (i : Nat)
  | call (i : Nat)
deriving DecidableEq, Repr

structure State where
  queue : List Job := []
  exiting : Bool := false
  owner : Option Owner := none
  workers : List Worker
  calls : List CallState := []
deriving DecidableEq, Repr

/-- filesystem-prewarm-cache.cc:50-54: the constructor. -/
def init (count : Nat) : State := { workers := List.replicate count .lock }

/-- What the environment chooses. -/
inductive Action
  /-- Some thread begins a call. -/
  | begin (c : Call)
  /-- A worker does a step. -/
  | worker (i : Nat)
  /-- A worker stops waiting without being notified. -/
  | spurious (i : Nat)
  /-- A call does a step; `notify_one` wakes `w` (if it wakes one). -/
  | call (i : Nat) (w : Nat)
deriving DecidableEq, Repr

/-- What can be observed. -/
inductive Event
  /-- The job has been put in the queue. -/
  | submitted (job : Job)
  /-- The job has been taken out of the queue, to be run. -/
  | started (job : Job)
  | finished (job : Job)
  /-- The flag has been set. -/
  | shutdown
deriving DecidableEq, Repr

inductive Result
  /-- The thread cannot proceed, or there is no such thread. -/
  | blocked
  /-- Undefined behaviour. -/
  | undefined
  | next (s : State) (events : List Event)
deriving DecidableEq, Repr

/-- filesystem-prewarm-cache.cc:79-89, `Runner`: one step of worker `i`. -/
def stepWorker (s : State) (i : Nat) : Worker → Result
  | .lock =>
    if s.owner = none then
      .next { s with owner := some (.worker i), workers := s.workers.set i .test } []
    else .blocked
  | .test =>
    if s.queue ≠ [] ∨ s.exiting then .next { s with workers := s.workers.set i .tested } []
    else .next { s with owner := none, workers := s.workers.set i .waiting } []
  | .waiting => .blocked
  | .woken =>
    if s.owner = none then
      .next { s with owner := some (.worker i), workers := s.workers.set i .test } []
    else .blocked
  | .tested =>
    if s.exiting then .next { s with owner := none, workers := s.workers.set i .returned } []
    else
      match s.queue with
      | [] => .undefined
      | job :: queue =>
        .next { s with queue := queue, workers := s.workers.set i (.popped job) } [.started job]
  | .popped job => .next { s with owner := none, workers := s.workers.set i (.running job) } []
  | .running job => .next { s with workers := s.workers.set i .lock } [.finished job]
  | .returned => .blocked

/-- `notify_all` -/
def wakeAll (workers : List Worker) : List Worker :=
  workers.map fun w => if w = .waiting then .woken else w

/-- One step of call `i`. -/
def stepCall (s : State) (i w : Nat) : CallState → Result
  | .lock c =>
    if s.owner = none then .next { s with owner := some (.call i), calls := s.calls.set i (.write c) } []
    else .blocked
  | .write (.exec job) =>
    .next { s with queue := s.queue ++ [job], calls := s.calls.set i (.unlock (.exec job)) } [.submitted job]
  | .write .cancel => .next { s with exiting := true, calls := s.calls.set i (.unlock .cancel) } [.shutdown]
  | .write .destroy => .next { s with exiting := true, calls := s.calls.set i (.unlock .destroy) } [.shutdown]
  | .unlock c => .next { s with owner := none, calls := s.calls.set i (.notify c) } []
  | .notify (.exec job) =>
    if .waiting ∈ s.workers then
      if s.workers[w]? = some .waiting then
        .next { s with workers := s.workers.set w .woken, calls := s.calls.set i (.returned (.exec job)) } []
      else .blocked
    else .next { s with calls := s.calls.set i (.returned (.exec job)) } []
  | .notify .cancel => .next { s with workers := wakeAll s.workers, calls := s.calls.set i (.returned .cancel) } []
  | .notify .destroy => .next { s with workers := wakeAll s.workers, calls := s.calls.set i (.join 0) } []
  | .join n =>
    if s.workers.length ≤ n then .next { s with calls := s.calls.set i (.returned .destroy) } []
    else if s.workers[n]? = some .returned then .next { s with calls := s.calls.set i (.join (n + 1)) } []
    else .blocked
  | .returned _ => .blocked

/-- One step. -/
def step (s : State) : Action → Result
  | .begin c => .next { s with calls := s.calls ++ [.lock c] } []
  | .worker i =>
    match s.workers[i]? with
    | some pc => stepWorker s i pc
    | none => .blocked
  | .spurious i =>
    if s.workers[i]? = some .waiting then .next { s with workers := s.workers.set i .woken } [] else .blocked
  | .call i w =>
    match s.calls[i]? with
    | some pc => stepCall s i w pc
    | none => .blocked

/-- Some steps, with all that has been observed. -/
def run (s : State) : List Action → Result
  | [] => .next s []
  | a :: as =>
    match step s a with
    | .next s es =>
      match run s as with
      | .next s' es' => .next s' (es ++ es')
      | r => r
    | r => r

end ThreadPool
end Bant
