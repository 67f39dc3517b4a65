import Verif.Model.ThreadPool

/-! Specification of the thread pool (C37, C64): in terms of what is observed, and of who can
proceed. -/
namespace Bant
namespace PoolSpec
open ThreadPool

/-- The jobs that have been submitted, in that order. -/
def submitted (es : List Event) : List Job := es.filterMap fun e => match e with | .submitted j => some j | _ => none

/-- The jobs that have been started, in that order. -/
def started (es : List Event) : List Job := es.filterMap fun e => match e with | .started j => some j | _ => none

/-- The jobs that have finished, in that order. -/
def finished (es : List Event) : List Job := es.filterMap fun e => match e with | .finished j => some j | _ => none

/-- The calls that a schedule begins, in that order. -/
def begun (as : List Action) : List Call := as.filterMap fun a => match a with | .begin c => some c | _ => none

/-- The jobs that are handed in by some calls. -/
def jobs (cs : List Call) : List Job := cs.filterMap fun c => match c with | .exec j => some j | _ => none

/-- A state that some schedule leads to, with `count` workers, and what has been observed until
then. -/
def Reachable (count : Nat) (s : State) (es : List Event) : Prop := ∃ as, run (init count) as = .next s es

/-- Steps of threads that are there already, without spurious wake-ups. -/
def proper : Action → Bool
  | .worker _ => true
  | .call _ _ => true
  | _ => false

/-- No thread can proceed. -/
def Idle (s : State) : Prop := ∀ a, proper a = true → step s a = .blocked

/-- In a region that is protected by the mutex. -/
def Worker.Critical : Worker → Prop
  | .test | .tested | .popped _ => True
  | _ => False

def CallState.Critical : CallState → Prop
  | .write _ | .unlock _ => True
  | _ => False

end PoolSpec
end Bant
