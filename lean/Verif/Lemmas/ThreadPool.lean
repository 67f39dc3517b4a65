import Verif.Spec.ThreadPool

/-! Lemmas about the thread pool (C37, C64): steps as a relation, and the invariant. -/
namespace Bant
namespace ThreadPool
open PoolSpec

/-! ### Steps -/

/-- What a step does; the flag is `proper`. -/
inductive Did (s : State) : Bool → State → List Event → Prop
  | begin (c) : Did s false { s with calls := s.calls ++ [.lock c] } []
  | wlock (i pc) : s.workers[i]? = some pc → pc = .lock ∨ pc = .woken → s.owner = none →
      Did s true { s with owner := some (.worker i), workers := s.workers.set i .test } []
  | wtested (i) : s.workers[i]? = some .test → (s.queue ≠ [] ∨ s.exiting = true) →
      Did s true { s with workers := s.workers.set i .tested } []
  | wwait (i) : s.workers[i]? = some .test → s.queue = [] → s.exiting = false →
      Did s true { s with owner := none, workers := s.workers.set i .waiting } []
  | wreturn (i) : s.workers[i]? = some .tested → s.exiting = true →
      Did s true { s with owner := none, workers := s.workers.set i .returned } []
  | wpop (i job queue) : s.workers[i]? = some .tested → s.exiting = false → s.queue = job :: queue →
      Did s true { s with queue := queue, workers := s.workers.set i (.popped job) } [.started job]
  | wunlock (i job) : s.workers[i]? = some (.popped job) →
      Did s true { s with owner := none, workers := s.workers.set i (.running job) } []
  | wrun (i job) : s.workers[i]? = some (.running job) →
      Did s true { s with workers := s.workers.set i .lock } [.finished job]
  | spurious (i) : s.workers[i]? = some .waiting → Did s false { s with workers := s.workers.set i .woken } []
  | clock (i c) : s.calls[i]? = some (.lock c) → s.owner = none →
      Did s true { s with owner := some (.call i), calls := s.calls.set i (.write c) } []
  | push (i job) : s.calls[i]? = some (.write (.exec job)) →
      Did s true { s with queue := s.queue ++ [job], calls := s.calls.set i (.unlock (.exec job)) } [.submitted job]
  | exit (i c) : s.calls[i]? = some (.write c) → c = .cancel ∨ c = .destroy →
      Did s true { s with exiting := true, calls := s.calls.set i (.unlock c) } [.shutdown]
  | cunlock (i c) : s.calls[i]? = some (.unlock c) →
      Did s true { s with owner := none, calls := s.calls.set i (.notify c) } []
  | notifyOne (i w job) : s.calls[i]? = some (.notify (.exec job)) → s.workers[w]? = some .waiting →
      Did s true { s with workers := s.workers.set w .woken, calls := s.calls.set i (.returned (.exec job)) } []
  | notifyNone (i job) : s.calls[i]? = some (.notify (.exec job)) → .waiting ∉ s.workers →
      Did s true { s with calls := s.calls.set i (.returned (.exec job)) } []
  | notifyCancel (i) : s.calls[i]? = some (.notify .cancel) →
      Did s true { s with workers := wakeAll s.workers, calls := s.calls.set i (.returned .cancel) } []
  | notifyDestroy (i) : s.calls[i]? = some (.notify .destroy) →
      Did s true { s with workers := wakeAll s.workers, calls := s.calls.set i (.join 0) } []
  | joined (i n) : s.calls[i]? = some (.join n) → s.workers.length ≤ n →
      Did s true { s with calls := s.calls.set i (.returned .destroy) } []
  | joinNext (i n) : s.calls[i]? = some (.join n) → s.workers[n]? = some .returned →
      Did s true { s with calls := s.calls.set i (.join (n + 1)) } []

theorem step_did {s s' : State} {a : Action} {es : List Event} (h : step s a = .next s' es) :
    Did s (proper a) s' es := by
  cases a with
  | begin c => cases h; exact .begin c
  | worker i =>
    simp only [step] at h
    cases hw : s.workers[i]? with
    | none => rw [hw] at h; cases h
    | some pc =>
      rw [hw] at h
      simp only at h
      cases pc with
      | lock | woken =>
        simp only [stepWorker] at h
        by_cases ho : s.owner = none
        · rw [if_pos ho] at h; cases h; exact .wlock i _ hw (by simp) ho
        · rw [if_neg ho] at h; cases h
      | test =>
        simp only [stepWorker] at h
        by_cases hc : s.queue ≠ [] ∨ s.exiting = true
        · rw [if_pos hc] at h; cases h; exact .wtested i hw hc
        · rw [if_neg hc] at h; cases h
          simp only [ne_eq, not_or, Decidable.not_not, Bool.not_eq_true] at hc
          exact .wwait i hw hc.1 hc.2
      | waiting | returned => cases h
      | tested =>
        simp only [stepWorker] at h
        cases he : s.exiting with
        | true => simp only [he, if_true] at h; cases h; rw [← he]; exact .wreturn i hw he
        | false =>
          simp only [he, Bool.false_eq_true, if_false] at h
          cases hq : s.queue with
          | nil => rw [hq] at h; cases h
          | cons j q => rw [hq] at h; cases h; rw [← he]; exact .wpop i j q hw he hq
      | popped j => cases h; exact .wunlock i j hw
      | running j => cases h; exact .wrun i j hw
  | spurious i =>
    simp only [step] at h
    by_cases hw : s.workers[i]? = some .waiting
    · rw [if_pos hw] at h; cases h; exact .spurious i hw
    · rw [if_neg hw] at h; cases h
  | call i w =>
    simp only [step] at h
    cases hc : s.calls[i]? with
    | none => rw [hc] at h; cases h
    | some pc =>
      rw [hc] at h
      simp only at h
      cases pc with
      | lock c =>
        simp only [stepCall] at h
        by_cases ho : s.owner = none
        · rw [if_pos ho] at h; cases h; exact .clock i c hc ho
        · rw [if_neg ho] at h; cases h
      | write c =>
        cases c with
        | exec j => cases h; exact .push i j hc
        | cancel => cases h; exact .exit i _ hc (.inl rfl)
        | destroy => cases h; exact .exit i _ hc (.inr rfl)
      | unlock c => cases h; exact .cunlock i c hc
      | notify c =>
        cases c with
        | exec j =>
          simp only [stepCall] at h
          by_cases hm : .waiting ∈ s.workers
          · rw [if_pos hm] at h
            by_cases hw : s.workers[w]? = some .waiting
            · rw [if_pos hw] at h; cases h; exact .notifyOne i w j hc hw
            · rw [if_neg hw] at h; cases h
          · rw [if_neg hm] at h; cases h; exact .notifyNone i j hc hm
        | cancel => cases h; exact .notifyCancel i hc
        | destroy => cases h; exact .notifyDestroy i hc
      | join n =>
        simp only [stepCall] at h
        by_cases hl : s.workers.length ≤ n
        · rw [if_pos hl] at h; cases h; exact .joined i n hc hl
        · rw [if_neg hl] at h
          by_cases hr : s.workers[n]? = some .returned
          · rw [if_pos hr] at h; cases h; exact .joinNext i n hc hr
          · rw [if_neg hr] at h; cases h
      | returned c => cases h

/-! ### The invariant -/

/-- A call that has changed queue or flag, and has not notified yet. -/
def Announcing (s : State) (c : Call) : Prop :=
  ∃ j : Nat, s.calls[j]? = some (.unlock c) ∨ s.calls[j]? = some (.notify c)

structure Inv (s : State) : Prop where
  worker : ∀ (i : Nat) pc, s.workers[i]? = some pc → (Worker.Critical pc ↔ s.owner = some (.worker i))
  call : ∀ (i : Nat) pc, s.calls[i]? = some pc → (CallState.Critical pc ↔ s.owner = some (.call i))
  ownerWorker : ∀ i, s.owner = some (.worker i) → i < s.workers.length
  ownerCall : ∀ i, s.owner = some (.call i) → i < s.calls.length
  tested : ∀ i : Nat, s.workers[i]? = some .tested → s.queue ≠ [] ∨ s.exiting = true
  waiting : ∀ i : Nat, s.exiting = true → s.workers[i]? = some .waiting →
    Announcing s .cancel ∨ Announcing s .destroy
  returned : ∀ i : Nat, s.workers[i]? = some .returned → s.exiting = true
  lost : s.queue ≠ [] → s.exiting = false → s.workers.length = 0 ∨ (∃ j, Announcing s (.exec j)) ∨
    ∃ (i : Nat) (pc : Worker), s.workers[i]? = some pc ∧ pc ≠ .waiting
  exit : ∀ (j : Nat) (c : Call), s.calls[j]? = some (.unlock c) ∨ s.calls[j]? = some (.notify c) ∨
    s.calls[j]? = some (.returned c) → c = .cancel ∨ c = .destroy → s.exiting = true
  joins : ∀ j n : Nat, s.calls[j]? = some (.join n) → s.exiting = true ∧
    (∀ i : Nat, s.workers[i]? ≠ some .waiting) ∧
    ∀ i : Nat, i < n → i < s.workers.length → s.workers[i]? = some .returned
  cancelled : ∀ j : Nat, s.calls[j]? = some (.returned .cancel) → ∀ i : Nat, s.workers[i]? ≠ some .waiting
  destroyed : ∀ j : Nat, s.calls[j]? = some (.returned .destroy) → ∀ (i : Nat) (pc : Worker),
    s.workers[i]? = some pc → pc = .returned

theorem inv_init (count : Nat) : Inv (init count) := by
  have hi : ∀ (i : Nat) pc, (init count).workers[i]? = some pc → pc = .lock :=
    fun i pc h => List.eq_of_mem_replicate (List.mem_of_getElem? h)
  constructor
  · intro i pc h; rw [hi i pc h]; simp [Worker.Critical, init]
  · intro i pc h; simp [init] at h
  · intro i h; simp [init] at h
  · intro i h; simp [init] at h
  · intro i h; cases hi i _ h
  · intro i h; simp [init] at h
  · intro i h; cases hi i _ h
  · intro h; simp [init] at h
  · intro j c h; simp [init] at h
  · intro j n h; simp [init] at h
  · intro j h; simp [init] at h
  · intro j h; simp [init] at h

theorem wakeAll_getElem (ws : List Worker) (i : Nat) :
    (wakeAll ws)[i]? = (ws[i]?).map fun w => if w = .waiting then .woken else w := by
  simp [wakeAll]

theorem wakeAll_length (ws : List Worker) : (wakeAll ws).length = ws.length := by simp [wakeAll]

attribute [local grind] Worker.Critical CallState.Critical
attribute [local grind =] List.getElem?_set List.length_set wakeAll_getElem wakeAll_length List.getElem?_append

theorem announcing_set {s s' : State} {i : Nat} {old new : CallState} (h : s.calls[i]? = some old)
    (hs : s'.calls = s.calls.set i new) (c : Call)
    (hk : old = .unlock c ∨ old = .notify c → new = .unlock c ∨ new = .notify c) (ha : Announcing s c) :
    Announcing s' c := by
  obtain ⟨j, hj⟩ := ha
  exact ⟨j, by rw [hs]; grind⟩

theorem announcing_new {s s' : State} {i : Nat} {old new : CallState} (h : s.calls[i]? = some old)
    (hs : s'.calls = s.calls.set i new) (c : Call) (hk : new = .unlock c ∨ new = .notify c) :
    Announcing s' c :=
  ⟨i, by rw [hs]; grind⟩

theorem announcing_append {s s' : State} {new : CallState} (hs : s'.calls = s.calls ++ [new]) (c : Call)
    (ha : Announcing s c) : Announcing s' c := by
  obtain ⟨j, hj⟩ := ha
  exact ⟨j, by rw [hs]; grind⟩

theorem announcing_same {s s' : State} (hs : s'.calls = s.calls) (c : Call)
    (ha : Announcing s c) : Announcing s' c := by
  obtain ⟨j, hj⟩ := ha
  exact ⟨j, by rw [hs]; exact hj⟩

theorem inv_begin {s : State} (h : Inv s) (c : Call)  :
    Inv { s with calls := s.calls ++ [.lock c] } := by
  obtain ⟨hw, hc, how, hoc, ht, hwa, hr, hl, he, hj, hca, hde⟩ := h
  generalize hs : ({ s with calls := s.calls ++ [.lock c] } : State) = s'
  have K : ∀ c, _ := fun c => announcing_append (s := s) (s' := s') (by rw [← hs]) c
  constructor <;> grind

theorem inv_wlock {s : State} (h : Inv s) (i : Nat) (pc : Worker) (h1 : s.workers[i]? = some pc) (h2 : pc = .lock ∨ pc = .woken) (h3 : s.owner = none) :
    Inv { s with owner := some (.worker i), workers := s.workers.set i .test } := by
  obtain ⟨hw, hc, how, hoc, ht, hwa, hr, hl, he, hj, hca, hde⟩ := h
  generalize hs : { s with owner := some (.worker i), workers := s.workers.set i .test } = s'
  have K : ∀ c, _ := fun c => announcing_same (s := s) (s' := s') (by rw [← hs]) c
  have W : s'.workers[i]? = some .test := by rw [← hs]; grind
  rcases h2 with rfl | rfl <;> constructor <;> grind

theorem inv_wtested {s : State} (h : Inv s) (i : Nat) (h1 : s.workers[i]? = some .test) (h2 : (s.queue ≠ [] ∨ s.exiting = true)) :
    Inv { s with workers := s.workers.set i .tested } := by
  obtain ⟨hw, hc, how, hoc, ht, hwa, hr, hl, he, hj, hca, hde⟩ := h
  generalize hs : { s with workers := s.workers.set i .tested } = s'
  have K : ∀ c, _ := fun c => announcing_same (s := s) (s' := s') (by rw [← hs]) c
  have W : s'.workers[i]? = some .tested := by rw [← hs]; grind
  constructor <;> grind

theorem inv_wwait {s : State} (h : Inv s) (i : Nat) (h1 : s.workers[i]? = some .test) (h2 : s.queue = []) (h3 : s.exiting = false) :
    Inv { s with owner := none, workers := s.workers.set i .waiting } := by
  obtain ⟨hw, hc, how, hoc, ht, hwa, hr, hl, he, hj, hca, hde⟩ := h
  generalize hs : { s with owner := none, workers := s.workers.set i .waiting } = s'
  have K : ∀ c, _ := fun c => announcing_same (s := s) (s' := s') (by rw [← hs]) c
  have W : s'.workers[i]? = some .waiting := by rw [← hs]; grind
  have E1 : ∀ j : Nat, s.calls[j]? ≠ some (.returned .cancel) := fun j hj => by
    have := he j _ (.inr (.inr hj)) (.inl rfl); rw [h3] at this; cases this
  have E2 : ∀ j : Nat, s.calls[j]? ≠ some (.returned .destroy) := fun j hj => by
    have := he j _ (.inr (.inr hj)) (.inr rfl); rw [h3] at this; cases this
  constructor <;> grind

theorem inv_wreturn {s : State} (h : Inv s) (i : Nat) (h1 : s.workers[i]? = some .tested) (h2 : s.exiting = true) :
    Inv { s with owner := none, workers := s.workers.set i .returned } := by
  obtain ⟨hw, hc, how, hoc, ht, hwa, hr, hl, he, hj, hca, hde⟩ := h
  generalize hs : { s with owner := none, workers := s.workers.set i .returned } = s'
  have K : ∀ c, _ := fun c => announcing_same (s := s) (s' := s') (by rw [← hs]) c
  have W : s'.workers[i]? = some .returned := by rw [← hs]; grind
  constructor <;> grind

theorem inv_wpop {s : State} (h : Inv s) (i : Nat) (job : Job) (queue : List Job) (h1 : s.workers[i]? = some .tested) (h2 : s.exiting = false) (h3 : s.queue = job :: queue) :
    Inv { s with queue := queue, workers := s.workers.set i (.popped job) } := by
  obtain ⟨hw, hc, how, hoc, ht, hwa, hr, hl, he, hj, hca, hde⟩ := h
  generalize hs : { s with queue := queue, workers := s.workers.set i (.popped job) } = s'
  have K : ∀ c, _ := fun c => announcing_same (s := s) (s' := s') (by rw [← hs]) c
  have W : s'.workers[i]? = some (.popped job) := by rw [← hs]; grind
  constructor <;> grind

theorem inv_wunlock {s : State} (h : Inv s) (i : Nat) (job : Job) (h1 : s.workers[i]? = some (.popped job)) :
    Inv { s with owner := none, workers := s.workers.set i (.running job) } := by
  obtain ⟨hw, hc, how, hoc, ht, hwa, hr, hl, he, hj, hca, hde⟩ := h
  generalize hs : { s with owner := none, workers := s.workers.set i (.running job) } = s'
  have K : ∀ c, _ := fun c => announcing_same (s := s) (s' := s') (by rw [← hs]) c
  have W : s'.workers[i]? = some (.running job) := by rw [← hs]; grind
  constructor <;> grind

theorem inv_wrun {s : State} (h : Inv s) (i : Nat) (job : Job) (h1 : s.workers[i]? = some (.running job)) :
    Inv { s with workers := s.workers.set i .lock } := by
  obtain ⟨hw, hc, how, hoc, ht, hwa, hr, hl, he, hj, hca, hde⟩ := h
  generalize hs : { s with workers := s.workers.set i .lock } = s'
  have K : ∀ c, _ := fun c => announcing_same (s := s) (s' := s') (by rw [← hs]) c
  have W : s'.workers[i]? = some .lock := by rw [← hs]; grind
  constructor <;> grind

theorem inv_spurious {s : State} (h : Inv s) (i : Nat) (h1 : s.workers[i]? = some .waiting) :
    Inv { s with workers := s.workers.set i .woken } := by
  obtain ⟨hw, hc, how, hoc, ht, hwa, hr, hl, he, hj, hca, hde⟩ := h
  generalize hs : { s with workers := s.workers.set i .woken } = s'
  have K : ∀ c, _ := fun c => announcing_same (s := s) (s' := s') (by rw [← hs]) c
  have W : s'.workers[i]? = some .woken := by rw [← hs]; grind
  constructor <;> grind

theorem inv_clock {s : State} (h : Inv s) (i : Nat) (c : Call) (h1 : s.calls[i]? = some (.lock c)) (h2 : s.owner = none) :
    Inv { s with owner := some (.call i), calls := s.calls.set i (.write c) } := by
  obtain ⟨hw, hc, how, hoc, ht, hwa, hr, hl, he, hj, hca, hde⟩ := h
  generalize hs : { s with owner := some (.call i), calls := s.calls.set i (.write c) } = s'
  have K : ∀ c, _ := fun c => announcing_set h1 (s' := s') (by rw [← hs]) c
  constructor <;> grind

theorem inv_push {s : State} (h : Inv s) (i : Nat) (job : Job) (h1 : s.calls[i]? = some (.write (.exec job))) :
    Inv { s with queue := s.queue ++ [job], calls := s.calls.set i (.unlock (.exec job)) } := by
  obtain ⟨hw, hc, how, hoc, ht, hwa, hr, hl, he, hj, hca, hde⟩ := h
  generalize hs : { s with queue := s.queue ++ [job], calls := s.calls.set i (.unlock (.exec job)) } = s'
  have K : ∀ c, _ := fun c => announcing_set h1 (s' := s') (by rw [← hs]) c
  have N : ∀ c, _ → Announcing s' c := fun c => announcing_new h1 (s' := s') (by rw [← hs]) c
  constructor <;> grind

theorem inv_exit {s : State} (h : Inv s) (i : Nat) (c : Call) (h1 : s.calls[i]? = some (.write c)) (h2 : c = .cancel ∨ c = .destroy) :
    Inv { s with exiting := true, calls := s.calls.set i (.unlock c) } := by
  obtain ⟨hw, hc, how, hoc, ht, hwa, hr, hl, he, hj, hca, hde⟩ := h
  generalize hs : { s with exiting := true, calls := s.calls.set i (.unlock c) } = s'
  have K : ∀ c, _ := fun c => announcing_set h1 (s' := s') (by rw [← hs]) c
  have N : ∀ c, _ → Announcing s' c := fun c => announcing_new h1 (s' := s') (by rw [← hs]) c
  constructor <;> grind

theorem inv_cunlock {s : State} (h : Inv s) (i : Nat) (c : Call) (h1 : s.calls[i]? = some (.unlock c)) :
    Inv { s with owner := none, calls := s.calls.set i (.notify c) } := by
  obtain ⟨hw, hc, how, hoc, ht, hwa, hr, hl, he, hj, hca, hde⟩ := h
  generalize hs : { s with owner := none, calls := s.calls.set i (.notify c) } = s'
  have K : ∀ c, _ := fun c => announcing_set h1 (s' := s') (by rw [← hs]) c
  have N : ∀ c, _ → Announcing s' c := fun c => announcing_new h1 (s' := s') (by rw [← hs]) c
  constructor <;> grind

theorem inv_notifyOne {s : State} (h : Inv s) (i : Nat) (w : Nat) (job : Job) (h1 : s.calls[i]? = some (.notify (.exec job))) (h2 : s.workers[w]? = some .waiting) :
    Inv { s with workers := s.workers.set w .woken, calls := s.calls.set i (.returned (.exec job)) } := by
  obtain ⟨hw, hc, how, hoc, ht, hwa, hr, hl, he, hj, hca, hde⟩ := h
  generalize hs : { s with workers := s.workers.set w .woken, calls := s.calls.set i (.returned (.exec job)) } = s'
  have K : ∀ c, _ := fun c => announcing_set h1 (s' := s') (by rw [← hs]) c
  have W : s'.workers[w]? = some .woken := by rw [← hs]; grind
  constructor <;> grind

theorem inv_notifyNone {s : State} (h : Inv s) (i : Nat) (job : Job) (h1 : s.calls[i]? = some (.notify (.exec job))) (h2 : .waiting ∉ s.workers) :
    Inv { s with calls := s.calls.set i (.returned (.exec job)) } := by
  obtain ⟨hw, hc, how, hoc, ht, hwa, hr, hl, he, hj, hca, hde⟩ := h
  generalize hs : { s with calls := s.calls.set i (.returned (.exec job)) } = s'
  have K : ∀ c, _ := fun c => announcing_set h1 (s' := s') (by rw [← hs]) c
  have V : s'.workers.length = 0 ∨ ∃ (i : Nat) (pc : Worker), s'.workers[i]? = some pc ∧ pc ≠ .waiting := by
    rw [← hs]
    cases hws : s.workers with
    | nil => exact .inl rfl
    | cons w ws => exact .inr ⟨0, w, rfl, fun e => h2 (by rw [hws, e]; simp)⟩
  constructor <;> grind

theorem inv_notifyCancel {s : State} (h : Inv s) (i : Nat) (h1 : s.calls[i]? = some (.notify .cancel)) :
    Inv { s with workers := wakeAll s.workers, calls := s.calls.set i (.returned .cancel) } := by
  obtain ⟨hw, hc, how, hoc, ht, hwa, hr, hl, he, hj, hca, hde⟩ := h
  generalize hs : { s with workers := wakeAll s.workers, calls := s.calls.set i (.returned .cancel) } = s'
  have K : ∀ c, _ := fun c => announcing_set h1 (s' := s') (by rw [← hs]) c
  have X : s.exiting = true := he i _ (.inr (.inl h1)) (by simp)
  constructor <;> grind

theorem inv_notifyDestroy {s : State} (h : Inv s) (i : Nat) (h1 : s.calls[i]? = some (.notify .destroy)) :
    Inv { s with workers := wakeAll s.workers, calls := s.calls.set i (.join 0) } := by
  obtain ⟨hw, hc, how, hoc, ht, hwa, hr, hl, he, hj, hca, hde⟩ := h
  generalize hs : { s with workers := wakeAll s.workers, calls := s.calls.set i (.join 0) } = s'
  have K : ∀ c, _ := fun c => announcing_set h1 (s' := s') (by rw [← hs]) c
  have X : s.exiting = true := he i _ (.inr (.inl h1)) (by simp)
  constructor <;> grind

theorem inv_joined {s : State} (h : Inv s) (i : Nat) (n : Nat) (h1 : s.calls[i]? = some (.join n)) (h2 : s.workers.length ≤ n) :
    Inv { s with calls := s.calls.set i (.returned .destroy) } := by
  obtain ⟨hw, hc, how, hoc, ht, hwa, hr, hl, he, hj, hca, hde⟩ := h
  generalize hs : { s with calls := s.calls.set i (.returned .destroy) } = s'
  have K : ∀ c, _ := fun c => announcing_set h1 (s' := s') (by rw [← hs]) c
  have R : ∀ (i : Nat) (pc : Worker), s'.workers[i]? = some pc → pc = .returned := by
    rw [← hs]
    intro k pc hk
    have hlt := (List.getElem?_eq_some_iff.1 hk).1
    have := (hj i n h1).2.2 k (by simp only at hlt; omega) hlt
    rw [this] at hk; cases hk; rfl
  constructor <;> grind

theorem inv_joinNext {s : State} (h : Inv s) (i : Nat) (n : Nat) (h1 : s.calls[i]? = some (.join n)) (h2 : s.workers[n]? = some .returned) :
    Inv { s with calls := s.calls.set i (.join (n + 1)) } := by
  obtain ⟨hw, hc, how, hoc, ht, hwa, hr, hl, he, hj, hca, hde⟩ := h
  generalize hs : { s with calls := s.calls.set i (.join (n + 1)) } = s'
  have K : ∀ c, _ := fun c => announcing_set h1 (s' := s') (by rw [← hs]) c
  have hj' := hj i n h1
  have R : ∀ k : Nat, k < n + 1 → k < s'.workers.length → s'.workers[k]? = some .returned := by
    rw [← hs]
    intro k hk hl
    by_cases hkn : k = n
    · subst hkn; exact h2
    · exact hj'.2.2 k (by omega) hl
  have Q : s'.calls[i]? = some (.join (n + 1)) := by rw [← hs]; grind
  constructor
  case joins =>
    intro j m hjm
    by_cases hij : i = j
    · subst hij
      rw [Q] at hjm; cases hjm
      exact ⟨by rw [← hs]; exact hj'.1, by rw [← hs]; exact hj'.2.1, R⟩
    · rw [← hs] at hjm ⊢
      rw [List.getElem?_set_ne hij] at hjm
      exact hj j m hjm
  all_goals grind

theorem inv_did {s s' : State} {b : Bool} {es : List Event} (h : Inv s) (hd : Did s b s' es) : Inv s' := by
  cases hd with
  | begin c  => exact inv_begin h c 
  | wlock i pc h1 h2 h3 => exact inv_wlock h i pc h1 h2 h3
  | wtested i h1 h2 => exact inv_wtested h i h1 h2
  | wwait i h1 h2 h3 => exact inv_wwait h i h1 h2 h3
  | wreturn i h1 h2 => exact inv_wreturn h i h1 h2
  | wpop i job queue h1 h2 h3 => exact inv_wpop h i job queue h1 h2 h3
  | wunlock i job h1 => exact inv_wunlock h i job h1
  | wrun i job h1 => exact inv_wrun h i job h1
  | spurious i h1 => exact inv_spurious h i h1
  | clock i c h1 h2 => exact inv_clock h i c h1 h2
  | push i job h1 => exact inv_push h i job h1
  | exit i c h1 h2 => exact inv_exit h i c h1 h2
  | cunlock i c h1 => exact inv_cunlock h i c h1
  | notifyOne i w job h1 h2 => exact inv_notifyOne h i w job h1 h2
  | notifyNone i job h1 h2 => exact inv_notifyNone h i job h1 h2
  | notifyCancel i h1 => exact inv_notifyCancel h i h1
  | notifyDestroy i h1 => exact inv_notifyDestroy h i h1
  | joined i n h1 h2 => exact inv_joined h i n h1 h2
  | joinNext i n h1 h2 => exact inv_joinNext h i n h1 h2

/-! ### Runs -/

theorem run_induct {P : State → List Event → Prop}
    (hstep : ∀ s es a s' es', P s es → step s a = .next s' es' → P s' (es ++ es'))
    (as : List Action) (s s' : State) (pre es : List Event) (h0 : P s pre) (h : run s as = .next s' es) :
    P s' (pre ++ es) := by
  induction as generalizing s pre es with
  | nil => rw [run] at h; cases h; simpa using h0
  | cons a as ih =>
    rw [run] at h
    cases hs : step s a with
    | blocked => rw [hs] at h; cases h
    | undefined => rw [hs] at h; cases h
    | next s1 e1 =>
      rw [hs] at h
      simp only at h
      cases hr : run s1 as with
      | blocked => rw [hr] at h; cases h
      | undefined => rw [hr] at h; cases h
      | next s2 e2 =>
        rw [hr] at h
        simp only [Result.next.injEq] at h
        obtain ⟨rfl, rfl⟩ := h
        rw [← List.append_assoc]
        exact ih s1 _ e2 (hstep s pre a s1 e1 h0 hs) hr

theorem run_defined {P : State → Prop} (hstep : ∀ s a s' es', P s → step s a = .next s' es' → P s')
    (hdef : ∀ s a, P s → step s a ≠ .undefined) (as : List Action) (s : State) (h0 : P s) :
    run s as ≠ .undefined := by
  induction as generalizing s with
  | nil => simp [run]
  | cons a as ih =>
    rw [run]
    cases hs : step s a with
    | blocked => simp
    | undefined => exact absurd hs (hdef s a h0)
    | next s1 e1 =>
      simp only
      have := ih s1 (hstep s a s1 e1 h0 hs)
      cases hr : run s1 as with
      | blocked => simp
      | undefined => exact absurd hr this
      | next s2 e2 => simp

theorem step_defined {s : State} (h : Inv s) (a : Action) : step s a ≠ .undefined := by
  cases a with
  | begin c => simp [step]
  | spurious i => rw [step]; by_cases hw : s.workers[i]? = some .waiting <;> simp [hw]
  | worker i =>
    rw [step]
    cases hw : s.workers[i]? with
    | none => simp
    | some pc =>
      simp only
      cases pc with
      | tested =>
        rw [stepWorker]
        rcases h.tested i hw with hq | he
        · cases he : s.exiting with
          | true => simp
          | false =>
            cases hq' : s.queue with
            | nil => exact absurd hq' hq
            | cons j q => simp
        · simp [he]
      | lock | woken => rw [stepWorker]; by_cases ho : s.owner = none <;> simp [ho]
      | test => rw [stepWorker]; by_cases hc : s.queue ≠ [] ∨ s.exiting = true <;> simp [hc]
      | _ => simp [stepWorker]
  | call i w =>
    rw [step]
    cases hc : s.calls[i]? with
    | none => simp
    | some pc =>
      simp only
      cases pc with
      | lock c => rw [stepCall]; by_cases ho : s.owner = none <;> simp [ho]
      | write c => cases c <;> simp [stepCall]
      | notify c =>
        cases c with
        | exec j =>
          rw [stepCall]
          by_cases hm : Worker.waiting ∈ s.workers
          · by_cases hw : s.workers[w]? = some .waiting <;> simp [hm, hw]
          · simp [hm]
        | _ => simp [stepCall]
      | join n =>
        rw [stepCall]
        by_cases hl : s.workers.length ≤ n
        · simp [hl]
        · by_cases hr : s.workers[n]? = some .returned <;> simp [hl, hr]
      | _ => simp [stepCall]

/-! ### Idle states -/

theorem idle_spec {s : State} (h : Inv s) (hi : Idle s) :
    (∀ pc ∈ s.calls, ∃ c, pc = .returned c) ∧
    ((s.exiting = true ∧ ∀ w ∈ s.workers, w = .returned) ∨
      (s.exiting = false ∧ (∀ w ∈ s.workers, w = .waiting) ∧ (s.queue = [] ∨ s.workers = []))) := by
  have hw : ∀ (i : Nat) pc, s.workers[i]? = some pc → stepWorker s i pc = .blocked := by
    intro i pc hp
    have := hi (.worker i) rfl
    rw [step, hp] at this; exact this
  have hc : ∀ (i w : Nat) pc, s.calls[i]? = some pc → stepCall s i w pc = .blocked := by
    intro i w pc hp
    have := hi (.call i w) rfl
    rw [step, hp] at this; exact this
  have free : s.owner = none := by
    cases ho : s.owner with
    | none => rfl
    | some o =>
      cases o with
      | worker i =>
        have hlt := h.ownerWorker i ho
        have hp := List.getElem?_eq_getElem hlt
        have hcrit := (h.worker i _ hp).2 ho
        have hb := hw i _ hp
        have hd := step_defined h (.worker i)
        rw [step, hp] at hd
        revert hcrit hb hd
        cases s.workers[i] <;> simp [Worker.Critical, stepWorker]
        · split <;> simp
        · split
          · simp
          · split <;> simp
      | call i =>
        have hlt := h.ownerCall i ho
        have hp := List.getElem?_eq_getElem hlt
        have hcrit := (h.call i _ hp).2 ho
        have hb := hc i 0 _ hp
        revert hcrit hb
        cases s.calls[i] with
        | write c => cases c <;> simp [CallState.Critical, stepCall]
        | _ => simp [CallState.Critical, stepCall]
  have workers : ∀ (i : Nat) pc, s.workers[i]? = some pc → pc = .waiting ∨ pc = .returned := by
    intro i pc hp
    have hb := hw i pc hp
    have hcrit := h.worker i pc hp
    rw [free] at hcrit
    cases pc with
    | waiting => exact .inl rfl
    | returned => exact .inr rfl
    | lock | woken => simp [stepWorker, free] at hb
    | test | tested | popped => simp [Worker.Critical] at hcrit
    | running => simp [stepWorker] at hb
  have calls : ∀ (i : Nat) pc, s.calls[i]? = some pc → (∃ c, pc = .returned c) ∨ ∃ n, pc = .join n := by
    intro i pc hp
    have hb := fun w => hc i w pc hp
    have hcrit := h.call i pc hp
    rw [free] at hcrit
    cases pc with
    | returned c => exact .inl ⟨c, rfl⟩
    | join n => exact .inr ⟨n, rfl⟩
    | lock c => simp [stepCall, free] at hb
    | write | unlock => simp [CallState.Critical] at hcrit
    | notify c =>
      cases c with
      | cancel => simp [stepCall] at hb
      | destroy => simp [stepCall] at hb
      | exec j =>
        by_cases hm : Worker.waiting ∈ s.workers
        · obtain ⟨w, hlt, hwk⟩ := List.mem_iff_getElem.1 hm
          have := hb w
          simp [stepCall, hm, List.getElem?_eq_getElem hlt, hwk] at this
        · have := hb 0; simp [stepCall, hm] at this
  have quiet : ∀ c, ¬ Announcing s c := by
    rintro c ⟨j, hj | hj⟩
    · rcases calls j _ hj with ⟨_, h⟩ | ⟨_, h⟩ <;> cases h
    · rcases calls j _ hj with ⟨_, h⟩ | ⟨_, h⟩ <;> cases h
  cases he : s.exiting with
  | true =>
    have allRet : ∀ (i : Nat) pc, s.workers[i]? = some pc → pc = .returned := by
      intro i pc hp
      rcases workers i pc hp with rfl | rfl
      · rcases h.waiting i he hp with h | h <;> exact absurd h (quiet _)
      · rfl
    refine ⟨?_, .inl ⟨rfl, ?_⟩⟩
    · intro pc hpc
      obtain ⟨i, hlt, rfl⟩ := List.mem_iff_getElem.1 hpc
      have hp := List.getElem?_eq_getElem hlt
      rcases calls i _ hp with h | ⟨n, hn⟩
      · exact h
      · exfalso
        rw [hn] at hp
        have hb := hc i 0 _ hp
        rw [stepCall] at hb
        by_cases hl : s.workers.length ≤ n
        · simp [hl] at hb
        · have hwn := List.getElem?_eq_getElem (l := s.workers) (i := n) (by omega)
          have := allRet n _ hwn
          rw [this] at hwn
          simp [hl, hwn] at hb
    · intro w hm
      obtain ⟨i, hlt, rfl⟩ := List.mem_iff_getElem.1 hm
      exact allRet i _ (List.getElem?_eq_getElem hlt)
  | false =>
    have allWait : ∀ (i : Nat) pc, s.workers[i]? = some pc → pc = .waiting := by
      intro i pc hp
      rcases workers i pc hp with rfl | rfl
      · rfl
      · have := h.returned i hp; rw [he] at this; cases this
    refine ⟨?_, .inr ⟨rfl, ?_, ?_⟩⟩
    · intro pc hpc
      obtain ⟨i, hlt, rfl⟩ := List.mem_iff_getElem.1 hpc
      have hp := List.getElem?_eq_getElem hlt
      rcases calls i _ hp with h' | ⟨n, hn⟩
      · exact h'
      · rw [hn] at hp
        have := (h.joins i n hp).1; rw [he] at this; cases this
    · intro w hm
      obtain ⟨i, hlt, rfl⟩ := List.mem_iff_getElem.1 hm
      exact allWait i _ (List.getElem?_eq_getElem hlt)
    · cases hq : s.queue with
      | nil => exact .inl rfl
      | cons j q =>
        right
        rcases h.lost (by rw [hq]; simp) he with hl | ⟨j, hj⟩ | ⟨i, pc, hp, hne⟩
        · exact List.length_eq_zero_iff.1 hl
        · exact absurd hj (quiet _)
        · exact absurd (allWait i pc hp) hne

end ThreadPool
end Bant
