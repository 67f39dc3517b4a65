import Verif.Lemmas.ThreadPool

/-! Lemmas about the thread pool: what is observed, and the length of runs. -/
namespace Bant
namespace ThreadPool
open PoolSpec

theorem sum_set {α : Type} (f : α → Nat) (l : List α) (i : Nat) (old new : α) (h : l[i]? = some old) :
    ((l.set i new).map f).sum + f old = (l.map f).sum + f new := by
  induction l generalizing i with
  | nil => simp at h
  | cons x l ih =>
    cases i with
    | zero => simp at h; subst h; simp; omega
    | succ i =>
      simp only [List.getElem?_cons_succ] at h
      have := ih i h
      simp only [List.set_cons_succ, List.map_cons, List.sum_cons]
      omega

/-! ### What is observed -/

theorem submitted_append (a b : List Event) : submitted (a ++ b) = submitted a ++ submitted b := List.filterMap_append
theorem started_append (a b : List Event) : started (a ++ b) = started a ++ started b := List.filterMap_append
theorem finished_append (a b : List Event) : finished (a ++ b) = finished a ++ finished b := List.filterMap_append

/-- A worker has the job. -/
def has (j : Job) (w : Worker) : Nat := if w = .popped j ∨ w = .running j then 1 else 0

/-- Jobs that have been started and have not finished. -/
def active (s : State) (j : Job) : Nat := (s.workers.map (has j)).sum

theorem has_wakeAll (j : Job) (ws : List Worker) : ((wakeAll ws).map (has j)).sum = (ws.map (has j)).sum := by
  rw [wakeAll, List.map_map]
  congr 1
  apply List.map_congr_left
  intro w _
  cases w <;> simp [has]

structure Seen (s : State) (es : List Event) : Prop where
  order : started es ++ s.queue = submitted es
  shut : .shutdown ∈ es ↔ s.exiting = true
  after : ∀ pre post, es = pre ++ .shutdown :: post → started post = []
  count : ∀ j, (started es).count j = (finished es).count j + active s j

theorem after_append {es : List Event} (h : ∀ pre post, es = pre ++ .shutdown :: post → started post = [])
    (e : Event) (he : ∀ j, e = .started j → .shutdown ∉ es) (pre post : List Event)
    (hs : es ++ [e] = pre ++ .shutdown :: post) : started post = [] := by
  rcases List.eq_nil_or_concat post with rfl | ⟨post', x, rfl⟩
  · rfl
  · rw [List.concat_eq_append, ← List.cons_append, ← List.append_assoc] at hs
    rw [List.concat_eq_append]
    have := List.append_inj' hs rfl
    obtain ⟨h1, h2⟩ := this
    cases h2
    rw [started_append, h _ _ h1, List.nil_append]
    cases e with
    | started j => exact absurd (by rw [h1]; simp) (he j rfl)
    | _ => rfl

theorem seen_init (count : Nat) : Seen (init count) [] := by
  refine ⟨rfl, by simp [init], by intro pre post h; simp at h, ?_⟩
  intro j
  have : ((List.replicate count Worker.lock).map (has j)).sum = 0 := by
    induction count with
    | zero => rfl
    | succ n ih => rw [List.replicate_succ, List.map_cons, List.sum_cons, ih]; rfl
  simp only [active, init, started, finished, List.filterMap_nil, List.count_nil, this]

theorem seen_did {s s' : State} {b : Bool} {es es' : List Event} (h : Seen s es) (hd : Did s b s' es') :
    Seen s' (es ++ es') := by
  obtain ⟨h1, h2, h3, h4⟩ := h
  have silent : ∀ s'' : State, s''.queue = s.queue → s''.exiting = s.exiting → (∀ j, active s'' j = active s j) →
      Seen s'' (es ++ []) := by
    intro s'' e1 e2 e3
    rw [List.append_nil]
    exact ⟨by rw [e1]; exact h1, by rw [e2]; exact h2, h3, fun j => by rw [e3]; exact h4 j⟩
  have same : ∀ (i : Nat) (old new : Worker), s.workers[i]? = some old →
      (∀ j, has j old = has j new) → ∀ j, ((s.workers.set i new).map (has j)).sum = active s j := by
    intro i old new hi hh j
    have := sum_set (has j) s.workers i old new hi
    have := hh j
    unfold active; omega
  cases hd with
  | begin c => exact silent _ rfl rfl fun j => rfl
  | wlock i pc hp ho hn =>
    refine silent _ rfl rfl (same i pc _ hp fun j => ?_)
    rcases ho with rfl | rfl <;> rfl
  | wtested i hp => exact silent _ rfl rfl (same i _ _ hp fun j => rfl)
  | wwait i hp => exact silent _ rfl rfl (same i _ _ hp fun j => rfl)
  | wreturn i hp => exact silent _ rfl rfl (same i _ _ hp fun j => rfl)
  | wpop i job queue hp he hq =>
    refine ⟨?_, ?_, ?_, ?_⟩
    · rw [started_append, submitted_append, ← h1, hq]; simp [started, submitted]
    · simp only [List.mem_append, List.mem_singleton, reduceCtorEq, or_false]; exact h2
    · exact after_append h3 _ fun j _ => by rw [h2, he]; simp
    · intro j
      have hs := sum_set (has j) s.workers i _ (.popped job) hp
      have hc := h4 j
      unfold active at hc
      rw [started_append, finished_append, List.count_append, List.count_append]
      simp only [active, started, finished, List.filterMap_cons, List.filterMap_nil, List.count_nil,
        List.count_singleton, beq_iff_eq] at hc ⊢
      have e1 : has j .tested = 0 := rfl
      have e2 : has j (.popped job) = if job = j then 1 else 0 := by simp [has]
      rw [e1, e2] at hs
      omega
  | wunlock i job hp =>
    refine silent _ rfl rfl (same i _ _ hp fun j => ?_)
    simp [has]
  | wrun i job hp =>
    refine ⟨?_, ?_, ?_, ?_⟩
    · rw [started_append, submitted_append, ← h1]; simp [started, submitted]
    · simp only [List.mem_append, List.mem_singleton, reduceCtorEq, or_false]; exact h2
    · exact after_append h3 _ fun j hj => by cases hj
    · intro j
      have hs := sum_set (has j) s.workers i _ .lock hp
      have hc := h4 j
      unfold active at hc
      rw [started_append, finished_append, List.count_append, List.count_append]
      simp only [active, started, finished, List.filterMap_cons, List.filterMap_nil, List.count_nil,
        List.count_singleton, beq_iff_eq] at hc ⊢
      have e1 : has j .lock = 0 := rfl
      have e2 : has j (.running job) = if job = j then 1 else 0 := by simp [has]
      rw [e1, e2] at hs
      omega
  | spurious i hp => exact silent _ rfl rfl (same i _ _ hp fun j => rfl)
  | clock i c hp => exact silent _ rfl rfl fun j => rfl
  | push i job hp =>
    refine ⟨?_, ?_, ?_, ?_⟩
    · rw [started_append, submitted_append, ← h1]; simp [started, submitted]
    · simp only [List.mem_append, List.mem_singleton, reduceCtorEq, or_false]; exact h2
    · exact after_append h3 _ fun j hj => by cases hj
    · intro j
      have hc := h4 j
      rw [started_append, finished_append]
      simpa [started, finished, active] using hc
  | exit i c hp =>
    refine ⟨?_, ?_, ?_, ?_⟩
    · rw [started_append, submitted_append, ← h1]; simp [started, submitted]
    · simp
    · exact after_append h3 _ fun j hj => by cases hj
    · intro j
      have hc := h4 j
      rw [started_append, finished_append]
      simpa [started, finished, active] using hc
  | cunlock i c hp => exact silent _ rfl rfl fun j => rfl
  | notifyOne i w job hp hw => exact silent _ rfl rfl (same w _ _ hw fun j => rfl)
  | notifyNone i job hp hw => exact silent _ rfl rfl fun j => rfl
  | notifyCancel i hp => exact silent _ rfl rfl fun j => has_wakeAll j _
  | notifyDestroy i hp => exact silent _ rfl rfl fun j => has_wakeAll j _
  | joined i n hp => exact silent _ rfl rfl fun j => rfl
  | joinNext i n hp => exact silent _ rfl rfl fun j => rfl

theorem reachable_spec {count : Nat} {s : State} {es : List Event} (h : Reachable count s es) :
    Inv s ∧ Seen s es := by
  obtain ⟨as, hr⟩ := h
  have := run_induct (P := fun s es => Inv s ∧ Seen s es)
    (fun s es a s' es' hp hs => ⟨inv_did hp.1 (step_did hs), seen_did hp.2 (step_did hs)⟩)
    as (init count) s [] es ⟨inv_init count, seen_init count⟩ hr
  simpa using this

/-! ### What is called -/

def kindOf : CallState → Call
  | .lock c | .write c | .unlock c | .notify c | .returned c => c
  | .join _ => .destroy

/-- The call has put the job in the queue. -/
def put (j : Job) : CallState → Nat
  | .unlock c | .notify c | .returned c => if c = .exec j then 1 else 0
  | _ => 0

theorem map_set_same {α β : Type} (f : α → β) (l : List α) (i : Nat) (old new : α) (h : l[i]? = some old)
    (hf : f new = f old) : (l.set i new).map f = l.map f := by
  rw [List.map_set]
  apply List.ext_getElem?
  intro k
  rw [List.getElem?_set]
  split
  · rename_i hk
    subst hk
    rw [List.getElem?_map, h, List.length_map, if_pos (List.getElem?_eq_some_iff.mp h).1, hf]; rfl
  · rfl

theorem kinds_did {s s' : State} {b : Bool} {es : List Event} (h : Did s b s' es) (hb : b = true) :
    s'.calls.map kindOf = s.calls.map kindOf := by
  cases h <;> try cases hb
  all_goals first | rfl | (apply map_set_same <;> first | assumption | rfl)

theorem kinds_step {s s' : State} {a : Action} {es : List Event} (h : step s a = .next s' es) :
    s'.calls.map kindOf = s.calls.map kindOf ++ begun [a] := by
  cases a with
  | begin c => cases h; simp [begun, kindOf]
  | worker i => simpa [begun] using kinds_did (step_did h) rfl
  | call i w => simpa [begun] using kinds_did (step_did h) rfl
  | spurious i =>
    rw [step] at h
    split at h
    · cases h; simp [begun]
    · cases h

/-- Queue and flag are as the calls have left them. -/
structure Done (s : State) (es : List Event) : Prop where
  put : ∀ j, (submitted es).count j = (s.calls.map (put j)).sum
  exit : s.exiting = true → .cancel ∈ s.calls.map kindOf ∨ .destroy ∈ s.calls.map kindOf

theorem done_did {s s' : State} {b : Bool} {es es' : List Event} (h : Done s es) (hd : Did s b s' es') :
    Done s' (es ++ es') := by
  obtain ⟨h1, h2⟩ := h
  have hk : s'.exiting = true → s.exiting = true → .cancel ∈ s'.calls.map kindOf ∨ .destroy ∈ s'.calls.map kindOf := by
    intro _ he
    cases hb : b with
    | true => rw [kinds_did hd hb]; exact h2 he
    | false =>
      subst hb
      cases hd <;> simp only [List.map_append, List.mem_append]
      · rcases h2 he with h | h
        · exact .inl (.inl h)
        · exact .inr (.inl h)
      · exact h2 he
  have silent : ∀ (i : Nat) (old new : CallState), s.calls[i]? = some old → (∀ j, ThreadPool.put j new = ThreadPool.put j old) →
      ∀ j, (submitted (es ++ [])).count j = ((s.calls.set i new).map (ThreadPool.put j)).sum := by
    intro i old new hi hf j
    rw [map_set_same _ _ i old new hi (hf j), List.append_nil, h1 j]
  have worker : ∀ es'', submitted es'' = [] → ∀ j, (submitted (es ++ es'')).count j = (s.calls.map (ThreadPool.put j)).sum := by
    intro es'' he j
    rw [submitted_append, he, List.append_nil, h1 j]
  cases hd with
  | begin c =>
    refine ⟨?_, fun he => hk he he⟩
    intro j
    rw [List.append_nil, h1 j]; simp [ThreadPool.put]
  | wlock => exact ⟨worker _ rfl, fun he => hk he he⟩
  | wtested => exact ⟨worker _ rfl, fun he => hk he he⟩
  | wwait => exact ⟨worker _ rfl, fun he => hk he he⟩
  | wreturn => exact ⟨worker _ rfl, fun he => hk he he⟩
  | wpop => exact ⟨worker _ rfl, fun he => hk he he⟩
  | wunlock => exact ⟨worker _ rfl, fun he => hk he he⟩
  | wrun => exact ⟨worker _ rfl, fun he => hk he he⟩
  | spurious => exact ⟨worker _ rfl, fun he => hk he he⟩
  | clock i c hp => exact ⟨silent i _ (.write c) hp fun _ => rfl, fun he => hk he he⟩
  | push i job hp =>
    refine ⟨?_, fun he => hk he he⟩
    intro j
    have := sum_set (ThreadPool.put j) s.calls i _ (.unlock (.exec job)) hp
    rw [submitted_append, List.count_append, h1 j]
    simp only [ThreadPool.put, submitted, List.filterMap_cons, List.filterMap_nil, List.count_singleton,
      Call.exec.injEq, beq_iff_eq] at this ⊢
    omega
  | exit i c hp hc =>
    have e : s.calls.map kindOf = (s.calls.set i (.unlock c)).map kindOf := (map_set_same kindOf _ i _ (.unlock c) hp rfl).symm
    refine ⟨?_, ?_⟩
    · intro j
      rw [submitted_append, List.count_append, h1 j, map_set_same _ _ i _ (.unlock c) hp]
      · simp [submitted]
      · rcases hc with rfl | rfl <;> rfl
    · intro _
      rw [← e]
      have hm : c ∈ s.calls.map kindOf := List.mem_map.mpr ⟨_, List.mem_of_getElem? hp, rfl⟩
      rcases hc with rfl | rfl
      · exact .inl hm
      · exact .inr hm
  | cunlock i c hp => exact ⟨silent i _ (.notify c) hp fun _ => rfl, fun he => hk he he⟩
  | notifyOne i w job hp hw => exact ⟨silent i _ (.returned (.exec job)) hp fun _ => rfl, fun he => hk he he⟩
  | notifyNone i job hp hw => exact ⟨silent i _ (.returned (.exec job)) hp fun _ => rfl, fun he => hk he he⟩
  | notifyCancel i hp => exact ⟨silent i _ (.returned .cancel) hp fun _ => rfl, fun he => hk he he⟩
  | notifyDestroy i hp =>
    exact ⟨silent i _ (.join 0) hp fun _ => rfl, fun he => hk he he⟩
  | joined i n hp => exact ⟨silent i _ (.returned .destroy) hp fun _ => rfl, fun he => hk he he⟩
  | joinNext i n hp => exact ⟨silent i _ (.join (n + 1)) hp fun _ => rfl, fun he => hk he he⟩

theorem run_kinds (as : List Action) (s s' : State) (es : List Event) (h : run s as = .next s' es) :
    s'.calls.map kindOf = s.calls.map kindOf ++ begun as := by
  induction as generalizing s es with
  | nil => rw [run] at h; cases h; simp [begun]
  | cons a as ih =>
    rw [run] at h
    cases hs : step s a with
    | blocked => rw [hs] at h; cases h
    | undefined => rw [hs] at h; cases h
    | next s1 e1 =>
      rw [hs] at h
      simp only at h
      cases hr : run s1 as with
      | blocked => rw [hr] at h; cases h
      | undefined => rw [hr] at h; cases h
      | next s2 e2 =>
        rw [hr] at h
        simp only [Result.next.injEq] at h
        obtain ⟨rfl, rfl⟩ := h
        have : begun (a :: as) = begun [a] ++ begun as := by
          rw [begun, ← List.singleton_append, List.filterMap_append]; rfl
        rw [ih s1 e2 hr, kinds_step hs, this, List.append_assoc]

theorem run_done {count : Nat} {as : List Action} {s : State} {es : List Event}
    (h : run (init count) as = .next s es) : s.calls.map kindOf = begun as ∧ Done s es := by
  refine ⟨by simpa [init] using run_kinds as _ _ _ h, ?_⟩
  have := run_induct (P := Done) (fun s es a s' es' hp hs => done_did hp (step_did hs))
    as (init count) s [] es ⟨fun j => by simp [init, submitted], by simp [init]⟩ h
  simpa using this

/-- When all calls have returned, all jobs that have been handed in were put in the queue. -/
theorem submitted_all {count : Nat} {as : List Action} {s : State} {es : List Event}
    (h : run (init count) as = .next s es) (hr : ∀ pc ∈ s.calls, ∃ c, pc = .returned c) :
    (submitted es).Perm (jobs (begun as)) := by
  obtain ⟨h1, h2⟩ := run_done h
  rw [List.perm_iff_count]
  intro j
  rw [h2.put j, ← h1]
  clear h1 h2 h
  revert hr
  induction s.calls with
  | nil => intro _; rfl
  | cons pc l ih =>
    intro hr
    have ih := ih fun x hx => hr x (List.mem_cons_of_mem _ hx)
    obtain ⟨c, rfl⟩ := hr pc (List.mem_cons_self ..)
    simp only [List.map_cons, List.sum_cons, ih, kindOf, put, jobs, List.filterMap_cons]
    cases c <;> simp [List.count_cons]; omega

/-! ### The length of runs -/

def rank : Worker → Nat
  | .lock | .woken => 3
  | .test => 2
  | .tested => 1
  | .waiting | .returned => 0
  | .popped _ => 5
  | .running _ => 4

def notifyRank (k : Nat) : Call → Nat
  | .exec _ => 4
  | .cancel => 3 * k + 1
  | .destroy => 4 * k + 2

def writeRank (k : Nat) (c : Call) : Nat :=
  notifyRank k c + 1 + match c with | .exec _ => 6 | _ => 1

def callRank (k : Nat) : CallState → Nat
  | .returned _ => 0
  | .join n => (k - n) + 1
  | .notify c => notifyRank k c
  | .unlock c => notifyRank k c + 1
  | .write c => writeRank k c
  | .lock c => writeRank k c + 1

/-- A bound for the number of steps. -/
def bound (s : State) : Nat :=
  5 * s.queue.length + (s.workers.map rank).sum + (s.calls.map (callRank s.workers.length)).sum

theorem rank_wakeAll (ws : List Worker) : ((wakeAll ws).map rank).sum ≤ (ws.map rank).sum + 3 * ws.length := by
  induction ws with
  | nil => simp [wakeAll]
  | cons w ws ih =>
    have : rank (if w = .waiting then .woken else w) ≤ rank w + 3 := by
      by_cases h : w = .waiting
      · subst h; simp [rank]
      · rw [if_neg h]; omega
    simp only [wakeAll, List.map_cons, List.sum_cons, List.length_cons] at ih ⊢
    omega

theorem bound_did {s s' : State} {es : List Event} (h : Did s true s' es) : bound s' < bound s := by
  cases h with
  | wlock i pc hp ho hn =>
    have := sum_set rank s.workers i pc .test hp
    simp only [bound, List.length_set]
    rcases ho with rfl | rfl <;> (simp only [rank] at this; omega)
  | wtested i hp =>
    have := sum_set rank s.workers i _ .tested hp
    simp only [rank] at this
    simp only [bound, List.length_set]; omega
  | wwait i hp =>
    have := sum_set rank s.workers i _ .waiting hp
    simp only [rank] at this
    simp only [bound, List.length_set]; omega
  | wreturn i hp =>
    have := sum_set rank s.workers i _ .returned hp
    simp only [rank] at this
    simp only [bound, List.length_set]; omega
  | wunlock i job hp =>
    have := sum_set rank s.workers i _ (.running job) hp
    simp only [rank] at this
    simp only [bound, List.length_set]; omega
  | wrun i job hp =>
    have := sum_set rank s.workers i _ .lock hp
    simp only [rank] at this
    simp only [bound, List.length_set]; omega
  | wpop i job queue hp he hq =>
    have := sum_set rank s.workers i _ (.popped job) hp
    simp only [rank] at this
    simp only [bound, List.length_set, hq, List.length_cons]; omega
  | clock i c hp =>
    have := sum_set (callRank s.workers.length) s.calls i _ (.write c) hp
    simp only [callRank] at this
    simp only [bound]; omega
  | push i job hp =>
    have := sum_set (callRank s.workers.length) s.calls i _ (.unlock (.exec job)) hp
    simp only [callRank, writeRank] at this
    simp only [bound, List.length_append, List.length_singleton]; omega
  | exit i c hp =>
    have := sum_set (callRank s.workers.length) s.calls i _ (.unlock c) hp
    have h1 : notifyRank s.workers.length c + 1 < writeRank s.workers.length c := by
      unfold writeRank; cases c <;> simp
    simp only [callRank] at this
    simp only [bound]; omega
  | cunlock i c hp =>
    have := sum_set (callRank s.workers.length) s.calls i _ (.notify c) hp
    simp only [callRank] at this
    simp only [bound]; omega
  | notifyOne i w job hp hw =>
    have := sum_set (callRank s.workers.length) s.calls i _ (.returned (.exec job)) hp
    have h1 := sum_set rank s.workers w _ .woken hw
    simp only [callRank, notifyRank, rank] at this h1
    simp only [bound, List.length_set]; omega
  | notifyNone i job hp hw =>
    have := sum_set (callRank s.workers.length) s.calls i _ (.returned (.exec job)) hp
    simp only [callRank, notifyRank] at this
    simp only [bound]; omega
  | notifyCancel i hp =>
    have := sum_set (callRank s.workers.length) s.calls i _ (.returned .cancel) hp
    have h1 := rank_wakeAll s.workers
    have h2 : (wakeAll s.workers).length = s.workers.length := List.length_map ..
    simp only [callRank, notifyRank] at this
    simp only [bound, h2]; omega
  | notifyDestroy i hp =>
    have := sum_set (callRank s.workers.length) s.calls i _ (.join 0) hp
    have h1 := rank_wakeAll s.workers
    have h2 : (wakeAll s.workers).length = s.workers.length := List.length_map ..
    simp only [callRank, notifyRank] at this
    simp only [bound, h2]; omega
  | joined i n hp =>
    have := sum_set (callRank s.workers.length) s.calls i _ (.returned .destroy) hp
    simp only [callRank] at this
    simp only [bound]; omega
  | joinNext i n hp hw =>
    have hn := (List.getElem?_eq_some_iff.mp hw).1
    have := sum_set (callRank s.workers.length) s.calls i _ (.join (n + 1)) hp
    simp only [callRank] at this
    simp only [bound]; omega

theorem run_length (as : List Action) (s s' : State) (es : List Event) (ha : ∀ a ∈ as, proper a = true)
    (h : run s as = .next s' es) : as.length + bound s' ≤ bound s := by
  induction as generalizing s es with
  | nil => rw [run] at h; cases h; simp
  | cons a as ih =>
    rw [run] at h
    cases hs : step s a with
    | blocked => rw [hs] at h; cases h
    | undefined => rw [hs] at h; cases h
    | next s1 e1 =>
      rw [hs] at h
      simp only at h
      cases hr : run s1 as with
      | blocked => rw [hr] at h; cases h
      | undefined => rw [hr] at h; cases h
      | next s2 e2 =>
        rw [hr] at h
        simp only [Result.next.injEq] at h
        obtain ⟨rfl, rfl⟩ := h
        have h1 := step_did hs
        rw [ha a (List.mem_cons_self ..)] at h1
        have h2 := bound_did h1
        have h3 := ih s1 e2 (fun b hb => ha b (List.mem_cons_of_mem _ hb)) hr
        simp only [List.length_cons]
        omega

/-- Someone can proceed, or the state is idle. -/
theorem idle_or_step {s : State} (h : Inv s) :
    Idle s ∨ ∃ a s' es, proper a = true ∧ step s a = .next s' es := by
  by_cases hi : Idle s
  · exact .inl hi
  · right
    simp only [Idle, Classical.not_forall] at hi
    obtain ⟨a, ha, hb⟩ := hi
    cases hs : step s a with
    | blocked => exact absurd hs hb
    | undefined => exact absurd hs (step_defined h a)
    | next s' es => exact ⟨a, s', es, ha, hs⟩

theorem run_cons {s s1 s2 : State} {a : Action} {as : List Action} {e1 e2 : List Event}
    (h1 : step s a = .next s1 e1) (h2 : run s1 as = .next s2 e2) : run s (a :: as) = .next s2 (e1 ++ e2) := by
  rw [run, h1]; simp only [h2]

/-- Threads that keep going get to an idle state. -/
theorem idle_exists (n : Nat) (s : State) (hn : bound s ≤ n) (h : Inv s) :
    ∃ as s' es, (∀ a ∈ as, proper a = true) ∧ run s as = .next s' es ∧ Idle s' := by
  induction n generalizing s with
  | zero =>
    rcases idle_or_step h with hi | ⟨a, s1, e1, ha, hs⟩
    · exact ⟨[], s, [], by simp, rfl, hi⟩
    · have h1 := step_did hs
      rw [ha] at h1
      have := bound_did h1
      omega
  | succ n ih =>
    rcases idle_or_step h with hi | ⟨a, s1, e1, ha, hs⟩
    · exact ⟨[], s, [], by simp, rfl, hi⟩
    · have h1 := step_did hs
      rw [ha] at h1
      have := bound_did h1
      obtain ⟨as, s2, e2, h2, h3, h4⟩ := ih s1 (by omega) (inv_did h h1)
      refine ⟨a :: as, s2, e1 ++ e2, ?_, run_cons hs h3, h4⟩
      intro b hb
      rcases List.mem_cons.mp hb with rfl | hb
      · exact ha
      · exact h2 b hb

theorem run_append {as bs : List Action} {s s1 s2 : State} {e1 e2 : List Event}
    (h1 : run s as = .next s1 e1) (h2 : run s1 bs = .next s2 e2) : run s (as ++ bs) = .next s2 (e1 ++ e2) := by
  induction as generalizing s e1 with
  | nil => rw [run] at h1; cases h1; exact h2
  | cons a as ih =>
    rw [run] at h1
    cases hs : step s a with
    | blocked => rw [hs] at h1; cases h1
    | undefined => rw [hs] at h1; cases h1
    | next s3 e3 =>
      rw [hs] at h1
      simp only at h1
      cases hr : run s3 as with
      | blocked => rw [hr] at h1; cases h1
      | undefined => rw [hr] at h1; cases h1
      | next s4 e4 =>
        rw [hr] at h1
        simp only [Result.next.injEq] at h1
        obtain ⟨rfl, rfl⟩ := h1
        rw [List.cons_append, List.append_assoc]
        exact run_cons hs (ih hr)

end ThreadPool
end Bant
