import Verif.ThreadPool.Lemmas
import Verif.ThreadPool.Spec
import Verif.ThreadPool.Progress
import Mathlib.Data.Multiset.Basic

/-!
# C15, C16, C70, C71, C72: the thread pool
-/

set_option linter.unusedSectionVars false

namespace Alexandria.ThreadPool

open Spec

variable {E : Type}

theorem held_iff (p : PC E) : p.held = 0 ↔ inHand p = none := by
  cases p <;> simp [PC.held, inHand]

theorem held_eq (p : PC E) : p.held = ((inHand p).toList : Multiset Nat) := by
  cases p <;> rfl

theorem held_sum (l : List (Worker E)) : (l.map fun w => w.pc.held).sum = ((l.filterMap fun w => inHand w.pc : List Nat) : Multiset Nat) := by
  induction l with
  | nil => rfl
  | cons a l ih =>
    rw [List.map_cons, List.sum_cons, ih, held_eq, List.filterMap_cons]
    cases inHand a.pc <;> simp

/-- **C15, assignment.** In every execution the tasks handed to workers are a prefix of the tasks submitted, in the order of
submission; the rest is queued; and the tasks handed out are exactly those finished and those in the hands of a worker, no task
twice. -/
theorem C15_fifo_at_most_once (body : Nat → Option E) (n : Nat) (as : List Action) (s : State E)
    (h : run body (init n) as = some s) :
    s.assigned ++ s.queue = s.submitted ∧ s.submitted.Nodup ∧
      List.Perm s.assigned (s.finished ++ s.w.filterMap fun w => inHand w.pc) := by
  have hI := inv_run body n as _ s (inv_init body n) h
  refine ⟨hI.fifo, by rw [hI.ids]; exact List.nodup_range, ?_⟩
  have := hI.cons
  rw [held_sum, Multiset.coe_add, Multiset.coe_eq_coe] at this
  exact this

/-- Tasks begin in the order of submission. -/
def C15_start_order_full : Prop :=
  ∀ (body : Nat → Option Unit) (n : Nat) (as : List Action) (s : State Unit), run body (init n) as = some s →
    s.begun <+: s.submitted

/-- With two workers the second task may begin before the first: a worker can be delayed between taking a task and calling it. -/
theorem C15_start_order_violated : ¬ C15_start_order_full := by
  intro h
  have := h (fun _ => none) 2 [.submit, .submit, .worker 0, .worker 0, .worker 0, .worker 1, .worker 1, .worker 1, .worker 1] _ rfl
  revert this
  decide

/-- **C15, a single worker**: tasks begin in the order of submission. -/
theorem C15_single_worker_order (body : Nat → Option E) (as : List Action) (s : State E)
    (h : run body (init 1) as = some s) : s.begun <+: s.submitted := by
  have key : ∀ (as : List Action) (s0 : State E), Inv body 1 s0 →
      (∀ w ∈ s0.w, s0.assigned = s0.begun ++ (match w.pc with | .got t => [t] | _ => [])) → run body s0 as = some s →
      Inv body 1 s ∧ (∀ w ∈ s.w, s.assigned = s.begun ++ (match w.pc with | .got t => [t] | _ => [])) := by
    intro as
    induction as with
    | nil => intro s0 hI h0 h; rw [run] at h; cases h; exact ⟨hI, h0⟩
    | cons a as ih =>
      intro s0 hI h0 h
      rw [run] at h
      cases hs : step body s0 a with
      | none => rw [hs] at h; cases h
      | some s1 =>
        rw [hs] at h
        refine ih s1 (inv_step body 1 s0 s1 a hI hs) ?_ h
        obtain ⟨w, hw⟩ := List.length_eq_one_iff.1 hI.len
        have h0w := h0 w (by rw [hw]; simp)
        cases a with
        | worker i =>
          simp only [step, stepWorker, hw] at hs
          cases i with
          | succ i => simp at hs
          | zero =>
            simp only [List.getElem?_cons_zero] at hs
            obtain ⟨pc, rn, sl, dn⟩ := w
            cases pc <;> simp only at hs h0w
            case checkRun => cases hs; cases rn <;> simpa using h0w
            case checkExc => cases hs; cases hE : s0.exc <;> simpa using h0w
            case lock =>
              cases hq : s0.queue with
              | nil => rw [hq] at hs; cases hs; simpa using h0w
              | cons t q => rw [hq] at hs; cases hs; simpa using h0w
            case got t => cases hs; simpa using h0w
            case running t => cases hb : body t <;> rw [hb] at hs <;> cases hs <;> simpa using h0w
            case caught t e => cases hs; simpa using h0w
            case noTask => cases hs; simpa using h0w
            case asleep => cases hs; simpa using h0w
            case exit1 => cases hs; simpa using h0w
            case exit2 => cases hs; simpa using h0w
            case exit3 => cases hs; simpa using h0w
            case ended => cases hs
        | submit =>
          simp only [step, stepSubmit, hw] at hs
          cases hC : s0.client <;> rw [hC] at hs <;> simp at hs
          subst hs
          simpa [hw] using h0w
        | block =>
          simp only [step] at hs
          cases hC : s0.client <;> rw [hC] at hs <;> simp at hs
          subst hs
          simpa [hw] using h0w
        | destroy =>
          simp only [step] at hs
          cases hC : s0.client <;> rw [hC] at hs <;> simp at hs
          subst hs
          simpa [hw] using h0w
        | client =>
          simp only [step, stepClient] at hs
          cases hC : s0.client <;> rw [hC] at hs <;> simp only at hs
          case idle => cases hs
          case blockExc => cases hs; simpa [hw] using h0w
          case blockQueue => cases hs; simpa [hw] using h0w
          case wait i => split at hs <;> cases hs <;> simpa [hw] using h0w
          case check => split at hs <;> cases hs <;> simpa [hw] using h0w
          case returned => cases hs; simpa [hw] using h0w
          case threw e => cases hs; simpa [hw] using h0w
          case clear i =>
            cases i with
            | zero => simp only [hw, List.getElem?_cons_zero] at hs; cases hs; simpa using h0w
            | succ i => simp [hw] at hs; subst hs; simpa [hw] using h0w
          case waitDone i => split at hs <;> cases hs <;> simpa [hw] using h0w
          case join => split at hs <;> cases hs; simpa [hw] using h0w
          case destroyed => cases hs
  obtain ⟨hI, hb⟩ := key as (init 1) (inv_init body 1) (by simp [init]) h
  obtain ⟨w, hw⟩ := List.length_eq_one_iff.1 hI.len
  have := hb w (by rw [hw]; simp)
  rw [← hI.fifo, this, List.append_assoc]
  exact List.prefix_append _ _

example : (run (fun _ => (none : Option Unit)) (init 1) [.submit, .submit, .worker 0, .worker 0, .worker 0, .worker 0]).isSome := by
  decide

/-! ## C16: block() -/

private theorem quiet_none (s : State E) (h : Quiet s s.w.length) : s.w.filterMap (fun w => inHand w.pc) = [] := by
  rw [List.filterMap_eq_nil_iff]
  intro w hw
  obtain ⟨i, hi, hget⟩ := List.getElem_of_mem hw
  have hg : s.w[i]? = some w := by rw [List.getElem?_eq_getElem hi, hget]
  rcases h with ⟨_, h2⟩ | ⟨_, h2⟩
  · exact (held_iff _).1 (h2 i w hi hg)
  · exact (held_iff _).1 (safe_held (h2 i w hi hg))

/-- **C16, normal return.** When `block()` returns, the queue is empty, no worker has a task in hand, every task submitted is finished
and (with at least one worker) none of them threw. -/
theorem C16_block_returns (body : Nat → Option E) (n : Nat) (as : List Action) (s : State E)
    (h : run body (init n) as = some s) (hr : s.client = .returned) :
    s.queue = [] ∧ (∀ w ∈ s.w, inHand w.pc = none) ∧ List.Perm s.finished s.submitted ∧
      (0 < n → ∀ t ∈ s.submitted, body t = none) := by
  have hI := inv_run body n as _ s (inv_init body n) h
  have hc := hI.cok
  unfold COk at hc
  rw [hr] at hc
  simp only at hc
  have hq := quiet_none s hc.2
  have hqueue : s.queue = [] := by
    rcases hc.2 with ⟨h1, _⟩ | ⟨h1, _⟩
    · exact h1
    · rw [hc.1] at h1; cases h1
  obtain ⟨f1, _, f3⟩ := C15_fifo_at_most_once body n as s h
  rw [hq, List.append_nil] at f3
  rw [hqueue, List.append_nil] at f1
  rw [f1] at f3
  refine ⟨hqueue, ?_, f3.symm, fun hn t ht => hI.exc2 hn hc.1 t (f3.mem_iff.1 ht)⟩
  rw [List.filterMap_eq_nil_iff] at hq
  exact hq

/-- **C16, exception.** When `block()` throws, the exception is one thrown by a finished task and no worker has a task in hand. -/
theorem C16_block_throws (body : Nat → Option E) (n : Nat) (as : List Action) (s : State E) (e : E)
    (h : run body (init n) as = some s) (hr : s.client = .threw e) :
    (∃ t ∈ s.finished, body t = some e) ∧ (∀ w ∈ s.w, inHand w.pc = none) ∧ List.Perm s.finished s.assigned := by
  have hI := inv_run body n as _ s (inv_init body n) h
  have hc := hI.cok
  unfold COk at hc
  rw [hr] at hc
  simp only at hc
  have hq := quiet_none s hc.2
  obtain ⟨_, _, f3⟩ := C15_fifo_at_most_once body n as s h
  rw [hq, List.append_nil] at f3
  refine ⟨hI.exc1 e hc.1, ?_, f3.symm⟩
  rw [List.filterMap_eq_nil_iff] at hq
  exact hq

/-- A run in which `block()` returns after one task. -/
example : (run (fun _ => (none : Option Unit)) (init 1)
    [.submit, .block, .worker 0, .worker 0, .worker 0, .client, .client, .worker 0, .worker 0, .worker 0, .worker 0, .worker 0,
      .worker 0, .client, .client, .client]).map (·.client) = some .returned := by decide

/-- A run in which `block()` throws. -/
example : (run (fun t => some t) (init 1)
    [.submit, .block, .worker 0, .worker 0, .worker 0, .worker 0, .worker 0, .worker 0, .client, .worker 0, .worker 0, .worker 0,
      .client, .client, .client]).map (·.client) = some (.threw 0) := by decide

/-- **C16, progress.** There is no deadlock: whatever happened before, with at least one worker (or none and no queue) `block()` can
still finish from every reachable state inside it. (Tasks are assumed to end; that fair executions take such a path is
C125.) -/
theorem C16_block_can_finish (body : Nat → Option E) (n : Nat) (as : List Action) (s : State E)
    (h : run body (init n) as = some s) (hb : s.client.blocking = true) :
    ∃ bs s', run body s bs = some s' ∧ s'.client.blockDone = true := by
  have hI := inv_run body n as _ s (inv_init body n) h
  have hA := alive_run body as _ s (alive_init n) h
  have hd : s.client.destroying = false := by
    cases hC : s.client <;> rw [hC] at hb <;> first | rfl | cases hb
  obtain ⟨bs, s1, h1, h2, h3, h4⟩ : ∃ bs s', run body s bs = some s' ∧ AllResting s' ∧ s'.client = s.client ∧
      (s'.queue = [] ∨ s'.exc.isSome) := by
    rcases Nat.eq_zero_or_pos n with hn | hn
    · refine ⟨[], s, rfl, ?_, rfl, Or.inl (hI.noq hn)⟩
      intro w hw
      have : s.w = [] := List.eq_nil_of_length_eq_zero (hI.len.trans hn)
      rw [this] at hw; cases hw
    · exact drain body n hn s hI hA hd
  have hI1 := inv_run body n bs s s1 hI h1
  have hsl : ∀ w ∈ s1.w, w.sleeping = true := by
    intro w hw
    obtain ⟨i, hi, hget⟩ := List.getElem_of_mem hw
    have hok := hI1.wok i w (by rw [List.getElem?_eq_getElem hi, hget])
    have hr := h2 w hw
    unfold WOk at hok
    cases hp : w.pc <;> rw [hp] at hok hr <;> simp [resting] at hr
    · exact hok.1
    · exact hok.1
  have fin : ∀ s2 : State E, (∀ w ∈ s2.w, w.sleeping = true) → ∀ i, s2.client = .wait i →
      ∃ cs s', run body s2 cs = some s' ∧ s'.client.blockDone = true :=
    fun s2 hs2 i hi => finish_wait body s2 hs2 _ i rfl hi
  have go : ∀ s2 : State E, s2.w = s1.w → s2.exc = s1.exc → s2.queue = s1.queue → s2.client = .blockQueue ∨ s2.client = .blockExc →
      ∃ cs s', run body s2 cs = some s' ∧ s'.client.blockDone = true := by
    intro s2 e1 e2 e3 hc
    have hex : ∀ s3 : State E, s3.w = s1.w → s3.client = .blockExc → s3.exc.isSome →
        ∃ cs s', run body s3 cs = some s' ∧ s'.client.blockDone = true := by
      intro s3 f1 f2 f3
      obtain ⟨cs, s', g1, g2⟩ := fin { s3 with client := .wait 0 } (by rw [← f1] at hsl; exact hsl) 0 rfl
      refine ⟨.client :: cs, s', ?_, g2⟩
      rw [run]
      have : step body s3 .client = some { s3 with client := .wait 0 } := by
        cases hE : s3.exc with
        | none => rw [hE] at f3; cases f3
        | some e => simp [step, stepClient, f2, hE]
      rw [this]; exact g1
    have hqu : ∀ s3 : State E, s3.w = s1.w → s3.client = .blockQueue → s3.queue = [] →
        ∃ cs s', run body s3 cs = some s' ∧ s'.client.blockDone = true := by
      intro s3 f1 f2 f3
      obtain ⟨cs, s', g1, g2⟩ := fin { s3 with client := .wait 0 } (by rw [← f1] at hsl; exact hsl) 0 rfl
      refine ⟨.client :: cs, s', ?_, g2⟩
      rw [run]
      have : step body s3 .client = some { s3 with client := .wait 0 } := by simp [step, stepClient, f2, f3]
      rw [this]; exact g1
    cases hE : s2.exc with
    | some e =>
      rcases hc with hc | hc
      · by_cases hq : s2.queue = []
        · exact hqu s2 e1 hc hq
        · obtain ⟨cs, s', g1, g2⟩ := hex { s2 with client := .blockExc } e1 rfl (by simp [hE])
          refine ⟨.client :: cs, s', ?_, g2⟩
          rw [run]
          have : step body s2 .client = some { s2 with client := .blockExc } := by simp [step, stepClient, hc, hq]
          rw [this]; exact g1
      · exact hex s2 e1 hc (by rw [hE]; rfl)
    | none =>
      have hq : s2.queue = [] := by
        rcases h4 with h4 | h4
        · rw [e3]; exact h4
        · rw [← e2, hE] at h4; cases h4
      rcases hc with hc | hc
      · exact hqu s2 e1 hc hq
      · obtain ⟨cs, s', g1, g2⟩ := hqu { s2 with client := .blockQueue } e1 rfl hq
        refine ⟨.client :: cs, s', ?_, g2⟩
        rw [run]
        have : step body s2 .client = some { s2 with client := .blockQueue } := by simp [step, stepClient, hc, hE]
        rw [this]; exact g1
  obtain ⟨cs, s', g1, g2⟩ : ∃ cs s', run body s1 cs = some s' ∧ s'.client.blockDone = true := by
    cases hC : s1.client <;> rw [← h3, hC] at hb <;> simp only [Client.blocking] at hb <;> try cases hb
    case blockExc => exact go s1 rfl rfl rfl (Or.inr hC)
    case blockQueue => exact go s1 rfl rfl rfl (Or.inl hC)
    case wait i => exact fin s1 hsl i hC
    case check =>
      cases hE : s1.exc with
      | none => exact ⟨[.client], { s1 with client := .returned }, by simp [run, step, stepClient, hC, hE], rfl⟩
      | some e => exact ⟨[.client], { s1 with client := .threw e }, by simp [run, step, stepClient, hC, hE], rfl⟩
  exact ⟨bs ++ cs, s', by rw [run_append body _ _ s s1 h1, g1], g2⟩

/-! ## C70: data race on the exception pointer -/

/-- No two threads access `m_exception_ptr` at the same time, one of them writing. -/
def C70_full : Prop :=
  ∀ (body : Nat → Option Unit) (n : Nat) (as : List Action) (s : State Unit), run body (init n) as = some s → ¬ Race s

/-- `m_exception_ptr` is written by a worker whose task threw while another worker reads it in its loop condition. -/
theorem C70_violated : ¬ C70_full := by
  intro h
  refine h (fun _ => some ()) 2 [.submit, .worker 0, .worker 0, .worker 0, .worker 0, .worker 0, .worker 1] _ rfl ?_
  exact ⟨0, 1, ⟨.caught 0 (), true, false, false⟩, ⟨.checkExc, true, false, false⟩, false, by decide, rfl, rfl, rfl, rfl⟩

/-- **C70, what holds.** As long as no task has thrown there is no race. -/
theorem C70_no_throw_partial (body : Nat → Option E) (n : Nat) (as : List Action) (s : State E)
    (h : run body (init n) as = some s) (hb : ∀ t, body t = none) : ¬ Race s := by
  have hI := inv_run body n as _ s (inv_init body n) h
  rintro ⟨i, j, v, w, b, _, hv, _, hx, _⟩
  have := hI.wok i v hv
  unfold WOk at this
  cases hp : v.pc <;> rw [hp] at hx this <;> simp [excAccess] at hx
  have h3 := this.2.2
  rw [hb] at h3
  cases h3

/-! ## C71: after an exception -/

/-- "If any of the tasks in the queue throws an exception ... no new tasks will be started" (`ThreadPool.h` 62-64). -/
def C71_full : Prop :=
  ∀ (body : Nat → Option Unit) (n : Nat) (as : List Action) (s : State Unit), run body (init n) as = some s → s.lateStarts = 0

/-- A worker that has passed the check still takes and starts a task after the exception was recorded. -/
theorem C71_violated : ¬ C71_full := by
  intro h
  have := h (fun t => if t = 0 then some () else none) 2
    [.submit, .submit, .worker 0, .worker 0, .worker 1, .worker 1, .worker 0, .worker 0, .worker 0, .worker 0, .worker 1,
      .worker 1] _ rfl
  revert this
  decide

/-- **C71, what holds.** After the first exception is recorded, at most `n - 1` further tasks begin, however the threads
interleave and however many tasks are queued. -/
theorem C71_bounded_partial (body : Nat → Option E) (n : Nat) (as : List Action) (s : State E)
    (h : run body (init n) as = some s) : s.lateStarts ≤ n - 1 := by
  have hI := inv_run body n as _ s (inv_init body n) h
  cases hE : s.exc with
  | none => rw [hI.late1 hE]; omega
  | some e => have := hI.late2 (by rw [hE]; rfl); omega

/-! ## C72: destructor and counters -/

/-- **C72, destructor.** When the destructor is done every thread has ended, every task that was started is finished, and the
tasks that were not handed out are exactly those left in the queue: they never began. -/
theorem C72_destructor (body : Nat → Option E) (n : Nat) (as : List Action) (s : State E)
    (h : run body (init n) as = some s) (hd : s.client = .destroyed) :
    (∀ w ∈ s.w, w.pc = .ended) ∧ List.Perm s.begun s.finished ∧ List.Perm s.finished s.assigned ∧
      s.assigned ++ s.queue = s.submitted ∧ ∀ a, step body s a = none := by
  have hI := inv_run body n as _ s (inv_init body n) h
  have hc := hI.cok
  unfold COk at hc
  rw [hd] at hc
  simp only at hc
  have hend : ∀ w ∈ s.w, w.pc = .ended := by
    intro w hw
    obtain ⟨i, hi, hget⟩ := List.getElem_of_mem hw
    exact hc i w hi (by rw [List.getElem?_eq_getElem hi, hget])
  have hz : ∀ f : PC E → Multiset Nat, f .ended = 0 → (s.w.map fun w => f w.pc).sum = 0 := by
    intro f hf
    apply List.sum_eq_zero
    intro x hx
    obtain ⟨w, hw, rfl⟩ := List.mem_map.1 hx
    rw [hend w hw, hf]
  have h1 := hI.cons
  have h2 := hI.beg
  rw [hz _ rfl, add_zero, Multiset.coe_eq_coe] at h1 h2
  refine ⟨hend, h2.symm.trans h1, h1.symm, hI.fifo, fun a => ?_⟩
  cases a with
  | worker i =>
    simp only [step, stepWorker]
    cases hw : s.w[i]? with
    | none => rfl
    | some w => simp only [hend w (List.mem_of_getElem? hw)]
  | submit => simp [step, stepSubmit, hd]
  | block => simp [step, hd]
  | destroy => simp [step, hd]
  | client => simp [step, stepClient, hd]

example : (run (fun _ => (none : Option Unit)) (init 1)
    [.submit, .destroy, .client, .client, .worker 0, .worker 0, .worker 0, .worker 0, .client, .client, .client]).map
      (fun s => (s.client, s.queue)) = some (.destroyed, [0]) := by decide

/-- **C72, counters.** At any moment `running()` is at least the number of workers inside a task, `activeThreads()` at least
`running()`, and `queued()` is the number of tasks submitted and not handed out. -/
theorem C72_counters (body : Nat → Option E) (n : Nat) (as : List Action) (s : State E)
    (h : run body (init n) as = some s) :
    (s.w.filter fun w => isRunning w.pc).length ≤ s.runningCount ∧ s.runningCount ≤ s.activeThreads ∧
      s.activeThreads ≤ n ∧ s.queued + s.assigned.length = s.submitted.length := by
  have hI := inv_run body n as _ s (inv_init body n) h
  have hok : ∀ w ∈ s.w, WOk body w := by
    intro w hw
    obtain ⟨i, hi, hget⟩ := List.getElem_of_mem hw
    exact hI.wok i w (by rw [List.getElem?_eq_getElem hi, hget])
  have c1 : ∀ l : List (Worker E), (∀ w ∈ l, WOk body w) →
      (l.filter fun w => isRunning w.pc).length + (l.filter (·.sleeping)).length ≤ l.length ∧
        (l.filter (·.done)).length ≤ (l.filter (·.sleeping)).length := by
    have hf : ∀ w : Worker E, (fun w : Worker E => isRunning w.pc) w = isRunning w.pc := fun _ => rfl
    generalize (fun w : Worker E => isRunning w.pc) = f at hf
    intro l
    induction l with
    | nil => simp
    | cons w l ih =>
      intro hl
      obtain ⟨i1, i2⟩ := ih fun v hv => hl v (by simp [hv])
      have hw := hl w (by simp)
      obtain ⟨pc, rn, sl, dn⟩ := w
      cases pc <;> simp only [WOk] at hw <;> simp [List.filter_cons, hf, isRunning, hw] <;> omega
  obtain ⟨a1, a2⟩ := c1 s.w hok
  have hl := hI.len
  have hf := congrArg List.length hI.fifo
  rw [List.length_append] at hf
  unfold State.runningCount State.activeThreads State.queued
  refine ⟨by omega, by omega, by omega, by omega⟩

end Alexandria.ThreadPool
