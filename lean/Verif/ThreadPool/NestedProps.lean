import Verif.ThreadPool.NestedModel
import Verif.ThreadPool.Fair
import Verif.ThreadPool.Props

/-! # C126: tasks that use the pool -/

set_option linter.unusedSectionVars false

namespace Alexandria.ThreadPool

open Spec

variable {E : Type}

/-! ## Lemmas -/

/-- The invariant, leaving out what the client knows. -/
def NInv (body : Nat → Option E) (n : Nat) (s : State E) : Prop := Inv body n { s with client := .idle }

theorem worker_client (body : Nat → Option E) (s : State E) (i : Nat) (c : Client E) :
    stepWorker body { s with client := c } i = (stepWorker body s i).map fun s' => { s' with client := c } := by
  unfold stepWorker
  simp only
  cases s.w[i]? with
  | none => rfl
  | some w =>
    obtain ⟨pc, rn, sl, dn⟩ := w
    cases pc <;> simp only <;> try rfl
    case lock => cases s.queue <;> rfl
    case running t => cases body t <;> rfl

theorem inv_client {body : Nat → Option E} {n : Nat} {s : State E} (h : Inv body n s) (c : Client E) (hc : COk { s with client := c }) : Inv body n { s with client := c } :=
  ⟨h.len, h.wok, hc, h.fifo, h.ids, h.cons, h.beg, h.exc1, h.exc2, h.noq, h.late1, h.late2⟩

theorem ninv_step {body : Nat → Option E} {n : Nat} {s s' : State E} (hN : NInv body n s) (a : NAction) (h : nstep body s a = some s') : NInv body n s' := by
  unfold NInv at *
  cases a with
  | nested i =>
    simp only [nstep, stepNested] at h
    cases hw : s.w[i]? with
    | none => rw [hw] at h; cases h
    | some w =>
      rw [hw] at h
      have hne : s.w.isEmpty = false := by
        cases hs : s.w with
        | nil => rw [hs] at hw; simp at hw
        | cons a l => rfl
      obtain ⟨pc, rn, sl, dn⟩ := w
      cases pc <;> simp only at h <;> cases h
      exact inv_step body n _ _ .submit hN (by simp [step, stepSubmit, hne])
  | base a =>
    simp only [nstep] at h
    cases a with
    | worker i =>
      have h1 : stepWorker body { s with client := .idle } i = some { s' with client := .idle } := by
        rw [worker_client]
        simp only [step] at h
        rw [h]; rfl
      exact inv_step body n _ _ (.worker i) hN h1
    | submit =>
      simp only [step, stepSubmit] at h
      cases hc : s.client <;> rw [hc] at h <;> simp only at h <;> try cases h
      refine inv_step body n _ _ .submit hN ?_
      simp only [step, stepSubmit]
      by_cases he : s.w.isEmpty = true
      · rw [if_pos he] at h ⊢; cases h; simp
      · rw [if_neg he] at h ⊢; cases h; simp
    | block => simp only [step] at h; cases hc : s.client <;> rw [hc] at h <;> simp only at h <;> cases h; exact hN
    | destroy => simp only [step] at h; cases hc : s.client <;> rw [hc] at h <;> simp only at h <;> cases h; exact hN
    | client =>
      simp only [step, stepClient] at h
      cases hc : s.client <;> rw [hc] at h <;> simp only at h
      case idle => cases h
      case destroyed => cases h
      case join => split at h <;> cases h; exact hN
      case wait j => split at h <;> cases h <;> exact hN
      case check => split at h <;> cases h <;> exact hN
      case waitDone j => split at h <;> cases h <;> exact hN
      case clear j =>
        have h2 : Inv body n { s with client := .clear j } := inv_client hN _ trivial
        have h3 : step body { s with client := .clear j } .client = some s' := by
          simp only [step, stepClient]
          exact h
        exact inv_client (inv_step body n _ _ .client h2 h3) _ trivial
      all_goals (cases h; exact hN)

theorem ninv_run {body : Nat → Option E} {n : Nat} : ∀ (as : List NAction) {s s' : State E}, NInv body n s → nrun body s as = some s' → NInv body n s' := by
  intro as
  induction as with
  | nil => intro s s' hN h; rw [nrun] at h; cases h; exact hN
  | cons a as ih =>
    intro s s' hN h
    rw [nrun] at h
    cases hs : nstep body s a with
    | none => rw [hs] at h; cases h
    | some s1 => rw [hs] at h; exact ih (ninv_step hN a hs) h

/-! ## Theorems -/

/-- **C126, assignment.** Also when tasks submit tasks: tasks are handed out in the order of submission, each once. -/
theorem C126_fifo_at_most_once (body : Nat → Option E) (n : Nat) (as : List NAction) (s : State E) (h : nrun body (init n) as = some s) :
    s.assigned ++ s.queue = s.submitted ∧ s.submitted.Nodup ∧ List.Perm s.assigned (s.finished ++ s.w.filterMap fun w => inHand w.pc) := by
  have hI := ninv_run as (inv_client (inv_init body n) .idle trivial) h
  refine ⟨hI.fifo, by have := hI.ids; simp only at this; rw [this]; exact List.nodup_range, ?_⟩
  have := hI.cons
  rw [held_sum, Multiset.coe_add, Multiset.coe_eq_coe] at this
  exact this

/-- When `block()` returns every task is finished, also those that tasks have submitted. -/
def C126_block_full : Prop := ∀ (body : Nat → Option Unit) (n : Nat) (as : List NAction) (s : State Unit), nrun body (init n) as = some s → s.client = .returned →
  List.Perm s.finished s.submitted

/-- **C126 (violated).** Two workers; the client has seen the flag of the first when a task of the second submits another one, which the first takes when it wakes. -/
theorem C126_block_violated : ¬ C126_block_full := by
  intro h
  have := (h (fun _ => none) 2
    [.base (.worker 0), .base (.worker 0), .base (.worker 0), .base (.worker 0), -- worker 0 sleeps
      .base .submit, .base (.worker 1), .base (.worker 1), .base (.worker 1), .base (.worker 1), -- worker 1 runs task 0
      .base .block, .base .client, .base .client, .base .client, -- the queue is empty and worker 0 sleeps
      .nested 1, -- task 0 submits task 1
      .base (.worker 0), .base (.worker 0), .base (.worker 0), .base (.worker 0), -- which worker 0 runs
      .base (.worker 1), .base (.worker 1), .base (.worker 1), .base (.worker 1), .base (.worker 1), -- worker 1 sleeps
      .base .client, .base .client, .base .client] _ rfl rfl).length_eq
  revert this
  decide

/-- The executions in which no task submits a task while the client is inside `block()` (`ThreadPool.h` 92) or just about to leave it. -/
def Spec.permitted (body : Nat → Option E) : State E → List NAction → Prop
  | _, [] => True
  | s, a :: as => ((∃ i, a = .nested i) → inBlock s.client = false ∧ leftBlock s.client = false) ∧ ∀ s', nstep body s a = some s' → Spec.permitted body s' as

theorem permitted_inv {body : Nat → Option E} {n : Nat} : ∀ (as : List NAction) {s s' : State E}, Inv body n s → Spec.permitted body s as → nrun body s as = some s' → Inv body n s' := by
  intro as
  induction as with
  | nil => intro s s' hN _ h; rw [nrun] at h; cases h; exact hN
  | cons a as ih =>
    intro s s' hN hp h
    rw [nrun] at h
    cases hs : nstep body s a with
    | none => rw [hs] at h; cases h
    | some s1 =>
      rw [hs] at h
      refine ih ?_ (hp.2 s1 hs) h
      cases a with
      | base a => exact inv_step body n _ _ a hN hs
      | nested i =>
        obtain ⟨h1, h2⟩ := hp.1 ⟨i, rfl⟩
        have hn := ninv_step (inv_client hN .idle trivial) _ hs
        have hc : s1.client = s.client := by
          simp only [nstep, stepNested] at hs
          cases hw : s.w[i]? with
          | none => rw [hw] at hs; cases hs
          | some w => rw [hw] at hs; obtain ⟨pc, rn, sl, dn⟩ := w; cases pc <;> simp only at hs <;> cases hs; rfl
        have hcok : COk s1 := by
          have h0 := hN.cok
          unfold COk at h0 ⊢
          rw [hc]
          cases hcc : s.client <;> rw [hcc] at h0 h1 h2 <;> simp only [inBlock, leftBlock] at h0 h1 h2 ⊢ <;> try contradiction
          case destroyed =>
            simp only [nstep, stepNested] at hs
            cases hw : s.w[i]? with
            | none => rw [hw] at hs; cases hs
            | some w =>
              have hlt : i < s.w.length := by
                by_contra hcon
                rw [List.getElem?_eq_none (by omega)] at hw
                cases hw
              have := h0 i w hlt hw
              simp only at this
              rw [hw] at hs
              simp only [this] at hs
              cases hs
        exact inv_client (s := { s1 with client := .idle }) hn s1.client hcok

/-- **C126, `block()`.** If no task submits a task inside `block()`, all tasks are finished when it returns. -/
theorem C126_block_partial (body : Nat → Option E) (n : Nat) (as : List NAction) (s : State E) (hp : Spec.permitted body (init n) as) (h : nrun body (init n) as = some s)
    (hr : s.client = .returned) : s.queue = [] ∧ (∀ w ∈ s.w, inHand w.pc = none) ∧ List.Perm s.finished s.submitted := by
  have hI := permitted_inv as (inv_init body n) hp h
  have hc := hI.cok
  unfold COk at hc
  rw [hr] at hc
  simp only at hc
  have hq : s.w.filterMap (fun w => inHand w.pc) = [] := by
    rw [List.filterMap_eq_nil_iff]
    intro w hw
    obtain ⟨i, hi, hget⟩ := List.getElem_of_mem hw
    have hg : s.w[i]? = some w := by rw [List.getElem?_eq_getElem hi, hget]
    rcases hc.2 with ⟨_, h2⟩ | ⟨_, h2⟩
    · exact (held_iff _).1 (h2 i w hi hg)
    · exact (held_iff _).1 (safe_held (h2 i w hi hg))
  have hqueue : s.queue = [] := by
    rcases hc.2 with ⟨h1, _⟩ | ⟨h1, _⟩
    · exact h1
    · rw [hc.1] at h1; cases h1
  obtain ⟨f1, _, f3⟩ := C126_fifo_at_most_once body n as s h
  rw [hq, List.append_nil] at f3
  rw [hqueue, List.append_nil] at f1
  rw [f1] at f3
  rw [List.filterMap_eq_nil_iff] at hq
  exact ⟨hqueue, hq, f3.symm⟩

/-! ### A pool without workers -/

/-- The job takes the lock of the pool before it ends. -/
def Spec.locks : Job → Bool
  | .returns => false
  | .throws => false
  | .submits _ _ => true
  | .queries _ => true
  | .counts rest => Spec.locks rest

/-- The job throws before it does anything else but count threads. -/
def Spec.fails : Job → Bool
  | .throws => true
  | .counts rest => Spec.fails rest
  | _ => false

/-- Without workers any task could be submitted. -/
def C126_no_workers_full : Prop := ∀ j, submit0 j ≠ .ub

/-- **C126 (violated).** A task that asks for the length of the queue. -/
theorem C126_no_workers_violated : ¬ C126_no_workers_full := fun h => h (.queries .returns) (by decide)

/-- **C126, no workers.** A task runs at once and its exception goes to the caller of `submit`; a task that submits, or asks for the queue or the running tasks, locks the mutex a second time. -/
theorem C126_no_workers_partial (j : Job) : submit0 j = if Spec.locks j then .ub else if Spec.fails j then .throw () else .ok 1 := by
  unfold submit0
  induction j with
  | returns => rfl
  | throws => rfl
  | submits a b _ _ => rfl
  | queries a _ => rfl
  | counts a ih => rw [call0, ih]; rfl

/-! ## Examples -/

/-- A task that submits a task before `block()` is called; `block()` returns with both finished. -/
example : (nrun (fun _ => (none : Option Unit)) (init 1)
    [.base .submit, .base (.worker 0), .base (.worker 0), .base (.worker 0), .base (.worker 0), .nested 0, .base .block, .base (.worker 0), .base (.worker 0), .base (.worker 0),
      .base (.worker 0), .base (.worker 0), .base (.worker 0), .base .client, .base .client, .base (.worker 0), .base (.worker 0), .base (.worker 0), .base (.worker 0),
      .base .client, .base .client, .base .client]).map (fun s => (s.client, s.finished)) = some (.returned, [0, 1]) := by decide

example : Spec.permitted (fun _ => (none : Option Unit)) (init 1) [.base .submit, .base (.worker 0), .base (.worker 0), .base (.worker 0), .base (.worker 0), .nested 0, .base .block] := by
  simp [Spec.permitted, nstep, step, stepSubmit, stepWorker, init, inBlock, leftBlock]

example : submit0 (.counts .returns) = .ok 1 ∧ submit0 (.counts .throws) = .throw () ∧ submit0 (.submits .returns .returns) = .ub := by decide

end Alexandria.ThreadPool
