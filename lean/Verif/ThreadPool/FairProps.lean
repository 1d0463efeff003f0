import Verif.ThreadPool.Fair
import Verif.ThreadPool.Props
import Mathlib.Data.Nat.Find

/-! # C125: `block()` and the destructor come to an end -/

set_option linter.unusedSectionVars false

namespace Alexandria.ThreadPool

open Spec

variable {E : Type}

/-! ## Lemmas -/

/-- A measure that never increases and decreases again and again. -/
theorem eventually {T G : Nat → Prop} (hT : Often T) (μ : Nat → Nat) (k : Nat) (h1 : ∀ j, k ≤ j → ¬ G j → G (j + 1) ∨ μ (j + 1) ≤ μ j)
    (h2 : ∀ j, k ≤ j → ¬ G j → T j → G (j + 1) ∨ μ (j + 1) < μ j) : ∃ j, k ≤ j ∧ G j := by
  by_contra hn
  have hG : ∀ j, k ≤ j → ¬ G j := fun j hj h => hn ⟨j, hj, h⟩
  have a1 : ∀ j, k ≤ j → μ (j + 1) ≤ μ j := fun j hj => (h1 j hj (hG j hj)).resolve_left (hG _ (by omega))
  have a2 : ∀ j, k ≤ j → T j → μ (j + 1) < μ j := fun j hj ht => (h2 j hj (hG j hj) ht).resolve_left (hG _ (by omega))
  have mono : ∀ d j, k ≤ j → μ (j + d) ≤ μ j := by
    intro d
    induction d with
    | zero => intro j _; exact le_refl _
    | succ d ih => intro j hj; exact (a1 (j + d) (by omega)).trans (ih j hj)
  have key : ∀ m j, k ≤ j → μ j = m → False := by
    intro m
    induction m using Nat.strongRecOn with
    | _ m ih =>
      intro j hj hm
      obtain ⟨i, hi, ht⟩ := hT j
      have b1 := mono (i - j) j hj
      rw [show j + (i - j) = i by omega] at b1
      have b2 := a2 i (by omega) ht
      exact ih (μ (i + 1)) (by omega) (i + 1) (by omega) rfl
  exact key _ k (le_refl _) rfl

/-- What holds from one moment on for each of finitely many workers holds from one moment on for all. -/
theorem eventually_all {p : Nat → Nat → Prop} (stable : ∀ i j, p i j → p i (j + 1)) (k : Nat) : ∀ n, (∀ i < n, ∃ j, k ≤ j ∧ p i j) →
    ∃ j, k ≤ j ∧ ∀ i < n, p i j := by
  have st : ∀ i d j, p i j → p i (j + d) := by
    intro i d j h
    induction d with
    | zero => exact h
    | succ d ih => exact stable i _ ih
  intro n
  induction n with
  | zero => intro _; exact ⟨k, le_refl _, fun i hi => absurd hi (by omega)⟩
  | succ n ih =>
    intro h
    obtain ⟨j1, a1, a2⟩ := ih fun i hi => h i (by omega)
    obtain ⟨j2, b1, b2⟩ := h n (by omega)
    refine ⟨j1 + j2, by omega, fun i hi => ?_⟩
    by_cases hin : i = n
    · subst hin; rw [Nat.add_comm]; exact st _ _ _ b2
    · exact st _ _ _ (a2 i (by omega))

theorem trace_induct {body : Nat → Option E} {s : State E} {σ : Nat → Action} {P : State E → Prop} (h0 : P s)
    (hs : ∀ s s' a, P s → step body s a = some s' → P s') : ∀ k, P (trace body s σ k) := by
  intro k
  induction k with
  | zero => exact h0
  | succ k ih =>
    rw [trace]
    cases h : step body (trace body s σ k) (σ k) with
    | none => exact ih
    | some s' => exact hs _ s' _ ih h

/-- From one moment on. -/
theorem trace_from {body : Nat → Option E} {s : State E} {σ : Nat → Action} {P : State E → Prop}
    (hs : ∀ s s' a, P s → step body s a = some s' → P s') {k : Nat} (h0 : P (trace body s σ k)) : ∀ j, k ≤ j → P (trace body s σ j) := by
  intro j hj
  obtain ⟨d, rfl⟩ := Nat.exists_eq_add_of_le hj
  induction d with
  | zero => exact h0
  | succ d ih =>
    rw [← Nat.add_assoc, trace]
    cases h : step body (trace body s σ (k + d)) (σ (k + d)) with
    | none => exact ih (by omega)
    | some s' => exact hs _ s' _ (ih (by omega)) h

/-- What a worker's step does to another worker: nothing. -/
theorem worker_other {body : Nat → Option E} {s s' : State E} {i j : Nat} (h : stepWorker body s i = some s') (hij : i ≠ j) : s'.w[j]? = s.w[j]? := by
  obtain ⟨w, w', _, h2, _⟩ := stepWorker_spec body s s' i h
  rw [h2, List.getElem?_set_ne hij]

/-- The program counters of the workers are changed by the workers only. -/
theorem step_pc {body : Nat → Option E} {s s' : State E} {a : Action} {i : Nat} (h : step body s a = some s') (ha : a ≠ .worker i) {w : Worker E} (hw : s.w[i]? = some w) :
    ∃ w', s'.w[i]? = some w' ∧ w'.pc = w.pc ∧ w'.sleeping = w.sleeping ∧ (w.run = false → w'.run = false) := by
  cases a with
  | worker j =>
    have hij : j ≠ i := fun e => ha (by rw [e])
    exact ⟨w, by rw [worker_other h hij, hw], rfl, rfl, id⟩
  | submit =>
    simp only [step, stepSubmit] at h
    split at h
    · split at h <;> cases h <;> exact ⟨w, hw, rfl, rfl, id⟩
    · cases h
  | block => simp only [step] at h; split at h <;> cases h; exact ⟨w, hw, rfl, rfl, id⟩
  | destroy => simp only [step] at h; split at h <;> cases h; exact ⟨w, hw, rfl, rfl, id⟩
  | client =>
    simp only [step, stepClient] at h
    cases hc : s.client <;> rw [hc] at h <;> simp only at h
    case clear j =>
      cases hj : s.w[j]? with
      | none => rw [hj] at h; cases h; exact ⟨w, hw, rfl, rfl, id⟩
      | some v =>
        rw [hj] at h
        cases h
        by_cases hij : j = i
        · subst hij
          rw [hw] at hj
          cases hj
          have hlt : j < s.w.length := by
            by_contra hcon
            rw [List.getElem?_eq_none (by omega)] at hw
            cases hw
          exact ⟨{ w with run := false }, by simp [hlt], rfl, rfl, fun _ => rfl⟩
        · exact ⟨w, by simp [List.getElem?_set_ne hij, hw], rfl, rfl, id⟩
    case idle => cases h
    case destroyed => cases h
    case join => split at h <;> cases h; exact ⟨w, hw, rfl, rfl, id⟩
    case wait j => split at h <;> cases h <;> exact ⟨w, hw, rfl, rfl, id⟩
    case check => split at h <;> cases h <;> exact ⟨w, hw, rfl, rfl, id⟩
    case waitDone j => split at h <;> cases h <;> exact ⟨w, hw, rfl, rfl, id⟩
    all_goals (cases h; exact ⟨w, hw, rfl, rfl, id⟩)

/-- The client moves by its own actions only. -/
theorem step_client {body : Nat → Option E} {s s' : State E} {a : Action} (h : step body s a = some s') (ha : a ≠ .client) (hi : s.client ≠ .idle) : s'.client = s.client := by
  cases a with
  | worker j => obtain ⟨_, _, _, _, hc, _⟩ := stepWorker_spec body s s' j h; exact hc
  | submit => simp [step, stepSubmit, hi] at h
  | block => simp [step, hi] at h
  | destroy => simp [step, hi] at h
  | client => exact absurd rfl ha

/-- One step of worker `i`, seen from its program counter. -/
theorem step_worker {body : Nat → Option E} {s : State E} {i : Nat} {w : Worker E} (hw : s.w[i]? = some w) :
    (w.pc = .ended ∧ step body s (.worker i) = none) ∨ ∃ s' w', step body s (.worker i) = some s' ∧ s'.w[i]? = some w' ∧ s'.queue.length ≤ s.queue.length ∧ (match w.pc with
      | .checkRun => w'.pc = (if w.run then .checkExc else .exit1) ∧ s'.queue = s.queue
      | .checkExc => w'.pc = (if s.exc.isNone then .lock else .exit1) ∧ s'.queue = s.queue
      | .lock => (w'.pc = .noTask ∧ s.queue = [] ∧ s'.queue = s.queue) ∨ ∃ t, w'.pc = .got t ∧ s'.queue.length < s.queue.length
      | .got t => w'.pc = .running t ∧ s'.queue = s.queue
      | .running t => (w'.pc = .checkRun ∨ ∃ e, w'.pc = .caught t e) ∧ s'.queue = s.queue
      | .caught _ e => w'.pc = .checkRun ∧ s'.queue = s.queue ∧ s'.exc = some e
      | .noTask => w'.pc = .asleep ∧ s'.queue = s.queue
      | .asleep => w'.pc = .checkRun ∧ s'.queue = s.queue
      | .exit1 => w'.pc = .exit2 ∧ s'.queue = s.queue
      | .exit2 => w'.pc = .exit3 ∧ s'.queue = s.queue
      | .exit3 => w'.pc = .ended ∧ s'.queue = s.queue
      | .ended => False) := by
  have hlt : i < s.w.length := by
    by_contra hcon
    rw [List.getElem?_eq_none (by omega)] at hw
    cases hw
  simp only [step, stepWorker, hw]
  obtain ⟨pc, rn, sl, dn⟩ := w
  cases pc <;> simp only
  case ended => left; trivial
  case lock =>
    right
    cases hq : s.queue with
    | nil => exact ⟨_, ⟨.noTask, rn, sl, dn⟩, rfl, by simp [hlt], by simp [hq], Or.inl ⟨rfl, rfl, by simp [hq]⟩⟩
    | cons t q => exact ⟨_, ⟨.got t, rn, sl, dn⟩, rfl, by simp [hlt], by simp, Or.inr ⟨t, rfl, by simp⟩⟩
  case running t =>
    right
    cases hb : body t with
    | none => exact ⟨_, ⟨.checkRun, rn, sl, dn⟩, rfl, by simp [hlt], by simp, Or.inl rfl, rfl⟩
    | some e => exact ⟨_, ⟨.caught t e, rn, sl, dn⟩, rfl, by simp [hlt], by simp, Or.inr ⟨e, rfl⟩, rfl⟩
  case caught t e => right; exact ⟨_, _, rfl, by rw [List.getElem?_set_self hlt], by simp, rfl, rfl, rfl⟩
  all_goals (right; exact ⟨_, _, rfl, by rw [List.getElem?_set_self hlt], by simp, rfl, rfl⟩)

theorem step_exc {body : Nat → Option E} {s s' : State E} {a : Action} (h : step body s a = some s') (he : s.exc.isSome) : s'.exc.isSome := by
  cases a with
  | worker i => obtain ⟨w, w', _, _, _, _, _, _, h7, _⟩ := stepWorker_spec body s s' i h; exact (h7 he).1
  | submit =>
    simp only [step, stepSubmit] at h
    split at h
    · split at h <;> cases h <;> exact he
    · cases h
  | block => simp only [step] at h; split at h <;> cases h; exact he
  | destroy => simp only [step] at h; split at h <;> cases h; exact he
  | client =>
    simp only [step, stepClient] at h
    cases hc : s.client <;> rw [hc] at h <;> simp only at h
    case idle => cases h
    case destroyed => cases h
    case join => split at h <;> cases h; exact he
    case wait j => split at h <;> cases h <;> exact he
    case check => split at h <;> cases h <;> exact he
    case waitDone j => split at h <;> cases h <;> exact he
    case clear j => split at h <;> cases h <;> exact he
    all_goals (cases h; exact he)

/-- While the client is inside `block()` no task is submitted. -/
theorem step_queue {body : Nat → Option E} {s s' : State E} {a : Action} (h : step body s a = some s') (hc : inBlock s.client = true) : s'.queue.length ≤ s.queue.length := by
  cases a with
  | worker i =>
    simp only [step] at h
    cases hw : s.w[i]? with
    | none => simp [stepWorker, hw] at h
    | some w =>
      rcases step_worker (body := body) hw with ⟨_, h1⟩ | ⟨s1, w', h1, _, h2, _⟩
      · simp only [step] at h1; rw [h1] at h; cases h
      · simp only [step] at h1; rw [h1] at h; cases h; exact h2
  | submit => have hi : s.client ≠ .idle := fun e => by rw [e] at hc; cases hc
              simp [step, stepSubmit, hi] at h
  | block => have hi : s.client ≠ .idle := fun e => by rw [e] at hc; cases hc
             simp [step, hi] at h
  | destroy => have hi : s.client ≠ .idle := fun e => by rw [e] at hc; cases hc
               simp [step, hi] at h
  | client =>
    simp only [step, stepClient] at h
    cases hcc : s.client <;> rw [hcc] at h hc <;> simp only [inBlock] at h hc
    case wait j => split at h <;> cases h <;> exact le_refl _
    case check => split at h <;> cases h <;> exact le_refl _
    all_goals first | (cases h; exact le_refl _) | cases hc

/-- The run flags that the destructor has cleared stay cleared. -/
def Cleared (s : State E) : Prop :=
  match s.client with
  | .clear i => ∀ j w, j < i → s.w[j]? = some w → w.run = false
  | .waitDone _ => ∀ w ∈ s.w, w.run = false
  | .join => ∀ w ∈ s.w, w.run = false
  | .destroyed => ∀ w ∈ s.w, w.run = false
  | _ => True

theorem worker_run {body : Nat → Option E} {s s' : State E} {i : Nat} (h : stepWorker body s i = some s') {j : Nat} {w' : Worker E} (hw' : s'.w[j]? = some w') :
    ∃ w, s.w[j]? = some w ∧ (w.run = false → w'.run = false) := by
  by_cases hij : i = j
  · subst hij
    simp only [stepWorker] at h
    cases hw : s.w[i]? with
    | none => rw [hw] at h; cases h
    | some w =>
      rw [hw] at h
      refine ⟨w, rfl, fun hr => ?_⟩
      have hlt : i < s.w.length := by
        by_contra hcon
        rw [List.getElem?_eq_none (by omega)] at hw
        cases hw
      obtain ⟨pc, rn, sl, dn⟩ := w
      cases pc <;> simp only at h hr
      case lock => split at h <;> cases h <;> (simp only [List.getElem?_set_self hlt] at hw'; cases hw'; exact hr)
      case running t => split at h <;> cases h <;> (simp only [List.getElem?_set_self hlt] at hw'; cases hw'; exact hr)
      case ended => cases h
      case exit3 => cases h; simp only [List.getElem?_set_self hlt] at hw'; cases hw'; rfl
      all_goals (cases h; simp only [List.getElem?_set_self hlt] at hw'; cases hw'; exact hr)
  · exact ⟨w', by rw [← worker_other h hij, hw'], id⟩

theorem cleared_step {body : Nat → Option E} {s s' : State E} {a : Action} (hC : Cleared s) (h : step body s a = some s') : Cleared s' := by
  cases a with
  | worker i =>
    obtain ⟨_, _, _, _, hc, _⟩ := stepWorker_spec body s s' i h
    have hr : (∀ w ∈ s.w, w.run = false) → ∀ w ∈ s'.w, w.run = false := by
      intro h0 w hw
      obtain ⟨j, hj⟩ := List.getElem?_of_mem hw
      obtain ⟨v, hv, hvr⟩ := worker_run h hj
      exact hvr (h0 v (List.mem_of_getElem? hv))
    unfold Cleared at hC ⊢
    rw [hc]
    cases hcc : s.client <;> rw [hcc] at hC <;> simp only at hC ⊢
    case clear i =>
      intro j w hj hw
      obtain ⟨v, hv, hvr⟩ := worker_run h hw
      exact hvr (hC j v hj hv)
    case waitDone => exact hr hC
    case join => exact hr hC
    case destroyed => exact hr hC
  | submit =>
    simp only [step, stepSubmit] at h
    split at h
    · rename_i hc; split at h <;> cases h <;> simp [Cleared, hc]
    · cases h
  | block => simp only [step] at h; split at h <;> cases h; simp [Cleared]
  | destroy => simp only [step] at h; split at h <;> cases h; simp [Cleared]
  | client =>
    simp only [step, stepClient] at h
    cases hc : s.client <;> rw [hc] at h <;> simp only at h <;> simp only [Cleared, hc] at hC
    case idle => cases h
    case destroyed => cases h
    case join => split at h <;> cases h; exact hC
    case wait j =>
      cases hj : s.w[j]? with
      | none => rw [hj] at h; cases h; trivial
      | some w => rw [hj] at h; cases h; cases hb : w.sleeping <;> simp [Cleared]
    case check => split at h <;> cases h <;> trivial
    case waitDone j =>
      cases hj : s.w[j]? with
      | none => rw [hj] at h; cases h; exact hC
      | some w => rw [hj] at h; cases h; cases hb : w.done <;> simpa [Cleared] using hC
    case blockExc => cases h; cases hb : s.exc <;> simp [Cleared]
    case blockQueue => cases h; cases hb : s.queue <;> simp [Cleared]
    case returned => cases h; trivial
    case threw e => cases h; trivial
    case clear i =>
      cases hi : s.w[i]? with
      | none =>
        rw [hi] at h
        cases h
        intro w hw
        obtain ⟨j, hj⟩ := List.getElem?_of_mem hw
        simp only at hj
        have hjl : j < s.w.length := by
          by_contra hcon
          rw [List.getElem?_eq_none (by omega)] at hj
          cases hj
        exact hC j w (by rw [List.getElem?_eq_none_iff] at hi; omega) hj
      | some v =>
        rw [hi] at h
        cases h
        intro j w hj hw
        simp only at hw
        rcases set_get hi hw with ⟨_, rfl⟩ | ⟨hne, hw⟩
        · rfl
        · exact hC j w (by omega) hw

/-- Steps before a worker ends once its run flag is cleared. -/
def PC.toEnd : PC E → Nat
  | .checkExc => 30
  | .lock => 29
  | .got _ => 28
  | .running _ => 27
  | .caught _ _ => 26
  | .noTask => 25
  | .asleep => 24
  | .checkRun => 10
  | .exit1 => 4
  | .exit2 => 3
  | .exit3 => 2
  | .ended => 0

/-- Steps before a worker ends once an exception is recorded. -/
def PC.toEnd' : PC E → Nat
  | .lock => 29
  | .got _ => 28
  | .running _ => 27
  | .caught _ _ => 26
  | .noTask => 25
  | .asleep => 24
  | .checkRun => 11
  | .checkExc => 10
  | .exit1 => 4
  | .exit2 => 3
  | .exit3 => 2
  | .ended => 0

/-- The measure of worker `i`. -/
def of (f : PC E → Nat) (s : State E) (i : Nat) : Nat := match s.w[i]? with
  | some w => f w.pc
  | none => 0

/-- Worker `i` has ended. -/
def Ended (s : State E) (i : Nat) : Prop := ∃ w, s.w[i]? = some w ∧ w.pc = .ended

theorem ended_step {body : Nat → Option E} {s s' : State E} {a : Action} {i : Nat} (hE : Ended s i) (h : step body s a = some s') : Ended s' i := by
  obtain ⟨w, hw, hp⟩ := hE
  by_cases ha : a = .worker i
  · subst ha
    simp [step, stepWorker, hw, hp] at h
  · obtain ⟨w', h1, h2, _⟩ := step_pc h ha hw
    exact ⟨w', h1, by rw [h2, hp]⟩

/-- A worker under a condition that makes a measure of its program counter decrease comes to its end. -/
theorem worker_ends {body : Nat → Option E} {n : Nat} {σ : Nat → Action} (f : PC E → Nat) (i : Nat) (hi : i < n) (hσ : Often fun j => σ j = .worker i) (k : Nat)
    (hf : ∀ j, k ≤ j → ∀ w s', (trace body (init n) σ j).w[i]? = some w → step body (trace body (init n) σ j) (.worker i) = some s' → ∀ w', s'.w[i]? = some w' → f w'.pc < f w.pc) :
    ∃ j, k ≤ j ∧ Ended (trace body (init n) σ j) i := by
  have hlen : ∀ j, (trace body (init n) σ j).w.length = n := fun j =>
    (trace_induct (P := Inv body n) (inv_init body n) (fun s s' a hI h => inv_step body n s s' a hI h) j).len
  refine eventually hσ (fun j => of f (trace body (init n) σ j) i) k ?_ ?_
  · intro j hj hn
    obtain ⟨w, hw⟩ : ∃ w, (trace body (init n) σ j).w[i]? = some w := ⟨_, List.getElem?_eq_getElem (by rw [hlen]; exact hi)⟩
    by_cases ha : σ j = .worker i
    · rcases step_worker (body := body) hw with ⟨h1, _⟩ | ⟨s', w', h1, h2, _⟩
      · exact absurd ⟨w, hw, h1⟩ hn
      · right
        have := hf j hj w s' hw h1 w' h2
        simp only [of, trace, ha, h1, hw, Option.getD_some, h2]
        omega
    · right
      cases hs : step body (trace body (init n) σ j) (σ j) with
      | none => simp only [trace, hs, Option.getD_none]; exact le_refl _
      | some s' =>
        obtain ⟨w', h1, h2, _⟩ := step_pc hs ha hw
        simp only [of, trace, hs, hw, Option.getD_some, h1, h2]
        exact le_refl _
  · intro j hj hn ha
    obtain ⟨w, hw⟩ : ∃ w, (trace body (init n) σ j).w[i]? = some w := ⟨_, List.getElem?_eq_getElem (by rw [hlen]; exact hi)⟩
    rcases step_worker (body := body) hw with ⟨h1, _⟩ | ⟨s', w', h1, h2, _⟩
    · exact absurd ⟨w, hw, h1⟩ hn
    · right
      have := hf j hj w s' hw h1 w' h2
      simp only [of, trace, ha, h1, hw, Option.getD_some, h2]
      exact this

theorem toEnd_decreases {body : Nat → Option E} {s s' : State E} {i : Nat} {w w' : Worker E} (hw : s.w[i]? = some w) (hr : w.run = false) (h : step body s (.worker i) = some s')
    (hw' : s'.w[i]? = some w') : w'.pc.toEnd < w.pc.toEnd := by
  rcases step_worker (body := body) hw with ⟨_, h1⟩ | ⟨s1, w1, h1, h2, _, h3⟩
  · rw [h1] at h; cases h
  · rw [h1] at h; cases h
    rw [h2] at hw'; cases hw'
    obtain ⟨pc, rn, sl, dn⟩ := w
    cases pc <;> simp only at h3 hr
    case checkRun => rw [h3.1, hr]; simp [PC.toEnd]
    case checkExc => rw [h3.1]; split <;> simp [PC.toEnd]
    case lock => rcases h3 with ⟨h3, _⟩ | ⟨t, h3, _⟩ <;> rw [h3] <;> simp [PC.toEnd]
    case running t => rcases h3.1 with h3 | ⟨e, h3⟩ <;> rw [h3] <;> simp [PC.toEnd]
    all_goals (rw [h3.1]; simp [PC.toEnd])

theorem toEnd'_decreases {body : Nat → Option E} {s s' : State E} {i : Nat} {w w' : Worker E} (hw : s.w[i]? = some w) (he : s.exc.isSome) (h : step body s (.worker i) = some s')
    (hw' : s'.w[i]? = some w') : w'.pc.toEnd' < w.pc.toEnd' := by
  rcases step_worker (body := body) hw with ⟨_, h1⟩ | ⟨s1, w1, h1, h2, _, h3⟩
  · rw [h1] at h; cases h
  · rw [h1] at h; cases h
    rw [h2] at hw'; cases hw'
    obtain ⟨pc, rn, sl, dn⟩ := w
    cases pc <;> simp only at h3
    case checkRun => rw [h3.1]; split <;> simp [PC.toEnd']
    case checkExc =>
      have : s.exc.isNone = false := by cases hE : s.exc <;> simp [hE] at he ⊢
      rw [h3.1, this]; simp [PC.toEnd']
    case lock => rcases h3 with ⟨h3, _⟩ | ⟨t, h3, _⟩ <;> rw [h3] <;> simp [PC.toEnd']
    case running t => rcases h3.1 with h3 | ⟨e, h3⟩ <;> rw [h3] <;> simp [PC.toEnd']
    all_goals (rw [h3.1]; simp [PC.toEnd'])

/-! ## Theorems: destructor -/

def past : Client E → Bool
  | .waitDone _ => true
  | .join => true
  | .destroyed => true
  | _ => false

theorem past_step {body : Nat → Option E} {s s' : State E} {a : Action} (hp : past s.client = true) (h : step body s a = some s') : past s'.client = true := by
  by_cases ha : a = .client
  · subst ha
    simp only [step, stepClient] at h
    cases hc : s.client <;> rw [hc] at h hp <;> simp only [past] at h hp
    case waitDone j =>
      cases hj : s.w[j]? with
      | none => rw [hj] at h; cases h; rfl
      | some w => rw [hj] at h; cases h; cases hb : w.done <;> simp [past]
    case join => split at h <;> cases h; rfl
    all_goals first | contradiction | cases h
  · rw [step_client h ha (fun e => by rw [e] at hp; cases hp)]; exact hp

/-- **C125, destructor.** In every fair execution the destructor comes to its end, whatever is queued and whatever the workers do when it is called. -/
theorem C125_destructor (body : Nat → Option E) (n : Nat) (σ : Nat → Action) (hσ : Fair n σ) (k : Nat) (hk : inDestructor (trace body (init n) σ k).client = true) :
    ∃ j, k ≤ j ∧ (trace body (init n) σ j).client = .destroyed := by
  have hI : ∀ j, Inv body n (trace body (init n) σ j) := trace_induct (inv_init body n) fun s s' a hI h => inv_step body n s s' a hI h
  have hC : ∀ j, Cleared (trace body (init n) σ j) := trace_induct (by trivial) fun s s' a hC h => cleared_step hC h
  -- the run flags are cleared
  obtain ⟨k1, hk1, hp1⟩ : ∃ j, k ≤ j ∧ past (trace body (init n) σ j).client = true := by
    have hd : ∀ j, k ≤ j → ((∃ i, (trace body (init n) σ j).client = .clear i) ∨ past (trace body (init n) σ j).client = true) := by
      refine trace_from (P := fun s => (∃ i, s.client = .clear i) ∨ past s.client = true) ?_ ?_
      · intro s s' a hs h
        rcases hs with ⟨i, hi⟩ | hs
        · by_cases ha : a = .client
          · subst ha
            simp only [step, stepClient, hi] at h
            split at h
            · cases h; right; rfl
            · cases h; left; exact ⟨_, rfl⟩
          · left; exact ⟨i, by rw [step_client h ha (by rw [hi]; simp), hi]⟩
        · exact Or.inr (past_step hs h)
      · cases hc : (trace body (init n) σ k).client <;> rw [hc] at hk <;> simp [inDestructor] at hk
        · exact Or.inl ⟨_, rfl⟩
        · exact Or.inr rfl
        · exact Or.inr rfl
    refine eventually hσ.1 (fun j => match (trace body (init n) σ j).client with | .clear i => n - i | _ => 0) k ?_ ?_
    · intro j hj hn
      rcases hd j hj with ⟨i, hi⟩ | h
      · by_cases ha : σ j = .client
        · simp only [trace, ha, step, stepClient, hi]
          cases hw : (trace body (init n) σ j).w[i]? with
          | none => left; rfl
          | some w => right; simp only [Option.getD_some]; omega
        · right
          cases hs : step body (trace body (init n) σ j) (σ j) with
          | none => simp only [trace, hs, Option.getD_none]; exact le_refl _
          | some s' => simp only [trace, hs, Option.getD_some, step_client hs ha (by rw [hi]; simp)]; exact le_refl _
      · exact absurd h hn
    · intro j hj hn ha
      rcases hd j hj with ⟨i, hi⟩ | h
      · simp only [trace, ha, step, stepClient, hi]
        cases hw : (trace body (init n) σ j).w[i]? with
        | none => left; rfl
        | some w =>
          right
          have : i < n := by
            rw [← (hI j).len]
            by_contra hcon
            rw [List.getElem?_eq_none (by omega)] at hw
            cases hw
          simp only [Option.getD_some]; omega
      · exact absurd h hn
  have hp : ∀ j, k1 ≤ j → past (trace body (init n) σ j).client = true := trace_from (P := fun s => past s.client = true) (fun s s' a hp h => past_step hp h) hp1
  have hr : ∀ j, k1 ≤ j → ∀ w ∈ (trace body (init n) σ j).w, w.run = false := by
    intro j hj
    have h1 := hp j hj
    have h2 := hC j
    unfold Cleared at h2
    cases hc : (trace body (init n) σ j).client <;> rw [hc] at h1 h2 <;> simp only [past] at h1 h2 <;> first | contradiction | exact h2
  -- the workers end
  obtain ⟨k2, hk2, he2⟩ : ∃ j, k1 ≤ j ∧ ∀ i < n, Ended (trace body (init n) σ j) i := by
    refine eventually_all (p := fun i j => Ended (trace body (init n) σ j) i) ?_ k1 n ?_
    · intro i j h
      exact trace_from (P := fun s => Ended s i) (fun s s' a hE h => ended_step hE h) h (j + 1) (by omega)
    · intro i hi
      refine worker_ends PC.toEnd i hi (hσ.2 i hi) k1 ?_
      intro j hj w s' hw hs w' hw'
      exact toEnd_decreases hw (hr j hj w (List.mem_of_getElem? hw)) hs hw'
  have he : ∀ j, k2 ≤ j → ∀ i < n, Ended (trace body (init n) σ j) i := fun j hj i hi =>
    trace_from (P := fun s => Ended s i) (fun s s' a hE h => ended_step hE h) (he2 i hi) j hj
  -- the client sees it
  obtain ⟨k3, hk3, h3⟩ : ∃ j, k2 ≤ j ∧ (trace body (init n) σ j).client = .destroyed := by
    refine eventually hσ.1 (fun j => match (trace body (init n) σ j).client with | .waitDone i => (n - i) + 2 | .join => 1 | _ => 0) k2 ?_ ?_
    · intro j hj hn
      by_cases ha : σ j = .client
      · have h1 := hp j (by omega)
        cases hc : (trace body (init n) σ j).client <;> rw [hc] at h1 hn <;> simp only [past] at h1 hn
        case waitDone i =>
          right
          simp only [trace, ha, step, stepClient, hc]
          cases hw : (trace body (init n) σ j).w[i]? with
          | none => simp only [Option.getD_some]; omega
          | some w =>
            by_cases hb : w.done = true
            · simp only [Option.getD_some, if_pos hb]; omega
            · simp only [Option.getD_some, if_neg hb]; omega
        case join =>
          right
          have hj' : step body (trace body (init n) σ j) .client = some { trace body (init n) σ j with client := .destroyed } ∨ step body (trace body (init n) σ j) .client = none := by
            simp only [step, stepClient, hc]
            split
            · exact Or.inl rfl
            · exact Or.inr rfl
          rcases hj' with hj' | hj'
          · simp only [trace, ha, hj', hc, Option.getD_some]; omega
          · simp only [trace, ha, hj', hc, Option.getD_none]; omega
        all_goals first | contradiction | exact absurd rfl hn
      · right
        cases hs : step body (trace body (init n) σ j) (σ j) with
        | none => simp only [trace, hs, Option.getD_none]; exact le_refl _
        | some s' =>
          have hni : (trace body (init n) σ j).client ≠ .idle := fun e => by have := hp j (by omega); rw [e] at this; cases this
          simp only [trace, hs, Option.getD_some, step_client hs ha hni]; exact le_refl _
    · intro j hj hn ha
      have h1 := hp j (by omega)
      cases hc : (trace body (init n) σ j).client <;> rw [hc] at h1 hn <;> simp only [past] at h1 hn
      case waitDone i =>
        right
        simp only [trace, ha, step, stepClient, hc]
        cases hw : (trace body (init n) σ j).w[i]? with
        | none => simp only [Option.getD_some]; omega
        | some w =>
          have hin : i < n := by
            rw [← (hI j).len]
            by_contra hcon
            rw [List.getElem?_eq_none (by omega)] at hw
            cases hw
          obtain ⟨v, hv, hvp⟩ := he j hj i hin
          rw [hw] at hv
          cases hv
          have hok := (hI j).wok i w hw
          unfold WOk at hok
          rw [hvp] at hok
          simp only at hok
          simp only [hok.2, if_true, Option.getD_some]
          omega
      case join =>
        left
        simp only [trace, ha, step, stepClient, hc]
        rw [if_pos]
        · rfl
        · rw [List.all_eq_true]
          intro w hw
          obtain ⟨i, hi⟩ := List.getElem?_of_mem hw
          have hin : i < n := by
            rw [← (hI j).len]
            by_contra hcon
            rw [List.getElem?_eq_none (by omega)] at hi
            cases hi
          obtain ⟨v, hv, hvp⟩ := he j hj i hin
          rw [hi] at hv
          cases hv
          rw [hvp]
      all_goals first | contradiction | exact absurd rfl hn
  exact ⟨k3, by omega, h3⟩

/-! ## Theorems: block -/

theorem block_step {body : Nat → Option E} {s s' : State E} {a : Action} (hb : inBlock s.client = true) (h : step body s a = some s') :
    inBlock s'.client = true ∨ leftBlock s'.client = true := by
  by_cases ha : a = .client
  · subst ha
    simp only [step, stepClient] at h
    cases hc : s.client <;> rw [hc] at h hb <;> simp only [inBlock] at h hb
    case blockExc => cases h; left; simp only; split <;> rfl
    case blockQueue => cases h; left; simp only; split <;> rfl
    case wait j =>
      cases hj : s.w[j]? with
      | none => rw [hj] at h; cases h; left; rfl
      | some w => rw [hj] at h; cases h; left; simp only; split <;> rfl
    case check => split at h <;> cases h <;> right <;> rfl
    all_goals contradiction
  · left; rw [step_client h ha (fun e => by rw [e] at hb; cases hb)]; exact hb

/-- Steps before a worker sleeps when nothing is submitted. -/
def PC.toSleep : PC E → Nat
  | .got _ => 19
  | .running _ => 18
  | .caught _ _ => 17
  | .checkRun => 16
  | .checkExc => 15
  | .lock => 14
  | .noTask => 13
  | .exit1 => 12
  | _ => 0

/-- Steps before a worker takes the next task. -/
def PC.toTake : PC E → Nat
  | .got _ => 19
  | .running _ => 18
  | .caught _ _ => 17
  | .noTask => 16
  | .asleep => 15
  | .checkRun => 14
  | .checkExc => 13
  | .lock => 12
  | _ => 0

/-- The client has seen an empty queue or an exception. -/
def waits : Client E → Bool
  | .wait _ => true
  | .check => true
  | _ => false

/-- The flags that the client has still to see. -/
def Client.togo (n : Nat) : Client E → Nat
  | .wait i => n - i + 1
  | _ => 0

/-- Steps of the client before it waits. -/
def cmeas (s : State E) : Nat :=
  match s.client with
  | .blockQueue => if s.queue = [] then 0 else 3
  | .blockExc => if s.queue = [] then 1 else 2
  | _ => 0

section
variable {body : Nat → Option E} {n : Nat} {σ : Nat → Action} (hσ : Fair n σ) {k : Nat} (hb : ∀ j, k ≤ j → inBlock (trace body (init n) σ j).client = true)

theorem hInv (body : Nat → Option E) (n : Nat) (σ : Nat → Action) : ∀ j, Inv body n (trace body (init n) σ j) :=
  trace_induct (inv_init body n) fun s s' a hI h => inv_step body n s s' a hI h

theorem hAlive (body : Nat → Option E) (n : Nat) (σ : Nat → Action) : ∀ j, Alive (trace body (init n) σ j) :=
  trace_induct (alive_init n) fun s s' a hI h => alive_step body s s' a hI h

theorem has_worker {i : Nat} (hi : i < n) (j : Nat) : ∃ w, (trace body (init n) σ j).w[i]? = some w :=
  ⟨_, List.getElem?_eq_getElem (by rw [(hInv body n σ j).len]; exact hi)⟩

include hb in
theorem trace_queue {j : Nat} (hj : k ≤ j) : (trace body (init n) σ (j + 1)).queue.length ≤ (trace body (init n) σ j).queue.length := by
  rw [trace]
  cases hs : step body (trace body (init n) σ j) (σ j) with
  | none => exact le_refl _
  | some s' => exact step_queue hs (hb j hj)

include hσ hb in
/-- A goal that worker `i` comes nearer to with each step, counting tasks that are left. -/
theorem worker_reaches (f : PC E → Nat) {i : Nat} (hi : i < n) (G : State E → Prop) (k0 : Nat) (hk0 : k ≤ k0)
    (hf : ∀ j, k ≤ j → ¬ G (trace body (init n) σ j) → ∀ w, (trace body (init n) σ j).w[i]? = some w →
      ∃ s' w', step body (trace body (init n) σ j) (.worker i) = some s' ∧ s'.w[i]? = some w' ∧
        (G s' ∨ 20 * s'.queue.length + f w'.pc < 20 * (trace body (init n) σ j).queue.length + f w.pc)) :
    ∃ j, k0 ≤ j ∧ G (trace body (init n) σ j) := by
  refine eventually (hσ.2 i hi) (fun j => 20 * (trace body (init n) σ j).queue.length + of f (trace body (init n) σ j) i) k0 ?_ ?_
  · intro j hj hn
    obtain ⟨w, hw⟩ := has_worker (body := body) (σ := σ) hi j
    by_cases ha : σ j = .worker i
    · obtain ⟨s', w', h1, h2, h3⟩ := hf j (by omega) hn w hw
      have e : trace body (init n) σ (j + 1) = s' := by rw [trace, ha, h1, Option.getD_some]
      simp only [e, of, h2, hw]
      rcases h3 with h3 | h3
      · exact Or.inl h3
      · exact Or.inr (by omega)
    · right
      have hq := trace_queue hb (show k ≤ j by omega)
      have e : of f (trace body (init n) σ (j + 1)) i = of f (trace body (init n) σ j) i := by
        rw [trace]
        cases hs : step body (trace body (init n) σ j) (σ j) with
        | none => rfl
        | some s' =>
          obtain ⟨w', h1, h2, _⟩ := step_pc hs ha hw
          simp only [of, Option.getD_some, h1, hw, h2]
      simp only [e]
      omega
  · intro j hj hn ha
    obtain ⟨w, hw⟩ := has_worker (body := body) (σ := σ) hi j
    obtain ⟨s', w', h1, h2, h3⟩ := hf j (by omega) hn w hw
    have e : trace body (init n) σ (j + 1) = s' := by rw [trace, ha, h1, Option.getD_some]
    simp only [e, of, h2, hw]
    rcases h3 with h3 | h3
    · exact Or.inl h3
    · exact Or.inr (by omega)

include hσ hb in
/-- Inside `block()` every worker sleeps again and again. -/
theorem sleeps_often {i : Nat} (hi : i < n) : Often fun j => Sleeps (trace body (init n) σ j) i := by
  intro k0
  obtain ⟨j, hj, hs⟩ := worker_reaches hσ hb PC.toSleep hi (fun s => Sleeps s i) (k0 + k) (by omega) (by
    intro j hj hn w hw
    have hok := (hInv body n σ j).wok i w hw
    have hns : w.sleeping ≠ true := fun h => hn ⟨w, hw, h⟩
    rcases step_worker (body := body) hw with ⟨h1, _⟩ | ⟨s', w', h1, h2, h3, h4⟩
    · unfold WOk at hok
      rw [h1] at hok
      exact absurd hok.1 hns
    · refine ⟨s', w', h1, h2, ?_⟩
      have hok' := (inv_step body n _ s' _ (hInv body n σ j) h1).wok i w' h2
      obtain ⟨pc, rn, sl, dn⟩ := w
      unfold WOk at hok hok'
      cases pc <;> simp only at h4 hok
      case checkRun => right; rw [h4.1, h4.2]; split <;> simp [PC.toSleep]
      case checkExc => right; rw [h4.1, h4.2]; split <;> simp [PC.toSleep]
      case lock =>
        right
        rcases h4 with ⟨h4, _, h5⟩ | ⟨t, h4, h5⟩
        · rw [h4, h5]; simp [PC.toSleep]
        · rw [h4]; simp only [PC.toSleep]; omega
      case got t => right; rw [h4.1, h4.2]; simp [PC.toSleep]
      case running t => right; rw [h4.2]; rcases h4.1 with h4 | ⟨e, h4⟩ <;> rw [h4] <;> simp [PC.toSleep]
      case caught t e => right; rw [h4.1, h4.2.1]; simp [PC.toSleep]
      case noTask => left; rw [h4.1] at hok'; exact ⟨w', h2, hok'.1⟩
      case exit1 => left; rw [h4.1] at hok'; exact ⟨w', h2, hok'.1⟩
      case asleep => exact absurd hok.1 hns
      case exit2 => exact absurd hok.1 hns
      case exit3 => exact absurd hok.1 hns)
  exact ⟨j, by omega, hs⟩

include hσ hb in
/-- Inside `block()` the queue becomes empty or an exception is recorded. -/
theorem drains : ∃ j, k ≤ j ∧ ((trace body (init n) σ j).queue = [] ∨ (trace body (init n) σ j).exc.isSome) := by
  by_cases hn0 : n = 0
  · exact ⟨k, le_refl _, Or.inl ((hInv body n σ k).noq hn0)⟩
  refine worker_reaches hσ hb PC.toTake (i := 0) (by omega) (fun s => s.queue = [] ∨ s.exc.isSome) k (le_refl _) ?_
  intro j hj hn w hw
  simp only [not_or] at hn
  have hal : (w.run = false → w.pc.isEnded = true) ∧ (w.pc.exiting = true → (trace body (init n) σ j).exc.isSome) := by
    rcases hAlive body n σ j with h | h
    · have := hb j hj
      cases hc : (trace body (init n) σ j).client <;> rw [hc] at h this <;> simp [inBlock, Client.destroying] at h this
    · exact h w (List.mem_of_getElem? hw)
  rcases step_worker (body := body) hw with ⟨h1, _⟩ | ⟨s', w', h1, h2, h3, h4⟩
  · exact absurd (hal.2 (by rw [h1]; rfl)) hn.2
  · refine ⟨s', w', h1, h2, ?_⟩
    have hexc : (trace body (init n) σ j).exc.isNone = true := by simpa using hn.2
    obtain ⟨pc, rn, sl, dn⟩ := w
    cases pc <;> simp only at h4 hal
    case checkRun =>
      have : rn = true := by
        cases rn with
        | true => rfl
        | false => have := hal.1 rfl; cases this
      right; rw [h4.1, h4.2, this]; simp [PC.toTake]
    case checkExc => right; rw [h4.1, h4.2, hexc]; simp [PC.toTake]
    case lock =>
      rcases h4 with ⟨_, h5, _⟩ | ⟨t, h4, h5⟩
      · exact absurd h5 hn.1
      · right; rw [h4]; simp only [PC.toTake]; omega
    case got t => right; rw [h4.1, h4.2]; simp [PC.toTake]
    case running t => right; rw [h4.2]; rcases h4.1 with h4 | ⟨e, h4⟩ <;> rw [h4] <;> simp [PC.toTake]
    case caught t e => left; right; rw [h4.2.2]; rfl
    case noTask => right; rw [h4.1, h4.2]; simp [PC.toTake]
    case asleep => right; rw [h4.1, h4.2]; simp [PC.toTake]
    case exit1 => exact absurd (hal.2 rfl) hn.2
    case exit2 => exact absurd (hal.2 rfl) hn.2
    case exit3 => exact absurd (hal.2 rfl) hn.2

include hb in
/-- The client moves by its own actions only. -/
theorem trace_client {j : Nat} (hj : k ≤ j) (ha : σ j ≠ .client) : (trace body (init n) σ (j + 1)).client = (trace body (init n) σ j).client := by
  rw [trace]
  cases hs : step body (trace body (init n) σ j) (σ j) with
  | none => rfl
  | some s' => exact step_client hs ha (fun e => by have := hb j hj; rw [e] at this; cases this)

include hσ hb in
/-- The client gets to wait for the flags. -/
theorem reaches_wait : ∃ j, k ≤ j ∧ waits (trace body (init n) σ j).client = true := by
  obtain ⟨k1, hk1, h1⟩ := drains hσ hb
  have hz : ∀ j, k1 ≤ j → (trace body (init n) σ j).queue = [] ∨ (trace body (init n) σ j).exc.isSome := by
    intro j hj
    obtain ⟨d, rfl⟩ := Nat.exists_eq_add_of_le hj
    induction d with
    | zero => exact h1
    | succ d ih =>
      rcases ih (by omega) with h | h
      · left
        have := trace_queue hb (show k ≤ k1 + d by omega)
        rw [h] at this
        exact List.eq_nil_of_length_eq_zero (by simpa [Nat.add_assoc] using this)
      · right
        rw [← Nat.add_assoc, trace]
        cases hs : step body (trace body (init n) σ (k1 + d)) (σ (k1 + d)) with
        | none => exact h
        | some s' => exact step_exc hs h
  obtain ⟨k2, hk2, h2⟩ : ∃ j, k1 ≤ j ∧ waits (trace body (init n) σ j).client = true := by
    have key : ∀ j, k1 ≤ j → ¬ waits (trace body (init n) σ j).client = true → σ j = .client →
        waits (trace body (init n) σ (j + 1)).client = true ∨ cmeas (trace body (init n) σ (j + 1)) < cmeas (trace body (init n) σ j) := by
      intro j hj hn ha
      have hbj := hb j (by omega)
      have hzj := hz j hj
      rw [trace, ha]
      cases hc : (trace body (init n) σ j).client <;> rw [hc] at hn hbj <;> simp only [waits, inBlock] at hn hbj
      case blockExc =>
        cases hE : (trace body (init n) σ j).exc with
        | some e => left; simp [step, stepClient, hc, hE, waits]
        | none =>
          right
          have hq : (trace body (init n) σ j).queue = [] := by
            rcases hzj with h | h
            · exact h
            · rw [hE] at h; cases h
          simp [step, stepClient, hc, hE, cmeas, hq]
      case blockQueue =>
        by_cases hq : (trace body (init n) σ j).queue = []
        · left; simp [step, stepClient, hc, hq, waits]
        · right; simp [step, stepClient, hc, hq, cmeas]
      all_goals first | contradiction | exact absurd rfl hn
    refine eventually hσ.1 (fun j => cmeas (trace body (init n) σ j)) k1 ?_ key
    intro j hj hn
    by_cases ha : σ j = .client
    · rcases key j hj hn ha with h | h
      · exact Or.inl h
      · exact Or.inr (by omega)
    · right
      have hc := trace_client hb (show k ≤ j by omega) ha
      have hq := trace_queue hb (show k ≤ j by omega)
      have hq' : (trace body (init n) σ j).queue = [] → (trace body (init n) σ (j + 1)).queue = [] := by
        intro h
        rw [h] at hq
        exact List.eq_nil_of_length_eq_zero (by simpa using hq)
      unfold cmeas
      rw [hc]
      cases (trace body (init n) σ j).client <;> simp only <;> try exact le_refl _
      all_goals (by_cases hh : (trace body (init n) σ j).queue = []
                 · rw [if_pos hh, if_pos (hq' hh)]
                 · rw [if_neg hh]; split <;> omega)
  exact ⟨k2, by omega, h2⟩

include hσ hb in
/-- If the client is not out of step with the workers it does not stay in `block()`. -/
theorem leaves (hp : Polls body n σ) : False := by
  obtain ⟨k1, hk1, h1⟩ := reaches_wait hσ hb
  have one : ∀ j, k ≤ j → waits (trace body (init n) σ j).client = true → waits (trace body (init n) σ (j + 1)).client = true ∧
      (trace body (init n) σ (j + 1)).client.togo n ≤ (trace body (init n) σ j).client.togo n := by
    intro j hj hw
    by_cases ha : σ j = .client
    · have hb1 := hb (j + 1) (by omega)
      rw [trace, ha] at hb1 ⊢
      cases hc : (trace body (init n) σ j).client <;> rw [hc] at hw <;> simp only [waits] at hw
      case wait i =>
        simp only [step, stepClient, hc]
        cases hwi : (trace body (init n) σ j).w[i]? with
        | none => simp [waits, Client.togo]
        | some w =>
          by_cases hs : w.sleeping = true
          · simp only [Option.getD_some, if_pos hs]; exact ⟨rfl, by simp only [Client.togo]; omega⟩
          · simp only [Option.getD_some, if_neg hs]; exact ⟨rfl, by simp only [Client.togo]; omega⟩
      case check =>
        exfalso
        simp only [step, stepClient, hc] at hb1
        cases hE : (trace body (init n) σ j).exc <;> rw [hE] at hb1 <;> simp [inBlock] at hb1
      all_goals contradiction
    · rw [trace_client hb hj ha]; exact ⟨hw, le_refl _⟩
  have more : ∀ d j, k ≤ j → waits (trace body (init n) σ j).client = true → waits (trace body (init n) σ (j + d)).client = true ∧
      (trace body (init n) σ (j + d)).client.togo n ≤ (trace body (init n) σ j).client.togo n := by
    intro d
    induction d with
    | zero => intro j _ hw; exact ⟨hw, le_refl _⟩
    | succ d ih =>
      intro j hj hw
      obtain ⟨a1, a2⟩ := ih j hj hw
      obtain ⟨b1, b2⟩ := one (j + d) (by omega) a1
      exact ⟨b1, b2.trans a2⟩
  have key : ∀ m j, k ≤ j → waits (trace body (init n) σ j).client = true → (trace body (init n) σ j).client.togo n = m → False := by
    intro m
    induction m using Nat.strongRecOn with
    | _ m ih =>
      intro j hj hw hm
      -- the next moment at which the client moves and, if it waits for a flag, finds it set
      obtain ⟨i, hi⟩ | hcheck : (∃ i, (trace body (init n) σ j).client = .wait i) ∨ (trace body (init n) σ j).client = .check := by
        cases hc : (trace body (init n) σ j).client <;> rw [hc] at hw <;> simp only [waits] at hw
        case wait i => exact Or.inl ⟨i, rfl⟩
        case check => exact Or.inr rfl
        all_goals contradiction
      · obtain ⟨j', hj', ha, hsl⟩ : ∃ j', j ≤ j' ∧ σ j' = .client ∧ (i < n → Sleeps (trace body (init n) σ j') i) := by
          by_cases hin : i < n
          · obtain ⟨j', h1, h2, h3⟩ := hp i hin (sleeps_often hσ hb hin) j
            exact ⟨j', h1, h2, fun _ => h3⟩
          · obtain ⟨j', h1, h2⟩ := hσ.1 j
            exact ⟨j', h1, h2, fun h => absurd h hin⟩
        obtain ⟨a1, a2⟩ := more (j' - j) j hj hw
        rw [show j + (j' - j) = j' by omega] at a1 a2
        rcases Nat.lt_or_ge ((trace body (init n) σ j').client.togo n) m with hlt | hge
        · exact ih _ hlt j' (by omega) a1 rfl
        · have hb1 := hb (j' + 1) (by omega)
          obtain ⟨b1, b2⟩ := one j' (by omega) a1
          refine ih ((trace body (init n) σ (j' + 1)).client.togo n) ?_ (j' + 1) (by omega) b1 rfl
          rw [hi] at hm a2
          simp only [Client.togo] at hm a2
          rw [trace, ha]
          cases hc : (trace body (init n) σ j').client <;> rw [hc] at a1 a2 hge <;> simp only [waits, Client.togo] at a1 a2 hge
          case wait i' =>
            simp only [step, stepClient, hc]
            cases hwi : (trace body (init n) σ j').w[i']? with
            | none => simp only [Option.getD_some, Client.togo]; omega
            | some w =>
              have hin : i' < n := by
                rw [← (hInv body n σ j').len]
                by_contra hcon
                rw [List.getElem?_eq_none (by omega)] at hwi
                cases hwi
              have : i' = i := by omega
              subst this
              obtain ⟨v, hv, hvs⟩ := hsl hin
              rw [hwi] at hv
              cases hv
              simp only [if_pos hvs, Option.getD_some, Client.togo]
              omega
          case check => omega
          all_goals contradiction
      · obtain ⟨j', hj', ha⟩ := hσ.1 j
        have hst : ∀ d, (∀ e, e < d → σ (j + e) ≠ .client) → (trace body (init n) σ (j + d)).client = .check := by
          intro d
          induction d with
          | zero => intro _; exact hcheck
          | succ d ihd =>
            intro hne
            rw [← Nat.add_assoc, trace_client hb (show k ≤ j + d by omega) (hne d (by omega))]
            exact ihd fun e he => hne e (by omega)
        have hmin : ∃ d, σ (j + d) = .client := ⟨j' - j, by rw [show j + (j' - j) = j' by omega]; exact ha⟩
        classical
        have hd := hst (Nat.find hmin) fun e he => Nat.find_min hmin he
        have hb1 := hb (j + Nat.find hmin + 1) (by omega)
        rw [trace, Nat.find_spec hmin] at hb1
        simp only [step, stepClient, hd] at hb1
        cases hE : (trace body (init n) σ (j + Nat.find hmin)).exc <;> rw [hE] at hb1 <;> simp [inBlock] at hb1
  exact key _ k1 hk1 h1 rfl

end

/-- **C125, `block()`.** In every fair execution in which the client is not for ever out of step with the sleep of a worker, `block()` returns or throws. -/
theorem C125_block_partial (body : Nat → Option E) (n : Nat) (σ : Nat → Action) (hσ : Fair n σ) (hp : Polls body n σ) (k : Nat) (hk : inBlock (trace body (init n) σ k).client = true) :
    ∃ j, k ≤ j ∧ leftBlock (trace body (init n) σ j).client = true := by
  by_contra hcon
  have hb : ∀ j, k ≤ j → inBlock (trace body (init n) σ j).client = true := by
    intro j hj
    obtain ⟨d, rfl⟩ := Nat.exists_eq_add_of_le hj
    induction d with
    | zero => exact hk
    | succ d ih =>
      have ih := ih (by omega)
      have hn : ¬ leftBlock (trace body (init n) σ (k + d + 1)).client = true := fun h => hcon ⟨_, by omega, h⟩
      rw [← Nat.add_assoc]
      rw [trace] at hn ⊢
      cases hs : step body (trace body (init n) σ (k + d)) (σ (k + d)) with
      | none => exact ih
      | some s' => rw [hs] at hn; exact (block_step ih hs).resolve_right hn
  exact leaves hσ hb hp

/-- **C125, `block()` after an exception.** If a task has thrown, fairness alone is enough. -/
theorem C125_block_exception (body : Nat → Option E) (n : Nat) (σ : Nat → Action) (hσ : Fair n σ) (k : Nat) (hk : inBlock (trace body (init n) σ k).client = true)
    (he : ∃ j, (trace body (init n) σ j).exc.isSome) : ∃ j, k ≤ j ∧ leftBlock (trace body (init n) σ j).client = true := by
  obtain ⟨k0, h0⟩ := he
  have hexc : ∀ j, k0 ≤ j → (trace body (init n) σ j).exc.isSome := trace_from (P := fun s => s.exc.isSome = true) (fun s s' a he h => step_exc h he) h0
  refine C125_block_partial body n σ hσ ?_ k hk
  intro i hi _ m
  obtain ⟨j1, hj1, hE⟩ := worker_ends (body := body) PC.toEnd' i hi (hσ.2 i hi) k0 fun j hj w s' hw hs w' hw' => toEnd'_decreases hw (hexc j hj) hs hw'
  obtain ⟨j2, hj2, ha⟩ := hσ.1 (m + j1)
  obtain ⟨w, hw, hwp⟩ := trace_from (P := fun s => Ended s i) (fun s s' a hE h => ended_step hE h) hE j2 (by omega)
  have hok := (hInv body n σ j2).wok i w hw
  unfold WOk at hok
  rw [hwp] at hok
  exact ⟨j2, by omega, ha, w, hw, hok.1⟩

/-! ## Theorems: tasks -/

theorem step_assigned {body : Nat → Option E} {n : Nat} {s s' : State E} {a : Action} (hI : Inv body n s) (h : step body s a = some s') : s.assigned.length ≤ s'.assigned.length := by
  cases a with
  | worker i =>
    have hI' := inv_step body n s s' _ hI h
    have f1 := congrArg List.length hI.fifo
    have f2 := congrArg List.length hI'.fifo
    obtain ⟨_, _, _, _, _, hsub, _⟩ := stepWorker_spec body s s' i h
    rw [List.length_append] at f1 f2
    rw [hsub] at f2
    simp only [step] at h
    cases hw : s.w[i]? with
    | none => simp [stepWorker, hw] at h
    | some w =>
      rcases step_worker (body := body) hw with ⟨_, h1⟩ | ⟨s1, w', h1, _, h2, _⟩
      · simp only [step] at h1; rw [h1] at h; cases h
      · simp only [step] at h1; rw [h1] at h; cases h; omega
  | submit =>
    simp only [step, stepSubmit] at h
    split at h
    · split at h <;> cases h <;> simp
    · cases h
  | block => simp only [step] at h; split at h <;> cases h; exact le_refl _
  | destroy => simp only [step] at h; split at h <;> cases h; exact le_refl _
  | client =>
    simp only [step, stepClient] at h
    cases hc : s.client <;> rw [hc] at h <;> simp only at h
    case idle => cases h
    case destroyed => cases h
    case join => split at h <;> cases h; exact le_refl _
    case wait j => split at h <;> cases h <;> exact le_refl _
    case check => split at h <;> cases h <;> exact le_refl _
    case waitDone j => split at h <;> cases h <;> exact le_refl _
    case clear j => split at h <;> cases h <;> exact le_refl _
    all_goals (cases h; exact le_refl _)

theorem step_submitted {body : Nat → Option E} {s s' : State E} {a : Action} (h : step body s a = some s') : s.submitted.length ≤ s'.submitted.length := by
  cases a with
  | worker i => obtain ⟨_, _, _, _, _, hsub, _⟩ := stepWorker_spec body s s' i h; rw [hsub]
  | submit =>
    simp only [step, stepSubmit] at h
    split at h
    · split at h <;> cases h <;> simp
    · cases h
  | block => simp only [step] at h; split at h <;> cases h; exact le_refl _
  | destroy => simp only [step] at h; split at h <;> cases h; exact le_refl _
  | client =>
    simp only [step, stepClient] at h
    cases hc : s.client <;> rw [hc] at h <;> simp only at h
    case idle => cases h
    case destroyed => cases h
    case join => split at h <;> cases h; exact le_refl _
    case wait j => split at h <;> cases h <;> exact le_refl _
    case check => split at h <;> cases h <;> exact le_refl _
    case waitDone j => split at h <;> cases h <;> exact le_refl _
    case clear j => split at h <;> cases h <;> exact le_refl _
    all_goals (cases h; exact le_refl _)

/-- Without an action `destroy` the client does not get into the destructor. -/
theorem step_alive {body : Nat → Option E} {s s' : State E} {a : Action} (hd : s.client.destroying = false) (ha : a ≠ .destroy) (h : step body s a = some s') : s'.client.destroying = false := by
  cases a with
  | worker i => obtain ⟨_, _, _, _, hc, _⟩ := stepWorker_spec body s s' i h; rw [hc]; exact hd
  | submit =>
    simp only [step, stepSubmit] at h
    split at h
    · split at h <;> cases h <;> exact hd
    · cases h
  | block => simp only [step] at h; split at h <;> cases h; rfl
  | destroy => exact absurd rfl ha
  | client =>
    simp only [step, stepClient] at h
    cases hc : s.client <;> rw [hc] at h hd <;> simp only [Client.destroying] at h hd
    case idle => cases h
    case blockExc => cases h; simp only; split <;> rfl
    case blockQueue => cases h; simp only; split <;> rfl
    case wait j =>
      cases hj : s.w[j]? with
      | none => rw [hj] at h; cases h; rfl
      | some w => rw [hj] at h; cases h; simp only; split <;> rfl
    case check => split at h <;> cases h <;> rfl
    case returned => cases h; rfl
    case threw => cases h; rfl
    all_goals contradiction

/-- **C125, tasks.** If no task throws and the pool is not destroyed, every task that was submitted to a pool with workers is finished some time in every fair execution, however many tasks are submitted after it. -/
theorem C125_tasks (body : Nat → Option E) (hbody : ∀ t, body t = none) (n : Nat) (hn : 0 < n) (σ : Nat → Action) (hσ : Fair n σ) (hd : ∀ j, σ j ≠ .destroy)
    (k t : Nat) (ht : t ∈ (trace body (init n) σ k).submitted) : ∃ j, k ≤ j ∧ t ∈ (trace body (init n) σ j).finished := by
  have hI := hInv body n σ
  have hexc : ∀ j, (trace body (init n) σ j).exc = none := by
    intro j
    cases hE : (trace body (init n) σ j).exc with
    | none => rfl
    | some e => obtain ⟨t, _, h⟩ := (hI j).exc1 e hE; rw [hbody] at h; cases h
  have hnd : ∀ j, (trace body (init n) σ j).client.destroying = false := by
    intro j
    induction j with
    | zero => rfl
    | succ j ih =>
      rw [trace]
      cases hs : step body (trace body (init n) σ j) (σ j) with
      | none => exact ih
      | some s' => exact step_alive ih (hd j) hs
  have hsub : ∀ j, k ≤ j → t < (trace body (init n) σ j).submitted.length := by
    refine trace_from (P := fun s => t < s.submitted.length) (fun s s' a h1 h2 => lt_of_lt_of_le h1 (step_submitted h2)) ?_
    rw [(hI k).ids, List.mem_range] at ht
    exact ht
  -- the task is taken
  obtain ⟨k1, hk1, h1⟩ : ∃ j, k ≤ j ∧ t < (trace body (init n) σ j).assigned.length := by
    have key : ∀ j, k ≤ j → ¬ t < (trace body (init n) σ j).assigned.length → σ j = .worker 0 → t < (trace body (init n) σ (j + 1)).assigned.length ∨
        20 * (t + 1 - (trace body (init n) σ (j + 1)).assigned.length) + of PC.toTake (trace body (init n) σ (j + 1)) 0 <
          20 * (t + 1 - (trace body (init n) σ j).assigned.length) + of PC.toTake (trace body (init n) σ j) 0 := by
      intro j hj hlt ha
      right
      obtain ⟨w, hw⟩ := has_worker (body := body) (σ := σ) hn j
      have hal : (w.run = false → w.pc.isEnded = true) ∧ (w.pc.exiting = true → (trace body (init n) σ j).exc.isSome) := by
        rcases hAlive body n σ j with h | h
        · rw [hnd j] at h; cases h
        · exact h w (List.mem_of_getElem? hw)
      rw [hexc j] at hal
      rcases step_worker (body := body) hw with ⟨h1, _⟩ | ⟨s', w', h1, h2, h3, h4⟩
      · have := hal.2 (by rw [h1]; rfl); cases this
      · have e : trace body (init n) σ (j + 1) = s' := by rw [trace, ha, h1, Option.getD_some]
        have f1 := congrArg List.length (hI j).fifo
        have f2 := congrArg List.length (hI (j + 1)).fifo
        rw [e] at f2
        obtain ⟨_, _, _, _, _, hs', _⟩ := stepWorker_spec body _ s' 0 h1
        rw [List.length_append] at f1 f2
        rw [hs'] at f2
        have hsj := hsub j hj
        have hmono : s'.queue = (trace body (init n) σ j).queue → s'.assigned.length = (trace body (init n) σ j).assigned.length := by
          intro hq; rw [hq] at f2; omega
        rw [e]
        simp only [of, h2, hw]
        rw [hexc j] at h4
        obtain ⟨pc, rn, sl, dn⟩ := w
        cases pc <;> simp only at h4 hal
        case checkRun =>
          have : rn = true := by
            cases rn with
            | true => rfl
            | false => have := hal.1 rfl; cases this
          rw [h4.1, this, hmono h4.2]; simp [PC.toTake]
        case checkExc => rw [h4.1, hmono h4.2]; simp [PC.toTake]
        case lock =>
          rcases h4 with ⟨_, h5, _⟩ | ⟨t, h4, h5⟩
          · rw [h5] at f1; simp only [List.length_nil] at f1; omega
          · rw [h4]; simp only [PC.toTake]; omega
        case got t => rw [h4.1, hmono h4.2]; simp [PC.toTake]
        case running t => rw [hmono h4.2]; rcases h4.1 with h4 | ⟨ex, h4⟩ <;> rw [h4] <;> simp [PC.toTake]
        case caught t ex =>
          have := hexc (j + 1)
          rw [e, h4.2.2] at this
          cases this
        case noTask => rw [h4.1, hmono h4.2]; simp [PC.toTake]
        case asleep => rw [h4.1, hmono h4.2]; simp [PC.toTake]
        case exit1 => have := hal.2 rfl; cases this
        case exit2 => have := hal.2 rfl; cases this
        case exit3 => have := hal.2 rfl; cases this
    refine eventually (hσ.2 0 hn) (fun j => 20 * (t + 1 - (trace body (init n) σ j).assigned.length) + of PC.toTake (trace body (init n) σ j) 0) k ?_ key
    intro j hj hlt
    by_cases ha : σ j = .worker 0
    · rcases key j hj hlt ha with h | h
      · exact Or.inl h
      · exact Or.inr (by omega)
    · right
      obtain ⟨w, hw⟩ := has_worker (body := body) (σ := σ) hn j
      rw [trace]
      cases hs : step body (trace body (init n) σ j) (σ j) with
      | none => exact le_refl _
      | some s' =>
        obtain ⟨w', g1, g2, _⟩ := step_pc hs ha hw
        have := step_assigned (hI j) hs
        simp only [of, Option.getD_some, g1, hw, g2]
        omega
  -- some worker has it
  have hperm : List.Perm (trace body (init n) σ k1).assigned ((trace body (init n) σ k1).finished ++ (trace body (init n) σ k1).w.filterMap fun w => inHand w.pc) := by
    have := (hI k1).cons
    rw [held_sum, Multiset.coe_add, Multiset.coe_eq_coe] at this
    exact this
  have hta : t ∈ (trace body (init n) σ k1).assigned := by
    have f := (hI k1).fifo
    rw [(hI k1).ids] at f
    have hlen := congrArg List.length f
    have hg : ((trace body (init n) σ k1).assigned ++ (trace body (init n) σ k1).queue)[t]? = some t := by
      rw [f, List.getElem?_range]
      rw [List.length_append, List.length_range] at hlen
      omega
    rw [List.getElem?_append_left h1] at hg
    exact List.mem_of_getElem? hg
  rw [hperm.mem_iff, List.mem_append, List.mem_filterMap] at hta
  rcases hta with hfin | ⟨w, hw, hwt⟩
  · exact ⟨k1, hk1, hfin⟩
  obtain ⟨i, hi⟩ := List.getElem?_of_mem hw
  have hin : i < n := by
    rw [← (hI k1).len]
    by_contra hcon
    rw [List.getElem?_eq_none (by omega)] at hi
    cases hi
  -- and finishes it
  have fin_mono : ∀ s s' a, step body s a = some s' → t ∈ s.finished → t ∈ s'.finished := by
    intro s s' a h hf
    cases a with
    | worker i' =>
      simp only [step, stepWorker] at h
      split at h
      · cases h
      · rename_i v _
        obtain ⟨pc, rn, sl, dn⟩ := v
        cases pc <;> simp only at h
        case lock => split at h <;> cases h <;> exact hf
        case running t' => rw [hbody] at h; cases h; exact List.mem_append_left _ hf
        case caught t' e => cases h; exact List.mem_append_left _ hf
        case ended => cases h
        all_goals (cases h; exact hf)
    | submit =>
      simp only [step, stepSubmit] at h
      split at h
      · split at h <;> cases h
        · exact List.mem_append_left _ hf
        · exact hf
      · cases h
    | block => simp only [step] at h; split at h <;> cases h; exact hf
    | destroy => simp only [step] at h; split at h <;> cases h; exact hf
    | client =>
      simp only [step, stepClient] at h
      cases hc : s.client <;> rw [hc] at h <;> simp only at h
      case idle => cases h
      case destroyed => cases h
      case join => split at h <;> cases h; exact hf
      case wait j => split at h <;> cases h <;> exact hf
      case check => split at h <;> cases h <;> exact hf
      case waitDone j => split at h <;> cases h <;> exact hf
      case clear j => split at h <;> cases h <;> exact hf
      all_goals (cases h; exact hf)
  have one : ∀ j v, (trace body (init n) σ j).w[i]? = some v → inHand v.pc = some t → σ j = .worker i →
      t ∈ (trace body (init n) σ (j + 1)).finished ∨ ∃ v', (trace body (init n) σ (j + 1)).w[i]? = some v' ∧ inHand v'.pc = some t ∧ v'.pc.toEnd < v.pc.toEnd := by
    intro j v hv hvt ha
    have hlt : i < (trace body (init n) σ j).w.length := by rw [(hI j).len]; exact hin
    obtain ⟨pc, rn, sl, dn⟩ := v
    rw [trace, ha]
    cases pc <;> simp only [inHand] at hvt <;> try cases hvt
    case got =>
      right
      refine ⟨⟨.running t, rn, sl, dn⟩, ?_, rfl, by simp [PC.toEnd]⟩
      simp only [step, stepWorker, hv, Option.getD_some, List.getElem?_set_self hlt]
    case running => left; simp [step, stepWorker, hv, hbody]
    case caught e =>
      have hok := (hI j).wok i _ hv
      simp only [WOk, hbody] at hok
      cases hok.2.2
  have hold : ∀ d, t ∈ (trace body (init n) σ (k1 + d)).finished ∨ ∃ v, (trace body (init n) σ (k1 + d)).w[i]? = some v ∧ inHand v.pc = some t := by
    intro d
    induction d with
    | zero => exact Or.inr ⟨w, hi, hwt⟩
    | succ d ih =>
      rcases ih with ih | ⟨v, hv, hvt⟩
      · left
        rw [← Nat.add_assoc, trace]
        cases hs : step body (trace body (init n) σ (k1 + d)) (σ (k1 + d)) with
        | none => exact ih
        | some s' => exact fin_mono _ _ _ hs ih
      · by_cases ha : σ (k1 + d) = .worker i
        · rcases one (k1 + d) v hv hvt ha with h | ⟨v', g1, g2, _⟩
          · exact Or.inl h
          · exact Or.inr ⟨v', g1, g2⟩
        · right
          rw [← Nat.add_assoc, trace]
          cases hs : step body (trace body (init n) σ (k1 + d)) (σ (k1 + d)) with
          | none => exact ⟨v, hv, hvt⟩
          | some s' =>
            obtain ⟨v', g1, g2, _⟩ := step_pc hs ha hv
            exact ⟨v', g1, by rw [g2]; exact hvt⟩
  obtain ⟨k2, hk2, h2⟩ : ∃ j, k1 ≤ j ∧ t ∈ (trace body (init n) σ j).finished := by
    refine eventually (hσ.2 i hin) (fun j => of PC.toEnd (trace body (init n) σ j) i) k1 ?_ ?_
    · intro j hj hnf
      obtain ⟨v, hv, hvt⟩ := (show _ ∨ _ by have := hold (j - k1); rwa [show k1 + (j - k1) = j by omega] at this).resolve_left hnf
      by_cases ha : σ j = .worker i
      · rcases one j v hv hvt ha with h | ⟨v', g1, _, g2⟩
        · exact Or.inl h
        · right; simp only [of, g1, hv]; omega
      · right
        rw [trace]
        cases hs : step body (trace body (init n) σ j) (σ j) with
        | none => exact le_refl _
        | some s' =>
          obtain ⟨v', g1, g2, _⟩ := step_pc hs ha hv
          simp only [of, Option.getD_some, g1, hv, g2]
          exact le_refl _
    · intro j hj hnf ha
      obtain ⟨v, hv, hvt⟩ := (show _ ∨ _ by have := hold (j - k1); rwa [show k1 + (j - k1) = j by omega] at this).resolve_left hnf
      rcases one j v hv hvt ha with h | ⟨v', g1, _, g2⟩
      · exact Or.inl h
      · right; simp only [of, g1, hv]; exact g2
  exact ⟨k2, by omega, h2⟩

/-! ## What does not hold -/

/-- `block()` comes to its end in every fair execution. -/
def C125_block_full : Prop := ∀ (body : Nat → Option Unit) (n : Nat) (σ : Nat → Action), Fair n σ → ∀ k, inBlock (trace body (init n) σ k).client = true →
  ∃ j, k ≤ j ∧ leftBlock (trace body (init n) σ j).client = true

/-- The client looks at the flag of the only worker whenever that worker looks at the queue. -/
def unlucky (k : Nat) : Action :=
  if k = 0 then .block else if k < 3 then .client else if (k - 3) % 6 = 5 then .client else .worker 0

theorem trace_add (body : Nat → Option E) (s : State E) (σ : Nat → Action) (a b : Nat) :
    trace body s σ (a + b) = trace body (trace body s σ a) (fun k => σ (a + k)) b := by
  induction b with
  | zero => rfl
  | succ b ih => rw [← Nat.add_assoc, trace, trace, ih]

theorem unlucky_shift (m k : Nat) : unlucky (3 + 6 * m + k) = unlucky (3 + k) := by
  unfold unlucky
  have e1 : ¬ 3 + 6 * m + k = 0 := by omega
  have e2 : ¬ 3 + 6 * m + k < 3 := by omega
  have e3 : ¬ 3 + k = 0 := by omega
  have e4 : ¬ 3 + k < 3 := by omega
  rw [if_neg e1, if_neg e2, if_neg e3, if_neg e4, show (3 + 6 * m + k - 3) % 6 = (3 + k - 3) % 6 by omega]

/-- **C125 (violated).** One worker, nothing submitted: the client can find the flag unset for ever. -/
theorem C125_block_violated : ¬ C125_block_full := by
  intro h
  let body : Nat → Option Unit := fun _ => none
  let S : State Unit := trace body (init 1) unlucky 3
  have hS : ∀ m, trace body (init 1) unlucky (3 + 6 * m) = S := by
    intro m
    induction m with
    | zero => rfl
    | succ m ih =>
      rw [show 3 + 6 * (m + 1) = 3 + 6 * m + 6 by omega, trace_add, ih, show (fun k => unlucky (3 + 6 * m + k)) = fun k => unlucky (3 + k) from funext fun k => unlucky_shift m k]
      decide
  have hall : ∀ j, 3 ≤ j → (trace body (init 1) unlucky j).client = .wait 0 := by
    intro j hj
    obtain ⟨m, r, hr, rfl⟩ : ∃ m r, r < 6 ∧ j = 3 + 6 * m + r := ⟨(j - 3) / 6, (j - 3) % 6, Nat.mod_lt _ (by decide), by omega⟩
    rw [trace_add, hS, show (fun k => unlucky (3 + 6 * m + k)) = fun k => unlucky (3 + k) from funext fun k => unlucky_shift m k]
    have : ∀ r : Fin 6, (trace body S (fun k => unlucky (3 + k)) r).client = .wait 0 := by decide
    exact this ⟨r, hr⟩
  have hf : Fair 1 unlucky := by
    refine ⟨fun k => ⟨3 + 6 * k + 5, by omega, ?_⟩, fun i hi k => ⟨3 + 6 * k + 0, by omega, ?_⟩⟩
    · simp only [unlucky_shift]; decide
    · obtain rfl : i = 0 := by omega
      simp only [unlucky_shift]; decide
  obtain ⟨j, hj, hl⟩ := h body 1 unlucky hf 3 (by rw [hall 3 (le_refl _)]; rfl)
  rw [hall j hj] at hl
  cases hl

/-! ## Examples -/

/-- The client calls `block()`; then it and the only worker move in turn. -/
def inTurn (first : Action) (k : Nat) : Action := if k = 0 then first else if k % 2 = 1 then .client else .worker 0

theorem inTurn_fair (first : Action) : Fair 1 (inTurn first) := by
  refine ⟨fun k => ⟨2 * k + 1, by omega, ?_⟩, fun i hi k => ⟨2 * (k + 1), by omega, ?_⟩⟩
  · show inTurn first _ = _; rw [inTurn, if_neg (by omega), if_pos (by omega)]
  · obtain rfl : i = 0 := by omega
    show inTurn first _ = _; rw [inTurn, if_neg (by omega), if_neg (by omega)]

example : Fair 1 (inTurn .destroy) ∧ inDestructor (trace (fun _ => (none : Option Unit)) (init 1) (inTurn .destroy) 1).client = true := ⟨inTurn_fair _, rfl⟩

/-- For such a schedule the hypotheses of `C125_block_partial` hold. -/
example : Fair 1 (inTurn .block) ∧ Polls (fun _ => (none : Option Unit)) 1 (inTurn .block) ∧
    inBlock (trace (fun _ => (none : Option Unit)) (init 1) (inTurn .block) 1).client = true := by
  refine ⟨inTurn_fair _, ?_, rfl⟩
  intro i hi ho k
  obtain rfl : i = 0 := by omega
  obtain ⟨j, hj, w, hw, hs⟩ := ho (k + 2)
  by_cases ha : inTurn .block j = .client
  · exact ⟨j, by omega, ha, w, hw, hs⟩
  · have hm : ¬ j % 2 = 1 := fun h => ha (by rw [inTurn, if_neg (by omega), if_pos h])
    obtain ⟨j', rfl⟩ : ∃ j', j = j' + 1 := ⟨j - 1, by omega⟩
    have ha' : inTurn .block j' = .client := by rw [inTurn, if_neg (by omega), if_pos (by omega)]
    refine ⟨j', by omega, ha', ?_⟩
    obtain ⟨v, hv⟩ := has_worker (body := fun _ => (none : Option Unit)) (σ := inTurn .block) (show 0 < 1 by omega) j'
    refine ⟨v, hv, ?_⟩
    rw [trace] at hw
    cases hst : step (fun _ => (none : Option Unit)) (trace (fun _ => none) (init 1) (inTurn .block) j') (inTurn .block j') with
    | none => rw [hst, Option.getD_none, hv] at hw; cases hw; exact hs
    | some s' =>
      rw [hst, Option.getD_some] at hw
      obtain ⟨w', h1, _, h2, _⟩ := step_pc hst (i := 0) (by rw [ha']; simp) hv
      rw [hw] at h1
      cases h1
      rw [← h2]; exact hs

example : (0 ∈ (trace (fun _ => (none : Option Unit)) (init 1) (inTurn .submit) 1).submitted) ∧ ∀ j, inTurn .submit j ≠ .destroy :=
  ⟨by decide, fun j => by unfold inTurn; split <;> (try split) <;> simp⟩

/-- `block()` after an exception. -/
def thenBlock (k : Nat) : Action := if k = 0 then .submit else if k = 1 then .block else if k % 2 = 1 then .client else .worker 0

example : inBlock (trace (fun _ => some ()) (init 1) thenBlock 2).client = true ∧ (trace (fun _ => some ()) (init 1) thenBlock 13).exc.isSome := by decide

end Alexandria.ThreadPool
