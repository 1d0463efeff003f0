import Verif.ThreadPool.Lemmas

/-!
# Progress of `block()`: from every reachable state inside `block()` it can still finish
-/

set_option linter.unusedSectionVars false

namespace Alexandria.ThreadPool

variable {E : Type}

def Client.destroying : Client E → Bool
  | .clear _ => true
  | .waitDone _ => true
  | .join => true
  | .destroyed => true
  | _ => false

def PC.exiting : PC E → Bool
  | .exit1 => true
  | .exit2 => true
  | .exit3 => true
  | .ended => true
  | _ => false

def PC.isEnded : PC E → Bool
  | .ended => true
  | _ => false

/-- Outside the destructor a worker stops only because of an exception. -/
def Alive (s : State E) : Prop :=
  s.client.destroying = true ∨
    ∀ w ∈ s.w, (w.run = false → w.pc.isEnded = true) ∧ (w.pc.exiting = true → s.exc.isSome)

theorem mem_set_cases {α : Type} {l : List α} {i : Nat} {y z : α} (h : z ∈ l.set i y) : z = y ∨ z ∈ l := by
  rcases List.mem_or_eq_of_mem_set h with h | h
  · exact Or.inr h
  · exact Or.inl h

theorem alive_worker (body : Nat → Option E) (s s' : State E) (i : Nat) (hA : Alive s)
    (h : stepWorker body s i = some s') : Alive s' := by
  have hcl : s'.client = s.client := by
    obtain ⟨_, _, _, _, hc, _⟩ := stepWorker_spec body s s' i h
    exact hc
  rcases hA with hA | hA
  · exact Or.inl (by rw [hcl]; exact hA)
  · right
    unfold stepWorker at h
    cases hw : s.w[i]? with
    | none => rw [hw] at h; cases h
    | some w =>
      rw [hw] at h
      have hwm := hA w (List.mem_of_getElem? hw)
      obtain ⟨pc, rn, sl, dn⟩ := w
      cases pc <;> simp only at h
      case checkRun =>
        cases h; intro v hv
        rcases mem_set_cases hv with rfl | hv
        · cases rn <;> simp_all [PC.isEnded, PC.exiting]
        · exact hA v hv
      case checkExc =>
        cases h; intro v hv
        rcases mem_set_cases hv with rfl | hv
        · cases hE : s.exc <;> simp_all [PC.isEnded, PC.exiting]
        · exact hA v hv
      case lock =>
        cases hq : s.queue <;> rw [hq] at h <;> cases h <;> intro v hv
        all_goals
          rcases mem_set_cases hv with rfl | hv
          · simp_all [PC.isEnded, PC.exiting]
          · exact hA v hv
      case got t =>
        cases h; intro v hv
        rcases mem_set_cases hv with rfl | hv
        · simp_all [PC.isEnded, PC.exiting]
        · exact hA v hv
      case running t =>
        cases hb : body t <;> rw [hb] at h <;> cases h <;> intro v hv
        all_goals
          rcases mem_set_cases hv with rfl | hv
          · simp_all [PC.isEnded, PC.exiting]
          · exact hA v hv
      case caught t e =>
        cases h; intro v hv
        rcases mem_set_cases hv with rfl | hv
        · simp_all [PC.isEnded, PC.exiting]
        · exact ⟨(hA v hv).1, fun _ => rfl⟩
      case ended => cases h
      all_goals
        cases h; intro v hv
        rcases mem_set_cases hv with rfl | hv
        · simp_all [PC.isEnded, PC.exiting]
        · exact hA v hv

theorem alive_step (body : Nat → Option E) (s s' : State E) (a : Action) (hA : Alive s)
    (h : step body s a = some s') : Alive s' := by
  cases a with
  | worker i => exact alive_worker body s s' i hA h
  | submit =>
    simp only [step, stepSubmit] at h
    cases hC : s.client <;> rw [hC] at h <;> simp only at h <;> try cases h
    rcases hA with hA | hA
    · rw [hC] at hA; cases hA
    · split at h <;> cases h <;> exact Or.inr hA
  | block =>
    simp only [step] at h
    cases hC : s.client <;> rw [hC] at h <;> simp only at h <;> try cases h
    rcases hA with hA | hA
    · rw [hC] at hA; cases hA
    · exact Or.inr hA
  | destroy =>
    simp only [step] at h
    cases hC : s.client <;> rw [hC] at h <;> simp only at h <;> try cases h
    exact Or.inl rfl
  | client =>
    simp only [step, stepClient] at h
    have hA' : s.client.destroying = false → ∀ w ∈ s.w, (w.run = false → w.pc.isEnded = true) ∧
        (w.pc.exiting = true → s.exc.isSome) := by
      intro hd
      rcases hA with hA | hA
      · rw [hd] at hA; cases hA
      · exact hA
    cases hC : s.client <;> rw [hC] at h hA' <;> simp only at h
    case idle => cases h
    case blockExc => cases h; exact Or.inr (hA' rfl)
    case blockQueue => cases h; exact Or.inr (hA' rfl)
    case wait i => split at h <;> cases h <;> exact Or.inr (hA' rfl)
    case check => split at h <;> cases h <;> exact Or.inr (hA' rfl)
    case returned => cases h; exact Or.inr (hA' rfl)
    case threw e => cases h; exact Or.inr (hA' rfl)
    case clear i => split at h <;> cases h <;> exact Or.inl rfl
    case waitDone i =>
      split at h
      · cases h; exact Or.inl rfl
      · cases h; left; simp only; split <;> rfl
    case join => split at h <;> cases h; exact Or.inl rfl
    case destroyed => cases h

theorem alive_run (body : Nat → Option E) (as : List Action) (s s' : State E) (hA : Alive s)
    (h : run body s as = some s') : Alive s' := by
  induction as generalizing s with
  | nil => rw [run] at h; cases h; exact hA
  | cons a as ih =>
    rw [run] at h
    cases hs : step body s a with
    | none => rw [hs] at h; cases h
    | some s1 => rw [hs] at h; exact ih s1 (alive_step body s s1 a hA hs) h

theorem alive_init (n : Nat) : Alive (init n : State E) := by
  right
  intro w hw
  simp only [init, List.mem_replicate] at hw
  rw [hw.2]
  simp [PC.exiting]

theorem run_append (body : Nat → Option E) (as bs : List Action) (s s1 : State E) (h : run body s as = some s1) :
    run body s (as ++ bs) = run body s1 bs := by
  induction as generalizing s with
  | nil => rw [run] at h; cases h; rfl
  | cons a as ih =>
    rw [run] at h
    rw [List.cons_append, run]
    cases hs : step body s a with
    | none => rw [hs] at h; cases h
    | some s2 => rw [hs] at h; exact ih s2 h

/-- Steps a worker can still make before it sleeps or ends. -/
def PC.rank : PC E → Nat
  | .got _ => 14
  | .running _ => 13
  | .caught _ _ => 12
  | .checkRun => 11
  | .checkExc => 10
  | .lock => 9
  | .noTask => 8
  | .exit1 => 7
  | .exit2 => 6
  | .exit3 => 5
  | .asleep => 0
  | .ended => 0

def resting : PC E → Bool
  | .asleep => true
  | .ended => true
  | _ => false

def meas (s : State E) : Nat := 20 * s.queue.length + (s.w.map fun w => w.pc.rank).sum

/-- A worker that is not asleep or ended has a step, which decreases the measure and touches neither the client nor enlarges the
queue. -/
theorem worker_decreases (body : Nat → Option E) (s : State E) (i : Nat) (w : Worker E) (hw : s.w[i]? = some w)
    (hr : resting w.pc = false) :
    ∃ s', stepWorker body s i = some s' ∧ meas s' < meas s ∧ s'.client = s.client ∧ s'.queue.length ≤ s.queue.length := by
  have key : ∀ w' : Worker E, ((s.w.set i w').map fun w => w.pc.rank).sum + w.pc.rank =
      (s.w.map fun w => w.pc.rank).sum + w'.pc.rank := fun w' => sum_set (fun w : Worker E => w.pc.rank) s.w i w w' hw
  unfold stepWorker
  rw [hw]
  obtain ⟨pc, rn, sl, dn⟩ := w
  cases pc <;> simp only <;> simp only [resting] at hr <;> simp only [PC.rank] at key
  case checkRun =>
    refine ⟨_, rfl, ?_, rfl, le_refl _⟩
    have := key ⟨if rn then .checkExc else .exit1, rn, sl, dn⟩
    unfold meas; simp only
    cases rn <;> simp [PC.rank] at this ⊢ <;> omega
  case checkExc =>
    refine ⟨_, rfl, ?_, rfl, le_refl _⟩
    have := key ⟨if s.exc.isNone then .lock else .exit1, rn, sl, dn⟩
    unfold meas; simp only
    cases hE : s.exc <;> simp [hE, PC.rank] at this ⊢ <;> omega
  case lock =>
    cases hq : s.queue with
    | nil =>
      refine ⟨_, rfl, ?_, rfl, by simp⟩
      have := key ⟨.noTask, rn, sl, dn⟩
      unfold meas; simp only [hq]
      simp [PC.rank] at this ⊢; omega
    | cons t q =>
      refine ⟨_, rfl, ?_, rfl, by simp⟩
      have := key ⟨.got t, rn, sl, dn⟩
      unfold meas; simp only [hq, List.length_cons]
      simp [PC.rank] at this ⊢; omega
  case running t =>
    cases hb : body t with
    | none =>
      refine ⟨_, rfl, ?_, rfl, le_refl _⟩
      have := key ⟨.checkRun, rn, sl, dn⟩
      unfold meas; simp [PC.rank] at this ⊢; omega
    | some e =>
      refine ⟨_, rfl, ?_, rfl, le_refl _⟩
      have := key ⟨.caught t e, rn, sl, dn⟩
      unfold meas; simp [PC.rank] at this ⊢; omega
  case got t =>
    refine ⟨_, rfl, ?_, rfl, le_refl _⟩
    have := key ⟨.running t, rn, sl, dn⟩
    unfold meas; simp [PC.rank] at this ⊢; omega
  case caught t e =>
    refine ⟨_, rfl, ?_, rfl, le_refl _⟩
    have := key ⟨.checkRun, rn, sl, dn⟩
    unfold meas; simp [PC.rank] at this ⊢; omega
  case noTask =>
    refine ⟨_, rfl, ?_, rfl, le_refl _⟩
    have := key ⟨.asleep, rn, true, dn⟩
    unfold meas; simp [PC.rank] at this ⊢; omega
  case exit1 =>
    refine ⟨_, rfl, ?_, rfl, le_refl _⟩
    have := key ⟨.exit2, rn, true, dn⟩
    unfold meas; simp [PC.rank] at this ⊢; omega
  case exit2 =>
    refine ⟨_, rfl, ?_, rfl, le_refl _⟩
    have := key ⟨.exit3, rn, sl, true⟩
    unfold meas; simp [PC.rank] at this ⊢; omega
  case exit3 =>
    refine ⟨_, rfl, ?_, rfl, le_refl _⟩
    have := key ⟨.ended, false, sl, dn⟩
    unfold meas; simp [PC.rank] at this ⊢; omega
  case asleep => cases hr
  case ended => cases hr

def AllResting (s : State E) : Prop := ∀ w ∈ s.w, resting w.pc = true

theorem settle (body : Nat → Option E) (s : State E) :
    ∃ as s', run body s as = some s' ∧ AllResting s' ∧ s'.client = s.client ∧ s'.queue.length ≤ s.queue.length := by
  generalize hm : meas s = m
  induction m using Nat.strongRecOn generalizing s with
  | _ m ih =>
    by_cases hr : AllResting s
    · exact ⟨[], s, rfl, hr, rfl, le_refl _⟩
    · simp only [AllResting, not_forall] at hr
      obtain ⟨w, hw, hwr⟩ := hr
      obtain ⟨i, hi, hget⟩ := List.getElem_of_mem hw
      obtain ⟨s1, h1, h2, h3, h4⟩ := worker_decreases body s i w (by rw [List.getElem?_eq_getElem hi, hget])
        (by simpa using hwr)
      obtain ⟨as, s2, g1, g2, g3, g4⟩ := ih (meas s1) (by omega) s1 rfl
      exact ⟨.worker i :: as, s2, by rw [run, show step body s (.worker i) = some s1 from h1]; exact g1, g2, g3.trans h3, by omega⟩

/-- With at least one worker the pool can always work until it is at rest with an empty queue or an exception. -/
theorem drain (body : Nat → Option E) (n : Nat) (hn : 0 < n) (s : State E) (hI : Inv body n s) (hA : Alive s)
    (hd : s.client.destroying = false) :
    ∃ as s', run body s as = some s' ∧ AllResting s' ∧ s'.client = s.client ∧ (s'.queue = [] ∨ s'.exc.isSome) := by
  generalize hm : s.queue.length = m
  induction m using Nat.strongRecOn generalizing s with
  | _ m ih =>
    obtain ⟨as, s1, h1, h2, h3, h4⟩ := settle body s
    have hI1 := inv_run body n as s s1 hI h1
    have hA1 := alive_run body as s s1 hA h1
    by_cases hq : s1.queue = [] ∨ s1.exc.isSome
    · exact ⟨as, s1, h1, h2, h3, hq⟩
    · simp only [not_or] at hq
      obtain ⟨hq1, hq2⟩ := hq
      have hE : s1.exc = none := by simpa using hq2
      -- wake worker 0
      have hlen : 0 < s1.w.length := by rw [hI1.len]; exact hn
      obtain ⟨w, hw⟩ : ∃ w, s1.w[0]? = some w := ⟨s1.w[0], List.getElem?_eq_getElem hlen⟩
      have hwm := List.mem_of_getElem? hw
      have hrest := h2 w hwm
      have hal : (w.run = false → w.pc.isEnded = true) ∧ (w.pc.exiting = true → s1.exc.isSome) := by
        rcases hA1 with hA1 | hA1
        · rw [h3, hd] at hA1; cases hA1
        · exact hA1 w hwm
      obtain ⟨pc, rn, sl, dn⟩ := w
      have hpc : pc = .asleep := by
        cases pc <;> simp [resting] at hrest
        · rfl
        · exact absurd (hal.2 rfl) hq2
      subst hpc
      have hrn : rn = true := by
        cases rn with
        | true => rfl
        | false => have := hal.1 rfl; simp [PC.isEnded] at this
      subst hrn
      obtain ⟨t, q, hq'⟩ : ∃ t q, s1.queue = t :: q := by
        cases hq' : s1.queue with
        | nil => exact absurd hq' hq1
        | cons t q => exact ⟨t, q, rfl⟩
      have hrun : ∃ s2, run body s1 [.worker 0, .worker 0, .worker 0, .worker 0] = some s2 ∧ s2.client = s1.client ∧
          s2.queue = q := by
        simp only [run, step, stepWorker, hw]
        simp only [List.getElem?_set_self hlen, List.set_set, List.length_set, hE, Option.isNone_none, if_true, hq']
        exact ⟨_, rfl, rfl, rfl⟩
      obtain ⟨s2, r1, r2, r3⟩ := hrun
      have hI2 := inv_run body n _ s1 s2 hI1 r1
      have hA2 := alive_run body _ s1 s2 hA1 r1
      have hq2l : s2.queue.length < m := by
        rw [r3, ← hm]
        have : s1.queue.length = q.length + 1 := by rw [hq']; rfl
        omega
      obtain ⟨bs, s3, g1, g2, g3, g4⟩ := ih _ hq2l s2 hI2 hA2 (by rw [r2, h3]; exact hd) rfl
      refine ⟨as ++ ([.worker 0, .worker 0, .worker 0, .worker 0] ++ bs), s3, ?_, g2, ?_, g4⟩
      · rw [run_append body _ _ s s1 h1, run_append body _ _ s1 s2 r1, g1]
      · rw [g3, r2, h3]

/-- The client is inside `block()`. -/
def Client.blocking : Client E → Bool
  | .blockExc => true
  | .blockQueue => true
  | .wait _ => true
  | .check => true
  | _ => false

def Client.blockDone : Client E → Bool
  | .returned => true
  | .threw _ => true
  | _ => false

theorem finish_wait (body : Nat → Option E) (s : State E) (hs : ∀ w ∈ s.w, w.sleeping = true) :
    ∀ (k i : Nat), s.w.length - i = k → s.client = .wait i →
      ∃ as s', run body s as = some s' ∧ s'.client.blockDone = true := by
  intro k
  induction k generalizing s with
  | zero =>
    intro i hk hc
    have hnone : s.w[i]? = none := List.getElem?_eq_none (by omega)
    cases hE : s.exc with
    | none => exact ⟨[.client, .client], { s with client := .returned }, by simp [run, step, stepClient, hc, hnone, hE], rfl⟩
    | some e => exact ⟨[.client, .client], { s with client := .threw e }, by simp [run, step, stepClient, hc, hnone, hE], rfl⟩
  | succ k ih =>
    intro i hk hc
    obtain ⟨w, hw⟩ : ∃ w, s.w[i]? = some w := ⟨s.w[i], List.getElem?_eq_getElem (by omega)⟩
    have hsl := hs w (List.mem_of_getElem? hw)
    obtain ⟨as, s', h1, h2⟩ := ih { s with client := .wait (i + 1) } hs (i + 1) (by simp only; omega) rfl
    refine ⟨.client :: as, s', ?_, h2⟩
    rw [run]
    have : step body s .client = some { s with client := .wait (i + 1) } := by
      simp [step, stepClient, hc, hw, hsl]
    rw [this]
    exact h1

end Alexandria.ThreadPool
