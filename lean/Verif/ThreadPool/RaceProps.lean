import Verif.ThreadPool.Props
import Mathlib.Data.Nat.Find

/-! # C70 and C71: exactly when there is a race, and how many tasks begin late -/

namespace Alexandria.ThreadPool

open Spec

variable {E : Type}

/-- A worker is about to write `m_exception_ptr` while the client is about to read it, in the loop of `block()` or at its end (`ThreadPool.cpp` 147, 158); nothing
synchronises the two. -/
def Spec.ClientRace (s : State E) : Prop :=
  (∃ (i : Nat) (w : Worker E), s.w[i]? = some w ∧ excAccess w.pc = some true) ∧ (s.client = .blockExc ∨ s.client = .check)

/-- The first worker is at the beginning of its loop and the client outside of the pool. -/
structure Ready (s : State E) (q : List Nat) : Prop where
  queue : s.queue = q
  exc : s.exc = none
  first : ∃ rest, s.w = ⟨.checkRun, true, false, false⟩ :: rest
  client : s.client = .idle

/-- The first worker executes a task that returns. -/
theorem cycle_ok (body : Nat → Option E) (s : State E) (t : Nat) (q : List Nat) (hs : Ready s (t :: q)) (hb : body t = none) :
    ∃ s', run body s (List.replicate 5 (.worker 0)) = some s' ∧ Ready s' q := by
  obtain ⟨h1, h2, ⟨rest, h3⟩, h4⟩ := hs
  obtain ⟨queue, exc, w, client, su, as, be, fi, la⟩ := s
  simp only at h1 h2 h3 h4
  subst h1 h2 h3 h4
  refine ⟨_, by simp [List.replicate, run, step, stepWorker, hb]; rfl, ⟨rfl, rfl, ⟨rest, rfl⟩, rfl⟩⟩

/-- The first worker executes a task that throws. -/
theorem cycle_throw (body : Nat → Option E) (s : State E) (t : Nat) (q : List Nat) (e : E) (hs : Ready s (t :: q)) (hb : body t = some e) :
    ∃ s', run body s (List.replicate 5 (.worker 0) ++ [.block]) = some s' ∧ ClientRace s' := by
  obtain ⟨h1, h2, ⟨rest, h3⟩, h4⟩ := hs
  obtain ⟨queue, exc, w, client, su, as, be, fi, la⟩ := s
  simp only at h1 h2 h3 h4
  subst h1 h2 h3 h4
  refine ⟨_, by simp [List.replicate, run, step, stepWorker, hb]; rfl, ⟨0, ⟨.caught t e, true, false, false⟩, rfl, rfl⟩, Or.inl rfl⟩

theorem run_concat (body : Nat → Option E) : ∀ (as bs : List Action) (s s1 : State E), run body s as = some s1 → run body s (as ++ bs) = run body s1 bs := by
  intro as
  induction as with
  | nil => intro bs s s1 h; rw [run] at h; cases h; rfl
  | cons a as ih =>
    intro bs s s1 h
    rw [run] at h
    rw [List.cons_append, run]
    cases hs : step body s a with
    | none => rw [hs] at h; cases h
    | some s2 => rw [hs] at h; exact ih bs s2 s1 h

/-- Tasks are submitted. -/
theorem submit_many (body : Nat → Option E) (n : Nat) (hn : 0 < n) (k : Nat) :
    ∃ s, run body (init n) (List.replicate k .submit) = some s ∧ Ready s (List.range k) ∧ s.submitted = List.range k ∧ s.w = List.replicate n ⟨.checkRun, true, false, false⟩ ∧
      s.lateStarts = 0 := by
  induction k with
  | zero =>
    refine ⟨init n, rfl, ⟨rfl, rfl, ?_, rfl⟩, rfl, rfl, rfl⟩
    obtain ⟨m, rfl⟩ : ∃ m, n = m + 1 := ⟨n - 1, by omega⟩
    exact ⟨_, List.replicate_succ⟩
  | succ k ih =>
    obtain ⟨s, h, hR, hS, hW, hL⟩ := ih
    have hne : s.w.isEmpty = false := by
      obtain ⟨rest, hr⟩ := hR.first
      rw [hr]; rfl
    refine ⟨{ s with submitted := s.submitted ++ [s.submitted.length], queue := s.queue ++ [s.submitted.length] }, ?_, ⟨?_, hR.exc, hR.first, hR.client⟩, ?_, hW, hL⟩
    · rw [List.replicate_succ', run_concat body _ _ _ s h]
      simp [run, step, stepSubmit, hR.client, hne]
    · simp only [hR.queue, hS, List.length_range, List.range_succ]
    · simp only [hS, List.length_range, List.range_succ]

/-- Tasks that return are executed by the first worker. -/
theorem many_ok (body : Nat → Option E) : ∀ (q : List Nat) (rest : List Nat) (s : State E), Ready s (q ++ rest) → (∀ t ∈ q, body t = none) →
    ∃ as s', run body s as = some s' ∧ Ready s' rest := by
  intro q
  induction q with
  | nil => intro rest s hs _; exact ⟨[], s, rfl, hs⟩
  | cons t q ih =>
    intro rest s hs hb
    obtain ⟨s1, h1, hR⟩ := cycle_ok body s t (q ++ rest) hs (hb t List.mem_cons_self)
    obtain ⟨as, s2, h2, hR2⟩ := ih rest s1 hR fun u hu => hb u (List.mem_cons_of_mem _ hu)
    exact ⟨_ ++ as, s2, by rw [run_concat body _ _ _ s1 h1, h2], hR2⟩

/-- **C70 (exactly).** In a pool with workers there is an execution with a race on `m_exception_ptr`, between two workers or a worker and `block()`, exactly if some task throws. Already
one worker is enough. -/
theorem C70_exact (body : Nat → Option E) (n : Nat) (hn : 0 < n) :
    (∃ as s, run body (init n) as = some s ∧ (Race s ∨ ClientRace s)) ↔ ∃ t, body t ≠ none := by
  classical
  constructor
  · rintro ⟨as, s, h, hr⟩
    have hI := inv_run body n as _ s (inv_init body n) h
    have : ∃ (i : Nat) (w : Worker E), s.w[i]? = some w ∧ excAccess w.pc = some true := by
      rcases hr with ⟨i, _, v, _, _, _, hv, _, hx, _⟩ | ⟨hx, _⟩
      · exact ⟨i, v, hv, hx⟩
      · exact hx
    obtain ⟨i, w, hw, hx⟩ := this
    have hok := hI.wok i w hw
    unfold WOk at hok
    cases hp : w.pc <;> rw [hp] at hx hok <;> simp [excAccess] at hx
    rename_i t e
    exact ⟨t, by rw [hok.2.2]; simp⟩
  · intro hex
    have hmin : ∀ t, t < Nat.find hex → body t = none := fun t ht => by
      have := Nat.find_min hex ht
      simpa using this
    have hbad := Nat.find_spec hex
    generalize Nat.find hex = m at hmin hbad
    obtain ⟨e, he⟩ := Option.ne_none_iff_exists'.mp hbad
    obtain ⟨s0, h0, hR0, _⟩ := submit_many body n hn (m + 1)
    rw [List.range_succ] at hR0
    obtain ⟨as, s1, h1, hR1⟩ := many_ok body (List.range m) [m] s0 hR0 fun t ht => hmin t (List.mem_range.mp ht)
    obtain ⟨s2, h2, hc⟩ := cycle_throw body s1 m [] e hR1 he
    exact ⟨_ ++ (as ++ _), s2, by rw [run_concat body _ _ _ s0 h0, run_concat body _ _ _ s1 h1, h2], Or.inr hc⟩

example : ∃ t, (fun t : Nat => if t = 3 then some () else none) t ≠ none := ⟨3, by decide⟩

/-- A pool without workers has no race: nobody but the caller is there. -/
theorem C70_no_workers (body : Nat → Option E) (as : List Action) (s : State E) (h : run body (init 0) as = some s) : ¬ (Race s ∨ ClientRace s) := by
  have hl := (inv_run body 0 as _ s (inv_init body 0) h).len
  rw [List.length_eq_zero_iff] at hl
  rintro (⟨i, _, v, _, _, _, hv, _⟩ | ⟨⟨i, w, hw, _⟩, _⟩)
  · rw [hl] at hv; simp at hv
  · rw [hl] at hw; simp at hw

/-! ## How many tasks begin late -/

/-- The workers go to the lock one after the other. -/
theorem all_to_lock (body : Nat → Option E) (n : Nat) : ∀ (k : Nat), k ≤ n → ∀ s : State E, s.exc = none → s.w = List.replicate n ⟨.checkRun, true, false, false⟩ →
    ∃ as s', run body s as = some s' ∧ s' = { s with w := List.replicate k ⟨.lock, true, false, false⟩ ++ List.replicate (n - k) ⟨.checkRun, true, false, false⟩ } := by
  intro k
  induction k with
  | zero => intro _ s _ hw; exact ⟨[], s, rfl, by simp [← hw]⟩
  | succ k ih =>
    intro hk s he hw
    obtain ⟨as, s1, h1, e1⟩ := ih (by omega) s he hw
    obtain ⟨m, hm⟩ : ∃ m, n - k = m + 1 := ⟨n - k - 1, by omega⟩
    have hm' : n - (k + 1) = m := by omega
    refine ⟨as ++ [.worker k, .worker k], _, by rw [run_concat body _ _ _ s1 h1, e1, hm]; simp [run, step, stepWorker, List.replicate_succ, he]; rfl, ?_⟩
    rw [hm']
    simp [List.replicate_succ', he]

/-- The workers from `k` on take and begin a task each, after the exception. -/
theorem all_late (body : Nat → Option E) (e : E) : ∀ (m : Nat) (pre : List (Worker E)) (s : State E) (q : List Nat), s.exc = some e →
    s.w = pre ++ List.replicate m ⟨.lock, true, false, false⟩ → s.queue = q → q.length = m → ∃ as s', run body s as = some s' ∧ s'.lateStarts = s.lateStarts + m := by
  intro m
  induction m with
  | zero => intro pre s q _ _ _ _; exact ⟨[], s, rfl, rfl⟩
  | succ m ih =>
    intro pre s q he hw hq hl
    cases q with
    | nil => simp at hl
    | cons t q =>
      obtain ⟨queue, exc, w, client, su, as, be, fi, la⟩ := s
      simp only at he hw hq
      subst he hw hq
      have step2 : run body (⟨t :: q, some e, pre ++ List.replicate (m + 1) ⟨.lock, true, false, false⟩, client, su, as, be, fi, la⟩ : State E)
          [.worker pre.length, .worker pre.length] =
          some ⟨q, some e, (pre ++ [⟨.running t, true, false, false⟩]) ++ List.replicate m ⟨.lock, true, false, false⟩, client, su, as ++ [t], be ++ [t], fi, la + 1⟩ := by
        simp [run, step, stepWorker, List.replicate_succ]
      obtain ⟨bs, s', h1, h2⟩ := ih (pre ++ [⟨.running t, true, false, false⟩])
        ⟨q, some e, (pre ++ [⟨.running t, true, false, false⟩]) ++ List.replicate m ⟨.lock, true, false, false⟩, client, su, as ++ [t], be ++ [t], fi, la + 1⟩ q rfl rfl rfl (by simpa using hl)
      refine ⟨_ ++ bs, s', by rw [run_concat body _ _ _ _ step2]; exact h1, ?_⟩
      rw [h2]
      simp only
      omega

/-- **C71 (exactly how many).** The bound of `C71_bounded_partial` is attained: for every number of workers, if the first task throws, there is an execution in which `n - 1` tasks begin after its
exception has been stored. -/
theorem C71_attained (body : Nat → Option E) (n : Nat) (hn : 0 < n) (h0 : body 0 ≠ none) : ∃ as s, run body (init n) as = some s ∧ s.lateStarts = n - 1 := by
  obtain ⟨e, he⟩ := Option.ne_none_iff_exists'.mp h0
  obtain ⟨s0, h1, hR0, _, hW, hL⟩ := submit_many body n hn n
  obtain ⟨as, s1, h2, e1⟩ := all_to_lock body n n le_rfl s0 hR0.exc hW
  obtain ⟨m, rfl⟩ : ∃ m, n = m + 1 := ⟨n - 1, by omega⟩
  have hq : s1.queue = 0 :: (List.range' 1 m) := by
    rw [e1]
    simp only [hR0.queue]
    rw [List.range_eq_range', List.range'_succ]
  have hw : s1.w = ⟨.lock, true, false, false⟩ :: List.replicate m ⟨.lock, true, false, false⟩ := by
    rw [e1]
    simp [List.replicate_succ]
  have hx : s1.exc = none := by rw [e1]; exact hR0.exc
  have hl : s1.lateStarts = 0 := by rw [e1]; exact hL
  clear e1
  obtain ⟨queue, exc, w, client, su, as', be, fi, la⟩ := s1
  simp only at hq hw hx hl
  subst hq hw hx hl
  have step4 : run body (⟨0 :: List.range' 1 m, none, ⟨.lock, true, false, false⟩ :: List.replicate m ⟨.lock, true, false, false⟩, client, su, as', be, fi, 0⟩ : State E)
      [.worker 0, .worker 0, .worker 0, .worker 0] =
      some ⟨List.range' 1 m, some e, [⟨.checkRun, true, false, false⟩] ++ List.replicate m ⟨.lock, true, false, false⟩, client, su, as' ++ [0], be ++ [0], fi ++ [0], 0⟩ := by
    simp [run, step, stepWorker, he]
  obtain ⟨bs, s', h3, h4⟩ := all_late body e m [⟨.checkRun, true, false, false⟩]
    ⟨List.range' 1 m, some e, [⟨.checkRun, true, false, false⟩] ++ List.replicate m ⟨.lock, true, false, false⟩, client, su, as' ++ [0], be ++ [0], fi ++ [0], 0⟩
    (List.range' 1 m) rfl rfl rfl (by simp)
  refine ⟨_ ++ (as ++ (_ ++ bs)), s', by rw [run_concat body _ _ _ s0 h1, run_concat body _ _ _ _ h2, run_concat body _ _ _ _ step4]; exact h3, ?_⟩
  rw [h4]
  simp

/-! ## In which pools tasks begin in order -/

theorem none_order (body : Nat → Option E) : ∀ (as : List Action) (s s' : State E), s.w = [] → s.begun = s.submitted → run body s as = some s' → s'.begun = s'.submitted := by
  intro as
  induction as with
  | nil => intro s s' _ hb h; rw [run] at h; cases h; exact hb
  | cons a as ih =>
    intro s s' hw hb h
    rw [run] at h
    cases hs : step body s a with
    | none => rw [hs] at h; cases h
    | some s1 =>
      rw [hs] at h
      have key : s1.w = [] ∧ s1.begun = s1.submitted := by
        cases a with
        | worker i => simp [step, stepWorker, hw] at hs
        | submit =>
          simp only [step, stepSubmit] at hs
          cases hc : s.client <;> rw [hc] at hs <;> simp only at hs <;> try cases hs
          rw [if_pos (by rw [hw]; rfl)] at hs
          cases hs
          exact ⟨hw, by simp only [hb]⟩
        | block => simp only [step] at hs; cases hc : s.client <;> rw [hc] at hs <;> simp only at hs <;> cases hs; exact ⟨hw, hb⟩
        | destroy => simp only [step] at hs; cases hc : s.client <;> rw [hc] at hs <;> simp only at hs <;> cases hs; exact ⟨hw, hb⟩
        | client =>
          simp only [step, stepClient] at hs
          cases hc : s.client <;> rw [hc] at hs <;> simp only [hw, List.getElem?_nil] at hs
          case idle => cases hs
          case destroyed => cases hs
          case join => rw [if_pos (by rfl)] at hs; cases hs; exact ⟨rfl, hb⟩
          case check => split at hs <;> cases hs <;> exact ⟨rfl, hb⟩
          all_goals (cases hs; exact ⟨rfl, hb⟩)
      exact ih s1 s' key.1 key.2 h

/-- **C15 (which pools).** Tasks begin in the order of submission in every execution exactly if the pool has at most one worker. -/
theorem C15_order_iff (body : Nat → Option E) (n : Nat) : (∀ (as : List Action) (s : State E), run body (init n) as = some s → s.begun <+: s.submitted) ↔ n ≤ 1 := by
  constructor
  · intro h
    by_contra hn
    obtain ⟨m, rfl⟩ : ∃ m, n = m + 2 := ⟨n - 2, by omega⟩
    have := h [.submit, .submit, .worker 0, .worker 0, .worker 0, .worker 1, .worker 1, .worker 1, .worker 1] _ (by simp [run, step, stepSubmit, stepWorker, init, List.replicate_succ]; rfl)
    simp only at this
    revert this
    decide
  · intro hn as s h
    rcases (show n = 0 ∨ n = 1 by omega) with rfl | rfl
    · rw [none_order body as _ s rfl rfl h]; exact List.prefix_rfl
    · exact C15_single_worker_order body as s h

end Alexandria.ThreadPool
