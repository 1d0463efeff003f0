import Verif.ThreadPool.WatchModel
import Verif.ThreadPool.NestedProps

/-! # C163: asking the pool how far it is -/

namespace Alexandria.ThreadPool

open Spec

variable {E : Type}

/-! ## Lemmas -/

/-- The worker after its step. -/
def nextOf (body : Nat → Option E) (s : State E) (w : Worker E) : Worker E :=
  match w.pc with
  | .checkRun => { w with pc := if w.run then .checkExc else .exit1 }
  | .checkExc => { w with pc := if s.exc.isNone then .lock else .exit1 }
  | .lock => match s.queue with
    | [] => { w with pc := .noTask }
    | t :: _ => { w with pc := .got t }
  | .got t => { w with pc := .running t }
  | .running t => match body t with
    | none => { w with pc := .checkRun }
    | some e => { w with pc := .caught t e }
  | .caught _ _ => { w with pc := .checkRun }
  | .noTask => { w with pc := .asleep, sleeping := true }
  | .asleep => { w with pc := .checkRun, sleeping := false }
  | .exit1 => { w with pc := .exit2, sleeping := true }
  | .exit2 => { w with pc := .exit3, done := true }
  | .exit3 => { w with pc := .ended, run := false }
  | .ended => w

theorem worker_next {body : Nat → Option E} {s s' : State E} {i : Nat} (h : stepWorker body s i = some s') :
    ∃ w, s.w[i]? = some w ∧ w.pc ≠ .ended ∧ s'.w = s.w.set i (nextOf body s w) ∧ s'.client = s.client ∧
      (s.queue = [] → s'.queue = []) ∧ (w.pc ≠ .lock → s'.queue = s.queue) ∧ (s'.exc = none → s.exc = none ∧ ∀ t e, w.pc ≠ .caught t e) := by
  unfold stepWorker at h
  cases hw : s.w[i]? with
  | none => rw [hw] at h; cases h
  | some w =>
    rw [hw] at h
    refine ⟨w, rfl, ?_⟩
    obtain ⟨pc, rn, sl, dn⟩ := w
    cases pc <;> simp only at h
    case lock =>
      cases hq : s.queue with
      | nil => rw [hq] at h; cases h; simp [nextOf, hq]
      | cons t q => rw [hq] at h; cases h; simp [nextOf, hq]
    case running t =>
      cases hb : body t with
      | none => rw [hb] at h; cases h; simp [nextOf, hb]
      | some e => rw [hb] at h; cases h; simp [nextOf, hb]
    case ended => cases h
    all_goals (cases h; simp [nextOf])

/-- What a step of the pool does to the workers, the queue and the exception. -/
theorem nstep_effect {body : Nat → Option E} {s s' : State E} {a : NAction} (h : nstep body s a = some s') :
    (∃ i, a = .base (.worker i) ∧ stepWorker body s i = some s') ∨
      (s'.exc = s.exc ∧ (s'.w = s.w ∨ ∃ i w, s.client = .clear i ∧ s.w[i]? = some w ∧ s'.w = s.w.set i { w with run := false }) ∧
        (s'.queue = s.queue ∨ a = .base .submit ∨ ∃ i t w, a = .nested i ∧ s.w[i]? = some w ∧ w.pc = .running t) ∧
        (∀ i, s'.client = .clear i → a = .base .destroy ∨ ∃ j, s.client = .clear j)) := by
  cases a with
  | nested i =>
    right
    simp only [nstep, stepNested] at h
    cases hw : s.w[i]? with
    | none => rw [hw] at h; cases h
    | some w =>
      rw [hw] at h
      obtain ⟨pc, rn, sl, dn⟩ := w
      cases pc <;> simp only at h <;> cases h
      exact ⟨rfl, Or.inl rfl, Or.inr (Or.inr ⟨i, _, _, rfl, hw, rfl⟩), fun i hi => Or.inr ⟨i, hi⟩⟩
  | base a =>
    simp only [nstep] at h
    cases a with
    | worker i => exact Or.inl ⟨i, rfl, h⟩
    | submit =>
      right
      simp only [step, stepSubmit] at h
      cases hc : s.client <;> rw [hc] at h <;> simp only at h <;> try cases h
      by_cases he : s.w.isEmpty = true
      · rw [if_pos he] at h; cases h
        exact ⟨rfl, Or.inl rfl, Or.inl rfl, fun i hi => Or.inr ⟨i, by simpa [hc] using hi⟩⟩
      · rw [if_neg he] at h; cases h
        exact ⟨rfl, Or.inl rfl, Or.inr (Or.inl rfl), fun i hi => Or.inr ⟨i, by simpa [hc] using hi⟩⟩
    | block =>
      right
      simp only [step] at h
      cases hc : s.client <;> rw [hc] at h <;> simp only at h <;> cases h
      exact ⟨rfl, Or.inl rfl, Or.inl rfl, fun i hi => by simp at hi⟩
    | destroy =>
      right
      simp only [step] at h
      cases hc : s.client <;> rw [hc] at h <;> simp only at h <;> cases h
      exact ⟨rfl, Or.inl rfl, Or.inl rfl, fun i _ => Or.inl rfl⟩
    | client =>
      right
      simp only [step, stepClient] at h
      cases hc : s.client <;> rw [hc] at h <;> simp only at h
      case clear j =>
        cases hw : s.w[j]? with
        | none => rw [hw] at h; cases h; exact ⟨rfl, Or.inl rfl, Or.inl rfl, fun i hi => by simp at hi⟩
        | some w => rw [hw] at h; cases h; exact ⟨rfl, Or.inr ⟨j, w, rfl, hw, rfl⟩, Or.inl rfl, fun i _ => Or.inr ⟨j, rfl⟩⟩
      case idle => cases h
      case destroyed => cases h
      case join => split at h <;> cases h; exact ⟨rfl, Or.inl rfl, Or.inl rfl, fun i hi => by simp at hi⟩
      case check => split at h <;> cases h <;> exact ⟨rfl, Or.inl rfl, Or.inl rfl, fun i hi => by simp at hi⟩
      case wait j =>
        split at h <;> cases h
        · exact ⟨rfl, Or.inl rfl, Or.inl rfl, fun i hi => by simp at hi⟩
        · refine ⟨rfl, Or.inl rfl, Or.inl rfl, fun i hi => ?_⟩
          simp only at hi
          split at hi <;> cases hi
      case waitDone j =>
        split at h <;> cases h
        · exact ⟨rfl, Or.inl rfl, Or.inl rfl, fun i hi => by simp at hi⟩
        · refine ⟨rfl, Or.inl rfl, Or.inl rfl, fun i hi => ?_⟩
          simp only at hi
          split at hi <;> cases hi
      case blockExc =>
        cases h
        refine ⟨rfl, Or.inl rfl, Or.inl rfl, fun i hi => ?_⟩
        simp only at hi
        split at hi <;> cases hi
      case blockQueue =>
        cases h
        refine ⟨rfl, Or.inl rfl, Or.inl rfl, fun i hi => ?_⟩
        simp only at hi
        split at hi <;> cases hi
      all_goals (cases h; exact ⟨rfl, Or.inl rfl, Or.inl rfl, fun i hi => by simp at hi⟩)

/-- The steps of the asking thread leave the pool as it is. -/
theorem wstep_cases {body : Nat → Option E} {x y : Watch E} {a : WAction} (h : wstep body x a = some y) :
    (∃ b, a = .pool b ∧ (x.obs.locked && needsLock x.s b) = false ∧ nstep body x.s b = some y.s ∧ y.obs = x.obs) ∨
      (y.s = x.s ∧ ((∃ r, y.obs = .answered r) ∨ (a = .running ∧ y.obs = .running []) ∨ (a = .active ∧ y.obs = .active []) ∨
        (a = .read ∧ ∃ r w, x.s.w[r.length]? = some w ∧
          (x.obs = .running r ∧ y.obs = .running (r ++ [w.sleeping]) ∨ x.obs = .active r ∧ y.obs = .active (r ++ [w.done]))))) := by
  cases a with
  | pool b =>
    left
    simp only [wstep] at h
    by_cases hl : (x.obs.locked && needsLock x.s b) = true
    · rw [if_pos hl] at h; cases h
    · rw [if_neg hl] at h
      cases hn : nstep body x.s b with
      | none => rw [hn] at h; cases h
      | some s => rw [hn] at h; cases h; exact ⟨b, rfl, by simpa using hl, hn, rfl⟩
  | queued => simp only [wstep] at h; split at h <;> cases h; exact Or.inr ⟨rfl, Or.inl ⟨_, rfl⟩⟩
  | exception => simp only [wstep] at h; split at h <;> cases h; exact Or.inr ⟨rfl, Or.inl ⟨_, rfl⟩⟩
  | running => simp only [wstep] at h; split at h <;> cases h; exact Or.inr ⟨rfl, Or.inr (Or.inl ⟨rfl, rfl⟩)⟩
  | active => simp only [wstep] at h; split at h <;> cases h; exact Or.inr ⟨rfl, Or.inr (Or.inr (Or.inl ⟨rfl, rfl⟩))⟩
  | read =>
    right
    simp only [wstep] at h
    cases ho : x.obs with
    | free => rw [ho] at h; cases h
    | answered r => rw [ho] at h; cases h
    | running r =>
      rw [ho] at h
      simp only at h
      cases hw : x.s.w[r.length]? with
      | none => rw [hw] at h; cases h; exact ⟨rfl, Or.inl ⟨_, rfl⟩⟩
      | some w => rw [hw] at h; cases h; exact ⟨rfl, Or.inr (Or.inr (Or.inr ⟨rfl, r, w, hw, Or.inl ⟨rfl, rfl⟩⟩))⟩
    | active r =>
      rw [ho] at h
      simp only at h
      cases hw : x.s.w[r.length]? with
      | none => rw [hw] at h; cases h; exact ⟨rfl, Or.inl ⟨_, rfl⟩⟩
      | some w => rw [hw] at h; cases h; exact ⟨rfl, Or.inr (Or.inr (Or.inr ⟨rfl, r, w, hw, Or.inr ⟨rfl, rfl⟩⟩))⟩

theorem wrun_induction {body : Nat → Option E} (P : Watch E → Prop) (ok : WAction → Prop) (hstep : ∀ x y a, ok a → P x → wstep body x a = some y → P y) :
    ∀ (as : List WAction) (x y : Watch E), (∀ a ∈ as, ok a) → P x → wrun body x as = some y → P y := by
  intro as
  induction as with
  | nil => intro x y _ hx h; rw [wrun] at h; cases h; exact hx
  | cons a as ih =>
    intro x y hok hx h
    rw [wrun] at h
    cases hs : wstep body x a with
    | none => rw [hs] at h; cases h
    | some z =>
      rw [hs] at h
      exact ih z y (fun b hb => hok b (List.mem_cons_of_mem _ hb)) (hstep x z a (hok a List.mem_cons_self) hx hs) h

theorem wninv_step {body : Nat → Option E} {n : Nat} (x y : Watch E) (a : WAction) (hx : NInv body n x.s) (h : wstep body x a = some y) : NInv body n y.s := by
  rcases wstep_cases h with ⟨b, _, _, hn, _⟩ | ⟨hs, _⟩
  · exact ninv_step hx b hn
  · rw [hs]; exact hx

theorem wninv {body : Nat → Option E} {n : Nat} (as : List WAction) (x y : Watch E) (hx : NInv body n x.s) (h : wrun body x as = some y) : NInv body n y.s :=
  wrun_induction (fun x => NInv body n x.s) (fun _ => True) (fun x y a _ => wninv_step x y a) as x y (fun _ _ => trivial) hx h

theorem ninv_start (body : Nat → Option E) (n : Nat) : NInv body n (init n) := inv_client (inv_init body n) .idle trivial

theorem set_cases {α : Type} {l : List α} {i j : Nat} {y z : α} (h : (l.set i y)[j]? = some z) : (i = j ∧ z = y) ∨ (i ≠ j ∧ l[j]? = some z) := by
  rw [List.getElem?_set] at h
  by_cases e : i = j
  · rw [if_pos e] at h
    split at h
    · cases h; exact Or.inl ⟨e, rfl⟩
    · cases h
  · rw [if_neg e] at h
    exact Or.inr ⟨e, h⟩

/-- A worker that has no task gets none while somebody holds the lock. -/
theorem next_idle (body : Nat → Option E) (s : State E) (w : Worker E) (hl : w.pc ≠ .lock) (h : inHand w.pc = none) : inHand (nextOf body s w).pc = none := by
  obtain ⟨pc, rn, sl, dn⟩ := w
  cases pc <;> simp [inHand] at h <;> simp only [nextOf]
  case lock => exact absurd rfl hl
  case checkRun => by_cases e : rn = true <;> simp [e, inHand]
  case checkExc => by_cases e : s.exc.isNone = true <;> simp [e, inHand]
  all_goals rfl

theorem needs_lock {s : State E} {i : Nat} {w : Worker E} (hw : s.w[i]? = some w) (h : needsLock s (.base (.worker i)) = false) : w.pc ≠ .lock := by
  intro hc
  simp only [needsLock, hw, hc] at h
  cases h

/-- What is known of the flags that `running()` has read. -/
structure Seen (x : Watch E) : Prop where
  short : ∀ r, x.obs = .running r ∨ x.obs = .active r → r.length ≤ x.s.w.length
  idle : ∀ r, x.obs = .running r → ∀ (j : Nat) (w : Worker E), r[j]? = some true → x.s.w[j]? = some w → inHand w.pc = none

theorem nstep_length {body : Nat → Option E} {s s' : State E} {a : NAction} (h : nstep body s a = some s') : s'.w.length = s.w.length := by
  rcases nstep_effect h with ⟨i, _, h⟩ | ⟨_, hw | ⟨i, w, _, _, hw⟩, _⟩
  · obtain ⟨w, _, _, hw, _⟩ := worker_next h
    rw [hw, List.length_set]
  · rw [hw]
  · rw [hw, List.length_set]

theorem getElem_snoc {α : Type} {l : List α} {a b : α} {j : Nat} (h : (l ++ [a])[j]? = some b) : l[j]? = some b ∨ (j = l.length ∧ b = a) := by
  rw [List.getElem?_append] at h
  by_cases e : j < l.length
  · rw [if_pos e] at h; exact Or.inl h
  · rw [if_neg e] at h
    have : j - l.length = 0 := by
      by_contra hc
      rw [List.getElem?_eq_none (by simp; omega)] at h
      cases h
    rw [this] at h
    simp at h
    exact Or.inr ⟨by omega, h.symm⟩

theorem seen_step {body : Nat → Option E} {n : Nat} (x y : Watch E) (a : WAction) (hI : NInv body n x.s) (hx : Seen x) (h : wstep body x a = some y) : Seen y := by
  rcases wstep_cases h with ⟨b, _, hl, hn, ho⟩ | ⟨hs, ho⟩
  · refine ⟨fun r hr => by rw [ho] at hr; rw [nstep_length hn]; exact hx.short r hr, fun r hr j w hj hw => ?_⟩
    rw [ho] at hr
    have hold := hx.idle r hr
    rw [hr] at hl
    simp only [Obs.locked, Bool.true_and] at hl
    rcases nstep_effect hn with ⟨i, rfl, hst⟩ | ⟨_, hw' | ⟨i, v, _, hv, hw'⟩, _⟩
    · obtain ⟨v, hv, _, hset, _⟩ := worker_next hst
      rw [hset] at hw
      rcases set_cases hw with ⟨rfl, rfl⟩ | ⟨_, hw⟩
      · exact next_idle body _ _ (needs_lock hv hl) (hold i v hj hv)
      · exact hold j w hj hw
    · rw [hw'] at hw; exact hold j w hj hw
    · rw [hw'] at hw
      rcases set_cases hw with ⟨rfl, rfl⟩ | ⟨_, hw⟩
      · exact hold i v hj hv
      · exact hold j w hj hw
  · rcases ho with ⟨r, ho⟩ | ⟨_, ho⟩ | ⟨_, ho⟩ | ⟨_, r, w, hw, ⟨hxo, ho⟩ | ⟨hxo, ho⟩⟩
    · exact ⟨fun r hr => by rw [ho] at hr; simp at hr, fun r hr => by rw [ho] at hr; cases hr⟩
    · refine ⟨fun r hr => ?_, fun r hr j w hj => ?_⟩
      · rw [ho] at hr
        rcases hr with hr | hr <;> cases hr
        exact Nat.zero_le _
      · rw [ho] at hr; cases hr; simp at hj
    · refine ⟨fun r hr => ?_, fun r hr => by rw [ho] at hr; cases hr⟩
      rw [ho] at hr
      rcases hr with hr | hr <;> cases hr
      exact Nat.zero_le _
    · have hlt : r.length < x.s.w.length := by
        by_contra hc
        rw [List.getElem?_eq_none (by omega)] at hw
        cases hw
      refine ⟨fun r' hr => ?_, fun r' hr j v hj hv => ?_⟩
      · rw [ho] at hr
        rcases hr with hr | hr <;> cases hr
        rw [List.length_append, hs]; exact hlt
      · rw [ho] at hr
        cases hr
        rw [hs] at hv
        rcases getElem_snoc hj with hj | ⟨rfl, hb⟩
        · exact hx.idle r hxo j v hj hv
        · rw [hw] at hv
          cases hv
          have := hI.wok r.length w hw
          obtain ⟨pc, rn, sl, dn⟩ := w
          cases pc <;> simp only [WOk] at this <;> simp [inHand] <;> (simp only at hb; rw [this.1] at hb; cases hb)
    · have hlt : r.length < x.s.w.length := by
        by_contra hc
        rw [List.getElem?_eq_none (by omega)] at hw
        cases hw
      refine ⟨fun r' hr => ?_, fun r' hr => by rw [ho] at hr; cases hr⟩
      rw [ho] at hr
      rcases hr with hr | hr <;> cases hr
      rw [List.length_append, hs]; exact hlt

theorem seen {body : Nat → Option E} {n : Nat} (as : List WAction) (x : Watch E) (h : wrun body ⟨init n, .free⟩ as = some x) : NInv body n x.s ∧ Seen x :=
  wrun_induction (fun x => NInv body n x.s ∧ Seen x) (fun _ => True) (fun x y a _ hx hs => ⟨wninv_step x y a hx.1 hs, seen_step x y a hx.1 hx.2 hs⟩) as _ x
    (fun _ _ => trivial) ⟨ninv_start body n, ⟨fun r hr => by simp at hr, fun r hr => by cases hr⟩⟩ h

/-- The step in which `running()` returns. -/
theorem read_running {body : Nat → Option E} {x y : Watch E} {v : Nat} (h : wstep body x .read = some y) (hv : y.obs = .answered (.running v)) :
    ∃ r, x.obs = .running r ∧ x.s.w.length ≤ r.length ∧ y.s = x.s ∧ v = x.s.w.length - r.count true := by
  simp only [wstep] at h
  cases ho : x.obs with
  | free => rw [ho] at h; cases h
  | answered r => rw [ho] at h; cases h
  | running r =>
    rw [ho] at h
    simp only at h
    cases hw : x.s.w[r.length]? with
    | none =>
      rw [hw] at h; cases h
      simp only [Obs.answered.injEq, Reply.running.injEq] at hv
      exact ⟨r, rfl, List.getElem?_eq_none_iff.mp hw, rfl, hv.symm⟩
    | some w => rw [hw] at h; cases h; cases hv
  | active r =>
    rw [ho] at h
    simp only at h
    cases hw : x.s.w[r.length]? with
    | none => rw [hw] at h; cases h; simp at hv
    | some w => rw [hw] at h; cases h; cases hv

theorem read_active {body : Nat → Option E} {x y : Watch E} {v : Nat} (h : wstep body x .read = some y) (hv : y.obs = .answered (.active v)) :
    ∃ r, x.obs = .active r ∧ x.s.w.length ≤ r.length ∧ y.s = x.s ∧ v = x.s.w.length - r.count true := by
  simp only [wstep] at h
  cases ho : x.obs with
  | free => rw [ho] at h; cases h
  | answered r => rw [ho] at h; cases h
  | active r =>
    rw [ho] at h
    simp only at h
    cases hw : x.s.w[r.length]? with
    | none =>
      rw [hw] at h; cases h
      simp only [Obs.answered.injEq, Reply.active.injEq] at hv
      exact ⟨r, rfl, List.getElem?_eq_none_iff.mp hw, rfl, hv.symm⟩
    | some w => rw [hw] at h; cases h; cases hv
  | running r =>
    rw [ho] at h
    simp only at h
    cases hw : x.s.w[r.length]? with
    | none => rw [hw] at h; cases h; simp at hv
    | some w => rw [hw] at h; cases h; cases hv

/-- Flags against workers, one by one. -/
theorem count_le {α : Type} (p : α → Bool) : ∀ (r : List Bool) (l : List α), r.length = l.length → (∀ (j : Nat) (w : α), r[j]? = some true → l[j]? = some w → p w = true) →
    r.count true ≤ (l.filter p).length := by
  intro r
  induction r with
  | nil => intro l _ _; simp
  | cons b r ih =>
    intro l hl h
    cases l with
    | nil => simp at hl
    | cons a l =>
      have := ih l (by simpa using hl) fun j w hj hw => h (j + 1) w (by simpa using hj) (by simpa using hw)
      cases b with
      | false =>
        rw [List.count_cons_of_ne (by decide)]
        by_cases hp : p a = true
        · rw [List.filter_cons_of_pos hp, List.length_cons]; omega
        · rw [List.filter_cons_of_neg hp]; exact this
      | true =>
        have hp := h 0 a rfl rfl
        rw [List.count_cons_self, List.filter_cons_of_pos hp, List.length_cons]
        omega

theorem le_count {α : Type} (p : α → Bool) : ∀ (r : List Bool) (l : List α), r.length = l.length → (∀ (j : Nat) (w : α), r[j]? = some false → l[j]? = some w → p w = false) →
    (l.filter p).length ≤ r.count true := by
  intro r
  induction r with
  | nil => intro l hl _; cases l with
    | nil => simp
    | cons a l => simp at hl
  | cons b r ih =>
    intro l hl h
    cases l with
    | nil => simp at hl
    | cons a l =>
      have := ih l (by simpa using hl) fun j w hj hw => h (j + 1) w (by simpa using hj) (by simpa using hw)
      cases b with
      | true =>
        rw [List.count_cons_self]
        by_cases hp : p a = true
        · rw [List.filter_cons_of_pos hp, List.length_cons]; omega
        · rw [List.filter_cons_of_neg hp]; omega
      | false =>
        have hp := h 0 a rfl rfl
        rw [List.count_cons_of_ne (by decide), List.filter_cons_of_neg (by simp [hp])]
        exact this

/-! ## Theorems -/

/-- **C163 (`running()`).** In every execution, also while the workers go on and tasks submit tasks: what `running()` returns is at least the number of workers that have a task
at that moment, and at most the number of workers. -/
theorem C163_running (body : Nat → Option E) (n : Nat) (as : List WAction) (x y : Watch E) (v : Nat) (h : wrun body ⟨init n, .free⟩ as = some x)
    (hr : wstep body x .read = some y) (hv : y.obs = .answered (.running v)) : (y.s.w.filter fun w => (inHand w.pc).isSome).length ≤ v ∧ v ≤ n := by
  obtain ⟨hI, hS⟩ := seen as x h
  obtain ⟨r, ho, hle, hs, rfl⟩ := read_running hr hv
  have hlen : r.length = x.s.w.length := le_antisymm (hS.short r (Or.inl ho)) hle
  have h1 := count_le (fun w : Worker E => !(inHand w.pc).isSome) r x.s.w hlen fun j w hj hw => by rw [hS.idle r ho j w hj hw]; rfl
  have h2 := List.length_eq_length_filter_add (l := x.s.w) (fun w => (inHand w.pc).isSome)
  have hn := hI.len
  simp only at hn
  rw [hs]
  omega

/-- The asking thread calls no function. -/
def Spec.quiet : WAction → Prop
  | .pool _ => True
  | .read => True
  | _ => False

/-- **C163 (`activeThreads()`).** What it returns lies between the number of threads that are active when it returns and the number of those that were when it was called. -/
theorem C163_active (body : Nat → Option E) (n : Nat) (as bs : List WAction) (x y z u : Watch E) (v : Nat) (h : wrun body ⟨init n, .free⟩ as = some x)
    (hc : wstep body x .active = some y) (hb : ∀ b ∈ bs, Spec.quiet b) (hz : wrun body y bs = some z) (hr : wstep body z .read = some u)
    (hv : u.obs = .answered (.active v)) : u.s.activeThreads ≤ v ∧ v ≤ x.s.activeThreads := by
  -- what is known of the flags that have been read
  have hP := wrun_induction (body := body)
    (fun y => Seen y ∧ NInv body n y.s ∧ y.s.w.length = x.s.w.length ∧ (∀ (j : Nat) (w : Worker E), y.s.w[j]? = some w → w.done = false → ∀ w0 : Worker E, x.s.w[j]? = some w0 → w0.done = false) ∧
      ∀ r, y.obs = .active r → (∀ (j : Nat) (w : Worker E), r[j]? = some true → y.s.w[j]? = some w → w.done = true) ∧ ∀ (j : Nat) (w : Worker E), r[j]? = some false → x.s.w[j]? = some w → w.done = false)
    Spec.quiet ?_ bs y z hb ?_ hz
  · obtain ⟨hS, _, hl, _, hread⟩ := hP
    obtain ⟨r, ho, hle, hs, rfl⟩ := read_active hr hv
    have hlen : r.length = z.s.w.length := le_antisymm (hS.short r (Or.inr ho)) hle
    obtain ⟨h1, h2⟩ := hread r ho
    have c1 := count_le (fun w : Worker E => w.done) r z.s.w hlen h1
    have c2 := le_count (fun w : Worker E => w.done) r x.s.w (hlen.trans hl) h2
    unfold State.activeThreads
    rw [hs]
    exact ⟨by omega, by omega⟩
  · rintro p q a ha ⟨hS, hI, hl, hd, hread⟩ hst
    refine ⟨seen_step p q a hI hS hst, wninv_step p q a hI hst, ?_⟩
    rcases wstep_cases hst with ⟨b, _, _, hn, ho⟩ | ⟨hs, ho⟩
    · have mono : ∀ (j : Nat) (w' : Worker E), q.s.w[j]? = some w' → ∃ w : Worker E, p.s.w[j]? = some w ∧ (w.done = true → w'.done = true) := by
        intro j w' hw'
        rcases nstep_effect hn with ⟨i, _, h⟩ | ⟨_, hw | ⟨i, w, _, hwi, hw⟩, _⟩
        · obtain ⟨w, hwi, _, hset, _⟩ := worker_next h
          rw [hset] at hw'
          rcases set_cases hw' with ⟨rfl, rfl⟩ | ⟨_, hw'⟩
          · refine ⟨w, hwi, fun hdone => ?_⟩
            obtain ⟨pc, rn, sl, dn⟩ := w
            simp only at hdone
            subst hdone
            cases pc <;> simp only [nextOf] <;> split <;> rfl
          · exact ⟨w', hw', id⟩
        · rw [hw] at hw'; exact ⟨w', hw', id⟩
        · rw [hw] at hw'
          rcases set_cases hw' with ⟨rfl, rfl⟩ | ⟨_, hw'⟩
          · exact ⟨w, hwi, id⟩
          · exact ⟨w', hw', id⟩
      refine ⟨by rw [nstep_length hn]; exact hl, fun j w hw hdn w0 hw0 => ?_, fun r hr => ?_⟩
      · obtain ⟨w1, hw1, hm⟩ := mono j w hw
        refine hd j w1 hw1 ?_ w0 hw0
        cases he : w1.done with
        | false => rfl
        | true => rw [hm he] at hdn; cases hdn
      · rw [ho] at hr
        obtain ⟨h1, h2⟩ := hread r hr
        refine ⟨fun j w hj hw => ?_, h2⟩
        obtain ⟨w1, hw1, hm⟩ := mono j w hw
        exact hm (h1 j w1 hj hw1)
    · rw [hs]
      refine ⟨hl, hd, fun r hr => ?_⟩
      rcases ho with ⟨r', ho⟩ | ⟨_, ho⟩ | ⟨rfl, _⟩ | ⟨_, r', w, hw, ⟨_, ho⟩ | ⟨hpo, ho⟩⟩
      · rw [ho] at hr; cases hr
      · rw [ho] at hr; cases hr
      · exact ha.elim
      · rw [ho] at hr; cases hr
      · rw [ho] at hr
        cases hr
        obtain ⟨h1, h2⟩ := hread r' hpo
        refine ⟨fun j v hj hv => ?_, fun j v hj hv => ?_⟩
        · rcases getElem_snoc hj with hj | ⟨rfl, hb⟩
          · exact h1 j v hj hv
          · rw [hw] at hv; cases hv; exact hb.symm
        · rcases getElem_snoc hj with hj | ⟨rfl, hb⟩
          · exact h2 j v hj hv
          · exact hd r'.length w hw hb.symm v hv
  · obtain ⟨hI, hS⟩ := seen as x h
    have hS' := seen_step x y .active hI hS hc
    have hI' := wninv_step x y .active hI hc
    rcases wstep_cases hc with ⟨b, hb, _⟩ | ⟨hs, ho⟩
    · cases hb
    · refine ⟨hS', hI', by rw [hs], fun j w hw hdn w0 hw0 => ?_, fun r hr => ?_⟩
      · rw [hs, hw0] at hw; cases hw; exact hdn
      · rcases ho with ⟨r', ho⟩ | ⟨hc, _⟩ | ⟨_, ho⟩ | ⟨hc, _⟩
        · rw [ho] at hr; cases hr
        · cases hc
        · rw [ho] at hr; cases hr
          exact ⟨fun j w hj => by simp at hj, fun j w hj => by simp at hj⟩
        · cases hc

/-- **C163 (`checkForException()`).** It says true exactly if a task has thrown, once the exception has been stored. -/
theorem C163_exception (body : Nat → Option E) (n : Nat) (hn : 0 < n) (as : List WAction) (x y : Watch E) (b : Bool) (h : wrun body ⟨init n, .free⟩ as = some x)
    (hc : wstep body x .exception = some y) (hb : y.obs = .answered (.exception b)) : b = true ↔ ∃ t ∈ x.s.finished, body t ≠ none := by
  obtain ⟨hI, _⟩ := seen as x h
  simp only [wstep] at hc
  split at hc <;> cases hc
  simp only [Obs.answered.injEq, Reply.exception.injEq] at hb
  subst hb
  have h1 := hI.exc1
  have h2 := hI.exc2 hn
  simp only at h1 h2
  cases he : x.s.exc with
  | none =>
    simp only [Option.isSome_none, Bool.false_eq_true, false_iff]
    rintro ⟨t, ht, hb⟩
    exact hb (h2 he t ht)
  | some e =>
    simp only [Option.isSome_some, true_iff]
    obtain ⟨t, ht, hb⟩ := h1 e he
    exact ⟨t, ht, by rw [hb]; simp⟩

/-- The worker looks at the queue before it sleeps or ends. -/
def alert : PC E → Bool
  | .checkRun => true
  | .checkExc => true
  | .lock => true
  | .got _ => true
  | .running _ => true
  | .caught _ _ => true
  | _ => false

/-- The worker is leaving. -/
def leaving : PC E → Bool
  | .exit1 => true
  | .exit2 => true
  | .exit3 => true
  | .ended => true
  | _ => false

/-- A pool that is not being destroyed. -/
structure Kept (x : Watch E) : Prop where
  client : ∀ i, x.s.client ≠ .clear i
  stays : x.s.exc = none → ∀ (i : Nat) (w : Worker E), x.s.w[i]? = some w → w.run = true ∧ leaving w.pc = false

/-- The client does not call the destructor. -/
def Spec.keeps : WAction → Prop
  | .pool (.base .destroy) => False
  | _ => True

theorem kept_step {body : Nat → Option E} (x y : Watch E) (a : WAction) (ha : Spec.keeps a) (hx : Kept x) (h : wstep body x a = some y) : Kept y := by
  rcases wstep_cases h with ⟨b, rfl, _, hn, _⟩ | ⟨hs, _⟩
  · rcases nstep_effect hn with ⟨i, rfl, hst⟩ | ⟨he, hw | ⟨i, w, hc, _⟩, _, hcl⟩
    · obtain ⟨w, hw, _, hset, hcl, _, _, hexc⟩ := worker_next hst
      refine ⟨fun i => by rw [hcl]; exact hx.client i, fun he j v hv => ?_⟩
      obtain ⟨he0, _⟩ := hexc he
      have hold := hx.stays he0
      rw [hset] at hv
      rcases set_cases hv with ⟨rfl, rfl⟩ | ⟨_, hv⟩
      · obtain ⟨h1, h2⟩ := hold i w hw
        obtain ⟨pc, rn, sl, dn⟩ := w
        simp only at h1
        subst h1
        cases pc <;> simp only [leaving] at h2 <;> simp [nextOf, leaving, he0] <;> try cases h2
        all_goals (split <;> simp [leaving])
      · exact hold j v hv
    · refine ⟨fun i hi => ?_, fun he' j v hv => ?_⟩
      · rcases hcl i hi with rfl | ⟨j, hj⟩
        · exact ha
        · exact hx.client j hj
      · rw [hw] at hv
        exact hx.stays (by rw [← he]; exact he') j v hv
    · exact absurd hc (hx.client i)
  · exact ⟨by rw [hs]; exact hx.client, by rw [hs]; exact hx.stays⟩

/-- Since the queue was empty: as long as no task has thrown, somebody looks after what is in it. -/
def Cared (x : Watch E) : Prop :=
  x.s.exc = none → x.s.queue ≠ [] → ∃ (j : Nat) (w : Worker E), x.s.w[j]? = some w ∧ alert w.pc = true ∧ ∀ r, x.obs = .running r → r[j]? ≠ some true

/-- Nobody but tasks submits tasks. -/
def Spec.inner : WAction → Prop
  | .pool (.base .submit) => False
  | _ => True

theorem next_alert (body : Nat → Option E) (s : State E) (w : Worker E) (hq : w.pc = .lock → s.queue ≠ []) (he : s.exc = none) (hr : w.run = true) (h : alert w.pc = true) :
    alert (nextOf body s w).pc = true := by
  obtain ⟨pc, rn, sl, dn⟩ := w
  simp only at hr
  subst hr
  cases pc <;> simp only [alert] at h <;> simp [nextOf, alert, he] <;> try cases h
  case lock =>
    cases hs : s.queue with
    | nil => exact absurd hs (hq rfl)
    | cons t q => simp [alert]
  case running t => cases body t <;> simp [alert]

theorem cared_step {body : Nat → Option E} {n : Nat} (x y : Watch E) (a : WAction) (ha : Spec.keeps a ∧ Spec.inner a) (hI : NInv body n x.s) (hA : Kept x) (hx : Cared x)
    (h : wstep body x a = some y) : Cared y := by
  rcases wstep_cases h with ⟨b, rfl, hl, hn, ho⟩ | ⟨hs, ho⟩
  · intro he hq
    rcases nstep_effect hn with ⟨i, rfl, hst⟩ | ⟨hexc, hw, hqueue, _⟩
    · obtain ⟨w, hw, _, hset, _, hq0, _, hexc⟩ := worker_next hst
      obtain ⟨he0, _⟩ := hexc he
      have hqx : x.s.queue ≠ [] := fun hc => hq (hq0 hc)
      obtain ⟨j, v, hv, hal, hread⟩ := hx he0 hqx
      by_cases e : i = j
      · subst e
        rw [hv] at hw
        cases hw
        refine ⟨i, nextOf body x.s w, ?_, next_alert body x.s w (fun _ => hqx) he0 (hA.stays he0 i w hv).1 hal, by rw [ho]; exact hread⟩
        rw [hset, List.getElem?_set, if_pos rfl, if_pos (by
          by_contra hc
          rw [List.getElem?_eq_none (by omega)] at hv
          cases hv)]
      · refine ⟨j, v, ?_, hal, by rw [ho]; exact hread⟩
        rw [hset, List.getElem?_set, if_neg e]
        exact hv
    · have hw' : y.s.w = x.s.w := by
        rcases hw with hw | ⟨i, w, hc, _⟩
        · exact hw
        · exact absurd hc (hA.client i)
      rcases hqueue with hqueue | rfl | ⟨i, t, w, rfl, hwi, hpc⟩
      · obtain ⟨j, v, hv, hal, hread⟩ := hx (by rw [← hexc]; exact he) (by rw [← hqueue]; exact hq)
        exact ⟨j, v, by rw [hw']; exact hv, hal, by rw [ho]; exact hread⟩
      · exact ha.2.elim
      · refine ⟨i, w, by rw [hw']; exact hwi, by rw [hpc]; rfl, fun r hr => ?_⟩
        rw [ho] at hr
        rw [hr] at hl
        simp [Obs.locked, needsLock] at hl
  · intro he hq
    rw [hs] at he hq
    obtain ⟨j, v, hv, hal, hread⟩ := hx he hq
    refine ⟨j, v, by rw [hs]; exact hv, hal, fun r hr => ?_⟩
    rcases ho with ⟨r', ho⟩ | ⟨_, ho⟩ | ⟨_, ho⟩ | ⟨_, r', w, hw, ⟨hxo, ho⟩ | ⟨_, ho⟩⟩
    · rw [ho] at hr; cases hr
    · rw [ho] at hr; cases hr; simp
    · rw [ho] at hr; cases hr
    · rw [ho] at hr
      cases hr
      intro hj
      rcases getElem_snoc hj with hj | ⟨rfl, hb⟩
      · exact hread r' hxo hj
      · rw [hw] at hv
        cases hv
        have := hI.wok r'.length v hw
        obtain ⟨pc, rn, sl, dn⟩ := v
        simp only at hb
        subst hb
        cases pc <;> simp only [WOk] at this <;> simp [alert] at hal <;> cases this.1
    · rw [ho] at hr; cases hr

/-- Once nobody has a task and there is none in the queue, all are finished. -/
theorem all_done {body : Nat → Option E} {n : Nat} {s : State E} (hI : NInv body n s) (hq : s.queue = []) (hw : ∀ w ∈ s.w, inHand w.pc = none) : s.finished.Perm s.submitted := by
  have h1 := hI.fifo
  have h2 := hI.cons
  simp only at h1 h2
  rw [hq, List.append_nil] at h1
  rw [held_sum, Multiset.coe_add, Multiset.coe_eq_coe, h1] at h2
  have : s.w.filterMap (fun w => inHand w.pc) = [] := List.filterMap_eq_nil_iff.mpr hw
  rw [this, List.append_nil] at h2
  exact h2.symm

/-- `running()` returns 0: nobody has a task. -/
theorem zero_idle {x y : Watch E} {body : Nat → Option E} (hS : Seen x) (hr : wstep body x .read = some y) (hv : y.obs = .answered (.running 0)) :
    ∃ r, x.obs = .running r ∧ y.s = x.s ∧ r.length = x.s.w.length ∧ (∀ j, j < r.length → r[j]? = some true) ∧ ∀ w ∈ x.s.w, inHand w.pc = none := by
  obtain ⟨r, ho, hle, hs, h0⟩ := read_running hr hv
  have hlen : r.length = x.s.w.length := le_antisymm (hS.short r (Or.inl ho)) hle
  have hall : ∀ b ∈ r, true = b := by
    rw [← List.count_eq_length]
    have := List.count_le_length (a := true) (l := r)
    omega
  have htrue : ∀ j, j < r.length → r[j]? = some true := fun j hj => by
    rw [List.getElem?_eq_getElem hj, ← hall _ (List.getElem_mem hj)]
  refine ⟨r, ho, hs, hlen, htrue, fun w hw => ?_⟩
  obtain ⟨i, hi, hget⟩ := List.getElem_of_mem hw
  exact hS.idle r ho i w (htrue i (by omega)) (by rw [List.getElem?_eq_getElem hi, hget])

/-- Nobody submits tasks. -/
def Spec.still : WAction → Prop
  | .pool (.base .submit) => False
  | .pool (.nested _) => False
  | _ => True

/-- **C163 (polling).** If `queued()` has returned 0 and later a call of `running()` returns 0, and no task has been submitted since, every task is finished. -/
theorem C163_poll (body : Nat → Option E) (n : Nat) (as bs : List WAction) (x y z u : Watch E) (h : wrun body ⟨init n, .free⟩ as = some x)
    (hc : wstep body x .queued = some y) (h0 : y.obs = .answered (.queued 0)) (hb : ∀ b ∈ bs, Spec.still b) (hz : wrun body y bs = some z)
    (hr : wstep body z .read = some u) (hv : u.obs = .answered (.running 0)) : u.s.queue = [] ∧ u.s.finished.Perm u.s.submitted := by
  obtain ⟨hI, hS⟩ := seen as x h
  have hq : y.s.queue = [] := by
    simp only [wstep] at hc
    split at hc <;> cases hc
    simpa using h0
  have hP := wrun_induction (body := body) (fun p => NInv body n p.s ∧ Seen p ∧ p.s.queue = []) Spec.still ?_ bs y z hb
    ⟨wninv_step x y _ hI hc, seen_step x y _ hI hS hc, hq⟩ hz
  · obtain ⟨hIz, hSz, hqz⟩ := hP
    obtain ⟨r, _, hs, _, _, hidle⟩ := zero_idle hSz hr hv
    rw [hs]
    exact ⟨hqz, all_done hIz hqz hidle⟩
  · rintro p q a ha ⟨hIp, hSp, hqp⟩ hst
    refine ⟨wninv_step p q a hIp hst, seen_step p q a hIp hSp hst, ?_⟩
    rcases wstep_cases hst with ⟨b, rfl, _, hn, _⟩ | ⟨hs, _⟩
    · rcases nstep_effect hn with ⟨i, _, hw⟩ | ⟨_, _, hqueue | rfl | ⟨i, t, w, rfl, _⟩, _⟩
      · obtain ⟨w, _, _, _, _, hq0, _⟩ := worker_next hw
        exact hq0 hqp
      · rw [hqueue]; exact hqp
      · exact ha.elim
      · exact ha.elim
    · rw [hs]; exact hqp

/-- **C163 (polling, tasks that submit tasks).** If `queued()` has returned 0 and later a call of `running()` returns 0, only tasks have submitted tasks since, the pool is not being
destroyed and no exception is stored, every task is finished, also those that tasks have submitted. `block()` does not guarantee this (C126). -/
theorem C163_poll_nested (body : Nat → Option E) (n : Nat) (as bs : List WAction) (x y z u : Watch E) (ha : ∀ a ∈ as, Spec.keeps a) (h : wrun body ⟨init n, .free⟩ as = some x)
    (hc : wstep body x .queued = some y) (h0 : y.obs = .answered (.queued 0)) (hb : ∀ b ∈ bs, Spec.keeps b ∧ Spec.inner b) (hz : wrun body y bs = some z)
    (hr : wstep body z .read = some u) (hv : u.obs = .answered (.running 0)) (he : u.s.exc = none) : u.s.queue = [] ∧ u.s.finished.Perm u.s.submitted := by
  obtain ⟨hI, hS⟩ := seen as x h
  have hA : Kept x := wrun_induction (body := body) Kept Spec.keeps kept_step as _ x ha ⟨fun i hi => by simp [init] at hi, fun _ i w hw => by
    simp only [init, List.getElem?_replicate] at hw
    split at hw <;> cases hw
    exact ⟨rfl, rfl⟩⟩ h
  have hq : y.s.queue = [] := by
    simp only [wstep] at hc
    split at hc <;> cases hc
    simpa using h0
  have hP := wrun_induction (body := body) (fun p => NInv body n p.s ∧ Seen p ∧ Kept p ∧ Cared p) (fun b => Spec.keeps b ∧ Spec.inner b)
    (fun p q a ha ⟨h1, h2, h3, h4⟩ hst => ⟨wninv_step p q a h1 hst, seen_step p q a h1 h2 hst, kept_step p q a ha.1 h3 hst, cared_step p q a ha h1 h3 h4 hst⟩) bs y z hb
    ⟨wninv_step x y _ hI hc, seen_step x y _ hI hS hc, kept_step x y .queued trivial hA hc, fun _ hne => absurd hq hne⟩ hz
  obtain ⟨hIz, hSz, _, hCz⟩ := hP
  obtain ⟨r, ho, hs, hlen, htrue, hidle⟩ := zero_idle hSz hr hv
  rw [hs] at he ⊢
  have hqz : z.s.queue = [] := by
    by_contra hne
    obtain ⟨j, w, hw, _, hread⟩ := hCz he hne
    have hlt : j < r.length := by
      by_contra hc
      rw [List.getElem?_eq_none (by omega)] at hw
      cases hw
    exact hread r ho (htrue j hlt)
  exact ⟨hqz, all_done hIz hqz hidle⟩

/-! ## Examples -/

/-- One worker; the task submits another one. The thread asks until both counters are 0. -/
def exPoll : List WAction :=
  [.pool (.base .submit), .pool (.base (.worker 0)), .pool (.base (.worker 0)), .pool (.base (.worker 0)), .queued]

/-- The task runs, submits a task, both are executed and the worker falls asleep while the thread is in `running()`. -/
def exPoll2 : List WAction :=
  [.pool (.base (.worker 0)), .pool (.nested 0)] ++ List.replicate 9 (.pool (.base (.worker 0))) ++
    [.running, .pool (.base (.worker 0)), .read]

example : ((wrun (fun _ => (none : Option Unit)) ⟨init 1, .free⟩ exPoll).map fun x => x.obs) = some (.answered (.queued 0)) ∧
    ((wrun (fun _ => (none : Option Unit)) ⟨init 1, .free⟩ (exPoll ++ exPoll2)).map fun x => (x.obs, x.s.submitted, x.s.finished)) =
      some (.running [true], [0, 1], [0, 1]) ∧
    ((wrun (fun _ => (none : Option Unit)) ⟨init 1, .free⟩ (exPoll ++ exPoll2 ++ [.read])).map fun x => x.obs) = some (.answered (.running 0)) := by decide

/-- Two workers and a task that throws: the first worker ends after its flag has been read, so that `activeThreads()` gives 2 when one thread is active; `checkForException()` says true. -/
example : ((wrun (fun _ => some ()) ⟨init 2, .free⟩ ([.pool (.base .submit)] ++ List.replicate 6 (.pool (.base (.worker 0))) ++ [.exception])).map fun x => (x.obs, x.s.finished)) =
      some (.answered (.exception true), [0]) ∧
    ((wrun (fun _ => some ()) ⟨init 2, .free⟩ ([.pool (.base .submit)] ++ List.replicate 6 (.pool (.base (.worker 0))) ++ [.active, .read] ++
      List.replicate 5 (.pool (.base (.worker 0))) ++ [.read, .read])).map fun x => (x.obs, x.s.activeThreads)) = some (.answered (.active 2), 1) := by decide

/-- `running()` called while the only worker runs a task. -/
example : ((wrun (fun _ => (none : Option Unit)) ⟨init 1, .free⟩ ([.pool (.base .submit)] ++ List.replicate 4 (.pool (.base (.worker 0))) ++ [.running, .read, .read])).map fun x =>
    (x.obs, x.s.w.map fun w => inHand w.pc)) = some (.answered (.running 1), [some 0]) := by decide

/-- The other order: `running()` and then `queued()` return 0. -/
def C163_other_order_full : Prop := ∀ (body : Nat → Option Unit) (n : Nat) (as bs : List WAction) (x y z u : Watch Unit), wrun body ⟨init n, .free⟩ as = some x →
  wstep body x .read = some y → y.obs = .answered (.running 0) → (∀ b ∈ bs, Spec.still b) → wrun body y bs = some z → wstep body z .queued = some u →
  u.obs = .answered (.queued 0) → u.s.finished.Perm u.s.submitted

/-- **C163 (the other order).** To ask `running()` first does not do: the worker takes the task between the two calls. -/
theorem C163_other_order_violated : ¬ C163_other_order_full := by
  intro h
  have := h (fun _ => none) 1 (List.replicate 4 (.pool (.base (.worker 0))) ++ [.pool (.base .submit), .running, .read]) (List.replicate 4 (.pool (.base (.worker 0))))
    _ _ _ _ rfl rfl rfl (by
      intro b hb
      rw [List.eq_of_mem_replicate hb]
      trivial) rfl rfl rfl
  exact absurd this.length_eq (by decide)

end Alexandria.ThreadPool
