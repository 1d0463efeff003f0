import Verif.ThreadPool.Model
import Mathlib.Algebra.BigOperators.Group.List.Basic
import Mathlib.Algebra.Order.BigOperators.Group.List
import Mathlib.Algebra.Order.Group.Multiset
import Mathlib.Tactic.Abel

set_option linter.unusedSectionVars false

namespace Alexandria.ThreadPool

variable {E : Type}

/-- The tasks in the hands of a worker: taken from the queue and not finished. -/
def PC.held : PC E → Multiset Nat
  | .got t => {t}
  | .running t => {t}
  | .caught t _ => {t}
  | _ => 0

/-- The worker is between the check of the exception and the start of a task. -/
def PC.late : PC E → Nat
  | .lock => 1
  | .got _ => 1
  | _ => 0

def PC.isSafe : PC E → Prop
  | .checkRun => True
  | .checkExc => True
  | .asleep => True
  | .exit1 => True
  | .exit2 => True
  | .exit3 => True
  | .ended => True
  | _ => False

theorem sum_set {α M : Type} [AddCommMonoid M] (f : α → M) (l : List α) (i : Nat) (x y : α) (h : l[i]? = some x) :
    ((l.set i y).map f).sum + f x = (l.map f).sum + f y := by
  induction l generalizing i with
  | nil => simp at h
  | cons a l ih =>
    cases i with
    | zero => simp at h; subst h; simp; abel
    | succ i =>
      have := ih i (by simpa using h)
      simp only [List.set_cons_succ, List.map_cons, List.sum_cons, add_assoc, this]

/-- What holds of each worker in every reachable state. -/
def WOk (body : Nat → Option E) (w : Worker E) : Prop :=
  match w.pc with
  | .checkRun => w.sleeping = false ∧ w.done = false
  | .checkExc => w.sleeping = false ∧ w.done = false
  | .lock => w.sleeping = false ∧ w.done = false
  | .got _ => w.sleeping = false ∧ w.done = false
  | .running _ => w.sleeping = false ∧ w.done = false
  | .caught t e => w.sleeping = false ∧ w.done = false ∧ body t = some e
  | .noTask => w.sleeping = false ∧ w.done = false
  | .asleep => w.sleeping = true ∧ w.done = false
  | .exit1 => w.sleeping = false ∧ w.done = false
  | .exit2 => w.sleeping = true ∧ w.done = false
  | .exit3 => w.sleeping = true ∧ w.done = true
  | .ended => w.sleeping = true ∧ w.done = true

/-- Workers before `i` satisfy `p`. -/
def Before (s : State E) (i : Nat) (p : PC E → Prop) : Prop := ∀ j w, j < i → s.w[j]? = some w → p w.pc

/-- The workers before `i` will not run a task any more unless one is submitted. -/
def Quiet (s : State E) (i : Nat) : Prop :=
  (s.queue = [] ∧ Before s i fun p => p.held = 0) ∨ (s.exc.isSome ∧ Before s i PC.isSafe)

/-- What the client knows inside and after `block()`. -/
def COk (s : State E) : Prop :=
  match s.client with
  | .wait i => Quiet s i
  | .check => Quiet s s.w.length
  | .returned => s.exc = none ∧ Quiet s s.w.length
  | .threw e => s.exc = some e ∧ Quiet s s.w.length
  | .destroyed => Before s s.w.length fun p => p = .ended
  | _ => True

theorem safe_held {p : PC E} (h : p.isSafe) : p.held = 0 := by
  cases p <;> first | rfl | exact h.elim

/-- `got` but not begun. -/
def PC.waiting : PC E → Multiset Nat
  | .got t => {t}
  | _ => 0

/-- The invariant of all reachable states. -/
structure Inv (body : Nat → Option E) (n : Nat) (s : State E) : Prop where
  len : s.w.length = n
  wok : ∀ (i : Nat) w, s.w[i]? = some w → WOk body w
  cok : COk s
  fifo : s.assigned ++ s.queue = s.submitted
  ids : s.submitted = List.range s.submitted.length
  cons : (s.assigned : Multiset Nat) = s.finished + (s.w.map fun w => w.pc.held).sum
  beg : (s.assigned : Multiset Nat) = s.begun + (s.w.map fun w => w.pc.waiting).sum
  exc1 : ∀ e, s.exc = some e → ∃ t ∈ s.finished, body t = some e
  exc2 : 0 < n → s.exc = none → ∀ t ∈ s.finished, body t = none
  noq : n = 0 → s.queue = []
  late1 : s.exc = none → s.lateStarts = 0
  late2 : s.exc.isSome → s.lateStarts + (s.w.map fun w => w.pc.late).sum + 1 ≤ n

theorem late_le (p : PC E) : p.late ≤ 1 := by cases p <;> simp [PC.late]

theorem late_sum_le (l : List (Worker E)) : (l.map fun w => w.pc.late).sum ≤ l.length := by
  induction l with
  | nil => simp
  | cons a l ih => simp only [List.map_cons, List.sum_cons, List.length_cons]; have := late_le a.pc; omega

theorem late_sum_lt (l : List (Worker E)) (i : Nat) (w : Worker E) (h : l[i]? = some w) (h0 : w.pc.late = 0) :
    (l.map fun w => w.pc.late).sum + 1 ≤ l.length := by
  induction l generalizing i with
  | nil => simp at h
  | cons a l ih =>
    simp only [List.map_cons, List.sum_cons, List.length_cons]
    cases i with
    | zero => simp at h; subst h; have := late_sum_le l; omega
    | succ i => have := ih i (by simpa using h); have := late_le a.pc; omega

/-- The effect of a worker step, case by case. -/
theorem stepWorker_spec (body : Nat → Option E) (s s' : State E) (i : Nat) (h : stepWorker body s i = some s') :
    ∃ w w', s.w[i]? = some w ∧ s'.w = s.w.set i w' ∧ s'.client = s.client ∧ s'.submitted = s.submitted ∧
      w.pc ≠ .ended ∧
      (s.queue = [] → s'.queue = [] ∧ (w.pc.held = 0 → w'.pc.held = 0)) ∧
      (s.exc.isSome → s'.exc.isSome ∧ (w.pc.isSafe → w'.pc.isSafe)) ∧
      (WOk body w → WOk body w') ∧
      (w.pc.held = 0 → s'.exc = s.exc) ∧
      s'.assigned ++ s'.queue = s.assigned ++ s.queue ∧
      (s'.assigned : Multiset Nat) + s.finished + w.pc.held = s.assigned + s'.finished + w'.pc.held ∧
      (s'.assigned : Multiset Nat) + s.begun + w.pc.waiting = s.assigned + s'.begun + w'.pc.waiting ∧
      ((s'.exc = s.exc ∧ (s'.finished = s.finished ∨ ∃ t, s'.finished = s.finished ++ [t] ∧ body t = none) ∧
          ((s.exc = none ∧ s'.lateStarts = s.lateStarts ∨
            s.exc.isSome ∧ s'.lateStarts + w'.pc.late ≤ s.lateStarts + w.pc.late))) ∨
        (∃ t e, w.pc = .caught t e ∧ s'.exc = some e ∧ s'.finished = s.finished ++ [t] ∧ s'.lateStarts = s.lateStarts ∧
          w'.pc.late = 0)) := by
  unfold stepWorker at h
  cases hw : s.w[i]? with
  | none => rw [hw] at h; cases h
  | some w =>
    rw [hw] at h
    simp only at h
    refine ⟨w, ?_⟩
    obtain ⟨pc, rn, sl, dn⟩ := w
    cases pc with
    | checkRun =>
      simp only [Option.some.injEq] at h
      subst h
      refine ⟨_, rfl, rfl, rfl, rfl, by simp, ?_⟩
      cases rn <;> simp [PC.held, PC.isSafe, WOk, PC.waiting, PC.late]
      all_goals (cases s.exc <;> simp)
    | checkExc =>
      simp only [Option.some.injEq] at h
      subst h
      refine ⟨_, rfl, rfl, rfl, rfl, by simp, ?_⟩
      cases he : s.exc <;> simp [PC.held, PC.isSafe, WOk, PC.waiting, PC.late]
    | lock =>
      cases hq : s.queue with
      | nil =>
        simp only [hq, Option.some.injEq] at h
        subst h
        refine ⟨_, rfl, rfl, rfl, rfl, by simp, ?_⟩
        cases he : s.exc <;> simp [hq, he, PC.held, PC.isSafe, WOk, PC.waiting, PC.late]
      | cons t q =>
        simp only [hq, Option.some.injEq] at h
        subst h
        refine ⟨_, rfl, rfl, rfl, rfl, by simp, ?_⟩
        have e : (↑(s.assigned ++ [t]) : Multiset Nat) = ↑s.assigned + {t} := by
          rw [← Multiset.coe_add]; rfl
        refine ⟨by simp, ?_, by simp [WOk], by simp, by simp, ?_, ?_, Or.inl ⟨by simp, by simp, ?_⟩⟩
        · simp [PC.isSafe]
        · simp only [e, PC.held]; abel
        · simp only [e, PC.waiting]; abel
        · cases he : s.exc <;> simp [PC.late]
    | got t =>
      simp only [Option.some.injEq] at h
      subst h
      refine ⟨_, rfl, rfl, rfl, rfl, by simp, ?_⟩
      have e : (↑(s.begun ++ [t]) : Multiset Nat) = ↑s.begun + {t} := by
        rw [← Multiset.coe_add]; rfl
      refine ⟨by simp [PC.held], by simp [PC.isSafe], by simp [WOk], by simp, by simp, by simp [PC.held], ?_,
        Or.inl ⟨by simp, by simp, ?_⟩⟩
      · simp only [e, PC.waiting]; abel
      · cases he : s.exc <;> simp [PC.late]
    | running t =>
      cases hb : body t with
      | none =>
        simp only [hb, Option.some.injEq] at h
        subst h
        refine ⟨_, rfl, rfl, rfl, rfl, by simp, ?_⟩
        have e : (↑(s.finished ++ [t]) : Multiset Nat) = ↑s.finished + {t} := by
          rw [← Multiset.coe_add]; rfl
        refine ⟨by simp [PC.held], by simp [PC.isSafe], by simp [WOk], by simp, by simp, ?_, by simp [PC.waiting],
          Or.inl ⟨by simp, Or.inr ⟨t, rfl, hb⟩, ?_⟩⟩
        · simp only [e, PC.held]; abel
        · cases he : s.exc <;> simp [PC.late]
      | some e =>
        simp only [hb, Option.some.injEq] at h
        subst h
        refine ⟨_, rfl, rfl, rfl, rfl, by simp, ?_⟩
        refine ⟨by simp [PC.held], by simp [PC.isSafe], by simp [WOk, hb], by simp, by simp, by simp [PC.held],
          by simp [PC.waiting], Or.inl ⟨by simp, by simp, ?_⟩⟩
        cases he : s.exc <;> simp [PC.late]
    | caught t e =>
      simp only [Option.some.injEq] at h
      subst h
      refine ⟨_, rfl, rfl, rfl, rfl, by simp, ?_⟩
      have e' : (↑(s.finished ++ [t]) : Multiset Nat) = ↑s.finished + {t} := by
        rw [← Multiset.coe_add]; rfl
      refine ⟨by simp [PC.held], by simp [PC.isSafe], ?_, by simp [PC.held], by simp, ?_, by simp [PC.waiting],
        Or.inr ⟨t, e, rfl, rfl, rfl, rfl, rfl⟩⟩
      · simp only [WOk]; tauto
      · simp only [e', PC.held]; abel
    | noTask =>
      simp only [Option.some.injEq] at h
      subst h
      refine ⟨_, rfl, rfl, rfl, rfl, by simp, ?_⟩
      cases he : s.exc <;> simp [PC.held, PC.isSafe, WOk, PC.waiting, PC.late]
    | asleep =>
      simp only [Option.some.injEq] at h
      subst h
      refine ⟨_, rfl, rfl, rfl, rfl, by simp, ?_⟩
      cases he : s.exc <;> simp [PC.held, PC.isSafe, WOk, PC.waiting, PC.late]
    | exit1 =>
      simp only [Option.some.injEq] at h
      subst h
      refine ⟨_, rfl, rfl, rfl, rfl, by simp, ?_⟩
      cases he : s.exc <;> simp [PC.held, PC.isSafe, WOk, PC.waiting, PC.late]
    | exit2 =>
      simp only [Option.some.injEq] at h
      subst h
      refine ⟨_, rfl, rfl, rfl, rfl, by simp, ?_⟩
      cases he : s.exc <;> simp [PC.held, PC.isSafe, WOk, PC.waiting, PC.late] <;> tauto
    | exit3 =>
      simp only [Option.some.injEq] at h
      subst h
      refine ⟨_, rfl, rfl, rfl, rfl, by simp, ?_⟩
      cases he : s.exc <;> simp [PC.held, PC.isSafe, WOk, PC.waiting, PC.late]
    | ended => simp at h

theorem set_get {α : Type} {l : List α} {i j : Nat} {x y z : α} (hx : l[i]? = some x) (h : (l.set i y)[j]? = some z) :
    (j = i ∧ z = y) ∨ (j ≠ i ∧ l[j]? = some z) := by
  by_cases hij : i = j
  · subst hij
    have : i < l.length := by
      by_contra hc
      rw [List.getElem?_eq_none (by omega)] at hx; cases hx
    rw [List.getElem?_set_self this] at h
    exact Or.inl ⟨rfl, by simpa using h.symm⟩
  · rw [List.getElem?_set_ne hij] at h
    exact Or.inr ⟨fun h' => hij h'.symm, h⟩

theorem inv_worker (body : Nat → Option E) (n : Nat) (s s' : State E) (i : Nat) (hI : Inv body n s)
    (h : stepWorker body s i = some s') : Inv body n s' := by
  obtain ⟨w, w', hw, hs', hcl, hsub, hend, hq, hx, hok, hexc, hfifo, hcons, hbeg, hcase⟩ := stepWorker_spec body s s' i h
  have hbefore : ∀ (k : Nat) (p : PC E → Prop), (p w.pc → p w'.pc) → Before s k p → Before s' k p := by
    intro k p hp hb j v hj hv
    rw [hs'] at hv
    rcases set_get hw hv with ⟨rfl, rfl⟩ | ⟨_, hv⟩
    · exact hp (hb _ _ hj hw)
    · exact hb _ _ hj hv
  have hquiet : ∀ k, Quiet s k → Quiet s' k := by
    intro k hk
    rcases hk with ⟨h1, h2⟩ | ⟨h1, h2⟩
    · exact Or.inl ⟨(hq h1).1, hbefore _ (fun p => p.held = 0) (hq h1).2 h2⟩
    · exact Or.inr ⟨(hx h1).1, hbefore _ _ (hx h1).2 h2⟩
  have hlen : s'.w.length = s.w.length := by rw [hs', List.length_set]
  have hwlt : i < s.w.length := by
    by_contra hc
    rw [List.getElem?_eq_none (by omega)] at hw; cases hw
  have hheld : ∀ k, Quiet s k → k = s.w.length → w.pc.held = 0 := by
    intro k hk hkl
    rcases hk with ⟨_, h2⟩ | ⟨_, h2⟩
    · exact h2 _ _ (by omega) hw
    · exact safe_held (h2 _ _ (by omega) hw)
  have hsumh := sum_set (fun w : Worker E => w.pc.held) s.w i w w' hw
  have hsumb := sum_set (fun w : Worker E => w.pc.waiting) s.w i w w' hw
  have hsuml := sum_set (fun w : Worker E => w.pc.late) s.w i w w' hw
  have hwlate := hI.wok i w hw
  refine ⟨by rw [hlen, hI.len], ?_, ?_, by rw [hfifo, hI.fifo, hsub], by rw [hsub]; exact hI.ids, ?_, ?_, ?_, ?_,
    fun hn => (hq (hI.noq hn)).1, ?_, ?_⟩
  · intro j v hv
    rw [hs'] at hv
    rcases set_get hw hv with ⟨rfl, rfl⟩ | ⟨_, hv⟩
    · exact hok (hI.wok _ _ hw)
    · exact hI.wok _ _ hv
  · have hc := hI.cok
    unfold COk at hc ⊢
    rw [hcl]
    cases hC : s.client <;> rw [hC] at hc <;> simp only at hc ⊢
    · exact hquiet _ hc
    · rw [hlen]; exact hquiet _ hc
    · exact ⟨by rw [hexc (hheld _ hc.2 rfl)]; exact hc.1, by rw [hlen]; exact hquiet _ hc.2⟩
    · exact ⟨by rw [hexc (hheld _ hc.2 rfl)]; exact hc.1, by rw [hlen]; exact hquiet _ hc.2⟩
    · exact absurd (hc _ _ hwlt hw) hend
  · have h1 := hI.cons
    rw [hs']
    have : (↑s'.assigned : Multiset Nat) + ↑s.finished + w.pc.held + (s.w.map fun w => w.pc.held).sum =
        ↑s'.finished + ((s.w.set i w').map fun w => w.pc.held).sum + ↑s.finished + w.pc.held +
          (s.w.map fun w => w.pc.held).sum := by
      rw [hcons, h1]
      have e : ∀ a b c d f : Multiset Nat, d + a = b + c →
          f + b + s'.finished + c + b = s'.finished + d + f + a + b := by
        intro a b c d f hh
        calc f + b + s'.finished + c + b = s'.finished + (b + c) + f + b := by abel
          _ = s'.finished + (d + a) + f + b := by rw [hh]
          _ = _ := by abel
      exact e _ _ _ _ _ hsumh
    have e2 : ∀ a b c d f : Multiset Nat, a + b + c + d = f + b + c + d → a = f := by
      intro a b c d f hh
      exact add_right_cancel (add_right_cancel (add_right_cancel hh))
    exact e2 _ _ _ _ _ this
  · have h1 := hI.beg
    rw [hs']
    have : (↑s'.assigned : Multiset Nat) + ↑s.begun + w.pc.waiting + (s.w.map fun w => w.pc.waiting).sum =
        ↑s'.begun + ((s.w.set i w').map fun w => w.pc.waiting).sum + ↑s.begun + w.pc.waiting +
          (s.w.map fun w => w.pc.waiting).sum := by
      rw [hbeg, h1]
      have e : ∀ a b c d f : Multiset Nat, d + a = b + c →
          f + b + s'.begun + c + b = s'.begun + d + f + a + b := by
        intro a b c d f hh
        calc f + b + s'.begun + c + b = s'.begun + (b + c) + f + b := by abel
          _ = s'.begun + (d + a) + f + b := by rw [hh]
          _ = _ := by abel
      exact e _ _ _ _ _ hsumb
    have e2 : ∀ a b c d f : Multiset Nat, a + b + c + d = f + b + c + d → a = f := by
      intro a b c d f hh
      exact add_right_cancel (add_right_cancel (add_right_cancel hh))
    exact e2 _ _ _ _ _ this
  · intro e he
    rcases hcase with ⟨c1, c2, _⟩ | ⟨t, e', c1, c2, c3, _⟩
    · obtain ⟨t, ht, hb⟩ := hI.exc1 e (c1 ▸ he)
      refine ⟨t, ?_, hb⟩
      rcases c2 with c2 | ⟨u, c2, _⟩ <;> rw [c2] <;> simp [ht]
    · refine ⟨t, by rw [c3]; simp, ?_⟩
      rw [c2] at he
      simp only [Option.some.injEq] at he
      subst he
      unfold WOk at hwlate
      rw [c1] at hwlate
      exact hwlate.2.2
  · intro hn he t ht
    rcases hcase with ⟨c1, c2, _⟩ | ⟨t, e', c1, c2, c3, _⟩
    · rcases c2 with c2 | ⟨u, c2, hu⟩
      · exact hI.exc2 hn (c1 ▸ he) t (c2 ▸ ht)
      · rw [c2] at ht
        rcases List.mem_append.1 ht with ht | ht
        · exact hI.exc2 hn (c1 ▸ he) t ht
        · simp at ht; subst ht; exact hu
    · rw [c2] at he; cases he
  · intro he
    rcases hcase with ⟨c1, _, c3⟩ | ⟨t, e', c1, c2, c3, _⟩
    · rcases c3 with ⟨a, b⟩ | ⟨a, b⟩
      · rw [b]; exact hI.late1 a
      · rw [c1] at he; rw [he] at a; cases a
    · rw [c2] at he; cases he
  · intro he
    rw [hs']
    rcases hcase with ⟨c1, _, c3⟩ | ⟨t, e', c1, c2, c3, c4, c5⟩
    · rcases c3 with ⟨a, b⟩ | ⟨a, b⟩
      · rw [c1, a] at he; cases he
      · have := hI.late2 a
        omega
    · have hwl : w.pc.late = 0 := by rw [c1]; rfl
      have h1 := late_sum_lt s.w i w hw hwl
      cases hE : s.exc with
      | none =>
        have h2 := hI.late1 hE
        have h3 := hI.len
        omega
      | some x =>
        have h2 := hI.late2 (by rw [hE]; rfl)
        omega

theorem inv_step (body : Nat → Option E) (n : Nat) (s s' : State E) (a : Action) (hI : Inv body n s)
    (h : step body s a = some s') : Inv body n s' := by
  cases a with
  | worker i => exact inv_worker body n s s' i hI h
  | submit =>
    simp only [step, stepSubmit] at h
    cases hC : s.client <;> rw [hC] at h <;> simp only at h <;> try cases h
    have hids : s.submitted ++ [s.submitted.length] = List.range (s.submitted ++ [s.submitted.length]).length := by
      rw [List.length_append, List.length_singleton, List.range_succ, ← hI.ids]
    split at h
    · rename_i hemp
      simp only [Option.some.injEq] at h
      subst h
      have hw : s.w = [] := by simpa using hemp
      have hn : n = 0 := by rw [← hI.len, hw]; rfl
      have hq : s.queue = [] := hI.noq hn
      have hfi := hI.fifo
      rw [hq, List.append_nil] at hfi
      have hcons := hI.cons
      have hbeg := hI.beg
      rw [hw] at hcons hbeg
      simp only [List.map_nil, List.sum_nil, add_zero] at hcons hbeg
      have e : ∀ l : List Nat, (↑(l ++ [s.submitted.length]) : Multiset Nat) = ↑l + {s.submitted.length} := by
        intro l; rw [← Multiset.coe_add]; rfl
      refine ⟨hI.len, hI.wok, by unfold COk; simp only [hC], by simp only [hq, hfi, List.append_nil], hids, ?_, ?_, ?_, by omega,
        fun _ => hq, hI.late1, hI.late2⟩
      · simp only [hw, List.map_nil, List.sum_nil, add_zero, e, hcons]
      · simp only [hw, List.map_nil, List.sum_nil, add_zero, e, hbeg]
      · intro x hx
        obtain ⟨t, ht, hb⟩ := hI.exc1 x hx
        exact ⟨t, by simp [ht], hb⟩
    · simp only [Option.some.injEq] at h
      subst h
      exact ⟨hI.len, hI.wok, by unfold COk; simp only [hC], by simp only [← List.append_assoc, hI.fifo], hids, hI.cons, hI.beg,
        hI.exc1, hI.exc2, fun hn => by
          have hl := hI.len
          rename_i hne
          simp only [List.isEmpty_iff] at hne
          exact absurd (List.eq_nil_of_length_eq_zero (hl.trans hn)) hne, hI.late1, hI.late2⟩
  | block =>
    simp only [step] at h
    cases hC : s.client <;> rw [hC] at h <;> simp only at h <;> try cases h
    exact ⟨hI.len, hI.wok, by simp only [COk], hI.fifo, hI.ids, hI.cons, hI.beg, hI.exc1, hI.exc2, hI.noq, hI.late1, hI.late2⟩
  | destroy =>
    simp only [step] at h
    cases hC : s.client <;> rw [hC] at h <;> simp only at h <;> try cases h
    exact ⟨hI.len, hI.wok, by simp only [COk], hI.fifo, hI.ids, hI.cons, hI.beg, hI.exc1, hI.exc2, hI.noq, hI.late1, hI.late2⟩
  | client =>
    have hcok := hI.cok
    have key : ∀ c, COk { s with client := c } → Inv body n { s with client := c } := fun c hc =>
      ⟨hI.len, hI.wok, hc, hI.fifo, hI.ids, hI.cons, hI.beg, hI.exc1, hI.exc2, hI.noq, hI.late1, hI.late2⟩
    simp only [step, stepClient] at h
    cases hC : s.client <;> rw [hC] at h <;> simp only at h
    case idle => cases h
    case blockExc =>
      simp only [Option.some.injEq] at h
      subst h
      apply key
      cases hE : s.exc with
      | none => simp [COk]
      | some e =>
        simp only [COk, Option.isNone_some, Bool.false_eq_true, if_false]
        exact Or.inr ⟨by simp [hE], fun j _ hj => absurd hj (Nat.not_lt_zero _)⟩
    case blockQueue =>
      simp only [Option.some.injEq] at h
      subst h
      apply key
      by_cases hQ : s.queue = []
      · simp only [COk, hQ, List.isEmpty_nil, if_true]
        exact Or.inl ⟨rfl, fun j _ hj => absurd hj (Nat.not_lt_zero _)⟩
      · simp [COk, hQ]
    case wait i =>
      unfold COk at hcok
      rw [hC] at hcok
      simp only at hcok
      cases hw : s.w[i]? with
      | none =>
        rw [hw] at h
        simp only [Option.some.injEq] at h
        subst h
        apply key
        simp only [COk]
        have hle : s.w.length ≤ i := List.getElem?_eq_none_iff.1 hw
        rcases hcok with ⟨h1, h2⟩ | ⟨h1, h2⟩
        · exact Or.inl ⟨h1, fun j v hj hv => h2 j v (by omega) hv⟩
        · exact Or.inr ⟨h1, fun j v hj hv => h2 j v (by omega) hv⟩
      | some w =>
        rw [hw] at h
        simp only [Option.some.injEq] at h
        subst h
        apply key
        cases hS : w.sleeping with
        | false => simp only [COk, Bool.false_eq_true, if_false]; exact hcok
        | true =>
          simp only [COk, if_true]
          have hok := hI.wok i w hw
          have hsafe : w.pc.isSafe := by
            unfold WOk at hok
            cases hp : w.pc <;> rw [hp] at hok <;> simp only [hS] at hok <;> simp [PC.isSafe] at hok ⊢
          rcases hcok with ⟨h1, h2⟩ | ⟨h1, h2⟩
          · refine Or.inl ⟨h1, fun j v hj hv => ?_⟩
            rcases Nat.lt_succ_iff_lt_or_eq.1 hj with hj | rfl
            · exact h2 j v hj hv
            · simp only at hv; rw [hw] at hv; cases hv; exact safe_held hsafe
          · refine Or.inr ⟨h1, fun j v hj hv => ?_⟩
            rcases Nat.lt_succ_iff_lt_or_eq.1 hj with hj | rfl
            · exact h2 j v hj hv
            · simp only at hv; rw [hw] at hv; cases hv; exact hsafe
    case check =>
      unfold COk at hcok
      rw [hC] at hcok
      simp only at hcok
      cases hE : s.exc with
      | none =>
        rw [hE] at h; simp only [Option.some.injEq] at h; subst h
        rw [← hE]
        exact key _ ⟨hE, hcok⟩
      | some e =>
        rw [hE] at h; simp only [Option.some.injEq] at h; subst h
        rw [← hE]
        exact key _ ⟨hE, hcok⟩
    case returned => cases h; apply key; simp only [COk]
    case threw e => cases h; apply key; simp only [COk]
    case clear i =>
      cases hw : s.w[i]? with
      | none => rw [hw] at h; cases h; apply key; simp only [COk]
      | some w =>
        rw [hw] at h
        simp only [Option.some.injEq] at h
        subst h
        have hsumh := sum_set (fun w : Worker E => w.pc.held) s.w i w { w with run := false } hw
        have hsumb := sum_set (fun w : Worker E => w.pc.waiting) s.w i w { w with run := false } hw
        have hsuml := sum_set (fun w : Worker E => w.pc.late) s.w i w { w with run := false } hw
        simp only [add_left_inj] at hsumh hsumb hsuml
        refine ⟨by simp [hI.len], ?_, by simp only [COk], hI.fifo, hI.ids, by rw [hsumh]; exact hI.cons, by rw [hsumb]; exact hI.beg,
          hI.exc1, hI.exc2, hI.noq, hI.late1, by rw [hsuml]; exact hI.late2⟩
        intro j v hv
        rcases set_get hw hv with ⟨rfl, rfl⟩ | ⟨_, hv⟩
        · have := hI.wok _ _ hw
          unfold WOk at this ⊢
          exact this
        · exact hI.wok _ _ hv
    case waitDone i =>
      cases hw : s.w[i]? with
      | none => rw [hw] at h; cases h; apply key; simp only [COk]
      | some w =>
        rw [hw] at h; simp only [Option.some.injEq] at h; subst h
        apply key
        cases w.done <;> simp [COk]
    case join =>
      split at h
      · rename_i hall
        cases h
        apply key
        simp only [COk]
        intro j v hj hv
        rw [List.all_eq_true] at hall
        have := hall v (List.mem_of_getElem? hv)
        cases hp : v.pc <;> rw [hp] at this <;> simp at this ⊢
      · cases h
    case destroyed => cases h

theorem inv_init (body : Nat → Option E) (n : Nat) : Inv body n (init n) := by
  have hsum : ∀ {M : Type} [AddCommMonoid M] (f : Worker E → M), f ⟨.checkRun, true, false, false⟩ = 0 →
      ((List.replicate n (⟨.checkRun, true, false, false⟩ : Worker E)).map f).sum = 0 := by
    intro M _ f hf
    rw [List.map_replicate, hf]
    induction n with
    | zero => rfl
    | succ n ih => rw [List.replicate_succ, List.sum_cons, ih, add_zero]
  refine ⟨by simp [init], ?_, by simp [COk, init], rfl, rfl, ?_, ?_, by simp [init], by simp [init], by simp [init], by simp [init],
    by simp [init]⟩
  · intro i w hw
    have := List.mem_of_getElem? hw
    simp only [init, List.mem_replicate] at this
    rw [this.2]
    simp [WOk]
  · show (0 : Multiset Nat) = 0 + _
    rw [show (init n : State E).w = _ from rfl, init]
    simp only
    rw [hsum _ rfl]; rfl
  · show (0 : Multiset Nat) = 0 + _
    rw [show (init n : State E).w = _ from rfl, init]
    simp only
    rw [hsum _ rfl]; rfl

theorem inv_run (body : Nat → Option E) (n : Nat) (as : List Action) (s s' : State E) (hI : Inv body n s)
    (h : run body s as = some s') : Inv body n s' := by
  induction as generalizing s with
  | nil => rw [run] at h; cases h; exact hI
  | cons a as ih =>
    rw [run] at h
    cases hs : step body s a with
    | none => rw [hs] at h; cases h
    | some s1 => rw [hs] at h; exact ih s1 (inv_step body n s s1 a hI hs) h

end Alexandria.ThreadPool
