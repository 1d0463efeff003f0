import Verif.Caches.Model
import Verif.MathUtils.Model
import Verif.XYDataset.Props
import Mathlib.Algebra.Field.Rat

/-!
# C152: values computed on first use, and threads
-/

namespace Alexandria.Caches

variable {ι V τ : Type}

/-! ## Specification -/

/-- A data race: two threads, one member, and one of the accesses changes it.  (Threads that do nothing but these calls do not
synchronise with each other.) -/
def Spec.Race (log : List (Access τ ι)) : Prop :=
  ∃ a ∈ log, ∃ b ∈ log, a.thread ≠ b.thread ∧ a.cell = b.cell ∧ (a.write = true ∨ b.write = true)

/-- All the calls have returned. -/
def Spec.Finished (s : State τ ι V) : Prop := ∀ t, (s.threads t).calls = []

/-- A call returned what it should. -/
def Spec.Right (fill init : ι → V) : Call ι → V → Prop
  | .use i, v => v = fill i
  | .copy i, v => v = init i ∨ v = fill i

section
variable [DecidableEq τ] [DecidableEq ι]

/-- What holds for a thread at any time. -/
structure ThreadOk (C : Cells ι V) (init : ι → V) (log : List (Access τ ι)) (P : List (Call ι)) (t : τ) (th : Thread ι V) : Prop where
  done : ∃ ds, P = ds ++ th.calls ∧ (∀ c ∈ ds, ⟨t, false, c.cell⟩ ∈ log ∧
    ∀ i, c = .use i → C.empty (init i) = true → ∃ t', ⟨t', true, i⟩ ∈ log)
  pc : th.pc ≠ .test → ∃ i cs, th.calls = .use i :: cs ∧ ⟨t, false, i⟩ ∈ log ∧ (th.pc = .store → C.empty (init i) = true) ∧
    (th.pc = .load → C.empty (init i) = true → ∃ t', ⟨t', true, i⟩ ∈ log)

/-- What holds at any time. -/
structure Inv (C : Cells ι V) (init : ι → V) (P : τ → List (Call ι)) (s : State τ ι V) : Prop where
  filled : ∀ i, (∃ t, ⟨t, true, i⟩ ∈ s.log) → s.cells i = C.fill i
  kept : ∀ i, (¬ ∃ t, ⟨t, true, i⟩ ∈ s.log) → s.cells i = init i
  threads : ∀ t, ThreadOk C init s.log (P t) t (s.threads t)
  events : ∀ a ∈ s.log, (∃ c ∈ P a.thread, c.cell = a.cell) ∧
    (a.write = true → .use a.cell ∈ P a.thread ∧ C.empty (init a.cell) = true)

omit [DecidableEq τ] [DecidableEq ι] in
theorem ThreadOk.mono {C : Cells ι V} {init : ι → V} {log : List (Access τ ι)} {P : List (Call ι)} {t : τ} {th : Thread ι V}
    (h : ThreadOk C init log P t th) (a : Access τ ι) : ThreadOk C init (log ++ [a]) P t th := by
  obtain ⟨⟨ds, h1, h2⟩, h3⟩ := h
  refine ⟨⟨ds, h1, fun c hc => ⟨List.mem_append_left _ (h2 c hc).1, fun i hi he => ?_⟩⟩, fun hp => ?_⟩
  · obtain ⟨t', ht⟩ := (h2 c hc).2 i hi he
    exact ⟨t', List.mem_append_left _ ht⟩
  · obtain ⟨i, cs, h4, h5, h6, h7⟩ := h3 hp
    refine ⟨i, cs, h4, List.mem_append_left _ h5, h6, fun hl he => ?_⟩
    obtain ⟨t', ht⟩ := h7 hl he
    exact ⟨t', List.mem_append_left _ ht⟩

omit [DecidableEq τ] [DecidableEq ι] in
theorem inv_start (C : Cells ι V) (init : ι → V) (P : τ → List (Call ι)) : Inv C init P (start init P) :=
  ⟨fun i ⟨t, h⟩ => (by cases h), fun i _ => rfl, fun t => ⟨⟨[], rfl, fun c hc => (by cases hc)⟩, fun h => absurd rfl h⟩, fun a h => (by cases h)⟩

theorem step_nil {C : Cells ι V} {s : State τ ι V} {t : τ} (hc : (s.threads t).calls = []) : step C s t = s := by
  simp [step, hc]

theorem step_copy {C : Cells ι V} {s : State τ ι V} {t : τ} {i : ι} {cs : List (Call ι)} (hc : (s.threads t).calls = .copy i :: cs) :
    step C s t = ⟨s.cells, Function.update s.threads t ⟨cs, .test, (s.threads t).results ++ [s.cells i]⟩, s.log ++ [⟨t, false, i⟩]⟩ := by
  simp [step, hc]

theorem step_test {C : Cells ι V} {s : State τ ι V} {t : τ} {i : ι} {cs : List (Call ι)} (hc : (s.threads t).calls = .use i :: cs)
    (hp : (s.threads t).pc = .test) : step C s t = ⟨s.cells, Function.update s.threads t
      ⟨.use i :: cs, if C.empty (s.cells i) then .store else .load, (s.threads t).results⟩, s.log ++ [⟨t, false, i⟩]⟩ := by
  simp [step, hc, hp]

theorem step_store {C : Cells ι V} {s : State τ ι V} {t : τ} {i : ι} {cs : List (Call ι)} (hc : (s.threads t).calls = .use i :: cs)
    (hp : (s.threads t).pc = .store) : step C s t = ⟨Function.update s.cells i (C.fill i), Function.update s.threads t
      ⟨.use i :: cs, .load, (s.threads t).results⟩, s.log ++ [⟨t, true, i⟩]⟩ := by
  simp [step, hc, hp]

theorem step_load {C : Cells ι V} {s : State τ ι V} {t : τ} {i : ι} {cs : List (Call ι)} (hc : (s.threads t).calls = .use i :: cs)
    (hp : (s.threads t).pc = .load) :
    step C s t = ⟨s.cells, Function.update s.threads t ⟨cs, .test, (s.threads t).results ++ [s.cells i]⟩, s.log ++ [⟨t, false, i⟩]⟩ := by
  simp [step, hc, hp]

theorem inv_step {C : Cells ι V} {init : ι → V} {P : τ → List (Call ι)} {s : State τ ι V} (h : Inv C init P s) (t : τ) :
    Inv C init P (step C s t) := by
  obtain ⟨⟨ds, hP, hds⟩, hpc⟩ := h.threads t
  -- an access that does not change anything, by thread `t`
  have reads : ∀ (i : ι) (th : Thread ι V), (∃ c ∈ P t, c.cell = i) → ThreadOk C init (s.log ++ [⟨t, false, i⟩]) (P t) t th →
      Inv C init P ⟨s.cells, Function.update s.threads t th, s.log ++ [⟨t, false, i⟩]⟩ := by
    intro i th hin hth
    refine ⟨?_, ?_, ?_, ?_⟩
    · rintro j ⟨t', ht⟩
      apply h.filled j ⟨t', ?_⟩
      simpa using ht
    · intro j hj
      apply h.kept j
      rintro ⟨t', ht⟩
      exact hj ⟨t', List.mem_append_left _ ht⟩
    · intro t'
      by_cases ht : t' = t
      · subst ht
        simpa using hth
      · simp only
        rw [Function.update_of_ne ht]
        exact (h.threads t').mono _
    · intro a ha
      rcases List.mem_append.mp ha with ha | ha
      · exact h.events a ha
      · simp only [List.mem_singleton] at ha
        subst ha
        exact ⟨hin, fun hw => by cases hw⟩
  have here : ∀ a : Access τ ι, a ∈ s.log ++ [a] := fun a => by simp
  have old : ∀ {a b : Access τ ι}, a ∈ s.log → a ∈ s.log ++ [b] := fun ha => List.mem_append_left _ ha
  cases hc : (s.threads t).calls with
  | nil => rw [step_nil hc]; exact h
  | cons c cs =>
    rw [hc] at hP
    have hin : ∃ c' ∈ P t, c'.cell = c.cell := ⟨c, by rw [hP]; simp, rfl⟩
    cases c with
    | copy i =>
      rw [step_copy hc]
      refine reads i _ hin ⟨⟨ds ++ [.copy i], by simp [hP], ?_⟩, fun hp => absurd rfl hp⟩
      intro c' hc'
      rcases List.mem_append.mp hc' with hc' | hc'
      · refine ⟨old (hds c' hc').1, fun j hj he => ?_⟩
        obtain ⟨t', ht⟩ := (hds c' hc').2 j hj he
        exact ⟨t', old ht⟩
      · simp only [List.mem_singleton] at hc'
        subst hc'
        exact ⟨here _, fun j hj => by cases hj⟩
    | use i =>
      cases hp : (s.threads t).pc with
      | test =>
        rw [step_test hc hp]
        refine reads i _ hin ⟨⟨ds, hP, fun c' hc' => ⟨old (hds c' hc').1, fun j hj he => ?_⟩⟩, fun _ => ⟨i, cs, rfl, here _, ?_, ?_⟩⟩
        · obtain ⟨t', ht⟩ := (hds c' hc').2 j hj he
          exact ⟨t', old ht⟩
        · intro he
          by_cases hem : C.empty (s.cells i) = true
          · by_cases hw : ∃ t', ⟨t', true, i⟩ ∈ s.log
            · obtain ⟨t', ht⟩ := hw
              exact ((h.events _ ht).2 rfl).2
            · rwa [h.kept i hw] at hem
          · simp [hem] at he
        · intro he hi
          by_cases hem : C.empty (s.cells i) = true
          · simp [hem] at he
          · by_cases hw : ∃ t', ⟨t', true, i⟩ ∈ s.log
            · obtain ⟨t', ht⟩ := hw
              exact ⟨t', old ht⟩
            · rw [h.kept i hw] at hem
              exact absurd hi hem
      | store =>
        rw [step_store hc hp]
        obtain ⟨i', cs', h4, h5, h6, h7⟩ := hpc (by rw [hp]; decide)
        rw [hc] at h4
        simp only [List.cons.injEq, Call.use.injEq] at h4
        obtain ⟨rfl, rfl⟩ := h4
        have hem := h6 hp
        refine ⟨?_, ?_, ?_, ?_⟩
        · rintro j ⟨t', ht⟩
          by_cases hj : j = i
          · subst hj; simp
          · simp only
            rw [Function.update_of_ne hj]
            apply h.filled j ⟨t', ?_⟩
            rcases List.mem_append.mp ht with ht | ht
            · exact ht
            · simp only [List.mem_singleton, Access.mk.injEq] at ht
              exact absurd ht.2.2 hj
        · intro j hj
          by_cases hji : j = i
          · subst hji
            exact absurd ⟨t, here _⟩ hj
          · simp only
            rw [Function.update_of_ne hji]
            apply h.kept j
            rintro ⟨t', ht⟩
            exact hj ⟨t', old ht⟩
        · intro t'
          by_cases ht : t' = t
          · subst ht
            simp only [Function.update_self]
            refine ⟨⟨ds, hP, fun c' hc' => ⟨old (hds c' hc').1, fun j hj he => ?_⟩⟩,
              fun _ => ⟨i, cs, rfl, old h5, fun he => (by cases he), fun _ _ => ⟨t', here _⟩⟩⟩
            obtain ⟨u, hu⟩ := (hds c' hc').2 j hj he
            exact ⟨u, old hu⟩
          · simp only
            rw [Function.update_of_ne ht]
            exact (h.threads t').mono _
        · intro a ha
          rcases List.mem_append.mp ha with ha | ha
          · exact h.events a ha
          · simp only [List.mem_singleton] at ha
            subst ha
            exact ⟨hin, fun _ => ⟨by simp only; rw [hP]; simp, hem⟩⟩
      | load =>
        rw [step_load hc hp]
        obtain ⟨i', cs', h4, h5, h6, h7⟩ := hpc (by rw [hp]; decide)
        rw [hc] at h4
        simp only [List.cons.injEq, Call.use.injEq] at h4
        obtain ⟨rfl, rfl⟩ := h4
        refine reads i _ hin ⟨⟨ds ++ [.use i], by simp [hP], ?_⟩, fun hp => absurd rfl hp⟩
        intro c' hc'
        rcases List.mem_append.mp hc' with hc' | hc'
        · refine ⟨old (hds c' hc').1, fun j hj he => ?_⟩
          obtain ⟨t', ht⟩ := (hds c' hc').2 j hj he
          exact ⟨t', old ht⟩
        · simp only [List.mem_singleton] at hc'
          subst hc'
          refine ⟨here _, fun j hj he => ?_⟩
          simp only [Call.use.injEq] at hj
          subst hj
          obtain ⟨t', ht⟩ := h7 hp he
          exact ⟨t', old ht⟩

theorem inv_run {C : Cells ι V} {init : ι → V} {P : τ → List (Call ι)} (ts : List τ) {s : State τ ι V} (h : Inv C init P s) :
    Inv C init P (run C ts s) := by
  induction ts generalizing s with
  | nil => exact h
  | cons t ts ih => exact ih (inv_step h t)

/-- **C152**: when threads that share objects race.  An execution in which all calls return has a data race exactly if there is a
member that is empty at the start, that a thread uses, and that another thread uses or copies.  So there is no race if everything
that is shared was used once before the threads started, or if every thread has its own objects; and there is one, in every order of
execution, in all other cases. -/
theorem C152_race_iff (C : Cells ι V) (init : ι → V) (P : τ → List (Call ι)) (ts : List τ) (hf : Spec.Finished (run C ts (start init P))) :
    Spec.Race (run C ts (start init P)).log ↔
      ∃ i, C.empty (init i) = true ∧ ∃ t u, t ≠ u ∧ .use i ∈ P t ∧ ∃ c ∈ P u, c.cell = i := by
  have h := inv_run ts (inv_start C init P)
  generalize run C ts (start init P) = s at hf h ⊢
  constructor
  · rintro ⟨a, ha, b, hb, hne, hcell, hw | hw⟩
    · obtain ⟨h1, h2⟩ := (h.events a ha).2 hw
      exact ⟨a.cell, h2, a.thread, b.thread, hne, h1, by rw [hcell]; exact (h.events b hb).1⟩
    · obtain ⟨h1, h2⟩ := (h.events b hb).2 hw
      exact ⟨b.cell, h2, b.thread, a.thread, hne.symm, h1, by rw [← hcell]; exact (h.events a ha).1⟩
  · rintro ⟨i, he, t, u, hne, huse, c, hc, hci⟩
    have hdone : ∀ t, ∀ c ∈ P t, ⟨t, false, c.cell⟩ ∈ s.log ∧ ∀ i, c = .use i → C.empty (init i) = true → ∃ t', ⟨t', true, i⟩ ∈ s.log := by
      intro t c hc
      obtain ⟨⟨ds, h1, h2⟩, _⟩ := h.threads t
      rw [hf t, List.append_nil] at h1
      rw [h1] at hc
      exact h2 c hc
    obtain ⟨hr1, hr2⟩ := hdone t _ huse
    obtain ⟨w, hw⟩ := hr2 i rfl he
    have hu := (hdone u c hc).1
    rw [hci] at hu
    by_cases hwt : w = t
    · subst hwt
      exact ⟨_, hw, _, hu, hne, rfl, Or.inl rfl⟩
    · exact ⟨_, hw, _, hr1, hwt, rfl, Or.inl rfl⟩

/-- **C152**: at no time is there a race if everything that several threads use or copy is there before they start. -/
theorem C152_filled (C : Cells ι V) (init : ι → V) (P : τ → List (Call ι)) (ts : List τ)
    (hfill : ∀ t u, t ≠ u → ∀ i, .use i ∈ P t → (∃ c ∈ P u, c.cell = i) → C.empty (init i) = false) :
    ¬ Spec.Race (run C ts (start init P)).log := by
  have h := inv_run ts (inv_start C init P)
  generalize run C ts (start init P) = s at h ⊢
  rintro ⟨a, ha, b, hb, hne, hcell, hw | hw⟩
  · obtain ⟨h1, h2⟩ := (h.events a ha).2 hw
    rw [hfill _ _ hne _ h1 (by rw [hcell]; exact (h.events b hb).1)] at h2
    cases h2
  · obtain ⟨h1, h2⟩ := (h.events b hb).2 hw
    rw [hfill _ _ hne.symm _ h1 (by rw [← hcell]; exact (h.events a ha).1)] at h2
    cases h2

/-! ## Values -/

/-- What the calls of a thread that have returned gave. -/
def Returned (C : Cells ι V) (init : ι → V) (P : List (Call ι)) (th : Thread ι V) : Prop :=
  ∃ ds, P = ds ++ th.calls ∧ List.Forall₂ (Spec.Right C.fill init) ds th.results

theorem returned_run {C : Cells ι V} {init : ι → V} {P : τ → List (Call ι)} (hinit : ∀ i, C.empty (init i) = true ∨ init i = C.fill i)
    (ts : List τ) {s : State τ ι V} (h : Inv C init P s) (hr : ∀ t, Returned C init (P t) (s.threads t)) :
    ∀ t, Returned C init (P t) ((run C ts s).threads t) := by
  induction ts generalizing s with
  | nil => exact hr
  | cons t ts ih =>
    refine ih (inv_step h t) fun u => ?_
    have hcell : ∀ i, s.cells i = init i ∨ s.cells i = C.fill i := by
      intro i
      by_cases hw : ∃ t', ⟨t', true, i⟩ ∈ s.log
      · exact Or.inr (h.filled i hw)
      · exact Or.inl (h.kept i hw)
    obtain ⟨ds, hP, hds⟩ := hr t
    by_cases hu : u = t
    · subst hu
      cases hc : (s.threads u).calls with
      | nil => rw [step_nil hc]; exact hr u
      | cons c cs =>
        rw [hc] at hP
        cases c with
        | copy i =>
          rw [step_copy hc]
          simp only [Function.update_self]
          exact ⟨ds ++ [.copy i], by simp [hP], List.rel_append (R := Spec.Right C.fill init) hds (.cons (show Spec.Right C.fill init (.copy i) _ from hcell i) .nil)⟩
        | use i =>
          cases hp : (s.threads u).pc with
          | test =>
            rw [step_test hc hp]
            simp only [Function.update_self]
            exact ⟨ds, hP, hds⟩
          | store =>
            rw [step_store hc hp]
            simp only [Function.update_self]
            exact ⟨ds, hP, hds⟩
          | load =>
            rw [step_load hc hp]
            simp only [Function.update_self]
            refine ⟨ds ++ [.use i], by simp [hP], List.rel_append (R := Spec.Right C.fill init) hds (.cons ?_ .nil)⟩
            obtain ⟨i', cs', h4, _, _, h7⟩ := (h.threads u).pc (by rw [hp]; decide)
            rw [hc] at h4
            simp only [List.cons.injEq, Call.use.injEq] at h4
            obtain ⟨rfl, rfl⟩ := h4
            rcases hinit i with he | he
            · exact h.filled i (h7 hp he)
            · rcases hcell i with hx | hx
              · exact hx.trans he
              · exact hx
    · have : (step C s t).threads u = s.threads u := by
        cases hc : (s.threads t).calls with
        | nil => rw [step_nil hc]
        | cons c cs =>
          cases c with
          | copy i => rw [step_copy hc]; exact Function.update_of_ne hu _ _
          | use i =>
            cases hp : (s.threads t).pc with
            | test => rw [step_test hc hp]; exact Function.update_of_ne hu _ _
            | store => rw [step_store hc hp]; exact Function.update_of_ne hu _ _
            | load => rw [step_load hc hp]; exact Function.update_of_ne hu _ _
      rw [this]
      exact hr u

/-- **C152**: if the members are empty or right at the start, every call returns the right value, in any order of execution, however
often it is made. -/
theorem C152_values (C : Cells ι V) (init : ι → V) (P : τ → List (Call ι)) (ts : List τ)
    (hinit : ∀ i, C.empty (init i) = true ∨ init i = C.fill i) (t : τ)
    (hf : ((run C ts (start init P)).threads t).calls = []) :
    List.Forall₂ (Spec.Right C.fill init) (P t) ((run C ts (start init P)).threads t).results := by
  obtain ⟨ds, h1, h2⟩ := returned_run hinit ts (inv_start C init P) (fun t => ⟨[], rfl, .nil⟩) t
  rw [hf, List.append_nil] at h1
  rwa [h1]

/-! ## All calls return -/

/-- How many accesses a thread has still to make, at most. -/
def left (th : Thread ι V) : Nat :=
  3 * th.calls.length - match th.pc with | .test => 0 | .store => 1 | .load => 2

theorem left_step {C : Cells ι V} {init : ι → V} {P : τ → List (Call ι)} {s : State τ ι V} (h : Inv C init P s) (t u : τ) :
    left ((step C s t).threads u) ≤ left (s.threads u) - (if u = t then 1 else 0) := by
  by_cases hu : u = t
  · subst hu
    rw [if_pos rfl]
    cases hc : (s.threads u).calls with
    | nil =>
      rw [step_nil hc]
      simp [left, hc]
    | cons c cs =>
      have hlen : (s.threads u).calls.length = cs.length + 1 := by rw [hc]; rfl
      cases c with
      | copy i =>
        rw [step_copy hc]
        have hpc : (s.threads u).pc = .test := by
          by_contra hne
          obtain ⟨i', cs', h4, _⟩ := (h.threads u).pc hne
          rw [hc] at h4
          cases h4
        simp only [Function.update_self, left, hlen, hpc]
        omega
      | use i =>
        cases hp : (s.threads u).pc with
        | test =>
          rw [step_test hc hp]
          simp only [Function.update_self, left, hlen, hp, List.length_cons]
          by_cases he : C.empty (s.cells i) = true
          · simp only [he, if_true]; omega
          · simp only [he, if_false, Bool.false_eq_true]; omega
        | store =>
          rw [step_store hc hp]
          simp only [Function.update_self, left, hlen, hp, List.length_cons]
          omega
        | load =>
          rw [step_load hc hp]
          simp only [Function.update_self, left, hlen, hp]
          omega
  · rw [if_neg hu]
    have : (step C s t).threads u = s.threads u := by
      cases hc : (s.threads t).calls with
      | nil => rw [step_nil hc]
      | cons c cs =>
        cases c with
        | copy i => rw [step_copy hc]; exact Function.update_of_ne hu _ _
        | use i =>
          cases hp : (s.threads t).pc with
          | test => rw [step_test hc hp]; exact Function.update_of_ne hu _ _
          | store => rw [step_store hc hp]; exact Function.update_of_ne hu _ _
          | load => rw [step_load hc hp]; exact Function.update_of_ne hu _ _
    rw [this]
    omega

theorem left_run {C : Cells ι V} {init : ι → V} {P : τ → List (Call ι)} (ts : List τ) {s : State τ ι V} (h : Inv C init P s) (u : τ) :
    left ((run C ts s).threads u) ≤ left (s.threads u) - ts.count u := by
  induction ts generalizing s with
  | nil => exact Nat.le_refl _
  | cons t ts ih =>
    have h1 := ih (inv_step h t)
    have h2 := left_step h t u
    rw [run, List.count_cons]
    by_cases hu : u = t
    · subst hu
      simp only [beq_self_eq_true, if_true] at h2 ⊢
      omega
    · rw [if_neg hu] at h2
      rw [if_neg (by simpa using fun e => hu e.symm)]
      omega

/-- **C152**: no call waits for another thread: a thread that gets three turns for each of its calls finishes. -/
theorem C152_finishes (C : Cells ι V) (init : ι → V) (P : τ → List (Call ι)) (ts : List τ) (t : τ) (hts : 3 * (P t).length ≤ ts.count t) :
    ((run C ts (start init P)).threads t).calls = [] := by
  have h := left_run ts (inv_start C init P) t
  have h0 : left ((start init P : State τ ι V).threads t) = 3 * (P t).length := by simp [left, start]
  rw [h0] at h
  have h1 : left ((run C ts (start init P)).threads t) = 0 := by omega
  generalize (run C ts (start init P)).threads t = th at h1 ⊢
  rw [left] at h1
  cases hc : th.calls with
  | nil => rfl
  | cons c cs =>
    rw [hc] at h1
    simp only [List.length_cons] at h1
    cases hp : th.pc <;> rw [hp] at h1 <;> simp only at h1 <;> omega

end

/-! ## Polynomials and names -/

/-- The members `m_derivative` (`false`) and `m_indefIntegral` (`true`) of polynomials (`Polynomial.h` 77, 79). -/
def polyCells {K : Type} [Field K] (coef : ι → List K) : Cells (ι × Bool) (Option (List K)) where
  empty v := v.isNone
  fill i := some (if i.2 then MathUtils.polyIntegral (coef i.1) else MathUtils.polyDeriv (coef i.1))

/-- The members `m_hash` of names (`QualifiedName.h` 201); `h` is `std::hash<std::string>`. -/
def nameCells (h : Str.Bytes → Nat) (names : ι → XYDataset.QName) : Cells ι Nat where
  empty v := v == 0
  fill i := h (names i).qname

/-- The calls of `operator<` and `operator==` of names (`QualifiedName.cpp` 93-110). -/
def compareCalls (a b : ι) : List (Call ι) := [.use a, .use b]

/-- **C152** for polynomials: new ones that were never copied in between give their derivatives and integrals, to all threads. -/
theorem C152_polynomials {K : Type} [Field K] [DecidableEq τ] [DecidableEq ι] (coef : ι → List K) (P : τ → List (Call (ι × Bool)))
    (hP : ∀ t, ∀ c ∈ P t, ∃ i, c = .use i) (ts : List τ) (t : τ)
    (hf : ((run (polyCells coef) ts (start (fun _ => none) P)).threads t).calls = []) :
    ((run (polyCells coef) ts (start (fun _ => none) P)).threads t).results =
      (P t).map fun c => some (if c.cell.2 then MathUtils.polyIntegral (coef c.cell.1) else MathUtils.polyDeriv (coef c.cell.1)) := by
  have h := C152_values (polyCells coef) (fun _ => none) P ts (fun _ => Or.inl rfl) t hf
  have hp := hP t
  generalize P t = p at h hp
  generalize ((run (polyCells coef) ts (start (fun _ => none) P)).threads t).results = r at h
  induction h with
  | nil => rfl
  | @cons a b _ _ hr _ ih =>
    obtain ⟨i, rfl⟩ := hp a (by simp)
    rw [List.map_cons, ← ih fun c hc => hp c (by simp [hc])]
    rw [show _ = _ from hr]
    rfl

/-- **C152** for names: threads that compare names, all of which have a hash that is not zero and were used before, do not race. -/
theorem C152_names (h : Str.Bytes → Nat) [DecidableEq τ] [DecidableEq ι] (names : ι → XYDataset.QName) (P : τ → List (Call ι)) (ts : List τ)
    (hv : ∀ i, (names i).Valid h) (hz : ∀ i, h (names i).qname ≠ 0) :
    ¬ Spec.Race (run (nameCells h names) ts (start (fun i => ((names i).hashed h).mhash) P)).log := by
  refine C152_filled _ _ _ _ fun t u _ i _ _ => ?_
  have : ((names i).hashed h).mhash = h (names i).qname := (hv i).hash_eq
  simp only [nameCells, this]
  simpa using hz i

/-- A name whose hash is zero is never filled: threads that compare it race although it was used before. -/
theorem C152_zero_hash (h : Str.Bytes → Nat) [DecidableEq τ] [DecidableEq ι] (names : ι → XYDataset.QName) (P : τ → List (Call ι)) (ts : List τ)
    (hv : ∀ i, (names i).Valid h) (hf : Spec.Finished (run (nameCells h names) ts (start (fun i => ((names i).hashed h).mhash) P)))
    (i : ι) (hz : h (names i).qname = 0) (t u : τ) (hne : t ≠ u) (ht : .use i ∈ P t) (hu : .use i ∈ P u) :
    Spec.Race (run (nameCells h names) ts (start (fun i => ((names i).hashed h).mhash) P)).log := by
  refine (C152_race_iff _ _ _ _ hf).mpr ⟨i, ?_, t, u, hne, ht, _, hu, rfl⟩
  have : ((names i).hashed h).mhash = h (names i).qname := (hv i).hash_eq
  simp only [nameCells, this, hz]
  rfl

/-- **C152**, as one would wish it: `const` functions of objects that are shared do not race. -/
def C152_full : Prop := ∀ (h : Str.Bytes → Nat) (names : Bool → XYDataset.QName) (P : Bool → List (Call Bool)) (ts : List Bool),
  (∀ i, (names i).mhash = 0) → ¬ Spec.Race (run (nameCells h names) ts (start (fun i => (names i).mhash) P)).log

/-- Two threads that compare the same two new names. -/
theorem C152_violated : ¬ C152_full := by
  intro hf
  have hrun : ∀ t, 3 * ((fun _ : Bool => compareCalls false true) t).length ≤ (List.replicate 6 false ++ List.replicate 6 true).count t := by decide
  refine hf (fun _ => 7) (fun b => ⟨[], [if b then 'a' else 'b'], [if b then 'a' else 'b'], 0⟩) (fun _ => compareCalls false true)
    (List.replicate 6 false ++ List.replicate 6 true) (fun _ => rfl) ?_
  exact (C152_race_iff _ _ _ _ fun t => C152_finishes _ _ _ _ t (hrun t)).mpr ⟨false, rfl, false, true, by decide, by decide, .use false, by decide, rfl⟩

/-! ## Examples -/

/-- One thread asks a polynomial twice for its derivative and once for its integral. -/
example : ((run (polyCells fun _ : Unit => [(1 : ℚ), 2, 3]) (List.replicate 9 ()) (start (fun _ => none)
    fun _ : Unit => [.use ((), false), .use ((), true), .use ((), false)])).threads ()).results = [some [2, 6], some [0, 1, 1, 1], some [2, 6]] := by
  decide +kernel

/-- Two threads with their own polynomials do not race. -/
example (ts : List Bool) : ¬ Spec.Race (run (polyCells fun _ : Bool => [(1 : ℚ), 2, 3]) ts (start (fun _ => none)
    fun t : Bool => [.use (t, false), .use (t, true)])).log :=
  C152_filled _ _ _ _ fun t u hne i hi ⟨c, hc, hci⟩ => by
    exfalso
    simp only [List.mem_cons, Call.use.injEq, List.not_mem_nil, or_false] at hi hc
    rcases hc with rfl | rfl <;> simp only [Call.cell] at hci <;> subst hci <;> simp_all

/-- The names `a` and `b`. -/
def twoNames (b : Bool) : XYDataset.QName := ⟨[], [if b then 'b' else 'a'], [if b then 'b' else 'a'], 0⟩

theorem twoNames_valid (h : Str.Bytes → Nat) (b : Bool) : (twoNames b).Valid h := by
  cases b <;> exact ⟨fun g hg => (by cases hg), by unfold XYDataset.Spec.Part twoNames; decide, rfl, Or.inl rfl⟩

/-- Two threads compare them in different order, after they were used. -/
example (ts : List Bool) : ¬ Spec.Race (run (nameCells (fun _ => 7) twoNames) ts
    (start (fun i => ((twoNames i).hashed fun _ => 7).mhash) fun t => compareCalls t (!t))).log :=
  C152_names _ _ _ _ (twoNames_valid _) (by decide)

/-- With hashes that are zero they race all the same. -/
example : Spec.Race (run (nameCells (fun _ => 0) twoNames) (List.replicate 6 false ++ List.replicate 6 true)
    (start (fun i => ((twoNames i).hashed fun _ => 0).mhash) fun t => compareCalls t (!t))).log :=
  C152_zero_hash _ _ _ _ (twoNames_valid _) (fun t => C152_finishes _ _ _ _ t (by cases t <;> decide)) false rfl false true
    (by decide) (by decide) (by decide)

/-- Two threads that look at a new name at the same time both store, and both return the hash. -/
example : let s := run (nameCells (fun _ => 7) twoNames) [false, true, false, true, true, false] (start (fun _ => 0) fun _ : Bool => [.use false])
    (s.threads false).results = [7] ∧ (s.threads true).results = [7] ∧ (s.log.filter fun a => a.write).length = 2 := by decide

end Alexandria.Caches
