import Verif.Configuration.InstanceModel
import Mathlib.Data.List.Basic

/-!
# C165: configuration managers and threads
-/

namespace Alexandria.Configuration.Instance

/-- The managers that there are when the threads start. -/
def Spec.Started (map : Int → Option (Option Nat)) : Prop := ∀ id e, map id = some e → e ≠ none

/-- **C165**, the full statement: threads may call `getInstance` at any time; there is no data race, calls with the same id give the same
manager, and no manager that a thread has got is ever destroyed. -/
def C165_full : Prop := ∀ map made calls, Spec.Started map → ∀ is s, (State.start map made calls).run is = some s →
  (∀ i j, ¬ s.Races i j) ∧ (∀ i j id m m', (id, m) ∈ (s.threads i).got → (id, m') ∈ (s.threads j).got → m = m') ∧
  ∀ i id m, (id, m) ∈ (s.threads i).got → m ∉ s.gone

theorem run_append (s : State) : ∀ is js, s.run (is ++ js) = (s.run is).bind fun s' => s'.run js := by
  intro is
  induction is generalizing s with
  | nil => intro js; rfl
  | cons i is ih =>
    intro js
    rw [List.cons_append, State.run, State.run]
    cases s.step i with
    | none => rfl
    | some s' => exact ih s' js

/-- The id of the call that a thread is in. -/
def Pc.id? : Pc → Option Int
  | .out => none
  | .test id => some id
  | .make id => some id
  | .deref id => some id

/-- What holds in every execution. -/
structure Inv (map : Int → Option (Option Nat)) (calls : Nat → List Int) (s : State) : Prop where
  todo : ∀ i, ∀ id ∈ (s.threads i).todo, id ∈ calls i
  inCall : ∀ i id, (s.threads i).pc.id? = some id → id ∈ calls i ∧ s.map id ≠ none
  kept : ∀ id, map id ≠ none → s.map id = map id
  make : ∀ i id, (s.threads i).pc = .make id → map id = none
  deref : ∀ i id, (s.threads i).pc = .deref id → ∃ m, s.map id = some (some m)

theorem inv_start {map : Int → Option (Option Nat)} {made : Nat} {calls : Nat → List Int} : Inv map calls (State.start map made calls) := by
  constructor <;> simp [State.start, Pc.id?]

/-- The four kinds of steps. -/
inductive Did (s : State) (i : Nat) (s' : State) : Prop where
  | call (id : Int) (rest : List Int) (pc : (s.threads i).pc = .out) (todo : (s.threads i).todo = id :: rest)
      (map : s'.map = fun k => if k = id then some ((s.map id).getD none) else s.map k) (made : s'.made = s.made) (gone : s'.gone = s.gone)
      (threads : s'.threads = fun k => if k = i then { s.threads i with todo := rest, pc := .test id } else s.threads k)
  | test (id : Int) (pc : (s.threads i).pc = .test id) (map : s'.map = s.map) (made : s'.made = s.made) (gone : s'.gone = s.gone)
      (threads : s'.threads = fun k => if k = i then { s.threads i with pc := if ((s.map id).getD none).isSome then .deref id else .make id } else s.threads k)
  | make (id : Int) (pc : (s.threads i).pc = .make id) (map : s'.map = fun k => if k = id then some (some s.made) else s.map k)
      (made : s'.made = s.made + 1) (gone : s'.gone = s.gone ++ ((s.map id).getD none).toList)
      (threads : s'.threads = fun k => if k = i then { s.threads i with pc := .deref id } else s.threads k)
  | deref (id : Int) (m : Nat) (pc : (s.threads i).pc = .deref id) (there : s.map id = some (some m)) (map : s'.map = s.map) (made : s'.made = s.made)
      (gone : s'.gone = s.gone)
      (threads : s'.threads = fun k => if k = i then { s.threads i with pc := .out, got := (s.threads i).got ++ [(id, m)] } else s.threads k)

theorem isSome_getD {e : Option (Option Nat)} (h : (e.getD none).isSome = true) : ∃ m, e = some (some m) := by
  rcases e with _ | _ | m
  · cases h
  · cases h
  · exact ⟨m, rfl⟩

theorem did {s s' : State} {i : Nat} (h : s.step i = some s') : Did s i s' := by
  unfold State.step at h
  simp only at h
  cases hp : (s.threads i).pc with
  | out =>
    rw [hp] at h
    cases ht : (s.threads i).todo with
    | nil => rw [ht] at h; cases h
    | cons id rest =>
      rw [ht] at h
      simp only [Option.some.injEq] at h
      subst h
      refine .call id rest hp ht ?_ ?_ ?_ ?_
      · funext k
        cases hm : s.map id with
        | none => simp [State.setThread, State.setMap]
        | some e =>
          simp only [State.setThread, Option.getD_some]
          by_cases hk : k = id
          · rw [if_pos hk, hk, hm]
          · rw [if_neg hk]
      all_goals cases hm : s.map id <;> simp [State.setThread, State.setMap]
  | test id =>
    rw [hp] at h
    rcases hm : s.map id with _ | _ | m
    all_goals
      simp only [hm, Option.some.injEq] at h
      subst h
      refine .test id hp rfl rfl rfl ?_
      simp [State.setThread, hm]
  | make id =>
    rw [hp] at h
    rcases hm : s.map id with _ | _ | m
    all_goals
      simp only [hm, Option.some.injEq] at h
      subst h
      refine .make id hp rfl rfl ?_ rfl
      simp [State.setThread, State.setMap, hm]
  | deref id =>
    rw [hp] at h
    rcases hm : s.map id with _ | _ | m
    · simp [hm] at h
    · simp [hm] at h
    · simp only [hm, Option.some.injEq] at h
      subst h
      exact .deref id m hp hm rfl rfl rfl rfl

theorem inv_step {map : Int → Option (Option Nat)} {calls : Nat → List Int} {s s' : State} (hst : Spec.Started map) (v : Inv map calls s) {i : Nat}
    (h : s.step i = some s') : Inv map calls s' := by
  rcases did h with ⟨id, rest, pc, todo, hm, -, -, ht⟩ | ⟨id, pc, hm, -, -, ht⟩ | ⟨id, pc, hm, -, -, ht⟩ | ⟨id, m, pc, there, hm, -, -, ht⟩
  · have hid := v.todo i id (by rw [todo]; simp)
    constructor
    · intro k x hx
      rw [ht] at hx
      by_cases hk : k = i
      · subst hk
        simp only [if_true] at hx
        exact v.todo k x (by rw [todo]; simp [hx])
      · simp only [if_neg hk] at hx
        exact v.todo k x hx
    · intro k x hx
      rw [ht] at hx
      rw [hm]
      by_cases hk : k = i
      · subst hk
        simp only [if_true, Pc.id?, Option.some.injEq] at hx
        subst hx
        exact ⟨hid, by simp⟩
      · simp only [if_neg hk] at hx
        refine ⟨(v.inCall k x hx).1, ?_⟩
        by_cases hxi : x = id
        · simp [hxi]
        · simpa [hxi] using (v.inCall k x hx).2
    · intro x hx
      rw [hm]
      by_cases hxi : x = id
      · subst hxi
        simp only [if_true, v.kept x hx]
        obtain ⟨e, he⟩ := Option.ne_none_iff_exists'.1 hx
        simp [he]
      · simpa [hxi] using v.kept x hx
    · intro k x hx
      rw [ht] at hx
      by_cases hk : k = i
      · simp [hk] at hx
      · simp only [if_neg hk] at hx
        exact v.make k x hx
    · intro k x hx
      rw [ht] at hx
      by_cases hk : k = i
      · simp [hk] at hx
      · simp only [if_neg hk] at hx
        obtain ⟨m, e⟩ := v.deref k x hx
        refine ⟨m, ?_⟩
        rw [hm]
        by_cases hxi : x = id
        · subst hxi; simp [e]
        · simpa [hxi] using e
  · have hid := v.inCall i id (by rw [pc]; rfl)
    constructor
    · intro k x hx
      rw [ht] at hx
      by_cases hk : k = i
      · subst hk
        simp only [if_true] at hx
        exact v.todo k x hx
      · simp only [if_neg hk] at hx
        exact v.todo k x hx
    · intro k x hx
      rw [ht] at hx
      rw [hm]
      by_cases hk : k = i
      · subst hk
        have : x = id := by
          by_cases he : ((s.map id).getD none).isSome = true
          · simpa [he, Pc.id?, eq_comm] using hx
          · simpa [he, Pc.id?, eq_comm] using hx
        subst this
        exact hid
      · simp only [if_neg hk] at hx
        exact v.inCall k x hx
    · intro x hx
      rw [hm]
      exact v.kept x hx
    · intro k x hx
      rw [ht] at hx
      by_cases hk : k = i
      · subst hk
        by_cases he : ((s.map id).getD none).isSome = true
        · simp [he] at hx
        · simp only [if_true, if_neg he, Pc.make.injEq] at hx
          subst hx
          by_contra hne
          have h1 := v.kept id hne
          obtain ⟨e, he'⟩ := Option.ne_none_iff_exists'.1 hne
          obtain ⟨m, hm'⟩ := Option.ne_none_iff_exists'.1 (hst id e he')
          exact he (by rw [h1, he', hm']; rfl)
      · simp only [if_neg hk] at hx
        exact v.make k x hx
    · intro k x hx
      rw [ht] at hx
      rw [hm]
      by_cases hk : k = i
      · subst hk
        by_cases he : ((s.map id).getD none).isSome = true
        · simp only [if_true, if_pos he, Pc.deref.injEq] at hx
          exact hx ▸ isSome_getD he
        · simp [he] at hx
      · simp only [if_neg hk] at hx
        exact v.deref k x hx
  · have hid := v.inCall i id (by rw [pc]; rfl)
    have hn := v.make i id pc
    constructor
    · intro k x hx
      rw [ht] at hx
      by_cases hk : k = i
      · subst hk
        simp only [if_true] at hx
        exact v.todo k x hx
      · simp only [if_neg hk] at hx
        exact v.todo k x hx
    · intro k x hx
      rw [ht] at hx
      rw [hm]
      by_cases hk : k = i
      · subst hk
        simp only [if_true, Pc.id?, Option.some.injEq] at hx
        subst hx
        exact ⟨hid.1, by simp⟩
      · simp only [if_neg hk] at hx
        refine ⟨(v.inCall k x hx).1, ?_⟩
        by_cases hxi : x = id
        · simp [hxi]
        · simpa [hxi] using (v.inCall k x hx).2
    · intro x hx
      rw [hm]
      have hxi : x ≠ id := fun e => hx (e ▸ hn)
      simpa [hxi] using v.kept x hx
    · intro k x hx
      rw [ht] at hx
      by_cases hk : k = i
      · simp [hk] at hx
      · simp only [if_neg hk] at hx
        exact v.make k x hx
    · intro k x hx
      rw [ht] at hx
      rw [hm]
      by_cases hxi : x = id
      · exact ⟨s.made, by simp [hxi]⟩
      · simp only [if_neg hxi]
        by_cases hk : k = i
        · simp only [if_pos hk, Pc.deref.injEq] at hx
          exact absurd hx.symm hxi
        · simp only [if_neg hk] at hx
          exact v.deref k x hx
  · constructor
    · intro k x hx
      rw [ht] at hx
      by_cases hk : k = i
      · subst hk
        simp only [if_true] at hx
        exact v.todo k x hx
      · simp only [if_neg hk] at hx
        exact v.todo k x hx
    · intro k x hx
      rw [ht] at hx
      rw [hm]
      by_cases hk : k = i
      · simp [hk, Pc.id?] at hx
      · simp only [if_neg hk] at hx
        exact v.inCall k x hx
    · intro x hx
      rw [hm]
      exact v.kept x hx
    · intro k x hx
      rw [ht] at hx
      by_cases hk : k = i
      · simp [hk] at hx
      · simp only [if_neg hk] at hx
        exact v.make k x hx
    · intro k x hx
      rw [ht] at hx
      rw [hm]
      by_cases hk : k = i
      · simp [hk] at hx
      · simp only [if_neg hk] at hx
        exact v.deref k x hx

theorem inv_run {map : Int → Option (Option Nat)} {calls : Nat → List Int} (hst : Spec.Started map) : ∀ (is : List Nat) {s s' : State}, Inv map calls s →
    s.run is = some s' → Inv map calls s'
  | [], s, s', v, h => by cases h; exact v
  | i :: is, s, s', v, h => by
    rw [State.run] at h
    cases hs : s.step i with
    | none => rw [hs] at h; cases h
    | some s1 => rw [hs] at h; exact inv_run hst is (inv_step hst v hs) h

/-- **C165**: no call waits or fails: in every execution a thread that has not made all its calls can go on. -/
theorem C165_goes_on {map : Int → Option (Option Nat)} {made : Nat} {calls : Nat → List Int} (hst : Spec.Started map) {is : List Nat} {s : State}
    (h : (State.start map made calls).run is = some s) (i : Nat) : s.step i = none ↔ (s.threads i).pc = .out ∧ (s.threads i).todo = [] := by
  have v := inv_run hst is inv_start h
  unfold State.step
  simp only
  cases hp : (s.threads i).pc with
  | out => cases ht : (s.threads i).todo <;> simp
  | test id =>
    rcases hm : s.map id with _ | _ | m <;> simp [hm]
  | make id => simp
  | deref id =>
    obtain ⟨m, e⟩ := v.deref i id hp
    simp [e]

/-! ## Without common new ids -/

/-- What holds if no new id is used by two threads. -/
structure Alone (s : State) : Prop where
  make : ∀ i id, (s.threads i).pc = .make id → s.map id = some none
  got : ∀ i id m, (id, m) ∈ (s.threads i).got → s.map id = some (some m)
  gone : s.gone = []

theorem alone_step {map : Int → Option (Option Nat)} {calls : Nat → List Int} {s s' : State} (v : Inv map calls s)
    (hc : ∀ i j id, i ≠ j → id ∈ calls i → id ∈ calls j → map id ≠ none) (a : Alone s) {i : Nat} (h : s.step i = some s') : Alone s' := by
  rcases did h with ⟨id, rest, pc, todo, hm, -, hg, ht⟩ | ⟨id, pc, hm, -, hg, ht⟩ | ⟨id, pc, hm, -, hg, ht⟩ | ⟨id, m, pc, there, hm, -, hg, ht⟩
  · refine ⟨?_, ?_, hg.trans a.gone⟩
    · intro k x hx
      rw [ht] at hx
      by_cases hk : k = i
      · simp [hk] at hx
      · simp only [if_neg hk] at hx
        have := a.make k x hx
        rw [hm]
        by_cases hxi : x = id
        · subst hxi; simp [this]
        · simpa [hxi] using this
    · intro k x m hx
      have : s.map x = some (some m) := by
        rw [ht] at hx
        by_cases hk : k = i
        · simp only [if_pos hk] at hx
          exact a.got i x m hx
        · simp only [if_neg hk] at hx
          exact a.got k x m hx
      rw [hm]
      by_cases hxi : x = id
      · subst hxi; simp [this]
      · simpa [hxi] using this
  · refine ⟨?_, ?_, hg.trans a.gone⟩
    · intro k x hx
      rw [ht] at hx
      rw [hm]
      by_cases hk : k = i
      · by_cases he : ((s.map id).getD none).isSome = true
        · simp [hk, he] at hx
        · simp only [if_pos hk, if_neg he, Pc.make.injEq] at hx
          subst hx
          have := (v.inCall i id (by rw [pc]; rfl)).2
          rcases hmm : s.map id with _ | _ | m
          · exact absurd hmm this
          · rfl
          · exact absurd (by rw [hmm]; rfl) he
      · simp only [if_neg hk] at hx
        exact a.make k x hx
    · intro k x m hx
      rw [ht] at hx
      rw [hm]
      by_cases hk : k = i
      · simp only [if_pos hk] at hx
        exact a.got i x m hx
      · simp only [if_neg hk] at hx
        exact a.got k x m hx
  · have hnull := a.make i id pc
    have hnew := v.make i id pc
    have hid := (v.inCall i id (by rw [pc]; rfl)).1
    refine ⟨?_, ?_, by rw [hg, hnull]; simpa using a.gone⟩
    · intro k x hx
      rw [ht] at hx
      by_cases hk : k = i
      · simp [hk] at hx
      · simp only [if_neg hk] at hx
        have hxi : x ≠ id := by
          rintro rfl
          exact hc k i x hk (v.inCall k x (by rw [hx]; rfl)).1 hid hnew
        rw [hm]
        simpa [hxi] using a.make k x hx
    · intro k x m hx
      have : s.map x = some (some m) := by
        rw [ht] at hx
        by_cases hk : k = i
        · simp only [if_pos hk] at hx
          exact a.got i x m hx
        · simp only [if_neg hk] at hx
          exact a.got k x m hx
      have hxi : x ≠ id := by
        rintro rfl
        rw [hnull] at this
        cases this
      rw [hm]
      simpa [hxi] using this
  · refine ⟨?_, ?_, hg.trans a.gone⟩
    · intro k x hx
      rw [ht] at hx
      rw [hm]
      by_cases hk : k = i
      · simp [hk] at hx
      · simp only [if_neg hk] at hx
        exact a.make k x hx
    · intro k x m' hx
      rw [ht] at hx
      rw [hm]
      by_cases hk : k = i
      · simp only [if_pos hk, List.mem_append, List.mem_singleton, Prod.mk.injEq] at hx
        rcases hx with hx | ⟨rfl, rfl⟩
        · exact a.got i x m' hx
        · exact there
      · simp only [if_neg hk] at hx
        exact a.got k x m' hx

theorem alone_run {map : Int → Option (Option Nat)} {calls : Nat → List Int} (hst : Spec.Started map)
    (hc : ∀ i j id, i ≠ j → id ∈ calls i → id ∈ calls j → map id ≠ none) : ∀ (is : List Nat) {s s' : State}, Inv map calls s → Alone s →
    s.run is = some s' → Alone s'
  | [], s, s', _, a, h => by cases h; exact a
  | i :: is, s, s', v, a, h => by
    rw [State.run] at h
    cases hs : s.step i with
    | none => rw [hs] at h; cases h
    | some s1 => rw [hs] at h; exact alone_run hst hc is (inv_step hst v hs) (alone_step v hc a hs) h

/-- **C165**, partial: if threads have in common only ids that have managers from the start, then (the steps taking effect at once) calls with the
same id give the same manager, the one there was if there was one, and no manager is ever destroyed. -/
theorem C165_same_partial {map : Int → Option (Option Nat)} {made : Nat} {calls : Nat → List Int} (hst : Spec.Started map)
    (hc : ∀ i j id, i ≠ j → id ∈ calls i → id ∈ calls j → map id ≠ none) {is : List Nat} {s : State}
    (h : (State.start map made calls).run is = some s) :
    s.gone = [] ∧ (∀ i j id m m', (id, m) ∈ (s.threads i).got → (id, m') ∈ (s.threads j).got → m = m') ∧
      ∀ i id m e, (id, m) ∈ (s.threads i).got → map id = some e → e = some m := by
  have v := inv_run hst is inv_start h
  have a := alone_run hst hc is inv_start ⟨by simp [State.start], by simp [State.start], rfl⟩ h
  refine ⟨a.gone, ?_, ?_⟩
  · intro i j id m m' h1 h2
    have := (a.got i id m h1).symm.trans (a.got j id m' h2)
    simpa using this
  · intro i id m e h1 h2
    have h3 := v.kept id (by rw [h2]; simp)
    rw [a.got i id m h1, h2] at h3
    simpa using h3.symm

/-! ## Exactly when a manager is destroyed -/

/-- A thread that runs alone makes its calls up to a given one; nothing that belongs to the others changes, nor the entries of other ids. -/
theorem run_calls (i : Nat) (id : Int) (after : List Int) : ∀ (before : List Int) (s : State), (s.threads i).pc = .out →
    (s.threads i).todo = before ++ id :: after → id ∉ before →
    ∃ is s', s.run is = some s' ∧ (s'.threads i).pc = .out ∧ (s'.threads i).todo = id :: after ∧ s'.map id = s.map id ∧
      (∀ k, k ≠ i → s'.threads k = s.threads k)
  | [], s, hp, ht, _ => ⟨[], s, rfl, hp, ht, rfl, fun _ _ => rfl⟩
  | x :: before, s, hp, ht, hn => by
    have hx : id ≠ x := fun e => hn (by simp [e])
    -- the call of `x`
    obtain ⟨is1, s1, r1, p1, t1, m1, k1⟩ : ∃ is s1, s.run is = some s1 ∧ (s1.threads i).pc = .out ∧ (s1.threads i).todo = before ++ id :: after ∧
        s1.map id = s.map id ∧ (∀ k, k ≠ i → s1.threads k = s.threads k) := by
      rcases hm : s.map x with _ | _ | m
      · refine ⟨[i, i, i, i], ?_⟩
        simp +contextual [State.run, State.step, hp, ht, hm, State.setMap, State.setThread, hx]
      · refine ⟨[i, i, i, i], ?_⟩
        simp +contextual [State.run, State.step, hp, ht, hm, State.setMap, State.setThread, hx]
      · refine ⟨[i, i, i], ?_⟩
        simp +contextual [State.run, State.step, hp, ht, hm, State.setThread]
    obtain ⟨is2, s2, r2, p2, t2, m2, k2⟩ := run_calls i id after before s1 p1 t1 (fun h => hn (by simp [h]))
    exact ⟨is1 ++ is2, s2, by rw [run_append, r1]; exact r2, p2, t2, m2.trans m1, fun k hk => (k2 k hk).trans (k1 k hk)⟩

/-- Both threads have found a null pointer: the manager that the first one gets is destroyed by the second one. -/
theorem overtaken (s : State) (i j : Nat) (id : Int) (after : List Int) (hij : i ≠ j) (hi : (s.threads i).pc = .make id) (hj : (s.threads j).pc = .out)
    (hjt : (s.threads j).todo = id :: after) (hm : s.map id = some none) :
    ∃ s', s.run [j, j, i, i, j] = some s' ∧ (id, s.made) ∈ (s'.threads i).got ∧ s.made ∈ s'.gone := by
  simp [State.run, State.step, hi, hj, hjt, hm, State.setMap, State.setThread, hij, hij.symm]

/-- **C165**, exactly when a manager that a thread has got may be destroyed: there are threads that call `getInstance` with an id in common for
which there is no manager at the start. -/
theorem C165_destroyed_iff {map : Int → Option (Option Nat)} {made : Nat} {calls : Nat → List Int} (hst : Spec.Started map) :
    (∃ is s i id m, (State.start map made calls).run is = some s ∧ (id, m) ∈ (s.threads i).got ∧ m ∈ s.gone) ↔
      ∃ i j id, i ≠ j ∧ id ∈ calls i ∧ id ∈ calls j ∧ map id = none := by
  constructor
  · rintro ⟨is, s, i, id, m, h, h1, h2⟩
    by_contra hno
    have := (C165_same_partial hst (fun i j id hij hi hj hn => hno ⟨i, j, id, hij, hi, hj, hn⟩) h).1
    rw [this] at h2
    cases h2
  · rintro ⟨i, j, id, hij, hi, hj, hn⟩
    obtain ⟨b1, a1, e1, n1⟩ := List.eq_append_cons_of_mem hi
    obtain ⟨b2, a2, e2, n2⟩ := List.eq_append_cons_of_mem hj
    obtain ⟨is1, s1, r1, p1, t1, m1, k1⟩ := run_calls i id a1 b1 (State.start map made calls) rfl e1 n1
    have hm1 : s1.map id = none := m1.trans hn
    obtain ⟨s2, r2, p2, m2, k2⟩ : ∃ s2, s1.run [i, i] = some s2 ∧ (s2.threads i).pc = .make id ∧ s2.map id = some none ∧
        ∀ k, k ≠ i → s2.threads k = s1.threads k := by
      simp +contextual [State.run, State.step, p1, t1, hm1, State.setMap, State.setThread]
    have hj2 : s2.threads j = ⟨calls j, .out, []⟩ := (k2 j hij.symm).trans (k1 j hij.symm)
    obtain ⟨is3, s3, r3, p3, t3, m3, k3⟩ := run_calls j id a2 b2 s2 (by rw [hj2]) (by rw [hj2]; exact e2) n2
    obtain ⟨s4, r4, g4, d4⟩ := overtaken s3 i j id a2 hij (by rw [k3 i hij]; exact p2) p3 t3 (m3.trans m2)
    refine ⟨is1 ++ ([i, i] ++ (is3 ++ [j, j, i, i, j])), s4, i, id, s3.made, ?_, g4, d4⟩
    rw [run_append, r1, Option.bind_some, run_append, r2, Option.bind_some, run_append, r3, Option.bind_some, r4]

/-! ## Exactly when there is a data race -/

theorem access_spec {map : Int → Option (Option Nat)} {calls : Nat → List Int} {s : State} (v : Inv map calls s) {i : Nat} {a : Access}
    (h : s.access i = some a) : calls i ≠ [] ∧ ((a = .tree true ∨ ∃ id, a = .pointer id true) → ∃ id ∈ calls i, map id = none) := by
  unfold State.access at h
  simp only at h
  cases hp : (s.threads i).pc with
  | out =>
    rw [hp] at h
    cases ht : (s.threads i).todo with
    | nil => rw [ht] at h; cases h
    | cons id rest =>
      rw [ht] at h
      simp only [Option.some.injEq] at h
      subst h
      have hid := v.todo i id (by rw [ht]; simp)
      refine ⟨List.ne_nil_of_mem hid, ?_⟩
      rintro (e | ⟨x, e⟩)
      · simp only [Access.tree.injEq, Option.isNone_iff_eq_none] at e
        refine ⟨id, hid, ?_⟩
        by_contra hne
        exact hne ((v.kept id hne).symm.trans e)
      · cases e
  | test id =>
    rw [hp] at h
    simp only [Option.some.injEq] at h
    subst h
    exact ⟨List.ne_nil_of_mem (v.inCall i id (by rw [hp]; rfl)).1, by simp⟩
  | make id =>
    have hid := (v.inCall i id (by rw [hp]; rfl)).1
    exact ⟨List.ne_nil_of_mem hid, fun _ => ⟨id, hid, v.make i id hp⟩⟩
  | deref id =>
    rw [hp] at h
    simp only [Option.some.injEq] at h
    subst h
    exact ⟨List.ne_nil_of_mem (v.inCall i id (by rw [hp]; rfl)).1, by simp⟩

theorem conflict_write {a b : Access} (h : a.conflict b = true) :
    (a = .tree true ∨ ∃ id, a = .pointer id true) ∨ b = .tree true ∨ ∃ id, b = .pointer id true := by
  cases a with
  | tree x =>
    cases b with
    | tree y => cases x <;> cases y <;> simp_all [Access.conflict]
    | pointer l y => cases h
  | pointer k x =>
    cases b with
    | tree y => cases h
    | pointer l y => cases x <;> cases y <;> simp_all [Access.conflict]

/-- **C165**, exactly when there is a data race: some thread uses an id for which there is no manager at the start, and another thread calls the
function at all, with whatever id. -/
theorem C165_race_iff {map : Int → Option (Option Nat)} {made : Nat} {calls : Nat → List Int} (hst : Spec.Started map) :
    (∃ is s i j, (State.start map made calls).run is = some s ∧ s.Races i j) ↔ ∃ i j id, i ≠ j ∧ id ∈ calls i ∧ map id = none ∧ calls j ≠ [] := by
  constructor
  · rintro ⟨is, s, i, j, h, hij, a, b, ha, hb, hc⟩
    have v := inv_run hst is inv_start h
    obtain ⟨a1, a2⟩ := access_spec v ha
    obtain ⟨b1, b2⟩ := access_spec v hb
    rcases conflict_write hc with hw | hw
    · obtain ⟨id, h1, h2⟩ := a2 hw
      exact ⟨i, j, id, hij, h1, h2, b1⟩
    · obtain ⟨id, h1, h2⟩ := b2 hw
      exact ⟨j, i, id, hij.symm, h1, h2, a1⟩
  · rintro ⟨i, j, id, hij, hi, hn, hj⟩
    obtain ⟨b1, a1, e1, n1⟩ := List.eq_append_cons_of_mem hi
    obtain ⟨is1, s1, r1, p1, t1, m1, k1⟩ := run_calls i id a1 b1 (State.start map made calls) rfl e1 n1
    have hm1 : s1.map id = none := m1.trans hn
    have hj1 : s1.threads j = ⟨calls j, .out, []⟩ := k1 j hij.symm
    obtain ⟨x, rest, hx⟩ := List.exists_cons_of_ne_nil hj
    refine ⟨is1, s1, i, j, r1, hij, .tree true, .tree (s1.map x).isNone, ?_, ?_, by simp [Access.conflict]⟩
    · simp [State.access, p1, t1, hm1]
    · simp [State.access, hj1, hx]

theorem access_pointer {map : Int → Option (Option Nat)} {calls : Nat → List Int} {s : State} (v : Inv map calls s) {i : Nat} {id : Int} {w : Bool}
    (h : s.access i = some (.pointer id w)) : id ∈ calls i ∧ (w = true → map id = none) := by
  unfold State.access at h
  simp only at h
  cases hp : (s.threads i).pc with
  | out =>
    rw [hp] at h
    cases ht : (s.threads i).todo with
    | nil => rw [ht] at h; cases h
    | cons x rest => rw [ht] at h; simp at h
  | test x =>
    rw [hp] at h
    simp only [Option.some.injEq, Access.pointer.injEq] at h
    obtain ⟨rfl, rfl⟩ := h
    exact ⟨(v.inCall i x (by rw [hp]; rfl)).1, fun e => by cases e⟩
  | make x =>
    rw [hp] at h
    simp only [Option.some.injEq, Access.pointer.injEq] at h
    obtain ⟨rfl, rfl⟩ := h
    exact ⟨(v.inCall i x (by rw [hp]; rfl)).1, fun _ => v.make i x hp⟩
  | deref x =>
    rw [hp] at h
    simp only [Option.some.injEq, Access.pointer.injEq] at h
    obtain ⟨rfl, rfl⟩ := h
    exact ⟨(v.inCall i x (by rw [hp]; rfl)).1, fun e => by cases e⟩

/-- **C165**, exactly when there is a data race on one of the pointers in the map, so that locking the map alone would not help: two threads use an id in common for which there is
no manager at the start. -/
theorem C165_pointer_race_iff {map : Int → Option (Option Nat)} {made : Nat} {calls : Nat → List Int} (hst : Spec.Started map) :
    (∃ is s i j k l v w, (State.start map made calls).run is = some s ∧ i ≠ j ∧ s.access i = some (.pointer k v) ∧ s.access j = some (.pointer l w) ∧
      (Access.pointer k v).conflict (.pointer l w) = true) ↔ ∃ i j id, i ≠ j ∧ id ∈ calls i ∧ id ∈ calls j ∧ map id = none := by
  constructor
  · rintro ⟨is, s, i, j, k, l, x, y, h, hij, ha, hb, hc⟩
    have v := inv_run hst is inv_start h
    obtain ⟨a1, a2⟩ := access_pointer v ha
    obtain ⟨b1, b2⟩ := access_pointer v hb
    simp only [Access.conflict, Bool.and_eq_true, beq_iff_eq, Bool.or_eq_true] at hc
    obtain ⟨rfl, hc | hc⟩ := hc
    · exact ⟨i, j, k, hij, a1, b1, a2 hc⟩
    · exact ⟨i, j, k, hij, a1, b1, b2 hc⟩
  · rintro ⟨i, j, id, hij, hi, hj, hn⟩
    obtain ⟨b1, a1, e1, n1⟩ := List.eq_append_cons_of_mem hi
    obtain ⟨b2, a2, e2, n2⟩ := List.eq_append_cons_of_mem hj
    obtain ⟨is1, s1, r1, p1, t1, m1, k1⟩ := run_calls i id a1 b1 (State.start map made calls) rfl e1 n1
    have hm1 : s1.map id = none := m1.trans hn
    obtain ⟨s2, r2, p2, m2, k2⟩ : ∃ s2, s1.run [i, i] = some s2 ∧ (s2.threads i).pc = .make id ∧ s2.map id = some none ∧
        ∀ k, k ≠ i → s2.threads k = s1.threads k := by
      simp +contextual [State.run, State.step, p1, t1, hm1, State.setMap, State.setThread]
    have hj2 : s2.threads j = ⟨calls j, .out, []⟩ := (k2 j hij.symm).trans (k1 j hij.symm)
    obtain ⟨is3, s3, r3, p3, t3, m3, k3⟩ := run_calls j id a2 b2 s2 (by rw [hj2]) (by rw [hj2]; exact e2) n2
    have hm3 : s3.map id = some none := m3.trans m2
    have hi3 : (s3.threads i).pc = .make id := by rw [k3 i hij]; exact p2
    obtain ⟨s4, r4, p4, q4⟩ : ∃ s4, s3.run [j] = some s4 ∧ (s4.threads i).pc = .make id ∧ (s4.threads j).pc = .test id := by
      simp [State.run, State.step, p3, t3, hm3, hi3, State.setThread, hij]
    refine ⟨is1 ++ ([i, i] ++ (is3 ++ [j])), s4, i, j, id, id, true, false, ?_, hij, ?_, ?_, by simp [Access.conflict]⟩
    · rw [run_append, r1, Option.bind_some, run_append, r2, Option.bind_some, run_append, r3, Option.bind_some, r4]
    · simp [State.access, p4]
    · simp [State.access, q4]

/-- **C165** fails: two threads that ask for the first manager. -/
theorem C165_violated : ¬ C165_full := by
  intro h
  have hst : Spec.Started (fun _ => none) := by intro id e he; cases he
  obtain ⟨is, s, i, j, hr, hs⟩ := (C165_race_iff (made := 0) (calls := fun i => if i < 2 then [7] else []) hst).2 ⟨0, 1, 7, by simp, by simp, rfl, by simp⟩
  exact (h _ _ _ hst is s hr).1 i j hs

/-- Managers 0 and 1 of the ids 5 and 6; two threads that use these and an id of their own each. -/
example : ∃ s, (State.start (fun k => if k = 5 then some (some 0) else if k = 6 then some (some 1) else none) 2
      (fun i => if i = 0 then [5, 8] else if i = 1 then [9, 5] else [])).run [1, 0, 1, 1, 0, 1, 0, 0, 0, 1, 0, 0, 1, 1] = some s ∧
    (s.threads 0).got = [(5, 0), (8, 3)] ∧ (s.threads 1).got = [(9, 2), (5, 0)] ∧ s.gone = [] := ⟨_, rfl, rfl, rfl, rfl⟩

/-- Two threads that ask for id 7: the first gets manager 0, which the second destroys. -/
example : ∃ s, (State.start (fun _ => none) 0 (fun i => if i < 2 then [7] else [])).run [0, 0, 1, 1, 0, 0, 1, 1] = some s ∧
    (s.threads 0).got = [(7, 0)] ∧ (s.threads 1).got = [(7, 1)] ∧ s.gone = [0] := ⟨_, rfl, rfl, rfl, rfl⟩

end Alexandria.Configuration.Instance
