import Verif.Configuration.Props2

/-! # Exactly in which state configurations are handed out (C88) -/

namespace Alexandria.Configuration

/-- The configuration a hook is called of. -/
def Event.of : Event → Id
  | pre i => i
  | init i => i
  | post i => i

/-- The state in which a hook leaves a configuration. -/
def Spec.leaves : Event → CState
  | .pre _ => .preInitialized
  | .init _ => .initialized
  | .post _ => .final

/-- The state of a configuration: that of its last hook that has returned. -/
def Spec.reached (ok : Event → Bool) (calls : List Event) (t : Id) : CState :=
  match (calls.filter fun e => decide (e.of = t) && ok e).getLast? with
  | none => .constructed
  | some e => Spec.leaves e

theorem reached_add (ok : Event → Bool) (calls : List Event) (e : Event) (t : Id) :
    Spec.reached ok (calls ++ [e]) t = if e.of = t ∧ ok e = true then Spec.leaves e else Spec.reached ok calls t := by
  unfold Spec.reached
  rw [List.filter_append]
  by_cases h : e.of = t ∧ ok e = true
  · rw [if_pos h, List.filter_cons_of_pos (by simp [h.1, h.2]), List.filter_nil, List.getLast?_concat]
  · rw [if_neg h, List.filter_cons_of_neg (by simpa using h), List.filter_nil, List.append_nil]

/-- The states are those of the calls, and while configurations are registered there have been none. -/
structure Lived (p : Program) (m : Manager) : Prop where
  states : ∀ t, m.states t = Spec.reached p.hookOk m.trace t
  begin : m.state = .registration → m.trace = []

theorem callHook_states {p : Program} {m : Manager} (h : ∀ t, m.states t = Spec.reached p.hookOk m.trace t) {e : Event} {i : Id} (hi : e.of = i) :
    ∀ t, (callHook p e i (Spec.leaves e) m).1.states t = Spec.reached p.hookOk (callHook p e i (Spec.leaves e) m).1.trace t := by
  intro t
  unfold callHook
  by_cases hk : p.hookOk e = true
  · simp only [hk, if_true, reached_add, hi, and_true]
    by_cases ht : t = i
    · rw [if_pos ht, if_pos ht.symm]
    · rw [if_neg ht, if_neg (Ne.symm ht)]; exact h t
  · simp only [hk, if_false, reached_add, and_false, Bool.false_eq_true]; exact h t

theorem forAll_states {p : Program} {f : Id → Manager → Option (Manager × Bool)}
    (hf : ∀ i m r, (∀ t, m.states t = Spec.reached p.hookOk m.trace t) → f i m = some r → ∀ t, r.1.states t = Spec.reached p.hookOk r.1.trace t) (ds : List Id) :
    ∀ (m : Manager) (r : Manager × Bool), (∀ t, m.states t = Spec.reached p.hookOk m.trace t) → forAll f ds m = some r →
      ∀ t, r.1.states t = Spec.reached p.hookOk r.1.trace t := by
  induction ds with
  | nil => intro m r h hr; cases hr; exact h
  | cons d ds ih =>
    intro m r h hr
    rw [forAll] at hr
    cases hd : f d m with
    | none => rw [hd] at hr; cases hr
    | some o =>
      obtain ⟨m1, b⟩ := o
      have h1 := hf d m _ h hd
      rw [hd] at hr
      cases b with
      | true => exact ih m1 r h1 hr
      | false => cases hr; exact h1

theorem recInit_states {p : Program} (fuel : Nat) : ∀ (i : Id) (m : Manager) (r : Manager × Bool), (∀ t, m.states t = Spec.reached p.hookOk m.trace t) →
    recInit p fuel i m = some r → ∀ t, r.1.states t = Spec.reached p.hookOk r.1.trace t := by
  induction fuel with
  | zero => intro i m r _ h; cases h
  | succ fuel ih =>
    intro i m r hm h
    rw [recInit] at h
    by_cases h1 : i ∉ m.dict
    · rw [if_pos h1] at h; cases h; exact hm
    rw [if_neg h1] at h
    by_cases h2 : (m.states i).rank ≥ 2
    · rw [if_pos h2] at h; cases h; exact hm
    rw [if_neg h2] at h
    cases hd : m.dep i with
    | none => rw [hd] at h; cases h; exact hm
    | some ds =>
      rw [hd] at h
      simp only at h
      cases hf : forAll (recInit p fuel) ds m with
      | none => rw [hf] at h; cases h
      | some o =>
        have h3 := forAll_states ih ds m o hm hf
        obtain ⟨m1, b⟩ := o
        rw [hf] at h
        cases b with
        | true =>
          simp only [Option.some.injEq] at h
          subst h
          exact callHook_states (e := .init i) h3 rfl
        | false => cases h; exact h3

theorem initAll_states {p : Program} {fuel : Nat} {m : Manager} {r : Manager × Bool} (hm : ∀ t, m.states t = Spec.reached p.hookOk m.trace t)
    (h : initAll p fuel m = some r) : ∀ t, r.1.states t = Spec.reached p.hookOk r.1.trace t := by
  have hk : ∀ (ev : Id → Event), (∀ i, (ev i).of = i) → ∀ (i : Id) (m : Manager) (r : Manager × Bool), (∀ t, m.states t = Spec.reached p.hookOk m.trace t) →
      some (callHook p (ev i) i (Spec.leaves (ev i)) m) = some r → ∀ t, r.1.states t = Spec.reached p.hookOk r.1.trace t := by
    intro ev hev i m r hm h
    cases h
    exact callHook_states hm (hev i)
  unfold initAll at h
  cases h1 : forAll (fun i m => some (callHook p (.pre i) i .preInitialized m)) m.dict { m with state := .initialized } with
  | none => rw [h1] at h; cases h
  | some o1 =>
    have k1 := forAll_states (hk Event.pre fun _ => rfl) m.dict { m with state := .initialized } o1 hm h1
    obtain ⟨m1, b1⟩ := o1
    rw [h1] at h
    cases b1 with
    | false => cases h; exact k1
    | true =>
      simp only at h
      cases h2 : forAll (recInit p fuel) m.dict m1 with
      | none => rw [h2] at h; cases h
      | some o2 =>
        have k2 := forAll_states (recInit_states fuel) _ _ _ k1 h2
        obtain ⟨m2, b2⟩ := o2
        rw [h2] at h
        cases b2 with
        | false => cases h; exact k2
        | true => exact forAll_states (hk Event.post fun _ => rfl) _ _ _ k2 h

theorem register_lived {p : Program} (fuel : Nat) : ∀ (u : Id) (m : Manager) (r : Manager × Bool), Lived p m → register p fuel u m = some r → Lived p r.1 := by
  induction fuel with
  | zero => intro u m r _ h; cases h
  | succ fuel ih =>
    intro u m r hm h
    rw [register] at h
    by_cases hs : m.state ≠ .registration
    · rw [if_pos hs] at h; cases h; exact hm
    rw [if_neg hs] at h
    by_cases hb : u ∈ m.built
    · rw [if_pos hb] at h; cases h; exact hm
    rw [if_neg hb] at h
    have hs' := not_not.mp hs
    have loop : ∀ (ds : List Id) (m : Manager) (r : Manager × Bool), Lived p m ∧ m.trace = [] → declareAll (register p fuel) ds m = some r →
        Lived p r.1 ∧ r.1.trace = [] := by
      intro ds
      induction ds with
      | nil => intro m r hm h; cases h; exact hm
      | cons d ds ihd =>
        intro m r hm h
        rw [declareAll] at h
        cases hrr : register p fuel d m with
        | none => rw [hrr] at h; cases h
        | some o =>
          have h1 := ih d m o hm.1 hrr
          have h2 : o.1.trace = [] := by
            have := register_trace p fuel d m o hrr
            rw [this]; exact hm.2
          obtain ⟨m1, c⟩ := o
          rw [hrr] at h
          cases c with
          | true => exact ihd m1 r ⟨h1, h2⟩ h
          | false => cases h; exact ⟨h1, h2⟩
    cases hd : declareAll (register p fuel) (p.decl u) { m with dict := setInsert u m.dict } with
    | none => rw [hd] at h; cases h
    | some o =>
      obtain ⟨h1, h2⟩ := loop _ { m with dict := setInsert u m.dict } o ⟨⟨hm.states, hm.begin⟩, hm.begin hs'⟩ hd
      obtain ⟨m1, c⟩ := o
      rw [hd] at h
      cases c with
      | false => cases h; exact h1
      | true =>
        simp only at h h1 h2
        by_cases hk : p.ctorOk u = true
        · rw [if_pos hk] at h
          cases h
          refine ⟨fun t => ?_, h1.begin⟩
          simp only
          by_cases ht : t = u
          · rw [if_pos ht, h2]; rfl
          · rw [if_neg ht]; exact h1.states t
        · rw [if_neg hk] at h; cases h; exact h1
where
  register_trace (p : Program) (fuel : Nat) (u : Id) (m : Manager) (r : Manager × Bool) (h : register p fuel u m = some r) : r.1.trace = m.trace := by
    induction fuel generalizing u m r with
    | zero => cases h
    | succ fuel ih =>
      rw [register] at h
      by_cases hs : m.state ≠ .registration
      · rw [if_pos hs] at h; cases h; rfl
      rw [if_neg hs] at h
      by_cases hb : u ∈ m.built
      · rw [if_pos hb] at h; cases h; rfl
      rw [if_neg hb] at h
      have loop : ∀ (ds : List Id) (m : Manager) (r : Manager × Bool), declareAll (register p fuel) ds m = some r → r.1.trace = m.trace := by
        intro ds
        induction ds with
        | nil => intro m r h; cases h; rfl
        | cons d ds ihd =>
          intro m r h
          rw [declareAll] at h
          cases hrr : register p fuel d m with
          | none => rw [hrr] at h; cases h
          | some o =>
            have h1 := ih d m o hrr
            obtain ⟨m1, c⟩ := o
            rw [hrr] at h
            cases c with
            | true => exact (ihd m1 r h).trans h1
            | false => cases h; exact h1
      cases hd : declareAll (register p fuel) (p.decl u) { m with dict := setInsert u m.dict } with
      | none => rw [hd] at h; cases h
      | some o =>
        have h1 := loop _ _ _ hd
        obtain ⟨m1, c⟩ := o
        rw [hd] at h
        cases c with
        | false => cases h; exact h1
        | true =>
          simp only at h
          by_cases hk : p.ctorOk u = true
          · rw [if_pos hk] at h; cases h; exact h1
          · rw [if_neg hk] at h; cases h; exact h1

theorem step_lived {p : Program} {fuel : Nat} {m m' : Manager} {o : Op} {r : Reply} (hm : Lived p m) (h : step p fuel m o = some (m', r)) : Lived p m' := by
  cases o with
  | register t =>
    simp only [step] at h
    cases hr : register p fuel t m with
    | none => rw [hr] at h; cases h
    | some q =>
      have := register_lived fuel t m q hm hr
      obtain ⟨m1, b⟩ := q
      rw [hr] at h
      cases b <;> (cases h; exact this)
  | registerDep a b =>
    simp only [step, registerDep] at h
    by_cases hs : m.state ≠ .registration
    · simp only [if_pos hs] at h; cases h; exact hm
    · simp only [if_neg hs] at h; cases h; exact ⟨hm.states, hm.begin⟩
  | close =>
    simp only [step] at h
    cases hc : close p fuel m with
    | none => rw [hc] at h; cases h
    | some q =>
      have hk := close_keeps p fuel m q hc
      have hst : q.1.states = m.states ∧ q.1.trace = m.trace := by
        unfold close at hc
        simp only at hc
        split at hc
        · split at hc
          · cases hc; exact ⟨rfl, rfl⟩
          · cases hc
        · cases hc; exact ⟨rfl, rfl⟩
      have hI : Lived p q.1 := ⟨fun t => by rw [hst.1, hst.2]; exact hm.states t, fun e => by rw [hk.1] at e; cases e⟩
      obtain ⟨m1, u⟩ := q
      rw [hc] at h
      cases u with
      | ok u => cases h; exact hI
      | throw e => cases h; exact hI
      | ub => cases h
  | init =>
    simp only [step] at h
    cases hc : initAll p fuel m with
    | none => rw [hc] at h; cases h
    | some q =>
      have hk := initAll_keeps p fuel m q hc
      have hI : Lived p q.1 := ⟨initAll_states hm.states hc, fun e => by rw [hk.1] at e; cases e⟩
      obtain ⟨m1, b⟩ := q
      rw [hc] at h
      cases b <;> (cases h; exact hI)
  | get t =>
    simp only [step] at h
    cases hg : get m t with
    | ok s => rw [hg] at h; cases h; exact hm
    | throw e => rw [hg] at h; cases h; exact hm
    | ub => rw [hg] at h; cases h

/-- **C88 (which configurations are handed out).** After any sequence of calls, whatever has thrown and however often `initialize` was called, a configuration that
`getConfiguration` returns is in the state of its last hook that has returned. -/
theorem C88_handed (p : Program) (fuel : Nat) (ops : List Op) (m : Manager) (rs : List (Op × Reply)) (h : run p fuel {} ops = some (m, rs)) (t : Id) (s : CState)
    (hg : get m t = .ok s) : s = Spec.reached p.hookOk m.trace t := by
  have gen : ∀ (ops : List Op) (m0 m : Manager) (rs : List (Op × Reply)), Lived p m0 → run p fuel m0 ops = some (m, rs) → Lived p m := by
    intro ops
    induction ops with
    | nil => intro m0 m rs hI h; cases h; exact hI
    | cons o os ih =>
      intro m0 m rs hI h
      rw [run] at h
      cases hst : step p fuel m0 o with
      | none => rw [hst] at h; cases h
      | some o1 =>
        obtain ⟨m1, r⟩ := o1
        rw [hst] at h
        simp only at h
        cases hr : run p fuel m1 os with
        | none => rw [hr] at h; cases h
        | some o2 =>
          obtain ⟨m2, rs2⟩ := o2
          rw [hr] at h
          cases h
          exact ih m1 m rs2 (step_lived hI hst) hr
  have hI := gen ops {} m rs ⟨fun t => rfl, fun _ => rfl⟩ h
  unfold get at hg
  by_cases h1 : m.state ≠ .initialized
  · rw [if_pos h1] at hg; cases hg
  rw [if_neg h1] at hg
  by_cases h2 : t ∉ m.dict
  · rw [if_pos h2] at hg; cases hg
  rw [if_neg h2] at hg
  by_cases h3 : t ∉ m.built
  · rw [if_pos h3] at hg; cases hg
  rw [if_neg h3] at hg
  cases hg
  exact hI.states t

/-- **C88 (exactly the final ones).** So it is fully initialised exactly if `postInitialize` is the last of its hooks that has returned. -/
theorem C88_final_iff (p : Program) (fuel : Nat) (ops : List Op) (m : Manager) (rs : List (Op × Reply)) (h : run p fuel {} ops = some (m, rs)) (t : Id) (s : CState)
    (hg : get m t = .ok s) : s = .final ↔ ∃ before after, m.trace = before ++ .post t :: after ∧ p.hookOk (.post t) = true ∧ ∀ e ∈ after, e.of = t → p.hookOk e = false := by
  rw [C88_handed p fuel ops m rs h t s hg]
  generalize m.trace = l
  unfold Spec.reached
  constructor
  · intro hf
    cases he : (l.filter fun e => decide (e.of = t) && p.hookOk e).getLast? with
    | none => rw [he] at hf; cases hf
    | some e =>
      rw [he] at hf
      simp only at hf
      obtain ⟨xs, hx⟩ := List.getLast?_eq_some_iff.mp he
      obtain ⟨l1, l2, rfl, h1, h2⟩ := List.filter_eq_append_iff.mp hx
      obtain ⟨l3, l4, rfl, h3, h4, h5⟩ := List.filter_eq_cons_iff.mp h2
      simp only [Bool.and_eq_true, decide_eq_true_eq] at h4
      cases e with
      | pre i => cases hf
      | init i => cases hf
      | post i =>
        have hi : i = t := h4.1
        subst hi
        refine ⟨l1 ++ l3, l4, by simp, h4.2, fun e he ht => ?_⟩
        have := List.filter_eq_nil_iff.mp h5 e he
        simpa [ht] using this
  · rintro ⟨b, a, rfl, hk, ha⟩
    have : a.filter (fun e => decide (e.of = t) && p.hookOk e) = [] := by
      rw [List.filter_eq_nil_iff]
      intro e he
      by_cases ht : e.of = t
      · simp [ht, ha e he ht]
      · simp [ht]
    rw [List.filter_append, List.filter_cons_of_pos (by simp [Event.of, hk]), this, List.getLast?_concat]
    rfl

/-- Configuration 1 depends on 0, whose `postInitialize` throws: both are handed out, none of them final; after the post-initialisation of 1 throws only 0 is. -/
example : (run ⟨fun i => if i = 1 then [0] else [], fun _ => true, fun e => e ≠ .post 0⟩ 3 {} [.register 1, .close, .init, .get 0, .get 1]).map (·.2) =
      some [(.register 1, .done), (.close, .done), (.init, .threw), (.get 0, .config .initialized), (.get 1, .config .initialized)] ∧
    (run ⟨fun i => if i = 1 then [0] else [], fun _ => true, fun e => e ≠ .post 1⟩ 3 {} [.register 1, .close, .init, .get 0, .get 1]).map (·.2) =
      some [(.register 1, .done), (.close, .done), (.init, .threw), (.get 0, .config .final), (.get 1, .config .initialized)] ∧
    Spec.reached (fun e => e ≠ .post 1) [.pre 0, .pre 1, .init 0, .init 1, .post 0, .post 1] 0 = .final ∧
    Spec.reached (fun e => e ≠ .post 1) [.pre 0, .pre 1, .init 0, .init 1, .post 0, .post 1] 1 = .initialized := by decide

end Alexandria.Configuration
