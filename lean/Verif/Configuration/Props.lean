import Verif.Configuration.Lemmas

/-! # The configuration manager (C24, C25, C87, C88) -/

namespace Alexandria.Configuration

open Relation

/-- The dependencies between registered configurations: declared by the constructor or registered. -/
def Spec.Depends (p : Program) (m : Manager) (i d : Id) : Prop :=
  i ∈ m.dict ∧ d ∈ m.dict ∧ (d ∈ p.decl i ∨ ∃ ds, m.dep i = some ds ∧ d ∈ ds)

theorem depends_iff (p : Program) (m : Manager) : Edge (cleanup m.dict (withDeclared p m)) = Spec.Depends p m := by
  funext i d
  exact propext (cleanup_edge p m i d)

/-! ## C25: cycles -/

/-- Whenever `closeRegistration` returns or throws, it throws exactly if there is a cycle. -/
theorem C25_result (p : Program) (m : Manager) (hb : ∀ i ∈ m.dict, i ∈ m.built) (fuel : Nat) (m' : Manager) (r : Res Unit)
    (h : close p fuel m = some (m', r)) :
    (r = .ok () ∧ Spec.Acyclic (Spec.Depends p m)) ∨ (r = .throw .elements ∧ ¬ Spec.Acyclic (Spec.Depends p m)) := by
  unfold close at h
  have hall : (m.dict.all (· ∈ m.built)) = true := by simpa using hb
  simp only [hall, if_true] at h
  cases hc : checkAll (cleanup m.dict (withDeclared p m)) fuel m.dict with
  | none => rw [hc] at h; cases h
  | some o =>
    rw [hc] at h
    simp only [Option.some.injEq, Prod.mk.injEq] at h
    obtain ⟨_, rfl⟩ := h
    rw [← depends_iff]
    rcases checkAll_sound (cleanup_closed p m) (fun i hi => hi) hc with ⟨e, hh⟩ | ⟨e, i, _, hh⟩
    · refine Or.inl ⟨e, ?_⟩
      intro i hi
      obtain ⟨x, hx, _⟩ := TransGen.head'_iff.mp hi
      exact hh i ((cleanup_edge p m i x).mp hx).1 hi
    · exact Or.inr ⟨e, fun hac => hac i hh⟩

/-- Without cycles it returns. -/
theorem C25_acyclic_returns (p : Program) (m : Manager) (hb : ∀ i ∈ m.dict, i ∈ m.built) (hac : Spec.Acyclic (Spec.Depends p m)) :
    ∃ fuel m', close p fuel m = some (m', .ok ()) := by
  rw [← depends_iff] at hac
  have term : ∀ rs : List Id, (∀ i ∈ rs, i ∈ m.dict) → ∃ fuel r, checkAll (cleanup m.dict (withDeclared p m)) fuel rs = some r := by
    intro rs
    induction rs with
    | nil => intro _; exact ⟨0, _, rfl⟩
    | cons a rs ih =>
      intro hrs
      obtain ⟨f1, r1, h1⟩ := ih (fun i hi => hrs i (List.mem_cons_of_mem _ hi))
      obtain ⟨f2, r2, h2⟩ := hasCirc_terminates (cleanup_closed p m) (hrs a List.mem_cons_self)
        (fun c _ hcc => hac c (hcc.lift id (fun _ _ h => h.1)))
      refine ⟨max f1 f2, ?_⟩
      rw [checkAll, hasCirc_mono (Nat.le_max_right f1 f2) h2]
      cases r2 with
      | ok q =>
        cases q with
        | nil => exact ⟨_, checkAll_mono (Nat.le_max_left f1 f2) h1⟩
        | cons b q => exact ⟨_, rfl⟩
      | throw e => exact ⟨_, rfl⟩
      | ub => exact ⟨_, rfl⟩
  obtain ⟨fuel, r, h⟩ := term m.dict (fun _ h => h)
  have hall : (m.dict.all (· ∈ m.built)) = true := by simpa using hb
  have hcl : close p fuel m = some ({ m with state := .waiting, dep := cleanup m.dict (withDeclared p m) }, r) := by
    unfold close
    simp only [hall, if_true]
    rw [h]
  refine ⟨fuel, { m with state := .waiting, dep := cleanup m.dict (withDeclared p m) }, ?_⟩
  rw [hcl]
  rcases C25_result p m hb fuel _ r hcl with ⟨rfl, _⟩ | ⟨_, hh⟩
  · rfl
  · rw [← depends_iff] at hh
    exact absurd hac hh

/-- With cycles it ends, and throws, if every cycle that can be reached from a configuration contains that configuration (for
instance if the cycles are rings without other dependencies on them). -/
theorem C25_cycle_partial (p : Program) (m : Manager) (hb : ∀ i ∈ m.dict, i ∈ m.built)
    (hcyc : ∀ a ∈ m.dict, ∀ c, ReflTransGen (Spec.Depends p m) a c → ¬ TransGen (fun i d => Spec.Depends p m i d ∧ d ≠ a) c c)
    (hnac : ¬ Spec.Acyclic (Spec.Depends p m)) :
    ∃ fuel m', close p fuel m = some (m', .throw .elements) := by
  have term : ∀ rs : List Id, (∀ i ∈ rs, i ∈ m.dict) → ∃ fuel r, checkAll (cleanup m.dict (withDeclared p m)) fuel rs = some r := by
    intro rs
    induction rs with
    | nil => intro _; exact ⟨0, _, rfl⟩
    | cons a rs ih =>
      intro hrs
      obtain ⟨f1, r1, h1⟩ := ih (fun i hi => hrs i (List.mem_cons_of_mem _ hi))
      obtain ⟨f2, r2, h2⟩ := hasCirc_terminates (cleanup_closed p m) (hrs a List.mem_cons_self) (by
        rw [depends_iff]
        exact hcyc a (hrs a List.mem_cons_self))
      refine ⟨max f1 f2, ?_⟩
      rw [checkAll, hasCirc_mono (Nat.le_max_right f1 f2) h2]
      cases r2 with
      | ok q =>
        cases q with
        | nil => exact ⟨_, checkAll_mono (Nat.le_max_left f1 f2) h1⟩
        | cons b q => exact ⟨_, rfl⟩
      | throw e => exact ⟨_, rfl⟩
      | ub => exact ⟨_, rfl⟩
  obtain ⟨fuel, r, h⟩ := term m.dict (fun _ h => h)
  have hall : (m.dict.all (· ∈ m.built)) = true := by simpa using hb
  have hcl : close p fuel m = some ({ m with state := .waiting, dep := cleanup m.dict (withDeclared p m) }, r) := by
    unfold close
    simp only [hall, if_true]
    rw [h]
  refine ⟨fuel, { m with state := .waiting, dep := cleanup m.dict (withDeclared p m) }, ?_⟩
  rw [hcl]
  rcases C25_result p m hb fuel _ r hcl with ⟨_, hh⟩ | ⟨rfl, _⟩
  · exact absurd hh hnac
  · rfl

/-- What is printed is a cycle: from the configuration along dependencies back to it. -/
theorem C25_reported_cycle (p : Program) (m : Manager) (fuel : Nat) (i : Id) (hi : i ∈ m.dict) (l : List Id) (hl : l ≠ [])
    (h : hasCirc (cleanup m.dict (withDeclared p m)) i fuel i = some (.ok l)) :
    Spec.Path (Spec.Depends p m) i l ∧ l.getLast? = some i := by
  obtain ⟨q, e, _, h2⟩ := hasCirc_sound (cleanup_closed p m) hi h
  cases e
  rw [← depends_iff]
  exact h2 hl

/-- The full claim: it always ends, with an exception exactly if there is a cycle. -/
def C25_full : Prop := ∀ (p : Program) (m : Manager), (∀ i ∈ m.dict, i ∈ m.built) →
  ∃ fuel m' r, close p fuel m = some (m', r) ∧ (r = .throw .elements ↔ ¬ Spec.Acyclic (Spec.Depends p m))

/-- Three configurations, the first depending on the second, the second and the third on each other. -/
def lasso : Manager :=
  { dict := [0, 1, 2], built := [0, 1, 2], dep := fun i => if i = 0 then some [1] else if i = 1 then some [2] else if i = 2 then some [1] else none }

/-- The search from the first one runs round the cycle of the others for ever. -/
theorem C25_violated : ¬ C25_full := by
  intro h
  obtain ⟨fuel, m', r, hcl, _⟩ := h ⟨fun _ => [], fun _ => true, fun _ => true⟩ lasso (by decide)
  have hdep : ∀ i, cleanup lasso.dict (withDeclared ⟨fun _ => [], fun _ => true, fun _ => true⟩ lasso) i =
      if i = 0 then some [1] else if i = 1 then some [2] else if i = 2 then some [1] else none := by
    intro i
    by_cases h0 : i = 0
    · subst h0; decide
    · by_cases h1 : i = 1
      · subst h1; decide
      · by_cases h2 : i = 2
        · subst h2; decide
        · simp [cleanup, lasso, h0, h1, h2]
  have hdep' := funext hdep
  have loop : ∀ f, hasCirc (fun i => if i = 0 then some [1] else if i = 1 then some [2] else if i = 2 then some [1] else none) 0 f 1 = none ∧
      hasCirc (fun i => if i = 0 then some [1] else if i = 1 then some [2] else if i = 2 then some [1] else none) 0 f 2 = none := by
    intro f
    induction f with
    | zero => exact ⟨rfl, rfl⟩
    | succ f ih =>
      constructor
      · simp [hasCirc, circAll, ih.2]
      · simp [hasCirc, circAll, ih.1]
  have h0 : ∀ f, hasCirc (fun i => if i = 0 then some [1] else if i = 1 then some [2] else if i = 2 then some [1] else none) 0 f 0 = none := by
    intro f
    cases f with
    | zero => rfl
    | succ f => simp [hasCirc, circAll, (loop f).1]
  unfold close at hcl
  have hall : (lasso.dict.all (· ∈ lasso.built)) = true := by decide
  simp only [hall, if_true] at hcl
  rw [hdep'] at hcl
  have : lasso.dict = [0, 1, 2] := rfl
  rw [this, checkAll, h0 fuel] at hcl
  cases hcl

/-- A ring of two is reported. -/
example : (close ⟨fun _ => [], fun _ => true, fun _ => true⟩ 5
    { dict := [0, 1], built := [0, 1], dep := fun i => if i = 0 then some [1] else if i = 1 then some [0] else none }).map (·.2) =
    some (.throw .elements) := by decide
example : (close ⟨fun i => if i = 0 then [1, 2] else if i = 1 then [2] else [], fun _ => true, fun _ => true⟩ 5
    { dict := [0, 1, 2], built := [0, 1, 2] }).map (·.2) = some (.ok ()) := by decide

/-! ## C24: order of initialisation -/

theorem forAll_mono {f g : Id → Manager → Option (Manager × Bool)} {ds : List Id} (h : ∀ d ∈ ds, ∀ m r, f d m = some r → g d m = some r)
    {m : Manager} {r : Manager × Bool} (hr : forAll f ds m = some r) : forAll g ds m = some r := by
  induction ds generalizing m with
  | nil => exact hr
  | cons d ds ih =>
    rw [forAll] at hr ⊢
    cases hf : f d m with
    | none => rw [hf] at hr; cases hr
    | some o =>
      rw [h d List.mem_cons_self m o hf]
      rw [hf] at hr
      obtain ⟨m1, b⟩ := o
      cases b with
      | true => exact ih (fun x hx => h x (List.mem_cons_of_mem _ hx)) hr
      | false => exact hr

/-- The invariant of the recursive initialisation that began at `m0`: `order` are the configurations initialised so far. -/
structure Inv (m0 m : Manager) (order : List Id) : Prop where
  state : m.state = m0.state
  dict : m.dict = m0.dict
  built : m.built = m0.built
  dep : m.dep = m0.dep
  trace : m.trace = m0.trace ++ order.map Event.init
  nodup : order.Nodup
  sub : ∀ i ∈ order, i ∈ m0.dict
  states : ∀ i, m.states i = if i ∈ order then .initialized else m0.states i
  order : Spec.InOrder (Edge m0.dep) order

theorem recInit_inv (p : Program) (hp : ∀ e, p.hookOk e = true) {m0 : Manager} (hc : Closed m0.dict m0.dep)
    (hs : ∀ i ∈ m0.dict, (m0.states i).rank < 2) (h : Id → Nat) (hh : ∀ i d, Edge m0.dep i d → h d < h i) :
    ∀ (fuel : Nat) (i : Id), i ∈ m0.dict → h i < fuel → ∀ (m : Manager) (order : List Id), Inv m0 m order →
      ∃ m' ext, recInit p fuel i m = some (m', true) ∧ Inv m0 m' (order ++ ext) ∧ i ∈ order ++ ext ∧ (∀ j ∈ ext, h j ≤ h i) := by
  intro fuel
  induction fuel with
  | zero => intro i _ hi; omega
  | succ fuel ih =>
    intro i hi hfuel m order hI
    rw [recInit, if_neg (by rw [hI.dict]; simpa using hi)]
    by_cases hio : i ∈ order
    · rw [if_pos (by rw [hI.states, if_pos hio]; decide)]
      exact ⟨m, [], rfl, by simpa using hI, by simpa using hio, by simp⟩
    · rw [if_neg (by rw [hI.states, if_neg hio]; have := hs i hi; omega)]
      obtain ⟨ds, hds⟩ := hc.key i hi
      rw [hI.dep, hds]
      have loop : ∀ (cs : List Id), (∀ c ∈ cs, c ∈ ds) → ∀ (m : Manager) (order : List Id), Inv m0 m order →
          ∃ m' ext, forAll (recInit p fuel) cs m = some (m', true) ∧ Inv m0 m' (order ++ ext) ∧ (∀ c ∈ cs, c ∈ order ++ ext) ∧
            (∀ j ∈ ext, h j < h i) := by
        intro cs
        induction cs with
        | nil => intro _ m order hI; exact ⟨m, [], rfl, by simpa using hI, by simp, by simp⟩
        | cons c cs ihc =>
          intro hsub m order hI
          have hic : Edge m0.dep i c := ⟨ds, hds, hsub c List.mem_cons_self⟩
          have hlt := hh i c hic
          obtain ⟨m1, e1, r1, I1, c1, b1⟩ := ih c (hc.sub i c hic) (by omega) m order hI
          obtain ⟨m2, e2, r2, I2, c2, b2⟩ := ihc (fun x hx => hsub x (List.mem_cons_of_mem _ hx)) m1 _ I1
          refine ⟨m2, e1 ++ e2, ?_, by rw [← List.append_assoc]; exact I2, ?_, ?_⟩
          · rw [forAll, r1]; exact r2
          · intro x hx
            rw [← List.append_assoc]
            rcases List.mem_cons.mp hx with rfl | hx
            · exact List.mem_append_left _ c1
            · exact c2 x hx
          · intro j hj
            rcases List.mem_append.mp hj with hj | hj
            · have := b1 j hj; omega
            · exact b2 j hj
      obtain ⟨m1, e1, r1, I1, c1, b1⟩ := loop ds (fun _ h => h) m order hI
      simp only
      rw [r1]
      simp only [callHook, hp, if_true]
      have hnot : i ∉ order ++ e1 := by
        rw [List.mem_append, not_or]
        refine ⟨hio, fun hj => ?_⟩
        have := b1 i hj
        omega
      refine ⟨_, e1 ++ [i], rfl, ?_, by simp, ?_⟩
      · rw [← List.append_assoc]
        generalize hw : order ++ e1 = w at I1 c1 hnot
        constructor
        · exact I1.state
        · exact I1.dict
        · exact I1.built
        · exact I1.dep
        · simp only [I1.trace, List.map_append, List.map_cons, List.map_nil, List.append_assoc]
        · rw [List.nodup_append]
          refine ⟨I1.nodup, by simp, ?_⟩
          rintro a ha b hb rfl
          simp only [List.mem_singleton] at hb
          subst hb
          exact hnot ha
        · intro j hj
          rcases List.mem_append.mp hj with hj | hj
          · exact I1.sub j hj
          · simp only [List.mem_singleton] at hj; subst hj; exact hi
        · intro j
          simp only [List.mem_append, List.mem_singleton]
          by_cases hji : j = i
          · simp [hji]
          · simp only [hji, if_false, or_false]
            exact I1.states j
        · intro before x after e d hd
          by_cases ha : after = []
          · subst ha
            have e1 : w = before ∧ i = x := by
              have := List.append_inj' e (by simp)
              exact ⟨this.1, by simpa using this.2⟩
            rw [← e1.1]
            rw [← e1.2] at hd
            obtain ⟨ds', h', hd'⟩ := hd
            rw [hds] at h'
            cases h'
            exact c1 d hd'
          · obtain ⟨a', z, rfl⟩ : ∃ a' z, after = a' ++ [z] := ⟨after.dropLast, after.getLast ha, (List.dropLast_append_getLast ha).symm⟩
            have : w = before ++ x :: a' := by
              have e' : w ++ [i] = (before ++ x :: a') ++ [z] := by rw [e]; simp
              exact (List.append_inj' e' (by simp)).1
            exact I1.order before x a' this d hd
      · intro j hj
        rcases List.mem_append.mp hj with hj | hj
        · exact Nat.le_of_lt (b1 j hj)
        · simp only [List.mem_singleton] at hj; subst hj; exact Nat.le_refl _

theorem forAll_hook (p : Program) (hp : ∀ e, p.hookOk e = true) (ev : Id → Event) (s : CState) (l : List Id) (m : Manager) :
    forAll (fun i m => some (callHook p (ev i) i s m)) l m =
      some ({ m with trace := m.trace ++ l.map ev, states := fun j => if j ∈ l then s else m.states j }, true) := by
  induction l generalizing m with
  | nil => simp [forAll]
  | cons a l ih =>
    have e : callHook p (ev a) a s m = ({ m with trace := m.trace ++ [ev a], states := fun j => if j = a then s else m.states j }, true) := by
      simp only [callHook, hp, if_true]
    rw [forAll, e]
    simp only
    rw [ih]
    simp only [List.map_cons, List.append_assoc, List.singleton_append, Option.some.injEq, Prod.mk.injEq, and_true]
    congr 1
    funext j
    by_cases h1 : j ∈ l
    · simp [h1]
    · by_cases h2 : j = a
      · simp [h2]
      · simp [h1, h2]

/-- `initialize` after a successful `closeRegistration`: all configurations are pre-initialised, then each is initialised exactly once
and after those it depends on, then all are post-initialised. -/
theorem C24_initialize (p : Program) (hp : ∀ e, p.hookOk e = true) (m m1 : Manager) (hb : ∀ i ∈ m.dict, i ∈ m.built)
    (hnd : m.dict.Nodup) (fuel : Nat) (hcl : close p fuel m = some (m1, .ok ())) :
    ∃ fuel m2 order, initAll p fuel m1 = some (m2, true) ∧ order.Perm m.dict ∧ Spec.InOrder (Spec.Depends p m) order ∧
      m2.trace = m.trace ++ m.dict.map Event.pre ++ order.map Event.init ++ m.dict.map Event.post ∧
      (∀ i ∈ m.dict, get m2 i = .ok .final) := by
  have hac : Spec.Acyclic (Spec.Depends p m) := by
    rcases C25_result p m hb fuel m1 _ hcl with ⟨_, h⟩ | ⟨h, _⟩
    · exact h
    · cases h
  have hm1 : m1 = { m with state := .waiting, dep := cleanup m.dict (withDeclared p m) } := by
    unfold close at hcl
    have hall : (m.dict.all (· ∈ m.built)) = true := by simpa using hb
    simp only [hall, if_true] at hcl
    cases hc : checkAll (cleanup m.dict (withDeclared p m)) fuel m.dict with
    | none => rw [hc] at hcl; cases hcl
    | some o =>
      rw [hc] at hcl
      simp only [Option.some.injEq, Prod.mk.injEq] at hcl
      exact hcl.1.symm
  have hdict : m1.dict = m.dict := by rw [hm1]
  have htrace : m1.trace = m.trace := by rw [hm1]
  have hbuilt : m1.built = m.built := by rw [hm1]
  have hdep : m1.dep = cleanup m.dict (withDeclared p m) := by rw [hm1]
  have hE : Edge m1.dep = Spec.Depends p m := by rw [hdep, depends_iff]
  have hC : Closed m1.dict m1.dep := by rw [hdep, hdict]; exact cleanup_closed p m
  clear hm1 hcl
  obtain ⟨h, hh⟩ := exists_height (Edge m1.dep) m1.dict hC.sub
  have hh' : ∀ i d, Edge m1.dep i d → h d < h i := fun i d e => hh i d e (by rw [hE]; exact hac d)
  -- after the first loop
  let a : Manager := { m1 with state := .initialized, trace := m1.trace ++ m1.dict.map Event.pre,
                               states := fun j => if j ∈ m1.dict then .preInitialized else m1.states j }
  have h1 : forAll (fun i m => some (callHook p (.pre i) i .preInitialized m)) m1.dict { m1 with state := .initialized } = some (a, true) :=
    forAll_hook p hp Event.pre .preInitialized m1.dict _
  have hCa : Closed a.dict a.dep := hC
  have hsa : ∀ i ∈ a.dict, (a.states i).rank < 2 := by
    intro i hi
    change (if i ∈ m1.dict then CState.preInitialized else m1.states i).rank < 2
    rw [if_pos hi]
    decide
  have hI0 : Inv a a [] := by
    refine ⟨rfl, rfl, rfl, rfl, by simp, by simp, by simp, by simp, ?_⟩
    intro b i c e
    have := congrArg List.length e
    simp at this
  have bound : ∃ k, ∀ i ∈ m1.dict, h i < k := by
    have : ∀ l : List Id, ∃ k, ∀ i ∈ l, h i < k := by
      intro l
      induction l with
      | nil => exact ⟨0, by simp⟩
      | cons x l ih =>
        obtain ⟨k, hk⟩ := ih
        refine ⟨max k (h x + 1), ?_⟩
        intro i hi
        rcases List.mem_cons.mp hi with rfl | hi
        · exact lt_of_lt_of_le (Nat.lt_succ_self _) (Nat.le_max_right _ _)
        · exact lt_of_lt_of_le (hk i hi) (Nat.le_max_left _ _)
    exact this m1.dict
  obtain ⟨k, hk⟩ := bound
  have loop : ∀ (cs : List Id), (∀ c ∈ cs, c ∈ m1.dict) → ∀ (m : Manager) (order : List Id), Inv a m order →
      ∃ m' ext, forAll (recInit p k) cs m = some (m', true) ∧ Inv a m' (order ++ ext) ∧ (∀ c ∈ cs, c ∈ order ++ ext) := by
    intro cs
    induction cs with
    | nil => intro _ m order hI; exact ⟨m, [], rfl, by simpa using hI, by simp⟩
    | cons c cs ihc =>
      intro hsub m order hI
      obtain ⟨m1', e1, r1, I1, c1, _⟩ := recInit_inv p hp hCa hsa h hh' k c (hsub c List.mem_cons_self) (hk c (hsub c List.mem_cons_self)) m order hI
      obtain ⟨m2, e2, r2, I2, c2⟩ := ihc (fun x hx => hsub x (List.mem_cons_of_mem _ hx)) m1' _ I1
      refine ⟨m2, e1 ++ e2, ?_, by rw [← List.append_assoc]; exact I2, ?_⟩
      · rw [forAll, r1]; exact r2
      · intro x hx
        rw [← List.append_assoc]
        rcases List.mem_cons.mp hx with rfl | hx
        · exact List.mem_append_left _ c1
        · exact c2 x hx
  obtain ⟨b, order, r2, I2, c2⟩ := loop m1.dict (fun _ h => h) a [] hI0
  rw [List.nil_append] at I2 c2
  refine ⟨k, { b with trace := b.trace ++ m1.dict.map Event.post, states := fun j => if j ∈ m1.dict then .final else b.states j }, order, ?_, ?_, ?_, ?_, ?_⟩
  · unfold initAll
    rw [h1]
    simp only
    rw [r2]
    exact forAll_hook p hp Event.post .final m1.dict b
  · rw [List.perm_ext_iff_of_nodup I2.nodup hnd]
    intro i
    rw [← hdict]
    exact ⟨fun hi => I2.sub i hi, fun hi => c2 i hi⟩
  · rw [← hE]; exact I2.order
  · simp only [I2.trace]
    change (m1.trace ++ m1.dict.map Event.pre) ++ order.map Event.init ++ m1.dict.map Event.post = _
    rw [htrace, hdict]
  · intro i hi
    unfold get
    have s1 : b.state = .initialized := I2.state
    have s2 : b.dict = m.dict := by rw [I2.dict]; exact hdict
    have s3 : b.built = m.built := by rw [I2.built]; exact hbuilt
    simp only [s1, s2, s3, ne_eq, not_true_eq_false, if_false, hi, hb i hi, hdict, if_true]

/-- Three configurations, 0 declares 1 and 2, and 1 is registered to depend on 2. -/
example : ∃ m1 m2 fuel, close ⟨fun i => if i = 0 then [1, 2] else [], fun _ => true, fun _ => true⟩ 5
      { dict := [0, 1, 2], built := [0, 1, 2], dep := fun i => if i = 1 then some [2, 7] else none } = some (m1, .ok ()) ∧
    initAll ⟨fun i => if i = 0 then [1, 2] else [], fun _ => true, fun _ => true⟩ fuel m1 = some (m2, true) ∧
    m2.trace = [.pre 0, .pre 1, .pre 2, .init 2, .init 1, .init 0, .post 0, .post 1, .post 2] := ⟨_, _, 5, rfl, rfl, rfl⟩

end Alexandria.Configuration
