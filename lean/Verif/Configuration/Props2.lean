import Verif.Configuration.Props

/-! # Registration and life cycle (C87, C88) -/

namespace Alexandria.Configuration

open Relation

/-! ## C87: registering -/

/-- `d` is declared by the constructor of `i`. -/
def Spec.Declares (p : Program) (i d : Id) : Prop := d ∈ p.decl i

/-- Objects were built after those they declare (the latest comes first). -/
def Topo (p : Program) : List Id → Prop
  | [] => True
  | i :: l => (∀ d ∈ p.decl i, d ∈ l) ∧ Topo p l

theorem Topo.closed {p : Program} {l : List Id} (h : Topo p l) {i d : Id} (hi : i ∈ l) (hd : d ∈ p.decl i) : d ∈ l := by
  induction l with
  | nil => cases hi
  | cons a l ih =>
    rcases List.mem_cons.mp hi with rfl | hi
    · exact List.mem_cons_of_mem _ (h.1 d hd)
    · exact List.mem_cons_of_mem _ (ih h.2 hi)

theorem Topo.reach {p : Program} {l : List Id} (h : Topo p l) {i d : Id} (hi : i ∈ l) (hd : ReflTransGen (Spec.Declares p) i d) : d ∈ l := by
  induction hd with
  | refl => exact hi
  | tail _ e ih => exact h.closed ih e

theorem Topo.acyclic {p : Program} {l : List Id} (h : Topo p l) {i : Id} (hi : i ∈ l) : ¬ TransGen (Spec.Declares p) i i := by
  induction l generalizing i with
  | nil => cases hi
  | cons a l ih =>
    have sub : ∀ j, j ∈ l → ¬ TransGen (Spec.Declares p) j j := fun j hj => ih h.2 hj
    rcases List.mem_cons.mp hi with rfl | hi
    · intro hc
      obtain ⟨d, h1, h2⟩ := TransGen.head'_iff.mp hc
      have hd : d ∈ l := h.1 d h1
      exact sub i (h.2.reach hd h2) hc
    · exact sub i hi

/-- The invariant of the registration. -/
structure RInv (p : Program) (m : Manager) : Prop where
  topo : Topo p m.built
  sub : ∀ i ∈ m.built, i ∈ m.dict

/-- A registration that returns has registered the configuration and everything it declares, directly or not, and nothing else. -/
theorem C87_register (p : Program) (fuel : Nat) (t : Id) (m m' : Manager) (hI : RInv p m) (h : register p fuel t m = some (m', true)) :
    RInv p m' ∧ m'.state = .registration ∧ m'.dep = m.dep ∧ m'.trace = m.trace ∧
      (∀ j, j ∈ m'.built ↔ j ∈ m.built ∨ ReflTransGen (Spec.Declares p) t j) ∧
      (∀ j, j ∈ m'.dict ↔ j ∈ m.dict ∨ ReflTransGen (Spec.Declares p) t j) := by
  have gen : ∀ (fuel : Nat) (t : Id) (m m' : Manager), Topo p m.built → register p fuel t m = some (m', true) →
      Topo p m'.built ∧ m'.state = .registration ∧ m'.dep = m.dep ∧ m'.trace = m.trace ∧ t ∈ m'.built ∧ (∀ j ∈ m.built, j ∈ m'.built) ∧
        (∀ j ∈ m'.built, j ∈ m.built ∨ ReflTransGen (Spec.Declares p) t j) ∧ (∀ j ∈ m.dict, j ∈ m'.dict) ∧
        (∀ j ∈ m'.dict, j ∈ m.dict ∨ ReflTransGen (Spec.Declares p) t j) ∧ (∀ j ∈ m'.built, j ∈ m.built ∨ j ∈ m'.dict) := by
    intro fuel
    induction fuel with
    | zero => intro t m m' _ h; cases h
    | succ fuel ih =>
      intro t m m' hT h
      rw [register] at h
      by_cases hs : m.state ≠ .registration
      · rw [if_pos hs] at h; cases h
      · rw [if_neg hs] at h
        simp only [ne_eq, not_not] at hs
        by_cases hb : t ∈ m.built
        · rw [if_pos hb] at h
          cases h
          exact ⟨hT, hs, rfl, rfl, hb, fun _ h => h, fun _ h => Or.inl h, fun _ h => h, fun _ h => Or.inl h, fun _ h => Or.inl h⟩
        · rw [if_neg hb] at h
          have loop : ∀ (ds : List Id), (∀ d ∈ ds, d ∈ p.decl t) → ∀ m m', Topo p m.built → m.state = .registration →
              declareAll (register p fuel) ds m = some (m', true) →
              Topo p m'.built ∧ m'.state = .registration ∧ m'.dep = m.dep ∧ m'.trace = m.trace ∧ (∀ d ∈ ds, d ∈ m'.built) ∧
                (∀ j ∈ m.built, j ∈ m'.built) ∧ (∀ j ∈ m'.built, j ∈ m.built ∨ ReflTransGen (Spec.Declares p) t j) ∧
                (∀ j ∈ m.dict, j ∈ m'.dict) ∧ (∀ j ∈ m'.dict, j ∈ m.dict ∨ ReflTransGen (Spec.Declares p) t j) ∧
                (∀ j ∈ m'.built, j ∈ m.built ∨ j ∈ m'.dict) := by
            intro ds
            induction ds with
            | nil =>
              intro _ m m' hT hs h
              cases h
              exact ⟨hT, hs, rfl, rfl, by simp, fun _ h => h, fun _ h => Or.inl h, fun _ h => h, fun _ h => Or.inl h, fun _ h => Or.inl h⟩
            | cons d ds ihd =>
              intro hsub m m' hT hs h
              rw [declareAll] at h
              cases hr : register p fuel d m with
              | none => rw [hr] at h; cases h
              | some o =>
                obtain ⟨m1, b⟩ := o
                rw [hr] at h
                cases b with
                | false => cases h
                | true =>
                  obtain ⟨a1, a2, a3, a4, a5, a6, a7, a8, a9, a10⟩ := ih d m m1 hT hr
                  obtain ⟨b1, b2, b3, b4, b5, b6, b7, b8, b9, b10⟩ := ihd (fun x hx => hsub x (List.mem_cons_of_mem _ hx)) m1 m' a1 a2 h
                  have hd : ReflTransGen (Spec.Declares p) t d := .single (hsub d List.mem_cons_self)
                  refine ⟨b1, b2, b3.trans a3, b4.trans a4, ?_, fun j hj => b6 j (a6 j hj), ?_, fun j hj => b8 j (a8 j hj), ?_, ?_⟩
                  · intro x hx
                    rcases List.mem_cons.mp hx with rfl | hx
                    · exact b6 x a5
                    · exact b5 x hx
                  · intro j hj
                    rcases b7 j hj with h | h
                    · rcases a7 j h with h | h
                      · exact Or.inl h
                      · exact Or.inr (hd.trans h)
                    · exact Or.inr h
                  · intro j hj
                    rcases b9 j hj with h | h
                    · rcases a9 j h with h | h
                      · exact Or.inl h
                      · exact Or.inr (hd.trans h)
                    · exact Or.inr h
                  · intro j hj
                    rcases b10 j hj with h | h
                    · rcases a10 j h with h | h
                      · exact Or.inl h
                      · exact Or.inr (b8 j h)
                    · exact Or.inr h
          cases hd : declareAll (register p fuel) (p.decl t) { m with dict := setInsert t m.dict } with
          | none => rw [hd] at h; cases h
          | some o =>
            obtain ⟨m1, b⟩ := o
            rw [hd] at h
            cases b with
            | false => cases h
            | true =>
              simp only at h
              by_cases hok : p.ctorOk t = true
              · rw [if_pos hok] at h
                obtain ⟨b1, b2, b3, b4, b5, b6, b7, b8, b9, b10⟩ := loop (p.decl t) (fun _ h => h) { m with dict := setInsert t m.dict } m1 hT hs hd
                cases h
                have htd : t ∈ m1.dict := b8 t (mem_setInsert.mpr (Or.inl rfl))
                refine ⟨⟨b5, b1⟩, b2, b3, b4, List.mem_cons_self, fun j hj => List.mem_cons_of_mem _ (b6 j hj), ?_, ?_, ?_, ?_⟩
                · intro j hj
                  rcases List.mem_cons.mp hj with rfl | hj
                  · exact Or.inr .refl
                  · exact b7 j hj
                · intro j hj
                  exact b8 j (mem_setInsert.mpr (Or.inr hj))
                · intro j hj
                  rcases b9 j hj with h | h
                  · rcases mem_setInsert.mp h with rfl | h
                    · exact Or.inr .refl
                    · exact Or.inl h
                  · exact Or.inr h
                · intro j hj
                  rcases List.mem_cons.mp hj with rfl | hj
                  · exact Or.inr htd
                  · exact b10 j hj
              · rw [if_neg hok] at h
                cases h
  obtain ⟨a1, a2, a3, a4, a5, a6, a7, a8, a9, a10⟩ := gen fuel t m m' hI.topo h
  have hsub : ∀ j ∈ m'.built, j ∈ m'.dict := by
    intro j hj
    rcases a10 j hj with h | h
    · exact a8 j (hI.sub j h)
    · exact h
  refine ⟨⟨a1, hsub⟩, a2, a3, a4, fun j => ⟨a7 j, ?_⟩, fun j => ⟨a9 j, ?_⟩⟩
  · rintro (h | h)
    · exact a6 j h
    · exact a1.reach a5 h
  · rintro (h | h)
    · exact a8 j h
    · exact hsub j (a1.reach a5 h)

/-- If constructors do not throw, a registration either never returns or succeeds. -/
theorem register_true (p : Program) (hp : ∀ t, p.ctorOk t = true) (fuel : Nat) (t : Id) (m m' : Manager) (b : Bool)
    (hs : m.state = .registration) (h : register p fuel t m = some (m', b)) : b = true ∧ m'.state = .registration := by
  induction fuel generalizing t m m' b with
  | zero => cases h
  | succ fuel ih =>
    rw [register, if_neg (by simp [hs])] at h
    by_cases hb : t ∈ m.built
    · rw [if_pos hb] at h; cases h; exact ⟨rfl, hs⟩
    · rw [if_neg hb] at h
      have loop : ∀ (ds : List Id) (m m' : Manager) (b : Bool), m.state = .registration → declareAll (register p fuel) ds m = some (m', b) →
          b = true ∧ m'.state = .registration := by
        intro ds
        induction ds with
        | nil => intro m m' b hs h; cases h; exact ⟨rfl, hs⟩
        | cons d ds ihd =>
          intro m m' b hs h
          rw [declareAll] at h
          cases hr : register p fuel d m with
          | none => rw [hr] at h; cases h
          | some o =>
            obtain ⟨m1, c⟩ := o
            obtain ⟨rfl, h1⟩ := ih d m m1 c hs hr
            rw [hr] at h
            exact ihd m1 m' b h1 h
      cases hd : declareAll (register p fuel) (p.decl t) { m with dict := setInsert t m.dict } with
      | none => rw [hd] at h; cases h
      | some o =>
        obtain ⟨m1, c⟩ := o
        obtain ⟨rfl, h1⟩ := loop _ { m with dict := setInsert t m.dict } m1 c hs hd
        rw [hd] at h
        simp only [hp, if_true] at h
        cases h
        exact ⟨rfl, h1⟩

/-- Configurations whose constructors declare each other, directly or not, cannot be registered: the registration of anything that leads
to them does not return. -/
theorem C87_circular (p : Program) (hp : ∀ t, p.ctorOk t = true) (m : Manager) (hI : RInv p m) (hs : m.state = .registration) (t c : Id)
    (htc : ReflTransGen (Spec.Declares p) t c) (hcc : TransGen (Spec.Declares p) c c) (fuel : Nat) : register p fuel t m = none := by
  cases h : register p fuel t m with
  | none => rfl
  | some o =>
    obtain ⟨m', b⟩ := o
    obtain ⟨rfl, _⟩ := register_true p hp fuel t m m' b hs h
    obtain ⟨h1, _, _, _, h2, _⟩ := C87_register p fuel t m m' hI h
    exact absurd hcc (h1.topo.acyclic ((h2 c).mpr (Or.inr htc)))

theorem declareAll_mono {f g : Id → Manager → Option (Manager × Bool)} {ds : List Id} (h : ∀ d ∈ ds, ∀ m r, f d m = some r → g d m = some r)
    {m : Manager} {r : Manager × Bool} (hr : declareAll f ds m = some r) : declareAll g ds m = some r := by
  induction ds generalizing m with
  | nil => exact hr
  | cons d ds ih =>
    rw [declareAll] at hr ⊢
    cases hf : f d m with
    | none => rw [hf] at hr; cases hr
    | some o =>
      rw [h d List.mem_cons_self m o hf]
      rw [hf] at hr
      obtain ⟨m1, b⟩ := o
      cases b with
      | true => exact ih (fun x hx => h x (List.mem_cons_of_mem _ hx)) hr
      | false => exact hr

/-- Otherwise, with finitely many types, it does return. -/
theorem C87_returns (p : Program) (hp : ∀ t, p.ctorOk t = true) (types : List Id) (htypes : ∀ i d, Spec.Declares p i d → d ∈ types)
    (hac : Spec.Acyclic (Spec.Declares p)) (t : Id) (m : Manager) (hs : m.state = .registration) :
    ∃ fuel m', register p fuel t m = some (m', true) := by
  obtain ⟨h, hh⟩ := exists_height (Spec.Declares p) types htypes
  have gen : ∀ (fuel : Nat) (t : Id) (m : Manager), m.state = .registration → h t < fuel → ∃ m', register p fuel t m = some (m', true) ∧ m'.state = .registration := by
    intro fuel
    induction fuel with
    | zero => intro t m _ hk; omega
    | succ fuel ih =>
      intro t m hs hk
      rw [register, if_neg (by simp [hs])]
      by_cases hb : t ∈ m.built
      · rw [if_pos hb]; exact ⟨m, rfl, hs⟩
      · rw [if_neg hb]
        have loop : ∀ (ds : List Id), (∀ d ∈ ds, d ∈ p.decl t) → ∀ m : Manager, m.state = .registration →
            ∃ m', declareAll (register p fuel) ds m = some (m', true) ∧ m'.state = .registration := by
          intro ds
          induction ds with
          | nil => intro _ m hs; exact ⟨m, rfl, hs⟩
          | cons d ds ihd =>
            intro hsub m hs
            have := hh t d (hsub d List.mem_cons_self) (hac d)
            obtain ⟨m1, r1, s1⟩ := ih d m hs (by omega)
            obtain ⟨m2, r2, s2⟩ := ihd (fun x hx => hsub x (List.mem_cons_of_mem _ hx)) m1 s1
            exact ⟨m2, by rw [declareAll, r1]; exact r2, s2⟩
        obtain ⟨m1, r1, s1⟩ := loop (p.decl t) (fun _ h => h) { m with dict := setInsert t m.dict } hs
        rw [r1]
        simp only [hp, if_true]
        exact ⟨_, rfl, s1⟩
  obtain ⟨m', h', _⟩ := gen (h t + 1) t m hs (by omega)
  exact ⟨_, m', h'⟩

/-- Configuration 3 declares 1 and 2, and 2 declares 1. -/
example : (register ⟨fun i => if i = 3 then [1, 2] else if i = 2 then [1] else [], fun _ => true, fun _ => true⟩ 4 3 {}).map
    (fun r => (r.1.dict, r.1.built, r.2)) = some ([1, 2, 3], [3, 2, 1], true) := by decide

/-- A constructor that throws leaves a key without object; closing the registration then is undefined behaviour. -/
theorem C87_failed_constructor : ∃ (p : Program) (m m1 : Manager), register p 2 0 {} = some (m, false) ∧
    close p 2 m = some (m1, .ub) := ⟨⟨fun _ => [], fun _ => false, fun _ => true⟩, _, _, rfl, rfl⟩

/-- A registered dependency is added to those there are; nothing else changes. -/
theorem C25_registered (p : Program) (m : Manager) (a b : Id) (hs : m.state = .registration) :
    (registerDep m a b).2 = true ∧ (registerDep m a b).1.dict = m.dict ∧ (registerDep m a b).1.built = m.built ∧
      ∀ i d, Spec.Depends p (registerDep m a b).1 i d ↔ Spec.Depends p m i d ∨ (i = a ∧ d = b ∧ a ∈ m.dict ∧ b ∈ m.dict) := by
  have hn : ¬ m.state ≠ .registration := by simp [hs]
  simp only [registerDep, if_neg hn, true_and]
  intro i d
  simp only [Spec.Depends]
  by_cases h : i = a
  · subst h
    simp only [if_true, Option.some.injEq, exists_eq_left', mem_setInsert]
    cases hd : m.dep i with
    | none => by_cases e : d = b <;> simp [e] <;> tauto
    | some ds => by_cases e : d = b <;> simp [e] <;> tauto
  · simp [h]

example : (Spec.Depends ⟨fun _ => [], fun _ => true, fun _ => true⟩ (registerDep { dict := [1, 2] } 1 2).1 1 2) := by
  rw [(C25_registered _ _ _ _ rfl).2.2.2]
  right
  decide

/-! ## C88: life cycle -/

inductive Op where
  | register (t : Id) | registerDep (a b : Id) | close | init | get (t : Id)
  deriving DecidableEq, Repr

/-- What a call gave: it returned (or threw), or `get` gave a configuration in this state. -/
inductive Reply where
  | done | threw | config (s : CState)
  deriving DecidableEq, Repr

/-- A call of the interface of the manager; `none` when it does not return or is undefined. -/
def step (p : Program) (fuel : Nat) (m : Manager) : Op → Option (Manager × Reply)
  | .register t => match register p fuel t m with
    | some (m', true) => some (m', .done)
    | some (m', false) => some (m', .threw)
    | none => none
  | .registerDep a b => let r := registerDep m a b; some (r.1, if r.2 then .done else .threw)
  | .close => match close p fuel m with
    | some (m', .ok ()) => some (m', .done)
    | some (m', .throw _) => some (m', .threw)
    | _ => none
  | .init => match initAll p fuel m with
    | some (m', true) => some (m', .done)
    | some (m', false) => some (m', .threw)
    | none => none
  | .get t => match get m t with
    | .ok s => some (m, .config s)
    | .throw _ => some (m, .threw)
    | .ub => none

/-- A sequence of calls. -/
def run (p : Program) (fuel : Nat) : Manager → List Op → Option (Manager × List (Op × Reply))
  | m, [] => some (m, [])
  | m, o :: os => match step p fuel m o with
    | some (m1, r) => match run p fuel m1 os with
      | some (m2, rs) => some (m2, (o, r) :: rs)
      | none => none
    | none => none

theorem callHook_keeps (p : Program) (e : Event) (i : Id) (s : CState) (m : Manager) :
    (callHook p e i s m).1.state = m.state ∧ (callHook p e i s m).1.dict = m.dict ∧ (callHook p e i s m).1.built = m.built := by
  unfold callHook
  simp only
  split <;> exact ⟨rfl, rfl, rfl⟩

theorem forAll_keeps {f : Id → Manager → Option (Manager × Bool)}
    (hf : ∀ i m r, f i m = some r → r.1.state = m.state ∧ r.1.dict = m.dict ∧ r.1.built = m.built) (ds : List Id) (m : Manager) (r : Manager × Bool)
    (h : forAll f ds m = some r) : r.1.state = m.state ∧ r.1.dict = m.dict ∧ r.1.built = m.built := by
  induction ds generalizing m with
  | nil => cases h; exact ⟨rfl, rfl, rfl⟩
  | cons d ds ih =>
    rw [forAll] at h
    cases hd : f d m with
    | none => rw [hd] at h; cases h
    | some o =>
      obtain ⟨m1, b⟩ := o
      have h1 := hf d m _ hd
      rw [hd] at h
      cases b with
      | true =>
        have h2 := ih m1 h
        exact ⟨h2.1.trans h1.1, h2.2.1.trans h1.2.1, h2.2.2.trans h1.2.2⟩
      | false => cases h; exact h1

theorem recInit_keeps (p : Program) (fuel : Nat) (i : Id) (m : Manager) (r : Manager × Bool) (h : recInit p fuel i m = some r) :
    r.1.state = m.state ∧ r.1.dict = m.dict ∧ r.1.built = m.built := by
  induction fuel generalizing i m r with
  | zero => cases h
  | succ fuel ih =>
    rw [recInit] at h
    by_cases h1 : i ∉ m.dict
    · rw [if_pos h1] at h; cases h; exact ⟨rfl, rfl, rfl⟩
    · rw [if_neg h1] at h
      by_cases h2 : (m.states i).rank ≥ 2
      · rw [if_pos h2] at h; cases h; exact ⟨rfl, rfl, rfl⟩
      · rw [if_neg h2] at h
        cases hd : m.dep i with
        | none => rw [hd] at h; cases h; exact ⟨rfl, rfl, rfl⟩
        | some ds =>
          rw [hd] at h
          simp only at h
          cases hf : forAll (recInit p fuel) ds m with
          | none => rw [hf] at h; cases h
          | some o =>
            have h3 := forAll_keeps (fun i m r hr => ih i m r hr) ds m o hf
            obtain ⟨m1, b⟩ := o
            rw [hf] at h
            cases b with
            | true =>
              simp only [Option.some.injEq] at h
              subst h
              have h4 := callHook_keeps p (.init i) i .initialized m1
              exact ⟨h4.1.trans h3.1, h4.2.1.trans h3.2.1, h4.2.2.trans h3.2.2⟩
            | false => cases h; exact h3

theorem initAll_keeps (p : Program) (fuel : Nat) (m : Manager) (r : Manager × Bool) (h : initAll p fuel m = some r) :
    r.1.state = .initialized ∧ r.1.dict = m.dict ∧ r.1.built = m.built ∧ (r.2 = true → ∀ i ∈ m.dict, r.1.states i = .final) := by
  unfold initAll at h
  have hk : ∀ (ev : Id → Event) (s : CState) (i : Id) (m : Manager) (r : Manager × Bool), some (callHook p (ev i) i s m) = some r →
      r.1.state = m.state ∧ r.1.dict = m.dict ∧ r.1.built = m.built := by
    intro ev s i m r h
    cases h
    exact callHook_keeps p (ev i) i s m
  have hpost : ∀ (l : List Id) (m : Manager) (r : Manager × Bool),
      forAll (fun i m => some (callHook p (.post i) i .final m)) l m = some r → r.2 = true →
      (∀ i ∈ l, r.1.states i = .final) ∧ ∀ i, m.states i = .final → r.1.states i = .final := by
    intro l
    induction l with
    | nil => intro m r h _; cases h; exact ⟨by simp, fun _ h => h⟩
    | cons a l ih =>
      intro m r h hr
      rw [forAll] at h
      cases hok : p.hookOk (.post a) with
      | false =>
        simp only [callHook, hok, Bool.false_eq_true, if_false, Option.some.injEq] at h
        subst h
        cases hr
      | true =>
        have e : callHook p (.post a) a .final m =
            ({ m with trace := m.trace ++ [Event.post a], states := fun j => if j = a then .final else m.states j }, true) := by
          simp only [callHook, hok, if_true]
        rw [e] at h
        simp only at h
        obtain ⟨h1, h2⟩ := ih _ r h hr
        refine ⟨?_, ?_⟩
        · intro i hi
          rcases List.mem_cons.mp hi with rfl | hi
          · exact h2 i (by simp)
          · exact h1 i hi
        · intro i hi
          apply h2
          simp only [hi]
          split <;> rfl
  cases h1 : forAll (fun i m => some (callHook p (.pre i) i .preInitialized m)) m.dict { m with state := .initialized } with
  | none => rw [h1] at h; cases h
  | some o1 =>
    have k1 := forAll_keeps (hk Event.pre .preInitialized) _ _ _ h1
    obtain ⟨m1, b1⟩ := o1
    rw [h1] at h
    cases b1 with
    | false => cases h; exact ⟨k1.1, k1.2.1, k1.2.2, by simp⟩
    | true =>
      simp only at h
      cases h2 : forAll (recInit p fuel) m.dict m1 with
      | none => rw [h2] at h; cases h
      | some o2 =>
        have k2 := forAll_keeps (recInit_keeps p fuel) _ _ _ h2
        obtain ⟨m2, b2⟩ := o2
        rw [h2] at h
        cases b2 with
        | false => cases h; exact ⟨k2.1.trans k1.1, k2.2.1.trans k1.2.1, k2.2.2.trans k1.2.2, by simp⟩
        | true =>
          simp only at h
          have k3 := forAll_keeps (hk Event.post .final) _ _ _ h
          exact ⟨k3.1.trans (k2.1.trans k1.1), k3.2.1.trans (k2.2.1.trans k1.2.1), k3.2.2.trans (k2.2.2.trans k1.2.2),
            fun hr => (hpost _ _ _ h hr).1⟩

theorem close_keeps (p : Program) (fuel : Nat) (m : Manager) (r : Manager × Res Unit) (h : close p fuel m = some r) :
    r.1.state = .waiting ∧ r.1.dict = m.dict ∧ r.1.built = m.built := by
  unfold close at h
  simp only at h
  split at h
  · split at h
    · cases h; exact ⟨rfl, rfl, rfl⟩
    · cases h
  · cases h; exact ⟨rfl, rfl, rfl⟩

/-- Once the registration is closed no call changes what is registered, and the registering calls throw. -/
theorem C88_closed (p : Program) (fuel : Nat) (m m' : Manager) (o : Op) (r : Reply) (hs : m.state ≠ .registration)
    (h : step p fuel m o = some (m', r)) :
    m'.state ≠ .registration ∧ m'.dict = m.dict ∧ m'.built = m.built ∧
      ((∃ t, o = .register t) ∨ (∃ a b, o = .registerDep a b) → r = .threw ∧ m' = m) := by
  cases o with
  | register t =>
    simp only [step] at h
    cases fuel with
    | zero => simp [register] at h
    | succ fuel =>
      rw [register, if_pos hs] at h
      simp only [Option.some.injEq, Prod.mk.injEq] at h
      obtain ⟨rfl, rfl⟩ := h
      exact ⟨hs, rfl, rfl, fun _ => ⟨rfl, rfl⟩⟩
  | registerDep a b =>
    simp only [step, registerDep, if_pos hs, Bool.false_eq_true, if_false, Option.some.injEq, Prod.mk.injEq] at h
    obtain ⟨rfl, rfl⟩ := h
    exact ⟨hs, rfl, rfl, fun _ => ⟨rfl, rfl⟩⟩
  | close =>
    simp only [step] at h
    cases hc : close p fuel m with
    | none => rw [hc] at h; cases h
    | some o =>
      have k := close_keeps p fuel m o hc
      obtain ⟨m1, q⟩ := o
      rw [hc] at h
      have hm : m' = m1 := by
        cases q with
        | ok u => simp only [Option.some.injEq, Prod.mk.injEq] at h; exact h.1.symm
        | throw e => simp only [Option.some.injEq, Prod.mk.injEq] at h; exact h.1.symm
        | ub => cases h
      subst hm
      exact ⟨by rw [k.1]; simp, k.2.1, k.2.2, by simp⟩
  | init =>
    simp only [step] at h
    cases hc : initAll p fuel m with
    | none => rw [hc] at h; cases h
    | some o =>
      have k := initAll_keeps p fuel m o hc
      obtain ⟨m1, q⟩ := o
      rw [hc] at h
      have hm : m' = m1 := by
        cases q <;> (simp only [Option.some.injEq, Prod.mk.injEq] at h; exact h.1.symm)
      subst hm
      exact ⟨by rw [k.1]; simp, k.2.1, k.2.2.1, by simp⟩
  | get t =>
    simp only [step] at h
    cases hg : get m t with
    | ok s => rw [hg] at h; cases h; exact ⟨hs, rfl, rfl, by simp⟩
    | throw e => rw [hg] at h; cases h; exact ⟨hs, rfl, rfl, by simp⟩
    | ub => rw [hg] at h; cases h

/-- In every sequence of calls in which every call of `initialize` returns normally, the configurations handed out are final. -/
theorem C88_final_partial (p : Program) (fuel : Nat) (ops : List Op) (m : Manager) (rs : List (Op × Reply))
    (h : run p fuel {} ops = some (m, rs)) (hinit : ∀ r, (Op.init, r) ∈ rs → r = .done) (t : Id) (s : CState)
    (hget : (Op.get t, Reply.config s) ∈ rs) : s = .final := by
  have gen : ∀ (ops : List Op) (m0 m : Manager) (rs : List (Op × Reply)), (m0.state = .initialized → ∀ i ∈ m0.dict, m0.states i = .final) →
      run p fuel m0 ops = some (m, rs) → (∀ r, (Op.init, r) ∈ rs → r = .done) → (Op.get t, Reply.config s) ∈ rs → s = .final := by
    intro ops
    induction ops with
    | nil => intro m0 m rs _ h _ hg; cases h; cases hg
    | cons o os ih =>
      intro m0 m rs hI h hinit hg
      rw [run] at h
      cases hst : step p fuel m0 o with
      | none => rw [hst] at h; cases h
      | some o1 =>
        obtain ⟨m1, r⟩ := o1
        rw [hst] at h
        simp only at h
        cases hr : run p fuel m1 os with
        | none => rw [hr] at h; cases h
        | some o2 =>
          obtain ⟨m2, rs2⟩ := o2
          rw [hr] at h
          cases h
          have hI1 : m1.state = .initialized → ∀ i ∈ m1.dict, m1.states i = .final := by
            cases o with
            | register u =>
              simp only [step] at hst
              by_cases hs : m0.state = .registration
              · intro he
                exfalso
                cases hreg : register p fuel u m0 with
                | none => rw [hreg] at hst; cases hst
                | some q =>
                  obtain ⟨m', b⟩ := q
                  have : m'.state = .registration := by
                    have gs : ∀ (fuel : Nat) (u : Id) (m m' : Manager) (b : Bool), m.state = .registration → register p fuel u m = some (m', b) →
                        m'.state = .registration := by
                      intro fuel
                      induction fuel with
                      | zero => intro u m m' b _ h; cases h
                      | succ fuel ihf =>
                        intro u m m' b hs h
                        rw [register, if_neg (by simp [hs])] at h
                        by_cases hb : u ∈ m.built
                        · rw [if_pos hb] at h; cases h; exact hs
                        · rw [if_neg hb] at h
                          have loop : ∀ (ds : List Id) (m m' : Manager) (b : Bool), m.state = .registration →
                              declareAll (register p fuel) ds m = some (m', b) → m'.state = .registration := by
                            intro ds
                            induction ds with
                            | nil => intro m m' b hs h; cases h; exact hs
                            | cons d ds ihd =>
                              intro m m' b hs h
                              rw [declareAll] at h
                              cases hrr : register p fuel d m with
                              | none => rw [hrr] at h; cases h
                              | some o =>
                                obtain ⟨m1, c⟩ := o
                                have h1 := ihf d m m1 c hs hrr
                                rw [hrr] at h
                                cases c with
                                | true => exact ihd m1 m' b h1 h
                                | false => cases h; exact h1
                          cases hd : declareAll (register p fuel) (p.decl u) { m with dict := setInsert u m.dict } with
                          | none => rw [hd] at h; cases h
                          | some o =>
                            obtain ⟨m1, c⟩ := o
                            have h1 := loop _ { m with dict := setInsert u m.dict } m1 c hs hd
                            rw [hd] at h
                            cases c with
                            | false => cases h; exact h1
                            | true =>
                              simp only at h
                              split at h
                              · cases h; exact h1
                              · cases h; exact h1
                    exact gs fuel u m0 m' b hs hreg
                  rw [hreg] at hst
                  cases b <;> (simp only [Option.some.injEq, Prod.mk.injEq] at hst; rw [← hst.1, this] at he; cases he)
              · have := (C88_closed p fuel m0 m1 (.register u) r hs (by simpa [step] using hst)).2.2.2 (Or.inl ⟨u, rfl⟩)
                rw [this.2]
                exact hI
            | registerDep a b =>
              simp only [step, Option.some.injEq, Prod.mk.injEq] at hst
              rw [← hst.1]
              unfold registerDep
              split
              · exact hI
              · exact hI
            | close =>
              simp only [step] at hst
              cases hc : close p fuel m0 with
              | none => rw [hc] at hst; cases hst
              | some q =>
                have k := close_keeps p fuel m0 q hc
                obtain ⟨m', u⟩ := q
                rw [hc] at hst
                have hm : m1 = m' := by
                  cases u with
                  | ok u => simp only [Option.some.injEq, Prod.mk.injEq] at hst; exact hst.1.symm
                  | throw e => simp only [Option.some.injEq, Prod.mk.injEq] at hst; exact hst.1.symm
                  | ub => cases hst
                subst hm
                intro he
                simp only at k
                rw [k.1] at he
                cases he
            | init =>
              have hdone := hinit r List.mem_cons_self
              simp only [step] at hst
              cases hc : initAll p fuel m0 with
              | none => rw [hc] at hst; cases hst
              | some q =>
                have k := initAll_keeps p fuel m0 q hc
                obtain ⟨m', b⟩ := q
                rw [hc] at hst
                cases b with
                | false =>
                  simp only [Option.some.injEq, Prod.mk.injEq] at hst
                  rw [hdone] at hst
                  cases hst.2
                | true =>
                  simp only [Option.some.injEq, Prod.mk.injEq] at hst
                  rw [← hst.1]
                  intro _ i hi
                  simp only at k
                  rw [k.2.1] at hi
                  exact k.2.2.2 trivial i hi
            | get u =>
              simp only [step] at hst
              cases hg : get m0 u with
              | ok s => rw [hg] at hst; cases hst; exact hI
              | throw e => rw [hg] at hst; cases hst; exact hI
              | ub => rw [hg] at hst; cases hst
          rcases List.mem_cons.mp hg with e | hg
          · cases e
            simp only [step] at hst
            cases hgt : get m0 t with
            | ok s' =>
              rw [hgt] at hst
              simp only [Option.some.injEq, Prod.mk.injEq, Reply.config.injEq] at hst
              obtain ⟨rfl, rfl⟩ := hst
              unfold get at hgt
              by_cases h1 : m0.state ≠ .initialized
              · rw [if_pos h1] at hgt; cases hgt
              · rw [if_neg h1] at hgt
                by_cases h2 : t ∉ m0.dict
                · rw [if_pos h2] at hgt; cases hgt
                · rw [if_neg h2] at hgt
                  by_cases h3 : t ∉ m0.built
                  · rw [if_pos h3] at hgt; cases hgt
                  · rw [if_neg h3] at hgt
                    cases hgt
                    exact hI (by simpa using h1) t (by simpa using h2)
            | throw e => rw [hgt] at hst; cases hst
            | ub => rw [hgt] at hst; cases hst
          · exact ih m1 m rs2 hI1 hr (fun r hr => hinit r (List.mem_cons_of_mem _ hr)) hg
  exact gen ops {} m rs (by intro h; cases h) h hinit hget

/-- The full claim: whatever happened before, only final configurations are handed out. -/
def C88_full : Prop := ∀ (p : Program) (fuel : Nat) (ops : List Op) (m : Manager) (rs : List (Op × Reply)),
  run p fuel {} ops = some (m, rs) → ∀ t s, (Op.get t, Reply.config s) ∈ rs → s = .final

/-- When a hook throws during `initialize` the manager counts as initialised, and hands out configurations that are not. -/
theorem C88_violated : ¬ C88_full := by
  intro h
  have := h ⟨fun _ => [], fun _ => true, fun e => e ≠ .init 0⟩ 3 [.register 0, .close, .init, .get 0] _ _ rfl 0 .preInitialized (by decide)
  cases this

/-- So does a call of `initialize` before `closeRegistration`, which throws. -/
theorem C88_not_closed : (run ⟨fun _ => [], fun _ => true, fun _ => true⟩ 3 {} [.register 0, .init, .get 0]).map (·.2) =
    some [(.register 0, .done), (.init, .threw), (.get 0, .config .preInitialized)] := by decide

/-- A second `initialize` calls all hooks again. -/
theorem C88_twice : (run ⟨fun _ => [], fun _ => true, fun _ => true⟩ 3 {} [.register 0, .close, .init, .init]).map (·.1.trace) =
    some [.pre 0, .init 0, .post 0, .pre 0, .init 0, .post 0] := by decide

example : (run ⟨fun i => if i = 2 then [1] else [], fun _ => true, fun _ => true⟩ 3 {}
    [.get 1, .register 2, .close, .register 3, .registerDep 1 2, .init, .get 1, .get 3]).map (·.2) =
    some [(.get 1, .threw), (.register 2, .done), (.close, .done), (.register 3, .threw), (.registerDep 1 2, .threw), (.init, .done),
      (.get 1, .config .final), (.get 3, .threw)] := by decide

end Alexandria.Configuration
