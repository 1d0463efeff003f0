import Verif.Configuration.Props

/-!
# Exactly when the search for cycles does not end (C25)
-/

namespace Alexandria.Configuration

open Relation

namespace Spec

/-- From `n` neither the root nor any cycle can be reached. -/
def Barren (D : Nat → Nat → Prop) (root n : Nat) : Prop := ¬ TransGen D n root ∧ ∀ c, ReflTransGen D n c → ¬ TransGen D c c

/-- `d` is a dependency of `n`, the root is not, and the dependencies of `n` before `d` are barren. -/
def Leads (D : Nat → Nat → Prop) (root n d : Nat) : Prop := ¬ D n root ∧ D n d ∧ ∀ e, D n e → e < d → Barren D root e

/-- Following these steps from the root one comes to a cycle of such steps. -/
def Lost (D : Nat → Nat → Prop) (root : Nat) : Prop := ∃ c, ReflTransGen (Leads D root) root c ∧ TransGen (Leads D root) c c

end Spec

section Search

variable {dict : List Id} {dep : Id → Option (List Id)}

/-- The search finds nothing only below barren nodes. -/
theorem barren_of_nothing (hc : Closed dict dep) {root : Id} {fuel : Nat} : ∀ {n : Id}, n ∈ dict → hasCirc dep root fuel n = some (.ok []) → Spec.Barren (Edge dep) root n := by
  induction fuel with
  | zero => intro n _ h; cases h
  | succ fuel ih =>
    intro n hn h
    have hsound := hasCirc_sound hc hn h
    obtain ⟨p, e, h1, _⟩ := hsound
    cases e
    rw [hasCirc] at h
    obtain ⟨ds, hds⟩ := hc.key n hn
    rw [hds] at h
    simp only at h
    by_cases hr : root ∈ ds
    · rw [if_pos hr] at h; cases h
    rw [if_neg hr] at h
    have loop : ∀ cs : List Id, circAll (hasCirc dep root fuel) cs = some (.ok []) → ∀ c ∈ cs, hasCirc dep root fuel c = some (.ok []) := by
      intro cs
      induction cs with
      | nil => intro _ c hc; cases hc
      | cons d cs ihc =>
        intro h
        rw [circAll] at h
        cases hd : hasCirc dep root fuel d with
        | none => rw [hd] at h; cases h
        | some o =>
          rw [hd] at h
          cases o with
          | ub => cases h
          | throw e => cases h
          | ok p =>
            cases p with
            | cons a p => cases h
            | nil =>
              intro c hcc
              rcases List.mem_cons.1 hcc with rfl | hcc
              · exact hd
              · exact ihc h c hcc
    have hch : ∀ d, Edge dep n d → Spec.Barren (Edge dep) root d := by
      rintro d ⟨ds', hds', hd⟩
      rw [hds] at hds'
      cases hds'
      exact ih (hc.sub n d ⟨ds, hds, hd⟩) (loop ds h d hd)
    refine ⟨h1 rfl, ?_⟩
    intro c hnc hcc
    rcases ReflTransGen.cases_head hnc with rfl | ⟨d, hnd, hdc⟩
    · obtain ⟨d, hnd, hdn⟩ := TransGen.head'_iff.1 hcc
      exact (hch d hnd).2 n hdn hcc
    · exact (hch d hnd).2 c hdc hcc

/-- Below a barren node the search finds nothing. -/
theorem nothing_of_barren (hc : Closed dict dep) {root n : Id} (hn : n ∈ dict) (hb : Spec.Barren (Edge dep) root n) : ∃ fuel, hasCirc dep root fuel n = some (.ok []) := by
  obtain ⟨h, hh⟩ := exists_height (Edge dep) dict hc.sub
  have main : ∀ (k : Nat) (n : Id), n ∈ dict → Spec.Barren (Edge dep) root n → h n < k → hasCirc dep root k n = some (.ok []) := by
    intro k
    induction k with
    | zero => intro n _ _ hk; omega
    | succ k ih =>
      intro n hn hb hk
      rw [hasCirc]
      obtain ⟨ds, hds⟩ := hc.key n hn
      rw [hds]
      simp only
      rw [if_neg (fun hr => hb.1 (.single ⟨ds, hds, hr⟩))]
      have loop : ∀ cs : List Id, (∀ c ∈ cs, c ∈ ds) → circAll (hasCirc dep root k) cs = some (.ok []) := by
        intro cs
        induction cs with
        | nil => intro _; rfl
        | cons c cs ihc =>
          intro hsub
          have hnc : Edge dep n c := ⟨ds, hds, hsub c List.mem_cons_self⟩
          have hbc : Spec.Barren (Edge dep) root c := ⟨fun ht => hb.1 (.head hnc ht), fun x hx => hb.2 x (.head hnc hx)⟩
          have hlt := hh n c hnc (hbc.2 c .refl)
          rw [circAll, ih c (hc.sub n c hnc) hbc (by omega)]
          exact ihc fun x hx => hsub x (List.mem_cons_of_mem _ hx)
      exact loop ds fun _ h => h
  exact ⟨h n + 1, main _ n hn hb (by omega)⟩

/-- Below a barren node the search finds nothing, with whatever fuel. -/
theorem barren_or_none (hc : Closed dict dep) {root n : Id} (hn : n ∈ dict) (hb : Spec.Barren (Edge dep) root n) (fuel : Nat) :
    hasCirc dep root fuel n = some (.ok []) ∨ hasCirc dep root fuel n = none := by
  cases h : hasCirc dep root fuel n with
  | none => exact Or.inr rfl
  | some r =>
    obtain ⟨k, hk⟩ := nothing_of_barren hc hn hb
    have h1 := hasCirc_mono (Nat.le_max_left fuel k) h
    have h2 := hasCirc_mono (Nat.le_max_right fuel k) hk
    rw [h1] at h2
    exact Or.inl h2

/-- Where the steps of the search run into a cycle, it does not end. -/
theorem endless (hc : Closed dict dep) (hs : ∀ i ds, dep i = some ds → ds.Pairwise (· < ·)) {root : Id} (fuel : Nat) :
    ∀ {n : Id}, n ∈ dict → (∃ c, ReflTransGen (Spec.Leads (Edge dep) root) n c ∧ TransGen (Spec.Leads (Edge dep) root) c c) → hasCirc dep root fuel n = none := by
  induction fuel with
  | zero => intro n _ _; rfl
  | succ fuel ih =>
    intro n hn ⟨c, hnc, hcc⟩
    obtain ⟨d, hnd, hd⟩ : ∃ d, Spec.Leads (Edge dep) root n d ∧ ∃ c, ReflTransGen (Spec.Leads (Edge dep) root) d c ∧ TransGen (Spec.Leads (Edge dep) root) c c := by
      rcases ReflTransGen.cases_head hnc with rfl | ⟨d, hnd, hdc⟩
      · obtain ⟨d, hnd, hdn⟩ := TransGen.head'_iff.1 hcc
        exact ⟨d, hnd, n, hdn, hcc⟩
      · exact ⟨d, hnd, c, hdc, hcc⟩
    obtain ⟨hroot, ⟨ds, hds, hmem⟩, hbefore⟩ := hnd
    rw [hasCirc, hds]
    simp only
    rw [if_neg (fun hr => hroot ⟨ds, hds, hr⟩)]
    have hdn := ih (hc.sub n d ⟨ds, hds, hmem⟩) hd
    obtain ⟨pre, post, rfl⟩ := List.append_of_mem hmem
    have hp := (List.pairwise_append.1 (hs n _ hds)).2.2
    have loop : ∀ cs : List Id, (∀ e ∈ cs, e ∈ pre) → circAll (hasCirc dep root fuel) (cs ++ d :: post) = none := by
      intro cs
      induction cs with
      | nil => intro _; rw [List.nil_append, circAll, hdn]
      | cons e cs ihc =>
        intro hsub
        have he := hsub e List.mem_cons_self
        have hne : Edge dep n e := ⟨_, hds, List.mem_append_left _ he⟩
        rw [List.cons_append, circAll]
        rcases barren_or_none hc (hc.sub n e hne) (hbefore e hne (hp e he d List.mem_cons_self)) fuel with h | h
        · rw [h]
          exact ihc fun x hx => hsub x (List.mem_cons_of_mem _ hx)
        · rw [h]
    exact loop pre fun _ h => h

/-- Otherwise it ends. -/
theorem ends (hc : Closed dict dep) (hs : ∀ i ds, dep i = some ds → ds.Pairwise (· < ·)) {root n : Id} (hn : n ∈ dict)
    (hl : ¬ ∃ c, ReflTransGen (Spec.Leads (Edge dep) root) n c ∧ TransGen (Spec.Leads (Edge dep) root) c c) : ∃ fuel r, hasCirc dep root fuel n = some r := by
  obtain ⟨h, hh⟩ := exists_height (Spec.Leads (Edge dep) root) dict fun i d hid => hc.sub i d hid.2.1
  have main : ∀ (k : Nat) (n : Id), n ∈ dict → (¬ ∃ c, ReflTransGen (Spec.Leads (Edge dep) root) n c ∧ TransGen (Spec.Leads (Edge dep) root) c c) → h n < k →
      ∃ fuel r, hasCirc dep root fuel n = some r := by
    intro k
    induction k with
    | zero => intro n _ _ hk; omega
    | succ k ih =>
      intro n hn hl hk
      obtain ⟨ds, hds⟩ := hc.key n hn
      by_cases hr : root ∈ ds
      · refine ⟨1, .ok [root], ?_⟩
        rw [hasCirc, hds]
        simp only
        rw [if_pos hr]
      have loop : ∀ (cs pre : List Id), ds = pre ++ cs → (∀ e ∈ pre, Spec.Barren (Edge dep) root e) → ∃ fuel r, circAll (hasCirc dep root fuel) cs = some r := by
        intro cs
        induction cs with
        | nil => intro _ _ _; exact ⟨0, _, rfl⟩
        | cons d cs ihc =>
          intro pre he hpre
          have hnd : Edge dep n d := ⟨ds, hds, by rw [he]; simp⟩
          have hlead : Spec.Leads (Edge dep) root n d := by
            refine ⟨fun ⟨ds', hds', hm⟩ => hr (by rw [hds] at hds'; cases hds'; exact hm), hnd, ?_⟩
            rintro e ⟨ds', hds', hm⟩ hlt
            rw [hds] at hds'
            cases hds'
            have hp := hs n ds hds
            rw [he] at hp hm
            rcases List.mem_append.1 hm with hm | hm
            · exact hpre e hm
            · rcases List.mem_cons.1 hm with rfl | hm
              · exact absurd hlt (Nat.lt_irrefl _)
              · exact absurd hlt (Nat.lt_asymm ((List.pairwise_cons.1 (List.pairwise_append.1 hp).2.1).1 e hm))
          have hl' : ¬ ∃ c, ReflTransGen (Spec.Leads (Edge dep) root) d c ∧ TransGen (Spec.Leads (Edge dep) root) c c :=
            fun ⟨c, h1, h2⟩ => hl ⟨c, .head hlead h1, h2⟩
          have hlt := hh n d hlead (fun hcc => hl' ⟨d, .refl, hcc⟩)
          obtain ⟨f, r, hf⟩ := ih d (hc.sub n d hnd) hl' (by omega)
          obtain ⟨p, rfl, _, _⟩ := hasCirc_sound hc (hc.sub n d hnd) hf
          cases p with
          | cons a p => exact ⟨f, _, by rw [circAll, hf]⟩
          | nil =>
            obtain ⟨g, r, hg⟩ := ihc (pre ++ [d]) (by rw [he]; simp) (by
              intro e hm
              rcases List.mem_append.1 hm with hm | hm
              · exact hpre e hm
              · rw [List.mem_singleton.1 hm]
                exact barren_of_nothing hc (hc.sub n d hnd) hf)
            refine ⟨max f g, r, ?_⟩
            rw [circAll, hasCirc_mono (Nat.le_max_left f g) hf]
            exact circAll_mono (fun _ _ _ h => hasCirc_mono (Nat.le_max_right f g) h) hg
      obtain ⟨fuel, r, hfuel⟩ := loop ds [] rfl (by simp)
      refine ⟨fuel + 1, r, ?_⟩
      rw [hasCirc, hds]
      simp only
      rw [if_neg hr]
      exact hfuel
  exact main (h n + 1) n hn hl (by omega)

/-- The search from all configurations in turn. -/
theorem checkAll_none (hc : Closed dict dep) (hs : ∀ i ds, dep i = some ds → ds.Pairwise (· < ·)) : ∀ rs : List Id, (∀ i ∈ rs, i ∈ dict) → rs.Pairwise (· < ·) →
    ((∀ fuel, checkAll dep fuel rs = none) ↔ ∃ a ∈ rs, (∀ b ∈ rs, b < a → Spec.Barren (Edge dep) b b) ∧ Spec.Lost (Edge dep) a) := by
  intro rs
  induction rs with
  | nil =>
    intro _ _
    refine ⟨fun h => ?_, fun ⟨a, h, _⟩ => (by cases h)⟩
    have := h 0
    cases this
  | cons r rs ih =>
    intro hrs hp
    have hr := hrs r List.mem_cons_self
    obtain ⟨hp1, hp2⟩ := List.pairwise_cons.1 hp
    have ih := ih (fun i hi => hrs i (List.mem_cons_of_mem _ hi)) hp2
    by_cases hlost : Spec.Lost (Edge dep) r
    · refine ⟨fun _ => ⟨r, List.mem_cons_self, ?_, hlost⟩, fun _ fuel => ?_⟩
      · intro b hb hlt
        rcases List.mem_cons.1 hb with rfl | hb
        · exact absurd hlt (Nat.lt_irrefl _)
        · exact absurd hlt (Nat.lt_asymm (hp1 b hb))
      · rw [checkAll, endless hc hs fuel hr hlost]
    · obtain ⟨f, o, hf⟩ := ends hc hs hr hlost
      obtain ⟨p, rfl, _, _⟩ := hasCirc_sound hc hr hf
      cases p with
      | cons x p =>
        refine ⟨fun h => ?_, ?_⟩
        · have := h f
          rw [checkAll, hf] at this
          cases this
        · rintro ⟨a, ha, hb, hl⟩
          rcases List.mem_cons.1 ha with rfl | ha
          · exact absurd hl hlost
          · rcases barren_or_none hc hr (hb r List.mem_cons_self (hp1 a ha)) f with h | h
            · rw [hf] at h; cases h
            · rw [hf] at h; cases h
      | nil =>
        have hbar := barren_of_nothing hc hr hf
        constructor
        · intro h
          obtain ⟨a, ha, hb, hl⟩ := ih.1 (fun fuel => by
            cases hck : checkAll dep fuel rs with
            | none => rfl
            | some o =>
              have h1 := checkAll_mono (Nat.le_max_left fuel f) hck
              have h2 := h (max fuel f)
              rw [checkAll, hasCirc_mono (Nat.le_max_right fuel f) hf] at h2
              simp only at h2
              rw [h1] at h2
              cases h2)
          refine ⟨a, List.mem_cons_of_mem _ ha, ?_, hl⟩
          intro b hbm hlt
          rcases List.mem_cons.1 hbm with rfl | hbm
          · exact hbar
          · exact hb b hbm hlt
        · rintro ⟨a, ha, hb, hl⟩ fuel
          rcases List.mem_cons.1 ha with rfl | ha
          · exact absurd hl hlost
          · have hn := ih.2 ⟨a, ha, fun b hbm => hb b (List.mem_cons_of_mem _ hbm), hl⟩ fuel
            rw [checkAll]
            rcases barren_or_none hc hr hbar fuel with h | h
            · rw [h]; exact hn
            · rw [h]

end Search

theorem sorted_setInsertAll (xs : List Nat) : ∀ s : List Nat, s.Pairwise (· < ·) → (setInsertAll s xs).Pairwise (· < ·) := by
  induction xs with
  | nil => intro s h; exact h
  | cons x xs ih => intro s h; exact ih _ (sorted_setInsert h)

theorem cleanup_sorted (p : Program) (m : Manager) (hs : ∀ i ds, m.dep i = some ds → ds.Pairwise (· < ·)) (i : Id) (ds : List Id)
    (h : cleanup m.dict (withDeclared p m) i = some ds) : ds.Pairwise (· < ·) := by
  unfold cleanup withDeclared at h
  by_cases hi : i ∈ m.dict
  · simp only [if_pos hi, Option.map_some, Option.some.injEq] at h
    subst h
    apply List.Pairwise.filter
    apply sorted_setInsertAll
    cases hm : m.dep i with
    | none => exact List.Pairwise.nil
    | some l => exact hs i l hm
  · simp only [if_neg hi] at h
    cases h

/-- **C25**: exactly when `closeRegistration` neither returns nor throws: for the first configuration that lies on a cycle or reaches one, the search, which goes to the first dependency that is not barren, runs into a cycle before it
meets that configuration again. -/
theorem C25_endless (p : Program) (m : Manager) (hb : ∀ i ∈ m.dict, i ∈ m.built) (hd : m.dict.Pairwise (· < ·)) (hs : ∀ i ds, m.dep i = some ds → ds.Pairwise (· < ·)) :
    (∀ fuel, close p fuel m = none) ↔
      ∃ a ∈ m.dict, (∀ b ∈ m.dict, b < a → Spec.Barren (Spec.Depends p m) b b) ∧ Spec.Lost (Spec.Depends p m) a := by
  rw [← depends_iff, ← checkAll_none (cleanup_closed p m) (cleanup_sorted p m hs) m.dict (fun _ h => h) hd]
  have hall : (m.dict.all (· ∈ m.built)) = true := by simpa using hb
  unfold close
  simp only [hall, if_true]
  constructor
  · intro h fuel
    have := h fuel
    cases hck : checkAll (cleanup m.dict (withDeclared p m)) fuel m.dict with
    | none => rfl
    | some r => rw [hck] at this; cases this
  · intro h fuel
    rw [h fuel]

/-- **C25**: and otherwise it returns or throws, and it throws exactly if there is a cycle. -/
theorem C25_otherwise (p : Program) (m : Manager) (hb : ∀ i ∈ m.dict, i ∈ m.built) (hd : m.dict.Pairwise (· < ·)) (hs : ∀ i ds, m.dep i = some ds → ds.Pairwise (· < ·))
    (hn : ¬ ∃ a ∈ m.dict, (∀ b ∈ m.dict, b < a → Spec.Barren (Spec.Depends p m) b b) ∧ Spec.Lost (Spec.Depends p m) a) :
    ∃ fuel m' r, close p fuel m = some (m', r) ∧ ((r = .ok () ∧ Spec.Acyclic (Spec.Depends p m)) ∨ (r = .throw .elements ∧ ¬ Spec.Acyclic (Spec.Depends p m))) := by
  rw [← C25_endless p m hb hd hs, not_forall] at hn
  obtain ⟨fuel, hf⟩ := hn
  cases hcl : close p fuel m with
  | none => exact absurd hcl hf
  | some x => exact ⟨fuel, x.1, x.2, hcl, C25_result p m hb fuel x.1 x.2 hcl⟩

/-! ## Managers made by registrations -/

theorem register_sorted (p : Program) (fuel : Nat) : ∀ (t : Id) (m m' : Manager) (ok : Bool), register p fuel t m = some (m', ok) → m.dict.Pairwise (· < ·) →
    m'.dict.Pairwise (· < ·) ∧ m'.dep = m.dep := by
  induction fuel with
  | zero => intro t m m' ok h; cases h
  | succ fuel ih =>
    intro t m m' ok h hm
    rw [register] at h
    by_cases h1 : m.state ≠ .registration
    · rw [if_pos h1] at h; cases h; exact ⟨hm, rfl⟩
    rw [if_neg h1] at h
    by_cases h2 : t ∈ m.built
    · rw [if_pos h2] at h; cases h; exact ⟨hm, rfl⟩
    rw [if_neg h2] at h
    have decl : ∀ (ds : List Id) (m m' : Manager) (ok : Bool), declareAll (register p fuel) ds m = some (m', ok) → m.dict.Pairwise (· < ·) →
        m'.dict.Pairwise (· < ·) ∧ m'.dep = m.dep := by
      intro ds
      induction ds with
      | nil => intro m m' ok h hm; cases h; exact ⟨hm, rfl⟩
      | cons d ds ihd =>
        intro m m' ok h hm
        rw [declareAll] at h
        cases hr : register p fuel d m with
        | none => rw [hr] at h; cases h
        | some x =>
          obtain ⟨m1, b⟩ := x
          have h1 := ih d m m1 b hr hm
          rw [hr] at h
          cases b with
          | false => cases h; exact h1
          | true =>
            have h2 := ihd m1 m' ok h h1.1
            exact ⟨h2.1, h2.2.trans h1.2⟩
    cases hd : declareAll (register p fuel) (p.decl t) { m with dict := setInsert t m.dict } with
    | none => rw [hd] at h; cases h
    | some x =>
      obtain ⟨m1, b⟩ := x
      have h3 := decl _ _ _ _ hd (sorted_setInsert hm)
      rw [hd] at h
      cases b with
      | false => cases h; exact h3
      | true =>
        simp only at h
        by_cases hk : p.ctorOk t = true
        · rw [if_pos hk] at h; cases h; exact h3
        · rw [if_neg hk] at h; cases h; exact h3

/-- The sets and maps are in order after every registration, so that the theorems above speak about all managers. -/
theorem C25_in_order (p : Program) (calls : List (Id ⊕ (Id × Id))) : ∀ (m m' : Manager),
    m.dict.Pairwise (· < ·) ∧ (∀ i ds, m.dep i = some ds → ds.Pairwise (· < ·)) →
    (∃ fuel, calls.foldlM (fun m c => match c with
      | .inl t => (register p fuel t m).map Prod.fst
      | .inr ab => some (registerDep m ab.1 ab.2).1) m = some m') →
    m'.dict.Pairwise (· < ·) ∧ ∀ i ds, m'.dep i = some ds → ds.Pairwise (· < ·) := by
  induction calls with
  | nil => rintro m m' hm ⟨_, h⟩; cases h; exact hm
  | cons c calls ih =>
    rintro m m' hm ⟨fuel, h⟩
    rw [List.foldlM_cons] at h
    cases c with
    | inl t =>
      cases hr : register p fuel t m with
      | none => simp only [hr, Option.map_none] at h; cases h
      | some x =>
        simp only [hr, Option.map_some] at h
        have h1 := register_sorted p fuel t m x.1 x.2 hr hm.1
        exact ih x.1 m' ⟨h1.1, h1.2 ▸ hm.2⟩ ⟨fuel, h⟩
    | inr ab =>
      obtain ⟨a, b⟩ := ab
      refine ih (registerDep m a b).1 m' ?_ ⟨fuel, h⟩
      rw [registerDep]
      by_cases h1 : m.state ≠ .registration
      · rw [if_pos h1]; exact hm
      · rw [if_neg h1]
        refine ⟨hm.1, ?_⟩
        intro i ds hi
        by_cases hia : i = a
        · simp only [if_pos hia, Option.some.injEq] at hi
          subst hi
          apply sorted_setInsert
          cases hd : m.dep a with
          | none => exact List.Pairwise.nil
          | some l => exact hm.2 a l hd
        · simp only [if_neg hia] at hi
          exact hm.2 i ds hi

/-! ## Examples -/

/-- The search from the first configuration of the lasso is lost. -/
example : ∃ a ∈ lasso.dict, (∀ b ∈ lasso.dict, b < a → Spec.Barren (Spec.Depends ⟨fun _ => [], fun _ => true, fun _ => true⟩ lasso) b b) ∧
    Spec.Lost (Spec.Depends ⟨fun _ => [], fun _ => true, fun _ => true⟩ lasso) a := by
  have hD : ∀ i d, Spec.Depends ⟨fun _ => [], fun _ => true, fun _ => true⟩ lasso i d ↔ (i = 0 ∧ d = 1) ∨ (i = 1 ∧ d = 2) ∨ (i = 2 ∧ d = 1) := by
    intro i d
    simp only [Spec.Depends, lasso, List.mem_cons, List.not_mem_nil, or_false, false_or]
    constructor
    · rintro ⟨rfl | rfl | rfl, _, ds, h, hd⟩ <;> simp at h <;> subst h <;> simp_all
    · rintro (⟨rfl, rfl⟩ | ⟨rfl, rfl⟩ | ⟨rfl, rfl⟩) <;> simp
  have hl : ∀ i d, Spec.Depends ⟨fun _ => [], fun _ => true, fun _ => true⟩ lasso i d → Spec.Leads (Spec.Depends ⟨fun _ => [], fun _ => true, fun _ => true⟩ lasso) 0 i d := by
    intro i d h
    refine ⟨fun h0 => ?_, h, fun e he hlt => ?_⟩
    · rw [hD] at h0
      rcases h0 with ⟨_, h⟩ | ⟨_, h⟩ | ⟨_, h⟩ <;> cases h
    · rw [hD] at h he
      rcases h with ⟨rfl, rfl⟩ | ⟨rfl, rfl⟩ | ⟨rfl, rfl⟩ <;> rcases he with ⟨h, rfl⟩ | ⟨h, rfl⟩ | ⟨h, rfl⟩ <;> first | cases h; done | exact absurd hlt (by decide)
  refine ⟨0, by decide, fun b _ hlt => absurd hlt (Nat.not_lt_zero b), 1, .single (hl 0 1 ((hD 0 1).2 (by simp))), ?_⟩
  exact .tail (.single (hl 1 2 ((hD 1 2).2 (by simp)))) (hl 2 1 ((hD 2 1).2 (by simp)))

/-- **C25 (why the map is cleaned).** A dependency on a type that is not registered would be dereferenced past the end of the map; `cleanupNonRegisteredDependencies` takes it out before. -/
theorem C25_cleanup_needed (dep : Id → Option (List Id)) (root n d : Id) (ds : List Id) (hn : dep n = some (d :: ds)) (hr : root ∉ d :: ds) (hd : dep d = none) (fuel : Nat) :
    hasCirc dep root (fuel + 2) n = some .ub ∧ ∀ dict, d ∉ dict → ∀ ds', cleanup dict dep n = some ds' → d ∉ ds' := by
  refine ⟨?_, ?_⟩
  · rw [hasCirc, hn]
    dsimp only
    rw [if_neg hr, circAll, hasCirc, hd]
  · intro dict hdict ds' h hmem
    rw [cleanup, hn] at h
    by_cases hnd : n ∈ dict
    · rw [if_pos hnd] at h
      cases h
      have := (List.mem_filter.mp hmem).2
      exact hdict (by simpa using this)
    · rw [if_neg hnd] at h
      cases h

example : hasCirc (fun i => if i = 0 then some [1] else none) 0 4 0 = some .ub := by decide

end Alexandria.Configuration
