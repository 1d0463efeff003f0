import Verif.Configuration.Model
import Verif.Configuration.Spec
import Mathlib.Data.Finset.Card
import Mathlib.Data.Finset.Filter

/-! # Lemmas for configurations -/

namespace Alexandria.Configuration

open Relation

theorem mem_setInsert {x y : Nat} {l : List Nat} : y ∈ setInsert x l ↔ y = x ∨ y ∈ l := by
  induction l with
  | nil => simp [setInsert]
  | cons z l ih =>
    rw [setInsert]
    split
    · simp
    · split
      · rename_i h; subst h; simp
      · rw [List.mem_cons, ih, List.mem_cons]
        constructor
        · rintro (h | h | h) <;> simp [h]
        · rintro (h | h | h) <;> simp [h]

theorem sorted_setInsert {x : Nat} {l : List Nat} (h : l.Pairwise (· < ·)) : (setInsert x l).Pairwise (· < ·) := by
  induction l with
  | nil => simp [setInsert]
  | cons z l ih =>
    rw [setInsert]
    obtain ⟨h1, h2⟩ := List.pairwise_cons.mp h
    split
    · rename_i hx
      refine List.pairwise_cons.mpr ⟨?_, h⟩
      intro y hy
      rcases List.mem_cons.mp hy with rfl | hy
      · exact hx
      · exact lt_trans hx (h1 y hy)
    · split
      · exact h
      · rename_i hx hne
        refine List.pairwise_cons.mpr ⟨?_, ih h2⟩
        intro y hy
        rcases mem_setInsert.mp hy with rfl | hy
        · omega
        · exact h1 y hy

theorem mem_setInsertAll {xs s : List Nat} {y : Nat} : y ∈ setInsertAll s xs ↔ y ∈ s ∨ y ∈ xs := by
  unfold setInsertAll
  induction xs generalizing s with
  | nil => simp
  | cons x xs ih =>
    rw [List.foldl_cons, ih, mem_setInsert, List.mem_cons]
    constructor
    · rintro ((h | h) | h) <;> simp [h]
    · rintro (h | h | h) <;> simp [h]

/-- The edges of a dependency map. -/
def Edge (dep : Id → Option (List Id)) (i d : Id) : Prop := ∃ ds, dep i = some ds ∧ d ∈ ds

/-- All keys are present, and all dependencies are keys. -/
structure Closed (dict : List Id) (dep : Id → Option (List Id)) : Prop where
  key : ∀ i ∈ dict, ∃ ds, dep i = some ds
  sub : ∀ i d, Edge dep i d → d ∈ dict

/-- A finite relation in which no node reachable from `a` lies on a cycle has a height. -/
theorem exists_height (r : Id → Id → Prop) (dict : List Id) (hsub : ∀ i d, r i d → d ∈ dict) :
    ∃ h : Id → Nat, ∀ i d, r i d → ¬ TransGen r d d → h d < h i := by
  classical
  refine ⟨fun i => (dict.toFinset.filter fun j => TransGen r i j).card, ?_⟩
  intro i d hid hac
  apply Finset.card_lt_card
  rw [Finset.ssubset_iff_of_subset]
  · refine ⟨d, ?_, ?_⟩
    · rw [Finset.mem_filter]
      exact ⟨by simpa using hsub i d hid, .single hid⟩
    · rw [Finset.mem_filter]
      rintro ⟨_, h⟩
      exact hac h
  · intro j hj
    rw [Finset.mem_filter] at hj ⊢
    exact ⟨hj.1, .head hid hj.2⟩

/-! ## The search for cycles -/

theorem circAll_mono {f g : Id → Option (Res (List Id))} {ds : List Id} (h : ∀ d ∈ ds, ∀ r, f d = some r → g d = some r) {r : Res (List Id)}
    (hr : circAll f ds = some r) : circAll g ds = some r := by
  induction ds with
  | nil => exact hr
  | cons d ds ih =>
    rw [circAll] at hr ⊢
    cases hf : f d with
    | none => rw [hf] at hr; cases hr
    | some o =>
      rw [h d List.mem_cons_self o hf]
      rw [hf] at hr
      cases o with
      | ok p =>
        cases p with
        | nil => exact ih (fun x hx => h x (List.mem_cons_of_mem _ hx)) hr
        | cons a p => exact hr
      | throw e => exact hr
      | ub => exact hr

theorem hasCirc_mono {dep : Id → Option (List Id)} {root : Id} {f g : Nat} (hfg : f ≤ g) {n : Id} {r : Res (List Id)}
    (hr : hasCirc dep root f n = some r) : hasCirc dep root g n = some r := by
  induction f generalizing g n r with
  | zero => cases hr
  | succ f ih =>
    obtain ⟨g', rfl⟩ : ∃ g', g = g' + 1 := ⟨g - 1, by omega⟩
    rw [hasCirc] at hr ⊢
    cases hd : dep n with
    | none => rw [hd] at hr; exact hr
    | some ds =>
      rw [hd] at hr
      simp only at hr ⊢
      split
      · rename_i h; rw [if_pos h] at hr; exact hr
      · rename_i h
        rw [if_neg h] at hr
        exact circAll_mono (fun d _ r hr => ih (by omega) hr) hr

/-- What a search that ends has found. -/
theorem hasCirc_sound {dict : List Id} {dep : Id → Option (List Id)} (hc : Closed dict dep) {root : Id} {fuel : Nat} {n : Id} (hn : n ∈ dict)
    {r : Res (List Id)} (h : hasCirc dep root fuel n = some r) :
    ∃ p, r = .ok p ∧ (p = [] → ¬ TransGen (Edge dep) n root) ∧ (p ≠ [] → Spec.Path (Edge dep) n p ∧ p.getLast? = some root) := by
  induction fuel generalizing n r with
  | zero => cases h
  | succ fuel ih =>
    rw [hasCirc] at h
    obtain ⟨ds, hds⟩ := hc.key n hn
    rw [hds] at h
    simp only at h
    by_cases hr : root ∈ ds
    · rw [if_pos hr, Option.some.injEq] at h
      subst h
      exact ⟨[root], rfl, by simp, fun _ => ⟨⟨⟨ds, hds, hr⟩, trivial⟩, rfl⟩⟩
    · rw [if_neg hr] at h
      have loop : ∀ (cs : List Id), (∀ c ∈ cs, c ∈ ds) → ∀ r, circAll (hasCirc dep root fuel) cs = some r →
          ∃ p, r = .ok p ∧ (p = [] → ∀ c ∈ cs, ¬ TransGen (Edge dep) c root) ∧
            (p ≠ [] → Spec.Path (Edge dep) n p ∧ p.getLast? = some root) := by
        intro cs
        induction cs with
        | nil => intro _ r hr; simp only [circAll, Option.some.injEq] at hr; subst hr; exact ⟨[], rfl, by simp, by simp⟩
        | cons c cs ihc =>
          intro hsub r hr
          have hcn : Edge dep n c := ⟨ds, hds, hsub c List.mem_cons_self⟩
          rw [circAll] at hr
          cases hb : hasCirc dep root fuel c with
          | none => rw [hb] at hr; cases hr
          | some o =>
            obtain ⟨p, rfl, h1, h2⟩ := ih (hc.sub n c hcn) hb
            rw [hb] at hr
            cases p with
            | nil =>
              obtain ⟨q, e, q1, q2⟩ := ihc (fun x hx => hsub x (List.mem_cons_of_mem _ hx)) r hr
              refine ⟨q, e, ?_, q2⟩
              intro hq x hx
              rcases List.mem_cons.mp hx with rfl | hx
              · exact h1 rfl
              · exact q1 hq x hx
            | cons a p =>
              simp only [Option.some.injEq] at hr
              obtain ⟨p1, p2⟩ := h2 (by simp)
              refine ⟨c :: a :: p, hr.symm, by simp, fun _ => ⟨⟨hcn, p1⟩, ?_⟩⟩
              rw [List.getLast?_cons_cons]
              exact p2
      obtain ⟨p, e, h1, h2⟩ := loop ds (fun _ h => h) r h
      refine ⟨p, e, ?_, h2⟩
      intro hp ht
      obtain ⟨c, hnc, hcr⟩ := TransGen.head'_iff.mp ht
      obtain ⟨ds', hds', hm⟩ := hnc
      rw [hds] at hds'
      cases hds'
      rcases (reflTransGen_iff_eq_or_transGen).mp hcr with e | hcr
      · subst e; exact hr hm
      · exact h1 hp c hm hcr

/-- The search for `root` ends when the cycles reachable from it contain it. -/
theorem hasCirc_terminates {dict : List Id} {dep : Id → Option (List Id)} (hc : Closed dict dep) {root : Id} (hr : root ∈ dict)
    (hcyc : ∀ c, ReflTransGen (Edge dep) root c → ∀ (hcc : TransGen (fun i d => Edge dep i d ∧ d ≠ root) c c), False) :
    ∃ fuel r, hasCirc dep root fuel root = some r := by
  obtain ⟨h, hh⟩ := exists_height (fun i d => Edge dep i d ∧ d ≠ root) dict (fun i d hid => hc.sub i d hid.1)
  have main : ∀ (k : Nat) (n : Id), n ∈ dict → ReflTransGen (Edge dep) root n → h n < k → ∃ r, hasCirc dep root k n = some r := by
    intro k
    induction k with
    | zero => intro n _ _ hk; omega
    | succ k ih =>
      intro n hn hrn hk
      rw [hasCirc]
      obtain ⟨ds, hds⟩ := hc.key n hn
      rw [hds]
      simp only
      by_cases hr : root ∈ ds
      · rw [if_pos hr]; exact ⟨_, rfl⟩
      · rw [if_neg hr]
        have loop : ∀ cs : List Id, (∀ c ∈ cs, c ∈ ds) → ∃ r, circAll (hasCirc dep root k) cs = some r := by
          intro cs
          induction cs with
          | nil => intro _; exact ⟨_, rfl⟩
          | cons c cs ihc =>
            intro hsub
            have hcd := hsub c List.mem_cons_self
            have hnc : Edge dep n c := ⟨ds, hds, hcd⟩
            have hrc : ReflTransGen (Edge dep) root c := hrn.tail hnc
            have hlt := hh n c ⟨hnc, fun e => hr (e ▸ hcd)⟩ (fun hcc => hcyc c hrc hcc)
            obtain ⟨o, ho⟩ := ih c (hc.sub n c hnc) hrc (by omega)
            rw [circAll, ho]
            cases o with
            | ok p =>
              cases p with
              | nil => exact ihc (fun x hx => hsub x (List.mem_cons_of_mem _ hx))
              | cons a p => exact ⟨_, rfl⟩
            | throw e => exact ⟨_, rfl⟩
            | ub => exact ⟨_, rfl⟩
        exact loop ds (fun _ h => h)
  obtain ⟨r, hr'⟩ := main (h root + 1) root hr .refl (by omega)
  exact ⟨_, r, hr'⟩

theorem checkAll_mono {dep : Id → Option (List Id)} {f g : Nat} (hfg : f ≤ g) {rs : List Id} {r : Res Unit}
    (h : checkAll dep f rs = some r) : checkAll dep g rs = some r := by
  induction rs with
  | nil => exact h
  | cons a rs ih =>
    rw [checkAll] at h ⊢
    cases hf : hasCirc dep a f a with
    | none => rw [hf] at h; cases h
    | some o =>
      rw [hasCirc_mono hfg hf]
      rw [hf] at h
      cases o with
      | ok p =>
        cases p with
        | nil => exact ih h
        | cons x p => exact h
      | throw e => exact h
      | ub => exact h

theorem checkAll_sound {dict : List Id} {dep : Id → Option (List Id)} (hc : Closed dict dep) {fuel : Nat} {rs : List Id} (hrs : ∀ i ∈ rs, i ∈ dict)
    {r : Res Unit} (h : checkAll dep fuel rs = some r) :
    (r = .ok () ∧ ∀ i ∈ rs, ¬ TransGen (Edge dep) i i) ∨ (r = .throw .elements ∧ ∃ i ∈ rs, TransGen (Edge dep) i i) := by
  induction rs with
  | nil => simp only [checkAll, Option.some.injEq] at h; exact Or.inl ⟨h.symm, by simp⟩
  | cons a rs ih =>
    rw [checkAll] at h
    cases hf : hasCirc dep a fuel a with
    | none => rw [hf] at h; cases h
    | some o =>
      obtain ⟨p, rfl, h1, h2⟩ := hasCirc_sound hc (hrs a List.mem_cons_self) hf
      rw [hf] at h
      cases p with
      | nil =>
        rcases ih (fun i hi => hrs i (List.mem_cons_of_mem _ hi)) h with ⟨e, hh⟩ | ⟨e, i, hi, hh⟩
        · refine Or.inl ⟨e, ?_⟩
          intro i hi
          rcases List.mem_cons.mp hi with rfl | hi
          · exact h1 rfl
          · exact hh i hi
        · exact Or.inr ⟨e, i, List.mem_cons_of_mem _ hi, hh⟩
      | cons b p =>
        simp only [Option.some.injEq] at h
        refine Or.inr ⟨h.symm, a, List.mem_cons_self, ?_⟩
        obtain ⟨p1, p2⟩ := h2 (by simp)
        have path : ∀ (l : List Id) (x y : Id), l ≠ [] → Spec.Path (Edge dep) x l → l.getLast? = some y → TransGen (Edge dep) x y := by
          intro l
          induction l with
          | nil => intro x y h; exact absurd rfl h
          | cons z l ihl =>
            intro x y _ hp hl
            cases l with
            | nil => simp only [List.getLast?_singleton, Option.some.injEq] at hl; subst hl; exact .single hp.1
            | cons w l =>
              rw [List.getLast?_cons_cons] at hl
              exact .head hp.1 (ihl z y (by simp) hp.2 hl)
        exact path _ a a (by simp) p1 p2

theorem cleanup_closed (p : Program) (m : Manager) : Closed m.dict (cleanup m.dict (withDeclared p m)) := by
  constructor
  · intro i hi
    unfold cleanup withDeclared
    rw [if_pos hi, if_pos hi]
    exact ⟨_, rfl⟩
  · rintro i d ⟨ds, h, hd⟩
    unfold cleanup at h
    split at h
    · cases hw : withDeclared p m i with
      | none => rw [hw] at h; cases h
      | some l =>
        rw [hw] at h
        simp only [Option.map_some, Option.some.injEq] at h
        subst h
        simpa using (List.mem_filter.mp hd).2
    · cases h

/-- The dependencies in effect after `closeRegistration`: declared by the constructor or registered, between registered
configurations. -/
theorem cleanup_edge (p : Program) (m : Manager) (i d : Id) :
    Edge (cleanup m.dict (withDeclared p m)) i d ↔ i ∈ m.dict ∧ d ∈ m.dict ∧ (d ∈ p.decl i ∨ Edge m.dep i d) := by
  unfold Edge cleanup withDeclared
  by_cases hi : i ∈ m.dict
  · simp only [hi, if_true, Option.map_some, Option.some.injEq, true_and]
    constructor
    · rintro ⟨ds, rfl, hd⟩
      obtain ⟨h1, h2⟩ := List.mem_filter.mp hd
      refine ⟨by simpa using h2, ?_⟩
      rcases mem_setInsertAll.mp h1 with h | h
      · right
        cases hm : m.dep i with
        | none => rw [hm] at h; simp at h
        | some l => rw [hm] at h; exact ⟨l, rfl, h⟩
      · left; exact h
    · rintro ⟨h1, h2⟩
      refine ⟨_, rfl, List.mem_filter.mpr ⟨mem_setInsertAll.mpr ?_, by simpa using h1⟩⟩
      rcases h2 with h | ⟨l, hl, h⟩
      · right; exact h
      · left; rw [hl]; exact h
  · simp [hi]

end Alexandria.Configuration
