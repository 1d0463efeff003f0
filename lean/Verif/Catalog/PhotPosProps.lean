import Verif.Catalog.PhotProps

/-!
# Photometries with thresholds and kinds in any order (C51)
-/

namespace Alexandria.Catalog

open Alexandria.Str Alexandria.Table

variable {K F : Type} [Field K] [LinearOrder K] [IsStrictOrderedRing K]

/-! ## Specification -/

/-- What is made of a flux and an error: the decision table, but an error that is NaN is taken as it is. -/
def Taken (lib : Lib K) (s : Settings K) (threshold flux error : Dbl K) (v : FluxError K) : Prop :=
  Judged lib s threshold flux error v ∨ (error = .nan ∧ (∃ x, flux = .num x) ∧ ¬ Missing lib s flux ∧ v = ⟨flux, .nan, false, false⟩)

/-- Whether the filter at a position is a magnitude: what stands at this position, if there are as many kinds as thresholds. -/
def KindAt (convert : List (Bytes × Bool)) (thresholds k : Nat) (c : Bool) : Prop :=
  if convert.length = thresholds then ∃ name, convert[k]? = some (name, c) else c = false

/-! ## Theorems -/

theorem createLoop_exact (conv : Conv F (Dbl K)) (lib : Lib K) (s : Settings K) (row : RowT F (Dbl K)) :
    ∀ (l : List (Nat × Nat)) (nMap : List (Bytes × Dbl K)) (convert : List (Bytes × Bool)), l.length ≤ nMap.length → l.length ≤ convert.length → ∀ vs,
    (createLoop conv lib s row l nMap convert = .ok vs ↔ vs.length = l.length ∧ ∀ (i : Nat) ix n c v, l[i]? = some ix → nMap[i]? = some n → convert[i]? = some c → vs[i]? = some v →
      ∃ fe, Measured conv lib s row ⟨ix, n.2, c.2⟩ fe ∧ Taken lib s n.2 fe.1 fe.2 v) := by
  intro l
  induction l with
  | nil =>
    intro nMap convert _ _ vs
    rw [createLoop]
    constructor
    · intro h; cases h; exact ⟨rfl, fun i ix n c v h => by simp at h⟩
    · rintro ⟨h, _⟩
      rw [List.length_eq_zero_iff.1 h]
  | cons ix l ih =>
    intro nMap convert h1 h2 vs
    cases nMap with
    | nil => simp at h1
    | cons n nMap =>
      cases convert with
      | nil => simp at h2
      | cons c convert =>
        have ih' := ih nMap convert (by simpa using h1) (by simpa using h2)
        obtain ⟨i, j⟩ := ix
        obtain ⟨cn, c⟩ := c
        rw [createLoop]
        simp only [bind_eq_ok', get_iff, List.head?_cons, Option.map_some]
        constructor
        · rintro ⟨a, ha, b, hb, x, hx, y, hy, v, hv, vs', hvs, hr⟩
          cases hr
          obtain ⟨hl, hall⟩ := (ih' vs').1 hvs
          refine ⟨by simp [hl], ?_⟩
          intro k ix n' c' v' k1 k2 k3 k4
          cases k with
          | zero =>
            simp only [List.getElem?_cons_zero, Option.some.injEq] at k1 k2 k3 k4
            subst k1 k2 k3 k4
            exact ⟨_, ⟨a, b, x, y, ha, hb, hx, hy, (observed_iff lib s c x y _).2 rfl⟩, (C51_decision_exact lib s n.2 _ _ v).1 hv⟩
          | succ k =>
            simp only [List.getElem?_cons_succ] at k1 k2 k3 k4
            exact hall k ix n' c' v' k1 k2 k3 k4
        · rintro ⟨hl, hall⟩
          cases vs with
          | nil => simp at hl
          | cons v vs =>
            obtain ⟨fe, ⟨a, b, x, y, ha, hb, hx, hy, ho⟩, hJ⟩ := hall 0 (i, j) n (cn, c) v rfl rfl rfl rfl
            rw [observed_iff] at ho
            subst ho
            refine ⟨a, ha, b, hb, x, hx, y, hy, v, (C51_decision_exact lib s n.2 _ _ v).2 hJ, vs, (ih' vs).2 ⟨by simpa using hl, ?_⟩, rfl⟩
            intro k ix n' c' v' k1 k2 k3 k4
            exact hall (k + 1) ix n' c' v' (by simpa using k1) (by simpa using k2) (by simpa using k3) (by simpa using k4)

theorem createLoop_short (conv : Conv F (Dbl K)) (lib : Lib K) (s : Settings K) (row : RowT F (Dbl K)) :
    ∀ (l : List (Nat × Nat)) (nMap : List (Bytes × Dbl K)) (convert : List (Bytes × Bool)), nMap.length < l.length → ∀ vs, createLoop conv lib s row l nMap convert ≠ .ok vs := by
  intro l
  induction l with
  | nil => intro nMap convert h; simp at h
  | cons ix l ih =>
    intro nMap convert h vs e
    obtain ⟨i, j⟩ := ix
    rw [createLoop] at e
    simp only [bind_eq_ok'] at e
    obtain ⟨a, _, b, _, x, _, y, _, e⟩ := e
    cases convert with
    | nil => cases e
    | cons c convert =>
      obtain ⟨v, _, e⟩ := bind_eq_ok'.1 e
      cases nMap with
      | nil => cases e
      | cons n nMap =>
        obtain ⟨vs', e, _⟩ := bind_eq_ok'.1 e
        exact ih nMap convert (by simpa using h) vs' e

/-- The photometry of a row, whatever the names of the thresholds and kinds are: those at the position of the filter are used.  With fewer thresholds than filters there is no photometry. -/
theorem C51_positions (conv : Conv F (Dbl K)) (lib : Lib K) (info : Info) (mapping : List (Bytes × Bytes × Bytes)) (s : Settings K) (nMap : List (Bytes × Dbl K))
    (convert : List (Bytes × Bool)) (p : FromRow K) (hp : mkFromRow info mapping s nMap convert = .ok p) (row : RowT F (Dbl K)) (ph : Photometry K) :
    p.create conv lib row = .ok ph ↔ mapping.length ≤ nMap.length ∧ ph.names = mapping.map Prod.fst ∧ ph.values.length = mapping.length ∧
      ∀ (k : Nat) name f e nm thr c v, mapping[k]? = some (name, f, e) → nMap[k]? = some (nm, thr) → KindAt convert nMap.length k c → ph.values[k]? = some v →
        ∃ i j fe, findColumn info f = some i ∧ findColumn info e = some j ∧ Measured conv lib s row ⟨(i, j), thr, c⟩ fe ∧ Taken lib s thr fe.1 fe.2 v := by
  rw [mkFromRow, bind_eq_ok'] at hp
  obtain ⟨indices, hi, hp⟩ := hp
  cases hp
  have hF := (indexLoop_iff info mapping indices).1 hi
  have hil : indices.length = mapping.length := hF.length_eq.symm
  have hcol : ∀ (i : Nat) (m : Bytes × Bytes × Bytes), mapping[i]? = some m → ∃ ix, indices[i]? = some ix ∧ findColumn info m.2.1 = some ix.1 ∧ findColumn info m.2.2 = some ix.2 := by
    intro i m hm
    have hlt := (List.getElem?_eq_some_iff.1 hm).1
    have := (List.forall₂_iff_get.1 hF).2 i hlt (by omega)
    refine ⟨indices[i], List.getElem?_eq_getElem (by omega), ?_⟩
    rw [← (List.getElem?_eq_some_iff.1 hm).2]
    exact this
  obtain ⟨kinds, hk⟩ : ∃ kinds, kinds = if convert.length ≠ nMap.length then nMap.map fun p => (p.1, false) else convert := ⟨_, rfl⟩
  have hkl : kinds.length = nMap.length := by
    rw [hk]
    split
    · simp
    · rename_i h; simpa using h
  have hkind : ∀ k c, k < nMap.length → (KindAt convert nMap.length k c ↔ ∃ name, kinds[k]? = some (name, c)) := by
    intro k c hlt
    unfold KindAt
    rw [hk]
    by_cases h : convert.length = nMap.length
    · rw [if_pos h, if_neg (by simpa using h)]
    · rw [if_neg h, if_pos h, List.getElem?_map, List.getElem?_eq_getElem hlt]
      simp [eq_comm]
  rw [← hk, FromRow.create]
  simp only [bind_eq_ok']
  by_cases hn : mapping.length ≤ nMap.length
  · have hloop := createLoop_exact conv lib s row indices nMap kinds (by omega) (by omega)
    constructor
    · rintro ⟨vs, h1, h2⟩
      obtain ⟨h3, h4⟩ := (hloop vs).1 h1
      have hph : ph = ⟨mapping.map Prod.fst, vs⟩ := by
        unfold mkPhotometry at h2
        simp only [List.length_map] at h2
        rw [if_neg (by omega)] at h2
        cases h2; rfl
      subst hph
      refine ⟨hn, rfl, h3.trans hil, ?_⟩
      intro k name f e nm thr c v k1 k2 k3 k4
      obtain ⟨ix, g1, g2, g3⟩ := hcol k _ k1
      obtain ⟨cn, g4⟩ := (hkind k c (List.getElem?_eq_some_iff.1 k2).1).1 k3
      obtain ⟨fe, g5, g6⟩ := h4 k ix (nm, thr) (cn, c) v g1 k2 g4 k4
      exact ⟨ix.1, ix.2, fe, g2, g3, g5, g6⟩
    · rintro ⟨_, h1, h2, h3⟩
      obtain ⟨names, vs⟩ := ph
      simp only at h1 h2 h3
      subst h1
      refine ⟨vs, (hloop vs).2 ⟨by omega, ?_⟩, ?_⟩
      · intro k ix n c v k1 k2 k3 k4
        have hlt := (List.getElem?_eq_some_iff.1 k1).1
        have hm : mapping[k]? = some mapping[k] := List.getElem?_eq_getElem (by omega)
        obtain ⟨ix', g1, g2, g3⟩ := hcol k _ hm
        rw [k1, Option.some.injEq] at g1
        subst g1
        obtain ⟨i, j, fe, e1, e2, e3, e4⟩ := h3 k mapping[k].1 mapping[k].2.1 mapping[k].2.2 n.1 n.2 c.2 v hm k2 ((hkind k c.2 (by omega)).2 ⟨c.1, k3⟩) k4
        rw [g2, Option.some.injEq] at e1
        rw [g3, Option.some.injEq] at e2
        subst e1 e2
        exact ⟨fe, e3, e4⟩
      · unfold mkPhotometry
        simp only [List.length_map]
        rw [if_neg (by omega)]
  · constructor
    · rintro ⟨vs, h1, _⟩
      exact absurd h1 (createLoop_short conv lib s row indices nMap kinds (by omega) vs)
    · rintro ⟨h, _⟩; exact absurd h hn

/-- Thresholds in the other order, and an infinite one: the error of the upper limit is 0, against the conventions. -/
example : exCreate [("b".toList, .inf false), ("a".toList, .num 4)] [] (exRow (.num 8) (.num (-1)) (.num 8) (.num (-1))) =
    .ok [⟨.num 8, .num 0, false, true⟩, ⟨.num 8, .num 2, false, true⟩] := by decide +kernel

end Alexandria.Catalog
