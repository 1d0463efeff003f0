import Verif.MathUtils.GridRoundModel
import Verif.MathUtils.GridApproxProps
import Verif.MathUtils.LinearRoundProps
import Mathlib.Data.List.TakeWhile

/-!
# C149: interpolations on grids with rounding

The functions that the constructors of `InterpN` make, called with rounded operations, are compared with the same functions called with exact ones (C37, C143).
-/

namespace Alexandria.MathUtils

open NdArray (Nd Heap Step)
open NdArray.Spec (card Valid allCoords embed)

/-! ## Specification -/

/-- How large numbers on an axis are in comparison with the distances of neighbouring knots: at most `κ` times. -/
def Spec.Steep {K : Type} [Field K] [LinearOrder K] (ks : List K) (x κ : K) : Prop :=
  ∀ (i : Nat) k l, ks[i]? = some k → ks[i + 1]? = some l → |k| ≤ κ * (l - k) ∧ |x| ≤ κ * (l - k)

section
variable {K D : Type} [Field K] [LinearOrder K] [IsStrictOrderedRing K] [DecidableEq D] (R : Rounding K)

/-! ## The same branches -/

/-- With and without rounding `simple_interpolation` returns zero, an ordinate, or a value of the line through the same neighbouring points; the argument is between them if it is not
outside or if there is no extrapolation. -/
theorem simple_sim {x : K} {xp : List K} {e : Bool} (hne : xp ≠ []) (hs : xp.Pairwise (· < ·)) :
    (e = false ∧ ((∀ c ∈ xp, x < c) ∨ ∀ c ∈ xp, c < x) ∧ ∀ yp, xp.length = yp.length → simpleInterpolation x xp yp e = .ok 0 ∧ machineSimple R x xp yp e = .ok 0) ∨
    (xp.length = 1 ∧ (e = false → xp[0]? = some x) ∧ ∀ yp y, xp.length = yp.length → yp[0]? = some y → simpleInterpolation x xp yp e = .ok y ∧ machineSimple R x xp yp e = .ok y) ∨
    (∃ (i : Nat) (k l : K), xp[i]? = some k ∧ xp[i + 1]? = some l ∧ (e = false ∨ (∃ c ∈ xp, c ≤ x) ∧ (∃ c ∈ xp, x ≤ c) → k ≤ x ∧ x ≤ l) ∧
      ∀ yp y z, xp.length = yp.length → yp[i]? = some y → yp[i + 1]? = some z →
        simpleInterpolation x xp yp e = .ok (lam x k l y z) ∧ machineSimple R x xp yp e = machineLineThrough R x l k z y) := by
  match hlen : xp.length with
  | 0 => exact absurd (List.length_eq_zero_iff.mp hlen) hne
  | 1 =>
    obtain ⟨c, rfl⟩ := List.length_eq_one_iff.mp hlen
    by_cases hc : e = true ∨ c = x
    · refine Or.inr (Or.inl ⟨rfl, fun he => by simpa [he] using hc, fun yp y hl hy => ?_⟩)
      obtain ⟨d, rfl⟩ := List.length_eq_one_iff.mp hl.symm
      simp only [List.getElem?_cons_zero, Option.some.injEq] at hy
      subst hy
      simp [simpleInterpolation, machineSimple, hc]
    · push Not at hc
      refine Or.inl ⟨by simpa using hc.1, by simpa using lt_or_gt_of_ne (Ne.symm hc.2), fun yp hl => ?_⟩
      obtain ⟨d, rfl⟩ := List.length_eq_one_iff.mp hl.symm
      simp [simpleInterpolation, machineSimple, hc]
  | n + 2 =>
    have hs' : xp.Pairwise (· ≤ ·) := hs.imp fun h => le_of_lt h
    have h0 : xp[0]? = some xp[0] := List.getElem?_eq_getElem (by omega)
    have h1 : xp[1]? = some xp[1] := List.getElem?_eq_getElem (by omega)
    have hz : xp[n + 1]? = some xp[n + 1] := List.getElem?_eq_getElem (by omega)
    have hy : xp[n]? = some xp[n] := List.getElem?_eq_getElem (by omega)
    have hge : ∀ c ∈ xp, xp[0] ≤ c := by
      intro c hc
      obtain ⟨j, hj, rfl⟩ := List.mem_iff_getElem.mp hc
      exact sorted_get hs' (Nat.zero_le j) h0 (List.getElem?_eq_getElem hj)
    have hle : ∀ c ∈ xp, c ≤ xp[n + 1] := by
      intro c hc
      obtain ⟨j, hj, rfl⟩ := List.mem_iff_getElem.mp hc
      exact sorted_get hs' (by omega) (List.getElem?_eq_getElem hj) hz
    have exact_line : ∀ {k l y z : K}, k < l → (if l = k then (.ok ((l + z) / 2) : Res K) else do
        let coef1 ← div? (z - y) (l - k)
        return y - coef1 * k + coef1 * x) = .ok (lam x k l y z) := by
      intro k l y z hkl
      rw [if_neg (ne_of_gt hkl), div?, if_neg (sub_ne_zero.mpr (ne_of_gt hkl))]
      simp only [Outcome.bind_ok, lam]
      show Outcome.ok _ = _
      congr 1
      ring
    rcases find_segment (t := x) (n := n) hlen.symm h0 hz with hx | hx | ⟨i, c, c', hc, hc', hx, hx'⟩
    · have hi := upper_zero h0 hx
      cases e with
      | false =>
        refine Or.inl ⟨rfl, Or.inl fun c hc => lt_of_lt_of_le hx (hge c hc), fun yp hl => ?_⟩
        replace hl : xp.length = yp.length := hlen.trans hl
        rw [simple_eq hl (by omega), machineSimple_eq R hl (by omega)]
        simp only [hi, headD_get h0, hx]
        exact ⟨rfl, rfl⟩
      | true =>
        refine Or.inr (Or.inr ⟨0, _, _, h0, h1, ?_, fun yp y z hl hy' hz' => ?_⟩)
        · rintro (h | ⟨⟨c, hc, hcx⟩, _⟩)
          · cases h
          · exact absurd (hge c hc) (not_le.mpr (lt_of_le_of_lt hcx hx))
        · replace hl : xp.length = yp.length := hlen.trans hl
          have hlt := strict_get hs (by omega) h0 h1
          rw [simple_eq hl (by omega), machineSimple_eq R hl (by omega)]
          have n1 : ¬ (1 = xp.length) := by omega
          simp only [hi, if_true, n1, if_false, Bool.not_true, Bool.false_eq_true, false_and, and_false, h1, h0, hy', hz', Nat.sub_self]
          exact ⟨exact_line hlt, trivial⟩
    · have hi := upper_all (xp := xp) (x := x) fun c hc => (hle c hc).trans hx
      have hne0 : ¬ (xp.length = 0) := by omega
      by_cases ho : e = false ∧ xp[n + 1] < x
      · obtain ⟨rfl, ho⟩ := ho
        refine Or.inl ⟨rfl, Or.inr fun c hc => lt_of_le_of_lt (hle c hc) ho, fun yp hl => ?_⟩
        replace hl : xp.length = yp.length := hlen.trans hl
        rw [simple_eq hl (by omega), machineSimple_eq R hl (by omega)]
        simp only [hi, hne0, false_and, if_false, getLastD_get hlen.symm hz, ho]
        exact ⟨rfl, rfl⟩
      · refine Or.inr (Or.inr ⟨n, _, _, hy, hz, ?_, fun yp y z hl hy' hz' => ?_⟩)
        · have hlt := strict_get hs (by omega) hy hz
          rintro (h | ⟨_, c, hc, hcx⟩)
          · exact ⟨hlt.le.trans hx, not_lt.mp fun h' => ho ⟨h, h'⟩⟩
          · exact ⟨hlt.le.trans hx, hcx.trans (hle c hc)⟩
        · replace hl : xp.length = yp.length := hlen.trans hl
          have hlt := strict_get hs (by omega) hy hz
          have no : ¬ ((!e) = true ∧ xp.getLastD 0 < x) := by
            rw [getLastD_get hlen.symm hz]
            rintro ⟨h1, h2⟩
            exact ho ⟨by simpa using h1, h2⟩
          have e1 : xp.length - 1 = n + 1 := by omega
          rw [simple_eq hl (by omega), machineSimple_eq R hl (by omega)]
          simp only [hi, hne0, false_and, if_false, true_and, no, if_true, e1, Nat.add_sub_cancel, hz, hy, hy', hz']
          exact ⟨exact_line hlt, trivial⟩
    · have hi := upper_index hs' hc hc' hx hx'
      have hi' := (List.getElem?_eq_some_iff.mp hc').1
      have n1 : ¬ (i + 1 = 0) := by omega
      by_cases hlast : i + 1 = xp.length
      · omega
      · refine Or.inr (Or.inr ⟨i, c, c', hc, hc', fun _ => ⟨hx, hx'.le⟩, fun yp y z hl hy' hz' => ?_⟩)
        replace hl : xp.length = yp.length := hlen.trans hl
        rw [simple_eq hl (by omega), machineSimple_eq R hl (by omega)]
        simp only [hi, n1, hlast, false_and, if_false, Nat.add_sub_cancel, hc, hc', hy', hz']
        exact ⟨exact_line (strict_get hs (by omega) hc hc'), trivial⟩

theorem simple_pair {e : Bool} {x k l : K} (y z y' z' : K) (hkl : k < l) (h : e = false → k ≤ x ∧ x ≤ l) :
    simpleInterpolation x [k, l] [y, z] e = .ok (lam x k l y z) ∧ machineSimple R x [k, l] [y', z'] e = machineLineThrough R x l k z' y' := by
  rcases simple_sim R (x := x) (xp := [k, l]) (e := e) (by simp) (by simpa using hkl) with ⟨he, ho, _⟩ | ⟨h1, _⟩ | ⟨i, k', l', hk, hl, _, hh⟩
  · obtain ⟨h1, h2⟩ := h he
    rcases ho with ho | ho
    · exact absurd (ho k (by simp)) (not_lt.mpr h1)
    · exact absurd (ho l (by simp)) (not_lt.mpr h2)
  · simp at h1
  · have hi := (List.getElem?_eq_some_iff.mp hl).1
    have : i = 0 := by simp at hi; omega
    subst this
    simp only [List.getElem?_cons_zero, Nat.zero_add, List.getElem?_cons_succ, Option.some.injEq] at hk hl
    subst hk hl
    exact ⟨(hh [y, z] y z rfl rfl rfl).1, (hh [y', z'] y' z' rfl rfl rfl).2⟩

theorem machineCallNth_eq (e : Bool) (subs : List (Interp K D)) (i : Nat) (xs : List (K ⊕ D)) :
    machineCallNth R e subs i xs = match subs[i]? with | some I => machineCall R e I xs | none => .ub := by
  induction subs generalizing i with
  | nil => rw [machineCallNth]; rfl
  | cons I subs ih => cases i with
    | zero => rw [machineCallNth]; rfl
    | succ i => rw [machineCallNth, ih]; rfl

/-- The same for `operator()` on a continuous axis that is not the last. -/
theorem node_sim (e : Bool) {ks : List K} (hne : ks ≠ []) (hs : ks.Pairwise (· < ·)) (subs : List (Interp K D)) (x : K) (rest : List (K ⊕ D)) :
    (e = false ∧ ((∀ c ∈ ks, x < c) ∨ ∀ c ∈ ks, c < x) ∧ call e (.node (.cont ks) subs) (.inl x :: rest) = .ok 0 ∧
      machineCall R e (.node (.cont ks) subs) (.inl x :: rest) = .ok 0) ∨
    (ks.length = 1 ∧ (e = false → ks[0]? = some x) ∧ call e (.node (.cont ks) subs) (.inl x :: rest) = callNth e subs 0 rest ∧
      machineCall R e (.node (.cont ks) subs) (.inl x :: rest) = machineCallNth R e subs 0 rest) ∨
    (∃ (i : Nat) (k l : K), ks[i]? = some k ∧ ks[i + 1]? = some l ∧ (e = false ∨ (∃ c ∈ ks, c ≤ x) ∧ (∃ c ∈ ks, x ≤ c) → k ≤ x ∧ x ≤ l) ∧
      ∀ y z y' z', callNth e subs i rest = .ok y → callNth e subs (i + 1) rest = .ok z → machineCallNth R e subs i rest = .ok y' → machineCallNth R e subs (i + 1) rest = .ok z' →
        call e (.node (.cont ks) subs) (.inl x :: rest) = .ok (lam x k l y z) ∧
          machineCall R e (.node (.cont ks) subs) (.inl x :: rest) = machineLineThrough R x l k z' y') := by
  have hn : 0 < ks.length := List.length_pos_iff.mpr hne
  have hs' : ks.Pairwise (· ≤ ·) := hs.imp fun h => le_of_lt h
  have h0 : ks[0]? = some ks[0] := List.getElem?_eq_getElem hn
  have hz : ks[ks.length - 1]? = some ks[ks.length - 1] := List.getElem?_eq_getElem (by omega)
  have hf : ks.head? = some ks[0] := by rw [List.head?_eq_getElem?]; exact h0
  have hl : ks.getLast? = some ks[ks.length - 1] := by rw [List.getLast?_eq_getElem?]; exact hz
  have hge : ∀ c ∈ ks, ks[0] ≤ c := by
    intro c hc
    obtain ⟨j, hj, rfl⟩ := List.mem_iff_getElem.mp hc
    exact sorted_get hs' (Nat.zero_le j) h0 (List.getElem?_eq_getElem hj)
  have hle : ∀ c ∈ ks, c ≤ ks[ks.length - 1] := by
    intro c hc
    obtain ⟨j, hj, rfl⟩ := List.mem_iff_getElem.mp hc
    exact sorted_get hs' (by omega) (List.getElem?_eq_getElem hj) hz
  simp only [call, machineCall, hf, hl]
  by_cases ho : (x < ks[0] ∨ x > ks[ks.length - 1]) ∧ (!e) = true
  · left
    refine ⟨by simpa using ho.2, ?_, by rw [if_pos ho], by rw [if_pos ho]⟩
    exact ho.1.imp (fun h c hc => lt_of_lt_of_le h (hge c hc)) fun h c hc => lt_of_le_of_lt (hle c hc) h
  right
  rw [if_neg ho, if_neg ho]
  by_cases h1 : ks.length = 1
  · left
    refine ⟨h1, fun he => ?_, by rw [if_pos h1], by rw [if_pos h1]⟩
    subst he
    simp only [Bool.not_false, and_true, not_or, not_lt, gt_iff_lt] at ho
    have e0 : ks[ks.length - 1] = ks[0] := by simp only [h1, Nat.sub_self]
    rw [h0, le_antisymm ho.1 (e0 ▸ ho.2)]
  right
  rw [if_neg h1, if_neg h1]
  have hw : (e = false ∨ (∃ c ∈ ks, c ≤ x) ∧ (∃ c ∈ ks, x ≤ c)) → ks[0] ≤ x ∧ x ≤ ks[ks.length - 1] := by
    rintro (rfl | ⟨⟨c, hc, hcx⟩, d, hd, hdx⟩)
    · simp only [Bool.not_false, and_true, not_or, not_lt, gt_iff_lt] at ho
      exact ho
    · exact ⟨(hge c hc).trans hcx, hdx.trans (hle d hd)⟩
  have hbelow : ∀ (j : Nat) c, j < (ks.takeWhile fun c => decide (c < x)).length → ks[j]? = some c → c < x := by
    intro j c hj hc
    have hp := List.takeWhile_prefix (l := ks) fun c => decide (c < x)
    have : (ks.takeWhile fun c => decide (c < x))[j]? = some c := by
      rw [← hc]
      obtain ⟨t, ht⟩ := hp
      conv_rhs => rw [← ht]
      rw [List.getElem?_append_left hj]
    simpa using List.mem_takeWhile_imp (List.mem_of_getElem? this)
  have habove : ∀ c, ks[(ks.takeWhile fun c => decide (c < x)).length]? = some c → x ≤ c := by
    intro c hc
    have : (ks.dropWhile fun c => decide (c < x)).head? = some c := by
      rw [List.head?_eq_getElem?, ← hc]
      conv_rhs => rw [← List.takeWhile_append_dropWhile (p := fun c => decide (c < x)) (l := ks)]
      rw [List.getElem?_append_right (by simp)]
      simp
    have hd := List.head?_dropWhile_not (fun c => decide (c < x)) ks
    rw [this] at hd
    simpa using hd
  have hlen : (ks.takeWhile fun c => decide (c < x)).length ≤ ks.length := (List.takeWhile_prefix _).length_le
  generalize (ks.takeWhile fun c => decide (c < x)).length = n at *
  obtain ⟨i, hi, hm⟩ : ∃ i, i + 1 < ks.length ∧ (if n = 0 then 1 else if n = ks.length then ks.length - 1 else n) = i + 1 := by
    by_cases n0 : n = 0
    · exact ⟨0, by omega, by rw [if_pos n0]⟩
    · by_cases n1 : n = ks.length
      · exact ⟨ks.length - 2, by omega, by rw [if_neg n0, if_pos n1]; omega⟩
      · exact ⟨n - 1, by omega, by rw [if_neg n0, if_neg n1]; omega⟩
  have hk : ks[i]? = some ks[i] := List.getElem?_eq_getElem (by omega)
  have hk' : ks[i + 1]? = some ks[i + 1] := List.getElem?_eq_getElem hi
  have hkl := strict_get hs (Nat.lt_succ_self i) hk hk'
  have hbet : (e = false ∨ (∃ c ∈ ks, c ≤ x) ∧ (∃ c ∈ ks, x ≤ c)) → ks[i] ≤ x ∧ x ≤ ks[i + 1] := by
    intro h
    obtain ⟨w1, w2⟩ := hw h
    by_cases n0 : n = 0
    · rw [if_pos n0] at hm
      have : i = 0 := by omega
      subst this
      have := habove ks[0] (by rw [n0]; exact h0)
      exact ⟨w1, this.trans hkl.le⟩
    · by_cases n1 : n = ks.length
      · exact absurd (hbelow (ks.length - 1) _ (by omega) hz) (not_lt.mpr w2)
      · rw [if_neg n0, if_neg n1] at hm
        exact ⟨(hbelow i _ (by omega) hk).le, habove _ (by rw [hm]; exact hk')⟩
  refine ⟨i, _, _, hk, hk', hbet, ?_⟩
  intro y z y' z' q1 q2 q3 q4
  rw [hm, Nat.add_sub_cancel, q1, q2, q3, q4, hk, hk']
  exact simple_pair R y z y' z' hkl fun he => hbet (Or.inl he)

/-! ## Induction over the axes -/

/-- The interpolator has these axes, as many parts as knots, and values with the property `P`. -/
def Good (P : K → Prop) : List (Axis K D) → Interp K D → Prop
  | [ax], .last ax' vs => ax' = ax ∧ vs.length = ax.size ∧ ∀ v ∈ vs, P v
  | ax :: ax2 :: rest, .node ax' subs => ax' = ax ∧ subs.length = ax.size ∧ ∀ I ∈ subs, Good P (ax2 :: rest) I
  | _, _ => False

/-- A relation of exact and rounded results is kept if it is kept by the line through two neighbouring knots. -/
theorem tree_sim (e : Bool) (P : K → Prop) (Q : List (Axis K D) → List (K ⊕ D) → K → K → Prop) (leaf : ∀ v, P v → Q [] [] v v)
    (zero : ∀ ks axs x xs, e = false → ((∀ c ∈ ks, x < c) ∨ ∀ c ∈ ks, c < x) → List.Forall₂ Spec.Fits axs xs → Q (.cont ks :: axs) (.inl x :: xs) 0 0)
    (pass : ∀ ax axs x xs w v, Spec.Fits ax x → (e = false → IsKnot ax x) → Q axs xs w v → Q (ax :: axs) (x :: xs) w v)
    (line : ∀ ks axs x xs (i : Nat) k l y z y' z', ks[i]? = some k → ks[i + 1]? = some l → k < l →
      (e = false ∨ (∃ c ∈ ks, c ≤ x) ∧ (∃ c ∈ ks, x ≤ c) → k ≤ x ∧ x ≤ l) → Q axs xs y y' → Q axs xs z z' →
        ∃ v, machineLineThrough R x l k z' y' = .ok v ∧ Q (.cont ks :: axs) (.inl x :: xs) (lam x k l y z) v) :
    ∀ (axs : List (Axis K D)) (I : Interp K D), Good P axs I → (∀ ax ∈ axs, Spec.AxisOk ax) → ∀ xs, List.Forall₂ Spec.Fits axs xs →
      ∃ w v, call e I xs = .ok w ∧ machineCall R e I xs = .ok v ∧ Q axs xs w v := by
  intro axs
  induction axs with
  | nil => intro I hg; cases I <;> exact hg.elim
  | cons ax axs ih =>
    intro I hg hok xs hx
    cases hx with
    | cons hx hrest =>
    rename_i x rest
    have hax := hok ax List.mem_cons_self
    match axs, I, ih, hg, hrest with
    | [], .last ax' vs, _, ⟨ea, hlen, hP⟩, .nil =>
      subst ea
      match ax', x, hx, hax, hlen with
      | .disc ks, .inr d, hx, hax, hlen =>
        obtain ⟨i, hi, rfl⟩ := List.mem_iff_getElem.mp (show d ∈ ks from hx)
        have hlen : vs.length = ks.length := hlen
        have hget : ks[i]? = some ks[i] := List.getElem?_eq_getElem hi
        have hv : vs[i]? = some (vs[i]'(by omega)) := List.getElem?_eq_getElem (by omega)
        refine ⟨vs[i]'(by omega), vs[i]'(by omega), ?_, ?_, pass _ _ _ _ _ _ hx (fun _ => ⟨i, by rw [Spec.knot, hget]; rfl⟩) (leaf _ (hP _ (List.getElem_mem _)))⟩
        · rw [call, findIdx_get hax.2 hget, hget, hv]; simp
        · rw [machineCall, findIdx_get hax.2 hget, hget, hv]; simp
      | .cont ks, .inl t, hx, hax, hlen =>
        have hlen : ks.length = vs.length := Eq.symm hlen
        rw [call, machineCall]
        rcases simple_sim R (x := t) (e := e) hax.1 hax.2 with ⟨he, ho, hh⟩ | ⟨h1, he, hh⟩ | ⟨i, k, l, hk, hl, hb, hh⟩
        · obtain ⟨q1, q2⟩ := hh vs hlen
          exact ⟨0, 0, q1, q2, zero _ _ _ _ he ho .nil⟩
        · have hv : vs[0]? = some (vs[0]'(by omega)) := List.getElem?_eq_getElem (by omega)
          obtain ⟨q1, q2⟩ := hh vs _ hlen hv
          exact ⟨_, _, q1, q2, pass _ _ _ _ _ _ hx (fun h => ⟨0, by rw [Spec.knot, he h]; rfl⟩) (leaf _ (hP _ (List.getElem_mem _)))⟩
        · have hi := (List.getElem?_eq_some_iff.mp hl).1
          have hv : vs[i]? = some (vs[i]'(by omega)) := List.getElem?_eq_getElem (by omega)
          have hv' : vs[i + 1]? = some (vs[i + 1]'(by omega)) := List.getElem?_eq_getElem (by omega)
          obtain ⟨q1, q2⟩ := hh vs _ _ hlen hv hv'
          obtain ⟨v, e1, e2⟩ := line ks [] t [] i k l _ _ _ _ hk hl (strict_get hax.2 (Nat.lt_succ_self i) hk hl) hb (leaf _ (hP _ (List.getElem_mem (by omega : i < vs.length))))
            (leaf _ (hP _ (List.getElem_mem (by omega : i + 1 < vs.length))))
          exact ⟨_, v, q1, q2.trans e1, e2⟩
    | ax2 :: axs, .node ax' subs, ih, ⟨ea, hlen, hsub⟩, hrest =>
      subst ea
      have sub : ∀ j, j < subs.length → ∃ w v, callNth e subs j rest = .ok w ∧ machineCallNth R e subs j rest = .ok v ∧ Q (ax2 :: axs) rest w v := by
        intro j hj
        rw [callNth_eq, machineCallNth_eq, List.getElem?_eq_getElem hj]
        exact ih subs[j] (hsub _ (List.getElem_mem hj)) (fun ax h => hok ax (List.mem_cons_of_mem _ h)) rest hrest
      match ax', x, hx, hax, hlen with
      | .disc ks, .inr d, hx, hax, hlen =>
        obtain ⟨i, hi, rfl⟩ := List.mem_iff_getElem.mp (show d ∈ ks from hx)
        have hlen : subs.length = ks.length := hlen
        have hget : ks[i]? = some ks[i] := List.getElem?_eq_getElem hi
        obtain ⟨w, v, e1, e2, e3⟩ := sub i (by omega)
        refine ⟨w, v, ?_, ?_, pass _ _ _ _ _ _ hx (fun _ => ⟨i, by rw [Spec.knot, hget]; rfl⟩) e3⟩
        · rw [call, findIdx_get hax.2 hget, hget]; simpa using e1
        · rw [machineCall, findIdx_get hax.2 hget, hget]; simpa using e2
      | .cont ks, .inl t, hx, hax, hlen =>
        have hlen : subs.length = ks.length := hlen
        rcases node_sim R e hax.1 hax.2 subs t rest with ⟨he, ho, q1, q2⟩ | ⟨h1, he, q1, q2⟩ | ⟨i, k, l, hk, hl, hb, hh⟩
        · exact ⟨0, 0, q1, q2, zero _ _ _ _ he ho hrest⟩
        · obtain ⟨w, v, e1, e2, e3⟩ := sub 0 (by omega)
          exact ⟨w, v, q1.trans e1, q2.trans e2, pass _ _ _ _ _ _ hx (fun h => ⟨0, by rw [Spec.knot, he h]; rfl⟩) e3⟩
        · have hi := (List.getElem?_eq_some_iff.mp hl).1
          obtain ⟨y, y', e1, e2, e3⟩ := sub i (by omega)
          obtain ⟨z, z', f1, f2, f3⟩ := sub (i + 1) (by omega)
          obtain ⟨q1, q2⟩ := hh y z y' z' e1 f1 e2 f2
          obtain ⟨v, g1, g2⟩ := line ks _ t rest i k l y z y' z' hk hl (strict_get hax.2 (Nat.lt_succ_self i) hk hl) hb e3 f3
          exact ⟨_, v, q1, q2.trans g1, g2⟩

theorem buildLoop_forall {rest : Nd → Res (Interp K D)} {values : Nd} (P : Interp K D → Prop) : ∀ (is : List Nat) (Is : List (Interp K D)),
    (∀ i ∈ is, ∀ sub I, NdArray.rslice values i = .ok sub → rest sub = .ok I → P I) → buildLoop rest values is = .ok Is → Is.length = is.length ∧ ∀ I ∈ Is, P I
  | [], Is, _, h => by
    cases h
    simp
  | i :: is, Is, hp, h => by
    rw [buildLoop] at h
    cases hr : NdArray.rslice values i with
    | throw _ => rw [hr] at h; cases h
    | ub => rw [hr] at h; cases h
    | ok sub =>
      rw [hr] at h
      simp only [fromNd, Outcome.bind_ok] at h
      cases hI : rest sub with
      | throw _ => rw [hI] at h; cases h
      | ub => rw [hI] at h; cases h
      | ok I =>
        rw [hI, Outcome.bind_ok] at h
        cases hIs : buildLoop rest values is with
        | throw _ => rw [hIs] at h; cases h
        | ub => rw [hIs] at h; cases h
        | ok Is' =>
          rw [hIs] at h
          cases h
          obtain ⟨h1, h2⟩ := buildLoop_forall P is Is' (fun j hj => hp j (List.mem_cons_of_mem _ hj)) hIs
          refine ⟨by simp [h1], fun J hJ => ?_⟩
          rcases List.mem_cons.mp hJ with rfl | hJ
          · exact hp i List.mem_cons_self sub J hr hI
          · exact h2 J hJ

/-- What the constructors make. -/
theorem build_good (h h' : Heap K) (shape : List Nat) (data : List K) (a : Nd) (hm : NdArray.mkData h shape data = .ok (h', a)) (hsmall : card shape < 2 ^ 31) (hne : shape ≠ [])
    (P : K → Prop) (hP : ∀ c v, NdArray.at' h' a c = .ok v → P v) (axes : List (Axis K D)) : ∀ (sts : List Step) (b : Nd) (I : Interp K D), NdArray.slices a sts = .ok b →
    build h' axes b = .ok I → Good P axes I := by
  induction axes with
  | nil => intro _ _ _ _ hI; cases hI
  | cons ax axs ih =>
    intro sts b I hb hI
    match axs, ih, hI with
    | [], _, hI =>
      obtain ⟨l, hl, hlen, hcard, hat⟩ := NdArray.C04_iteration_row_major h h' shape data a b hm hsmall hne sts hb
      rw [build, hl] at hI
      simp only [fromNd, Outcome.bind_ok] at hI
      by_cases h1 : b.shape.length ≠ 1
      · rw [if_pos h1] at hI; cases hI
      · rw [if_neg h1] at hI
        by_cases h2 : ax.size ≠ b.size
        · rw [if_pos h2] at hI; cases hI
        · rw [if_neg h2] at hI
          cases hI
          refine ⟨rfl, by omega, fun v hv => ?_⟩
          have : (Outcome.ok v : NdArray.Res K) ∈ l.map .ok := List.mem_map_of_mem hv
          rw [← hat, List.mem_map] at this
          obtain ⟨c, _, hc⟩ := this
          rw [(NdArray.C03_slices_are_views h h' shape data a b hm sts hb h' c).1] at hc
          exact hP _ v hc
    | ax2 :: rest, ih, hI =>
      rw [build] at hI
      by_cases h1 : b.shape.length ≠ rest.length + 2
      · rw [if_pos h1] at hI; cases hI
      · rw [if_neg h1] at hI
        by_cases h2 : checkOrder ax = false
        · rw [if_pos h2] at hI; cases hI
        · rw [if_neg h2] at hI
          by_cases h3 : ax.size ≠ b.shape.getLastD 0
          · rw [if_pos h3] at hI; cases hI
          · rw [if_neg h3] at hI
            cases hs : buildLoop (build h' (ax2 :: rest)) b (List.range ax.size) with
            | throw _ => rw [hs] at hI; cases hI
            | ub => rw [hs] at hI; cases hI
            | ok subs =>
              rw [hs] at hI
              cases hI
              obtain ⟨g1, g2⟩ := buildLoop_forall (Good P (ax2 :: rest)) _ _ (fun i _ sub I hr hI' => ih (sts ++ [.right i]) sub I (by rw [slices_snoc a sts _ b hb]; exact hr) hI') hs
              exact ⟨rfl, by simpa using g1, g2⟩

theorem setup_good {h h' : Heap K} {shape : List Nat} {data : List K} {a : Nd} {axes : List (Axis K D)} (S : Spec.Setup h h' shape data a axes) {I : Interp K D}
    (hI : build h' axes a = .ok I) (P : K → Prop) (hP : ∀ c v, NdArray.at' h' a c = .ok v → P v) : Good P axes I :=
  build_good h h' shape data a S.made S.small (by rw [S.extents]; simpa using S.some) P hP axes [] a I rfl hI

/-- **C149 (constants).** If all elements of the array are the same number, the rounded result is this number, unless an argument is outside and there is no extrapolation. -/
theorem C149_constant (pos : ∀ v, 0 < v → 0 < R.rnd v) (h h' : Heap K) (shape : List Nat) (data : List K) (a : Nd) (axes : List (Axis K D)) (S : Spec.Setup h h' shape data a axes)
    (I : Interp K D) (hI : build h' axes a = .ok I) (e : Bool) (xs : List (K ⊕ D)) (hx : List.Forall₂ Spec.Fits axes xs) (he : e = true ∨ List.Forall₂ Spec.Within axes xs) (c : K)
    (hc : R.rnd c = c) (hv : ∀ i v, NdArray.at' h' a i = .ok v → v = c) : machineCall R e I xs = .ok c := by
  refine Exists.elim (tree_sim R e (fun v => v = c) (fun axs xs _ v => (e = true ∨ List.Forall₂ Spec.Within axs xs) → v = c) (fun v hv _ => hv) ?_ ?_ ?_ axes I
    (setup_good S hI _ hv) S.axesOk xs hx) fun w hw => hw.elim fun v hv => by rw [hv.2.1, hv.2.2 he]
  · rintro ks axs x xs rfl ho - (h | h)
    · cases h
    · cases h with
      | cons hw _ =>
        obtain ⟨⟨k, hk, hkx⟩, l, hl, hlx⟩ := hw
        rcases ho with ho | ho
        · exact absurd (ho k hk) (not_lt.mpr hkx)
        · exact absurd (ho l hl) (not_lt.mpr hlx)
  · intro ax axs x xs w v _ _ hq hh
    refine hq (hh.imp id fun h => ?_)
    cases h with
    | cons _ h => exact h
  · intro ks axs x xs i k l y z y' z' _ _ hkl _ hy hz
    have hp := pos _ (sub_pos.mpr hkl)
    refine ⟨_, by rw [machineLineThrough, if_neg (ne_of_gt hkl), machineCoefs_ok R hp]; rfl, fun hh => ?_⟩
    have hh' : e = true ∨ List.Forall₂ Spec.Within axs xs := hh.imp id fun h => by
      cases h with
      | cons _ h => exact h
    rw [hy hh', hz hh']
    have hsl : roundedSlope R (k, c) (l, c) = 0 := by simp [roundedSlope, R.zero]
    rw [roundedOffset, hsl, zero_mul, zero_mul, R.zero, sub_zero, hc, add_zero, hc]

/-- **C149 (outside).** Without extrapolation the rounded result is zero if one of the continuous arguments is outside. -/
theorem C149_outside (pos : ∀ v, 0 < v → 0 < R.rnd v) (h h' : Heap K) (shape : List Nat) (data : List K) (a : Nd) (axes : List (Axis K D)) (S : Spec.Setup h h' shape data a axes)
    (I : Interp K D) (hI : build h' axes a = .ok I) (xs : List (K ⊕ D)) (hx : List.Forall₂ Spec.Fits axes xs)
    (ho : ∃ (j : Nat) (ks : List K) (x : K), axes[j]? = some (.cont ks) ∧ xs[j]? = some (.inl x) ∧ ((∀ k ∈ ks, x < k) ∨ ∀ k ∈ ks, k < x)) : machineCall R false I xs = .ok 0 := by
  refine Exists.elim (tree_sim R false (fun _ => True) (fun axs xs _ v => (∃ (j : Nat) (ks : List K) (x : K), axs[j]? = some (.cont ks) ∧ xs[j]? = some (.inl x) ∧
    ((∀ k ∈ ks, x < k) ∨ ∀ k ∈ ks, k < x)) → v = 0) (by rintro v _ ⟨j, _, _, h, _⟩; cases h) ?_ ?_ ?_ axes I (setup_good S hI _ fun _ _ _ => trivial) S.axesOk xs hx) fun w hw => hw.elim fun v hv => by
      rw [hv.2.1, hv.2.2 ho]
  · intro _ _ _ _ _ _ _ _
    rfl
  · rintro ax axs x xs w v _ hk hq ⟨j, ks, t, hj, hxj, hout⟩
    cases j with
    | zero =>
      simp only [List.getElem?_cons_zero, Option.some.injEq] at hj hxj
      subst hj hxj
      obtain ⟨⟨k, hk, hkx⟩, l, hl, hlx⟩ := (hk rfl).within
      rcases hout with hout | hout
      · exact absurd (hout k hk) (not_lt.mpr hkx)
      · exact absurd (hout l hl) (not_lt.mpr hlx)
    | succ j => exact hq ⟨j, ks, t, by simpa using hj, by simpa using hxj, hout⟩
  · intro ks axs x xs i k l y z y' z' hk hl hkl hb hy hz
    have hp := pos _ (sub_pos.mpr hkl)
    refine ⟨_, by rw [machineLineThrough, if_neg (ne_of_gt hkl), machineCoefs_ok R hp]; rfl, ?_⟩
    rintro ⟨j, ks', t, hj, hxj, hout⟩
    cases j with
    | zero =>
      simp only [List.getElem?_cons_zero, Option.some.injEq, Axis.cont.injEq, Sum.inl.injEq] at hj hxj
      subst hj hxj
      obtain ⟨h1, h2⟩ := hb (Or.inl rfl)
      rcases hout with hout | hout
      · exact absurd (hout k (List.mem_of_getElem? hk)) (not_lt.mpr h1)
      · exact absurd (hout l (List.mem_of_getElem? hl)) (not_lt.mpr h2)
    | succ j =>
      have hh : ∃ (j : Nat) (ks : List K) (x : K), axs[j]? = some (.cont ks) ∧ xs[j]? = some (.inl x) ∧ ((∀ k ∈ ks, x < k) ∨ ∀ k ∈ ks, k < x) :=
        ⟨j, ks', t, by simpa using hj, by simpa using hxj, hout⟩
      rw [hy hh, hz hh]
      have hsl : roundedSlope R (k, 0) (l, 0) = 0 := by simp [roundedSlope, R.zero]
      rw [roundedOffset, hsl, zero_mul, zero_mul, R.zero, sub_zero, R.zero, add_zero, R.zero]

end

/-! ## How large the errors are -/

section
variable {D : Type} [DecidableEq D]

theorem lam_sub (x k l y z y' z' : ℚ) : lam x k l y' z' - lam x k l y z = lam x k l (y' - y) (z' - z) := by
  simp only [lam]
  ring

theorem lam_within {x k l y z B : ℚ} (hkl : k < l) (h1 : k ≤ x) (h2 : x ≤ l) (hy : |y| ≤ B) (hz : |z| ≤ B) : |lam x k l y z| ≤ B := by
  have := line_distance (c := 0) (c' := 0) (u := 0) hkl h1 h2 (lam_line (y := y) (z := z) hkl) (by simp [Spec.OnLine]) (by simpa using hy) (by simpa using hz)
  simpa using this

theorem slope_bound {k l y z B : ℚ} (hkl : k < l) (hy : |y| ≤ B) (hz : |z| ≤ B) : |(z - y) / (l - k)| * (l - k) ≤ 2 * B := by
  have hd : 0 < l - k := sub_pos.mpr hkl
  rw [abs_div, abs_of_pos hd, div_mul_cancel₀ _ (ne_of_gt hd)]
  exact (abs_sub _ _).trans (by linarith)

theorem lam_beyond {x k l y z B κ : ℚ} (hkl : k < l) (hk : |k| ≤ κ * (l - k)) (hx : |x| ≤ κ * (l - k)) (hy : |y| ≤ B) (hz : |z| ≤ B) : |lam x k l y z| ≤ (1 + 4 * κ) * B := by
  have hd : 0 < l - k := sub_pos.mpr hkl
  have hκ : 0 ≤ κ := by
    by_contra h
    have := mul_neg_of_neg_of_pos (not_le.mp h) hd
    linarith [abs_nonneg k]
  have hs := slope_bound hkl hy hz
  have h1 : |x - k| ≤ 2 * (κ * (l - k)) := (abs_sub _ _).trans (by linarith)
  unfold lam
  calc |y + (z - y) / (l - k) * (x - k)| ≤ |y| + |(z - y) / (l - k)| * |x - k| := by rw [← abs_mul]; exact abs_add_le _ _
    _ ≤ B + |(z - y) / (l - k)| * (2 * (κ * (l - k))) := add_le_add hy (mul_le_mul_of_nonneg_left h1 (abs_nonneg _))
    _ = B + 2 * κ * (|(z - y) / (l - k)| * (l - k)) := by ring
    _ ≤ B + 2 * κ * (2 * B) := by
      have := mul_le_mul_of_nonneg_left hs (mul_nonneg (by norm_num : (0 : ℚ) ≤ 2) hκ)
      linarith
    _ = (1 + 4 * κ) * B := by ring

/-- The error that one axis adds, with `p` bits. -/
def Spec.axisError (p : Nat) (κ : ℚ) : ℚ := (1 / 2) ^ p * (3 + 36 * κ)

/-- One line, with ordinates that are not exact. -/
theorem line_step {p : Nat} (hp : 3 ≤ p) {x k l y z y' z' κ α B δ : ℚ} (hkl : k < l) (hk : |k| ≤ κ * (l - k)) (hx : |x| ≤ κ * (l - k)) (hα : 1 ≤ α)
    (hc : k ≤ x ∧ x ≤ l ∨ 1 + 4 * κ ≤ α) (hy : |y| ≤ B) (hz : |z| ≤ B) (hy' : |y' - y| ≤ δ) (hz' : |z' - z| ≤ δ) :
    ∃ v, machineLineThrough (Binary.rounding p (by omega)) x l k z' y' = .ok v ∧ |lam x k l y z| ≤ α * B ∧ |v - lam x k l y z| ≤ α * δ + Spec.axisError p κ * (B + δ) := by
  have hd : 0 < l - k := sub_pos.mpr hkl
  have hpos : 0 < (Binary.rounding p (by omega)).rnd (l - k) := by
    show 0 < Binary.rnd p (l - k)
    rw [Binary.rnd_of_pos hd]; exact Binary.rndPos_pos (by omega) hd
  have hB : 0 ≤ B := (abs_nonneg _).trans hy
  have hδ : 0 ≤ δ := (abs_nonneg _).trans hy'
  have hlam : ∀ {y z B : ℚ}, |y| ≤ B → |z| ≤ B → |lam x k l y z| ≤ α * B := by
    intro y z B hy hz
    have hB : 0 ≤ B := (abs_nonneg _).trans hy
    rcases hc with ⟨h1, h2⟩ | hc
    · exact (lam_within hkl h1 h2 hy hz).trans (by nlinarith)
    · exact (lam_beyond hkl hk hx hy hz).trans (mul_le_mul_of_nonneg_right hc hB)
  refine ⟨_, by rw [machineLineThrough, if_neg (ne_of_gt hkl), machineCoefs_ok _ hpos]; rfl, hlam hy hz, ?_⟩
  have hu : ((1 : ℚ) / 2) ^ p ≤ 1 / 8 := by
    calc ((1 : ℚ) / 2) ^ p ≤ (1 / 2) ^ 3 := pow_le_pow_of_le_one (by norm_num) (by norm_num) hp
      _ = 1 / 8 := by norm_num
  have hM : (z' - y') / (l - k) * (l - k) = z' - y' := div_mul_cancel₀ _ (ne_of_gt hd)
  have hround : |(Binary.rounding p (by omega)).rnd (roundedOffset (Binary.rounding p (by omega)) (k, y') (l, z') +
      (Binary.rounding p (by omega)).rnd (roundedSlope (Binary.rounding p (by omega)) (k, y') (l, z') * x)) - lam x k l y' z'| ≤
      (1 / 2) ^ p * (3 * |y'| + |(z' - y') / (l - k)| * (10 * |k| + 8 * |x|)) := by
    refine line_error (by positivity) hu ?_ (Binary.rnd_err p _) (Binary.rnd_err p _) (Binary.rnd_err p _) (Binary.rnd_err p _)
    exact slope_error (by positivity) hu hd (by rw [hM]; exact Binary.rnd_err p _) (Binary.rnd_err p _) (Binary.rnd_err p _)
  have by' : |y'| ≤ B + δ := by
    have := abs_sub_abs_le_abs_sub y' y
    linarith
  have bz' : |z'| ≤ B + δ := by
    have := abs_sub_abs_le_abs_sub z' z
    linarith
  have hκ : 0 ≤ κ := by
    by_contra h
    have := mul_neg_of_neg_of_pos (not_le.mp h) hd
    linarith [abs_nonneg k]
  have hs := slope_bound hkl by' bz'
  have h1 : |(z' - y') / (l - k)| * (10 * |k| + 8 * |x|) ≤ 36 * κ * (B + δ) := by
    calc |(z' - y') / (l - k)| * (10 * |k| + 8 * |x|) ≤ |(z' - y') / (l - k)| * (18 * (κ * (l - k))) := mul_le_mul_of_nonneg_left (by linarith) (abs_nonneg _)
      _ = 18 * κ * (|(z' - y') / (l - k)| * (l - k)) := by ring
      _ ≤ 18 * κ * (2 * (B + δ)) := mul_le_mul_of_nonneg_left hs (by linarith)
      _ = 36 * κ * (B + δ) := by ring
  have h2 : (1 / 2) ^ p * (3 * |y'| + |(z' - y') / (l - k)| * (10 * |k| + 8 * |x|)) ≤ Spec.axisError p κ * (B + δ) := by
    unfold Spec.axisError
    rw [mul_assoc]
    refine mul_le_mul_of_nonneg_left ?_ (by positivity)
    linarith
  have h3 : |lam x k l y' z' - lam x k l y z| ≤ α * δ := by rw [lam_sub]; exact hlam hy' hz'
  refine (abs_sub_le _ (lam x k l y' z') _).trans ?_
  linarith

/-- The bounds of magnitude and error after the axes from the `j`-th one on. -/
def Near (p : Nat) (Y : ℚ) (n : Nat) (α κ : Nat → ℚ) (w v : ℚ) : Prop :=
  |w| ≤ Y * ∏ j ∈ Finset.range n, α j ∧ |v - w| ≤ Y * (∏ j ∈ Finset.range n, (α j + Spec.axisError p (κ j)) - ∏ j ∈ Finset.range n, α j)

theorem prods (p n : Nat) (α κ : Nat → ℚ) (hα : ∀ j, j < n → 1 ≤ α j) (hκ : ∀ j, j < n → 0 ≤ κ j) :
    1 ≤ ∏ j ∈ Finset.range n, α j ∧ ∏ j ∈ Finset.range n, α j ≤ ∏ j ∈ Finset.range n, (α j + Spec.axisError p (κ j)) := by
  have he : ∀ j, j < n → 0 ≤ Spec.axisError p (κ j) := fun j hj => mul_nonneg (by positivity) (by have := hκ j hj; linarith)
  induction n with
  | zero => simp
  | succ n ih =>
    obtain ⟨h1, h2⟩ := ih (fun j hj => hα j (by omega)) (fun j hj => hκ j (by omega)) (fun j hj => he j (by omega))
    rw [Finset.prod_range_succ, Finset.prod_range_succ]
    have a1 := hα n (by omega)
    have a2 := he n (by omega)
    exact ⟨by nlinarith, by nlinarith⟩

theorem tree_error (p : Nat) (hp : 3 ≤ p) (Y : ℚ) (hY : 0 ≤ Y) (e : Bool) (axes : List (Axis ℚ D)) (I : Interp ℚ D) (hg : Good (fun v => |v| ≤ Y) axes I)
    (hok : ∀ ax ∈ axes, Spec.AxisOk ax) (xs : List (ℚ ⊕ D)) (hx : List.Forall₂ Spec.Fits axes xs) (α κ : Nat → ℚ) (hα : ∀ j, j < axes.length → 1 ≤ α j)
    (hκ : ∀ j, j < axes.length → 0 ≤ κ j) (hst : ∀ (j : Nat) ks x, axes[j]? = some (.cont ks) → xs[j]? = some (.inl x) →
      Spec.Steep ks x (κ j) ∧ (e = false ∨ Spec.Within (.cont ks : Axis ℚ D) (.inl x) ∨ 1 + 4 * κ j ≤ α j)) :
    ∃ w v, call e I xs = .ok w ∧ machineCall (Binary.rounding p (by omega)) e I xs = .ok v ∧ Near p Y axes.length α κ w v := by
  refine Exists.elim (tree_sim (Binary.rounding p (by omega)) e (fun v => |v| ≤ Y) (fun axs xs w v => ∀ α κ : Nat → ℚ, (∀ j, j < axs.length → 1 ≤ α j) →
      (∀ j, j < axs.length → 0 ≤ κ j) → (∀ (j : Nat) ks x, axs[j]? = some (.cont ks) → xs[j]? = some (.inl x) →
        Spec.Steep ks x (κ j) ∧ (e = false ∨ Spec.Within (.cont ks : Axis ℚ D) (.inl x) ∨ 1 + 4 * κ j ≤ α j)) → Near p Y axs.length α κ w v) ?_ ?_ ?_ ?_ axes I hg hok xs hx) fun w hw => hw.elim fun v hv => ⟨w, v, hv.1, hv.2.1, hv.2.2 α κ hα hκ hst⟩
  · intro v hv α κ _ _ _
    simpa [Near] using hv
  · intro ks axs x xs _ _ _ α κ hα hκ _
    obtain ⟨q1, q2⟩ := prods p _ α κ hα hκ
    refine ⟨?_, ?_⟩
    · rw [abs_zero]; exact mul_nonneg hY (by linarith)
    · rw [sub_zero, abs_zero]; exact mul_nonneg hY (by linarith)
  · intro ax axs x xs w v _ _ hq α κ hα hκ hst
    obtain ⟨n1, n2⟩ := hq (fun j => α (j + 1)) (fun j => κ (j + 1)) (fun j hj => hα (j + 1) (by simpa using hj)) (fun j hj => hκ (j + 1) (by simpa using hj))
      fun j ks x h1 h2 => hst (j + 1) ks x (by simpa using h1) (by simpa using h2)
    obtain ⟨q1, q2⟩ := prods p axs.length (fun j => α (j + 1)) (fun j => κ (j + 1)) (fun j hj => hα (j + 1) (by simpa using hj)) (fun j hj => hκ (j + 1) (by simpa using hj))
    have a1 := hα 0 (by simp)
    have a2 : 0 ≤ Spec.axisError p (κ 0) := mul_nonneg (by positivity) (by have := hκ 0 (by simp); linarith)
    rw [Near, List.length_cons, Finset.prod_range_succ', Finset.prod_range_succ']
    generalize ∏ j ∈ Finset.range axs.length, α (j + 1) = A at *
    generalize ∏ j ∈ Finset.range axs.length, (α (j + 1) + Spec.axisError p (κ (j + 1))) = P at *
    refine ⟨n1.trans (mul_le_mul_of_nonneg_left (by nlinarith) hY), n2.trans (mul_le_mul_of_nonneg_left ?_ hY)⟩
    nlinarith [mul_nonneg (sub_nonneg.mpr a1) (sub_nonneg.mpr q2), mul_nonneg a2 (le_trans (le_trans zero_le_one q1) q2)]
  · intro ks axs x xs i k l y z y' z' hk hl hkl hb hqy hqz
    have hd : 0 < l - k := sub_pos.mpr hkl
    have hpos : 0 < (Binary.rounding p (by omega)).rnd (l - k) := by
      show 0 < Binary.rnd p (l - k)
      rw [Binary.rnd_of_pos hd]; exact Binary.rndPos_pos (by omega) hd
    have hv : ∃ v, machineLineThrough (Binary.rounding p (by omega)) x l k z' y' = .ok v := ⟨_, by rw [machineLineThrough, if_neg (ne_of_gt hkl), machineCoefs_ok _ hpos]; rfl⟩
    obtain ⟨v, hv⟩ := hv
    refine ⟨v, hv, fun α κ hα hκ hst => ?_⟩
    have sub : ∀ {w v}, (∀ α κ : Nat → ℚ, (∀ j, j < axs.length → 1 ≤ α j) → (∀ j, j < axs.length → 0 ≤ κ j) → (∀ (j : Nat) ks x, axs[j]? = some (.cont ks) → xs[j]? = some (.inl x) →
        Spec.Steep ks x (κ j) ∧ (e = false ∨ Spec.Within (.cont ks : Axis ℚ D) (.inl x) ∨ 1 + 4 * κ j ≤ α j)) → Near p Y axs.length α κ w v) →
        Near p Y axs.length (fun j => α (j + 1)) (fun j => κ (j + 1)) w v := fun hq =>
      hq (fun j => α (j + 1)) (fun j => κ (j + 1)) (fun j hj => hα (j + 1) (by simpa using hj)) (fun j hj => hκ (j + 1) (by simpa using hj))
        fun j ks x h1 h2 => hst (j + 1) ks x (by simpa using h1) (by simpa using h2)
    obtain ⟨n1, n2⟩ := sub hqy
    obtain ⟨m1, m2⟩ := sub hqz
    obtain ⟨s1, s2⟩ := hst 0 ks x rfl rfl
    obtain ⟨t1, t2⟩ := s1 i k l hk hl
    have hcase : k ≤ x ∧ x ≤ l ∨ 1 + 4 * κ 0 ≤ α 0 := by
      rcases s2 with h | h | h
      · exact Or.inl (hb (Or.inl h))
      · exact Or.inl (hb (Or.inr h))
      · exact Or.inr h
    obtain ⟨v', g1, g2, g3⟩ := line_step hp hkl t1 t2 (hα 0 (by simp)) hcase n1 m1 n2 m2
    rw [hv, Outcome.ok.injEq] at g1
    subst g1
    rw [Near, List.length_cons, Finset.prod_range_succ', Finset.prod_range_succ']
    generalize ∏ j ∈ Finset.range axs.length, α (j + 1) = A at *
    generalize ∏ j ∈ Finset.range axs.length, (α (j + 1) + Spec.axisError p (κ (j + 1))) = P at *
    exact ⟨g2.trans (le_of_eq (by ring)), g3.trans (le_of_eq (by ring))⟩

/-! ## Theorems -/

/-- **C149 (error).** With `p` bits the result differs from the exact one by at most the largest magnitude of an element times a few units in the last place for each axis, more if numbers on
the axis are large in comparison with the distances of the knots. This holds for arguments that are not outside, and for all arguments without extrapolation. -/
theorem C149_error (p : Nat) (hp : 3 ≤ p) (h h' : Heap ℚ) (shape : List Nat) (data : List ℚ) (a : Nd) (axes : List (Axis ℚ D)) (S : Spec.Setup h h' shape data a axes) (I : Interp ℚ D)
    (hI : build h' axes a = .ok I) (e : Bool) (xs : List (ℚ ⊕ D)) (hx : List.Forall₂ Spec.Fits axes xs) (he : e = false ∨ List.Forall₂ Spec.Within axes xs) (Y : ℚ) (hY : 0 ≤ Y)
    (hv : ∀ c v, NdArray.at' h' a c = .ok v → |v| ≤ Y) (κ : Nat → ℚ) (hκ : ∀ j, j < axes.length → 0 ≤ κ j)
    (hst : ∀ (j : Nat) ks x, axes[j]? = some (.cont ks) → xs[j]? = some (.inl x) → Spec.Steep ks x (κ j)) :
    ∃ w v, call e I xs = .ok w ∧ machineCall (Binary.rounding p (by omega)) e I xs = .ok v ∧ |v - w| ≤ Y * (∏ j ∈ Finset.range axes.length, (1 + Spec.axisError p (κ j)) - 1) := by
  obtain ⟨w, v, h1, h2, _, h4⟩ := tree_error p hp Y hY e axes I (setup_good S hI _ hv) S.axesOk xs hx (fun _ => 1) κ (fun _ _ => le_refl _) hκ fun j ks x hj hxj =>
    ⟨hst j ks x hj hxj, he.imp id fun h => Or.inl (by
      obtain ⟨p1, e1⟩ := List.getElem?_eq_some_iff.mp hj
      obtain ⟨p2, e2⟩ := List.getElem?_eq_some_iff.mp hxj
      have := List.Forall₂.get h p1 p2
      simpa [e1, e2] using this)⟩
  exact ⟨w, v, h1, h2, by simpa using h4⟩

/-- **C149 (extrapolation).** The same for any arguments and with extrapolation; each axis may then enlarge magnitudes and errors. -/
theorem C149_extrapolated (p : Nat) (hp : 3 ≤ p) (h h' : Heap ℚ) (shape : List Nat) (data : List ℚ) (a : Nd) (axes : List (Axis ℚ D)) (S : Spec.Setup h h' shape data a axes)
    (I : Interp ℚ D) (hI : build h' axes a = .ok I) (e : Bool) (xs : List (ℚ ⊕ D)) (hx : List.Forall₂ Spec.Fits axes xs) (Y : ℚ) (hY : 0 ≤ Y)
    (hv : ∀ c v, NdArray.at' h' a c = .ok v → |v| ≤ Y) (κ : Nat → ℚ) (hκ : ∀ j, j < axes.length → 0 ≤ κ j)
    (hst : ∀ (j : Nat) ks x, axes[j]? = some (.cont ks) → xs[j]? = some (.inl x) → Spec.Steep ks x (κ j)) :
    ∃ w v, call e I xs = .ok w ∧ machineCall (Binary.rounding p (by omega)) e I xs = .ok v ∧
      |v - w| ≤ Y * (∏ j ∈ Finset.range axes.length, (1 + 4 * κ j + Spec.axisError p (κ j)) - ∏ j ∈ Finset.range axes.length, (1 + 4 * κ j)) := by
  obtain ⟨w, v, h1, h2, _, h4⟩ := tree_error p hp Y hY e axes I (setup_good S hI _ hv) S.axesOk xs hx (fun j => 1 + 4 * κ j) κ (fun j hj => by have := hκ j hj; linarith) hκ
    fun j ks x hj hxj => ⟨hst j ks x hj hxj, Or.inr (Or.inr (le_refl _))⟩
  exact ⟨w, v, h1, h2, h4⟩

/-- **C149 (tabulated functions).** If the array holds the values of a function, the rounded interpolation is off by the errors of linear interpolation along the axes (C143) and the error by
rounding at most. -/
theorem C149_tabulated (p : Nat) (hp : 3 ≤ p) (h h' : Heap ℚ) (shape : List Nat) (data : List ℚ) (a : Nd) (axes : List (Axis ℚ D)) (S : Spec.Setup h h' shape data a axes)
    (G : List (ℚ ⊕ D) → ℚ) (T : Spec.Tabulates h' a axes G) (I : Interp ℚ D) (hI : build h' axes a = .ok I) (e : Bool) (xs : List (ℚ ⊕ D)) (hx : List.Forall₂ Spec.Within axes xs)
    (δ : Nat → ℚ) (hδ0 : ∀ j, j < axes.length → 0 ≤ δ j) (hδ : ∀ (j : Nat) x, xs[j]? = some (.inl x) → Spec.LineError axes G j x (δ j)) (Y : ℚ) (hY : 0 ≤ Y)
    (hv : ∀ c v, NdArray.at' h' a c = .ok v → |v| ≤ Y) (κ : Nat → ℚ) (hκ : ∀ j, j < axes.length → 0 ≤ κ j)
    (hst : ∀ (j : Nat) ks x, axes[j]? = some (.cont ks) → xs[j]? = some (.inl x) → Spec.Steep ks x (κ j)) :
    ∃ v, machineCall (Binary.rounding p (by omega)) e I xs = .ok v ∧
      |v - G xs| ≤ ∑ j ∈ Finset.range axes.length, δ j + Y * (∏ j ∈ Finset.range axes.length, (1 + Spec.axisError p (κ j)) - 1) := by
  obtain ⟨w, v, h1, h2, h3⟩ := C149_error p hp h h' shape data a axes S I hI e xs (hx.imp fun _ _ h => Within.fits h) (Or.inr hx) Y hY hv κ hκ hst
  obtain ⟨w', g1, g2⟩ := C143_error h h' shape data a axes S G T I hI e xs hx δ hδ0 hδ
  rw [h1, Outcome.ok.injEq] at g1
  subst g1
  exact ⟨v, h2, (abs_sub_le _ w _).trans (by linarith)⟩

/-- **C149 (`interpn`).** The same for the function that `interpn` returns; grid and arguments are in the order of the dimensions of the array, `κ` too. -/
theorem C149_interpn (p : Nat) (hp : 3 ≤ p) (h h' : Heap ℚ) (data : List ℚ) (a : Nd) (grid : List (List ℚ)) (hm : NdArray.mkData h (grid.map List.length) data = .ok (h', a))
    (hsmall : card (grid.map List.length) < 2 ^ 31) (hne : grid ≠ []) (hok : ∀ ks ∈ grid, ks ≠ [] ∧ ks.Pairwise (· < ·)) (xs : List ℚ) (hlen : xs.length = grid.length) (Y : ℚ) (hY : 0 ≤ Y)
    (hv : ∀ c v, NdArray.at' h' a c = .ok v → |v| ≤ Y) (κ : Nat → ℚ) (hκ : ∀ j, j < grid.length → 0 ≤ κ j)
    (hst : ∀ (j : Nat) ks x, grid[j]? = some ks → xs[j]? = some x → Spec.Steep ks x (κ j)) :
    ∃ I : Interp ℚ D, interpn h' grid a .linear = .ok I ∧ ∃ w v, interpnCall false I xs = .ok w ∧ machineInterpnCall (Binary.rounding p (by omega)) false I xs = .ok v ∧
      |v - w| ≤ Y * (∏ j ∈ Finset.range grid.length, (1 + Spec.axisError p (κ j)) - 1) := by
  have S : Spec.Setup h h' (grid.map List.length) data a (grid.reverse.map .cont : List (Axis ℚ D)) := by
    refine ⟨hm, hsmall, by simpa using hne, ?_, ?_⟩
    · intro ax hax
      obtain ⟨ks, hks, rfl⟩ := List.mem_map.mp hax
      exact hok ks (List.mem_reverse.mp hks)
    · rw [List.map_map, List.map_reverse, List.reverse_reverse]
      rfl
  obtain ⟨I, hI, -⟩ := C37_node h h' _ data a _ S
  have hx : List.Forall₂ Spec.Fits (grid.reverse.map .cont : List (Axis ℚ D)) (xs.reverse.map .inl) := by
    rw [List.forall₂_iff_get]
    refine ⟨by simp [hlen], fun i h1 h2 => ?_⟩
    simp [Spec.Fits]
  obtain ⟨w, v, h1, h2, h3⟩ := C149_error p hp h h' _ data a _ S I hI false (xs.reverse.map .inl) hx (Or.inl rfl) Y hY hv (fun j => κ (grid.length - 1 - j))
    (fun j hj => hκ _ (by simp at hj; omega)) (by
      intro j ks x hj hxj
      have hj' : j < grid.length := by
        have := (List.getElem?_eq_some_iff.mp hj).1
        simpa using this
      simp only [List.getElem?_map, List.getElem?_reverse hj', Option.map_eq_some_iff, List.getElem?_reverse (hlen.symm ▸ hj')] at hj hxj
      obtain ⟨ks', hks, e1⟩ := hj
      obtain ⟨x', hx', e2⟩ := hxj
      cases e1
      cases e2
      exact hst _ ks x hks (by rw [← hx', hlen]))
  refine ⟨I, ?_, w, v, h1, h2, ?_⟩
  · rw [interpn, hI]
    rfl
  · rw [List.length_map, List.length_reverse, Finset.prod_range_reflect (fun j => 1 + Spec.axisError p (κ j))] at h3
    exact h3

end

/-! ## What does not hold -/

/-- At the knots the elements of the array would be returned. -/
def C149_nodes_full : Prop := ∀ (h h' : Heap ℚ) (shape : List Nat) (data : List ℚ) (a : Nd) (axes : List (Axis ℚ String)), Spec.Setup h h' shape data a axes →
  (∀ v ∈ data, Binary.Rep 53 v) → (∀ ks, .cont ks ∈ axes → ∀ k ∈ ks, Binary.Rep 53 k) → ∀ I, build h' axes a = .ok I → ∀ is xs, Spec.AtNode axes is xs →
    ∀ v, NdArray.at' h' a is.reverse = .ok v → machineCall (Binary.rounding 53 (by decide)) false I xs = .ok v

/-- The result would be between the smallest and the largest element. -/
def C149_range_full : Prop := ∀ (h h' : Heap ℚ) (shape : List Nat) (data : List ℚ) (a : Nd) (axes : List (Axis ℚ String)), Spec.Setup h h' shape data a axes →
  (∀ v ∈ data, Binary.Rep 53 v ∧ 0 ≤ v) → (∀ ks, .cont ks ∈ axes → ∀ k ∈ ks, Binary.Rep 53 k) → ∀ I, build h' axes a = .ok I → ∀ is xs, Spec.AtNode axes is xs →
    ∀ v, machineCall (Binary.rounding 53 (by decide)) false I xs = .ok v → 0 ≤ v

/-- **C149 (violated).** On a grid with the knots 1 and 4, and 0 and 1, the element 4 at the node (1, 0) is not returned at the node. On one with the knots 1 and 6 and nonnegative elements the
value at a node is negative. -/
theorem C149_violated : ¬ C149_nodes_full ∧ ¬ C149_range_full := by
  have rep : ∀ l : List Nat, (∀ n ∈ l, n ≤ 10) → ∀ v ∈ l.map fun n : Nat => (n : ℚ), Binary.Rep 53 v := by
    intro l hl v hv
    obtain ⟨n, hn, rfl⟩ := List.mem_map.mp hv
    exact rep_small n (hl n hn)
  constructor
  · intro hf
    have := hf [] [[4, 3, 4, 3]] [2, 2] [4, 3, 4, 3] ⟨0, 0, [2, 2], [2, 1], [], 4⟩ [.cont [1, 4], .cont [0, 1]]
      ⟨by decide +kernel, by decide, by simp, by
        intro ax hax
        simp only [List.mem_cons, List.not_mem_nil, or_false] at hax
        rcases hax with rfl | rfl
        · exact ⟨by simp, by decide +kernel⟩
        · exact ⟨by simp, by decide +kernel⟩, rfl⟩ (by simpa using rep [4, 3, 4, 3] (by decide)) (by
        intro ks hks
        simp only [List.mem_cons, Axis.cont.injEq, List.not_mem_nil, or_false] at hks
        rcases hks with rfl | rfl
        · simpa using rep [1, 4] (by decide)
        · simpa using rep [0, 1] (by decide)) _ rfl [0, 0] [.inl 1, .inl 0] (.cons rfl (.cons rfl .nil)) 4 (by decide +kernel)
    revert this
    decide +kernel
  · intro hf
    have := hf [] [[1, 0]] [2] [1, 0] ⟨0, 0, [2], [1], [], 2⟩ [.cont [1, 6]] ⟨by decide +kernel, by decide, by simp, by
        intro ax hax
        simp only [List.mem_cons, List.not_mem_nil, or_false] at hax
        subst hax
        exact ⟨by simp, by decide +kernel⟩, rfl⟩ (fun v hv => ⟨by simpa using rep [1, 0] (by decide) v (by simpa using hv), by
          simp only [List.mem_cons, List.not_mem_nil, or_false] at hv
          rcases hv with rfl | rfl <;> norm_num⟩) (by
        intro ks hks
        simp only [List.mem_cons, Axis.cont.injEq, List.not_mem_nil, or_false] at hks
        subst hks
        simpa using rep [1, 6] (by decide)) _ rfl [1] [.inl 6] (.cons rfl .nil) (-(1 / 2) ^ 52) (by decide +kernel)
    revert this
    norm_num

/-- Elements are taken from the container. -/
theorem at_mem {l : List ℚ} {a : Nd} {c : List Nat} {v : ℚ} (ha : a.cid = 0) (h : NdArray.at' [l] a c = .ok v) : v ∈ l := by
  rw [NdArray.at'] at h
  cases ho : NdArray.getOffset a c with
  | throw _ => rw [ho] at h; cases h
  | ub => rw [ho] at h; cases h
  | ok o =>
    rw [ho, Outcome.bind_ok, NdArray.atOffset, ha] at h
    simp only [List.getElem?_cons_zero] at h
    cases hl : l[o]? with
    | none => rw [hl] at h; cases h
    | some x =>
      rw [hl] at h
      cases h
      exact List.mem_of_getElem? hl

/-- A grid with a continuous and a discrete axis, in doubles; the result is not the exact one. -/
example : ∃ I, build [[0, 1 / 2, 3 / 2, 0, 1, 3]] [Axis.cont [0, 1, 3], Axis.disc ["a", "b"]] ⟨0, 0, [2, 3], [3, 1], [], 6⟩ = .ok I ∧
    ∃ w v, call false I [.inl (7 / 3), .inr "b"] = .ok w ∧ machineCall (Binary.rounding 53 (by decide)) false I [.inl (7 / 3), .inr "b"] = .ok v ∧
      |v - w| ≤ 3 * ((1 + Spec.axisError 53 (7 / 3)) * (1 + Spec.axisError 53 0) - 1) ∧ v ≠ w := by
  have S : Spec.Setup [] [[0, 1 / 2, 3 / 2, 0, 1, 3]] [2, 3] [(0 : ℚ), 1 / 2, 3 / 2, 0, 1, 3] ⟨0, 0, [2, 3], [3, 1], [], 6⟩ [Axis.cont [0, 1, 3], Axis.disc ["a", "b"]] := by
    refine ⟨by decide +kernel, by decide, by simp, ?_, rfl⟩
    intro ax hax
    simp only [List.mem_cons, List.not_mem_nil, or_false] at hax
    rcases hax with rfl | rfl
    · exact ⟨by simp, by decide +kernel⟩
    · exact ⟨by simp, by decide⟩
  refine ⟨_, rfl, ?_⟩
  obtain ⟨w, v, h1, h2, h3⟩ := C149_error 53 (by decide) _ _ _ _ _ _ S _ rfl false [.inl (7 / 3), .inr "b"] (.cons trivial (.cons (by simp [Spec.Fits]) .nil)) (Or.inl rfl) 3 (by norm_num)
    (by
      intro c v hv
      have : v ∈ ([0, 1 / 2, 3 / 2, 0, 1, 3] : List ℚ) := at_mem (a := ⟨0, 0, [2, 3], [3, 1], [], 6⟩) rfl hv
      fin_cases this <;> norm_num) (fun j => if j = 0 then 7 / 3 else 0) (by intro j _; split_ifs <;> norm_num) (by
      intro j ks x hj hxj
      match j, hj, hxj with
      | 0, hj, hxj =>
        cases hj
        cases hxj
        intro i k l hk hl
        match i, hk, hl with
        | 0, hk, hl => cases hk; cases hl; norm_num
        | 1, hk, hl => cases hk; cases hl; norm_num
        | i + 2, hk, hl => simp at hl
      | 1, hj, _ => cases hj
      | j + 2, hj, _ => cases hj)
  refine ⟨w, v, h1, h2, by simpa [Finset.prod_range_succ] using h3, ?_⟩
  rintro rfl
  have : call false _ _ = machineCall _ false _ _ := h1.trans h2.symm
  revert this
  decide +kernel

/-- A constant array, at arguments inside, outside, and outside with extrapolation. -/
example : ∃ I : Interp ℚ String, interpn [[5, 5, 5, 5, 5, 5]] [[1, 4], [0, 1, 3]] ⟨0, 0, [2, 3], [3, 1], [], 6⟩ .linear = .ok I ∧
    machineInterpnCall (Binary.rounding 53 (by decide)) false I [2, 7 / 3] = .ok 5 ∧ machineInterpnCall (Binary.rounding 53 (by decide)) false I [2, 4] = .ok 0 ∧
    machineInterpnCall (Binary.rounding 53 (by decide)) true I [9, 4] = .ok 5 :=
  ⟨_, rfl, by decide +kernel, by decide +kernel, by decide +kernel⟩

/-- `interpn` on a grid on which doubles do not give the exact value; all hypotheses of the theorem about it hold. -/
example : Spec.Steep [(1 : ℚ), 4] 2 (4 / 3) ∧ Spec.Steep [(0 : ℚ), 1, 3] (7 / 3) (7 / 3) ∧ ∃ I : Interp ℚ String,
    interpn [[1, 2, 3, 4, 5, 7]] [[1, 4], [0, 1, 3]] ⟨0, 0, [2, 3], [3, 1], [], 6⟩ .linear = .ok I ∧ interpnCall false I [2, 7 / 3] ≠ machineInterpnCall (Binary.rounding 53 (by decide)) false I [2, 7 / 3] := by
  refine ⟨?_, ?_, _, rfl, by decide +kernel⟩
  · intro i k l hk hl
    match i, hk, hl with
    | 0, hk, hl => cases hk; cases hl; norm_num
    | i + 1, hk, hl => simp at hl
  · intro i k l hk hl
    match i, hk, hl with
    | 0, hk, hl => cases hk; cases hl; norm_num
    | 1, hk, hl => cases hk; cases hl; norm_num
    | i + 2, hk, hl => simp at hl

end Alexandria.MathUtils
