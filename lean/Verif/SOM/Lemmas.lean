import Verif.SOM.Model
import Verif.SOM.Spec
import Mathlib.Tactic.Ring
import Mathlib.Tactic.Linarith
import Mathlib.Tactic.FieldSimp
import Mathlib.Tactic.Positivity

/-! # Lemmas about the model of the self organizing map -/

namespace Alexandria.SOM

/-- The map has one cell per pair of coordinates. -/
def Map.WF {nd : Nat} {K : Type} (m : Map nd K) : Prop := m.cells.length = m.sx * m.sy

theorem mkMap_wf {K : Type} (nd sx sy : Nat) (init : Nat → K) : (mkMap nd sx sy init).WF := by
  simp [mkMap, Map.WF]

theorem coords_eq {sx sy i : Nat} (h : i < sx * sy) : coords sx sy i = (i % sx, i / sx) := by
  simp [coords, Nat.mod_eq_of_lt h]

theorem coords_lt {sx sy i : Nat} (h : i < sx * sy) : (coords sx sy i).1 < sx ∧ (coords sx sy i).2 < sy := by
  have hx : 0 < sx := by
    rcases Nat.eq_zero_or_pos sx with h0 | h0
    · subst h0; simp at h
    · exact h0
  rw [coords_eq h]
  exact ⟨Nat.mod_lt _ hx, Nat.div_lt_of_lt_mul h⟩

theorem coords_index {sx sy i : Nat} (h : i < sx * sy) : (coords sx sy i).1 + (coords sx sy i).2 * sx = i := by
  rw [coords_eq h]
  have := Nat.mod_add_div i sx
  rw [Nat.mul_comm] at this
  exact this

theorem index_lt {sx sy x y : Nat} (hx : x < sx) (hy : y < sy) : x + y * sx < sx * sy := by
  have h1 : (y + 1) * sx ≤ sy * sx := Nat.mul_le_mul_right _ hy
  rw [Nat.add_mul, Nat.one_mul] at h1
  rw [Nat.mul_comm sx sy]; omega

theorem coords_of {sx sy x y : Nat} (hx : x < sx) (hy : y < sy) : coords sx sy (x + y * sx) = (x, y) := by
  have hp : 0 < sx := by omega
  rw [coords_eq (index_lt hx hy)]
  simp only [Prod.mk.injEq]
  constructor
  · rw [Nat.add_mul_mod_self_right, Nat.mod_eq_of_lt hx]
  · rw [Nat.add_mul_div_right _ _ hp, Nat.div_eq_of_lt hx, Nat.zero_add]

section Bmu
variable {W K : Type} [LinearOrder K] (dist : W → K)

/-- The loop keeps the smaller of the start value and the distances; positions are absolute. -/
theorem bmuLoop_spec : ∀ (ws : List W) (i best : Nat) (c : K),
    let r := bmuLoop dist ws i best c
    (r = (best, c) ∧ ∀ w ∈ ws, c ≤ dist w) ∨
    (∃ k w, ws[k]? = some w ∧ r = (i + k, dist w) ∧ dist w < c ∧ (∀ w' ∈ ws, dist w ≤ dist w') ∧
      ∀ j w', j < k → ws[j]? = some w' → dist w < dist w') := by
  intro ws
  induction ws with
  | nil => intro i best c; left; exact ⟨rfl, by simp⟩
  | cons a ws ih =>
    intro i best c
    simp only [bmuLoop]
    by_cases h : dist a < c
    · rw [if_pos h]
      rcases ih (i + 1) i (dist a) with ⟨h1, h2⟩ | ⟨k, w, hk, hr, hlt, hall, hf⟩
      · right
        refine ⟨0, a, rfl, by rw [h1]; rfl, h, ?_, by intro j w' hj; omega⟩
        intro w' hw'
        rcases List.mem_cons.mp hw' with rfl | hw'
        · exact le_refl _
        · exact h2 w' hw'
      · right
        refine ⟨k + 1, w, by simpa using hk, by rw [hr]; congr 1; omega, lt_trans hlt h, ?_, ?_⟩
        · intro w' hw'
          rcases List.mem_cons.mp hw' with rfl | hw'
          · exact le_of_lt hlt
          · exact hall w' hw'
        · intro j w' hj hw'
          cases j with
          | zero => simp at hw'; subst hw'; exact hlt
          | succ j => exact hf j w' (by omega) (by simpa using hw')
    · rw [if_neg h]
      rcases ih (i + 1) best c with ⟨h1, h2⟩ | ⟨k, w, hk, hr, hlt, hall, hf⟩
      · left
        refine ⟨h1, ?_⟩
        intro w' hw'
        rcases List.mem_cons.mp hw' with rfl | hw'
        · exact not_lt.mp h
        · exact h2 w' hw'
      · right
        refine ⟨k + 1, w, by simpa using hk, by rw [hr]; congr 1; omega, hlt, ?_, ?_⟩
        · intro w' hw'
          rcases List.mem_cons.mp hw' with rfl | hw'
          · exact le_trans (le_of_lt hlt) (not_lt.mp h)
          · exact hall w' hw'
        · intro j w' hj hw'
          cases j with
          | zero => simp at hw'; subst hw'; exact lt_of_lt_of_le hlt (not_lt.mp h)
          | succ j => exact hf j w' (by omega) (by simpa using hw')

end Bmu

theorem at_eq {nd : Nat} {K : Type} {m : Map nd K} (hw : m.WF) {x y : Nat} (hx : x < m.sx) (hy : y < m.sy) :
    ∃ w, m.cells[x + y * m.sx]? = some w ∧ m.at x y = .ok w := by
  have h := index_lt hx hy
  rw [← hw] at h
  exact ⟨m.cells[x + y * m.sx], by simp [h], by simp [Map.at, h]⟩

section Train
variable {nd : Nat} {K : Type} [Field K] [LinearOrder K] [IsStrictOrderedRing K]

theorem updateCell_mem {S : Set (Fin nd → K)} (hS : Convex K S) {nf lf : K} (hn : 0 ≤ nf ∧ nf ≤ 1) (hl : 0 ≤ lf ∧ lf ≤ 1)
    {s w : Fin nd → K} (hs : s ∈ S) (hw : w ∈ S) : updateCell nf lf s w ∈ S := by
  unfold updateCell
  split
  · have h1 : 0 ≤ nf * lf := mul_nonneg hn.1 hl.1
    have h2 : nf * lf ≤ 1 := mul_le_one₀ hn.2 hl.1 hl.2
    have := hS hw hs (sub_nonneg.mpr h2) h1 (by ring)
    convert this using 1
    funext j
    simp only [Pi.add_apply, Pi.smul_apply, smul_eq_mul]
    ring
  · exact hw

theorem trainSample_ok {dist : (Fin nd → K) → (Fin nd → K) → K} {big : K} {neigh : Neigh K} {i n : Nat} {lf : K} {m m' : Map nd K}
    {s : Fin nd → K} (h : trainSample dist big neigh i n lf m s = .ok m') :
    ∃ bx by' d, findBMU m (fun w => dist w s) big = .ok (bx, by', d) ∧
      m' = { m with cells := m.cells.mapIdx fun k w => updateCell (neigh (bx, by') (coords m.sx m.sy k) i n) lf s w } := by
  unfold trainSample at h
  cases hb : findBMU m (fun w => dist w s) big with
  | ok r =>
    obtain ⟨bx, by', d⟩ := r
    rw [hb] at h
    simp only [Outcome.bind_ok, Outcome.pure_eq, Outcome.ok.injEq] at h
    exact ⟨bx, by', d, rfl, h.symm⟩
  | throw e => rw [hb] at h; simp at h
  | ub => rw [hb] at h; simp at h

/-- A property of maps kept by every object is kept by the training. -/
theorem train_induct {dist : (Fin nd → K) → (Fin nd → K) → K} {big : K} {neigh : Neigh K} {learn : Nat → Nat → K} {n : Nat}
    {samples : Nat → List (Fin nd → K)} (P : Map nd K → Prop)
    (hstep : ∀ i m s m', i < n → learn i n ≠ 0 → s ∈ samples i → P m →
      trainSample dist big neigh i n (learn i n) m s = .ok m' → P m')
    {m m' : Map nd K} (hP : P m) (h : train dist big neigh learn n samples m = .ok m') : P m' := by
  have hlist : ∀ (i : Nat), i < n → learn i n ≠ 0 → ∀ (ss : List (Fin nd → K)), (∀ s ∈ ss, s ∈ samples i) → ∀ (m m' : Map nd K),
      P m → trainList dist big neigh i n (learn i n) m ss = .ok m' → P m' := by
    intro i hi hl ss
    induction ss with
    | nil => intro _ m m' hP h; simp only [trainList, Outcome.ok.injEq] at h; exact h ▸ hP
    | cons s ss ih =>
      intro hm m m' hP h
      simp only [trainList] at h
      cases h1 : trainSample dist big neigh i n (learn i n) m s with
      | ok m1 =>
        rw [h1, Outcome.bind_ok] at h
        exact ih (fun s hs => hm s (List.mem_cons_of_mem _ hs)) m1 m' (hstep i m s m1 hi hl (hm s List.mem_cons_self) hP h1) h
      | throw e => rw [h1] at h; simp at h
      | ub => rw [h1] at h; simp at h
  have hfrom : ∀ (left i : Nat), i + left = n → ∀ (m m' : Map nd K), P m →
      trainFrom dist big neigh learn n samples i left m = .ok m' → P m' := by
    intro left
    induction left with
    | zero => intro i _ m m' hP h; simp only [trainFrom, Outcome.ok.injEq] at h; exact h ▸ hP
    | succ left ih =>
      intro i hi m m' hP h
      simp only [trainFrom] at h
      by_cases h0 : learn i n = 0
      · rw [if_pos h0] at h
        exact ih (i + 1) (by omega) m m' hP h
      · rw [if_neg h0] at h
        cases h1 : trainList dist big neigh i n (learn i n) m (samples i) with
        | ok m1 =>
          rw [h1, Outcome.bind_ok] at h
          exact ih (i + 1) (by omega) m1 m' (hlist i (by omega) h0 (samples i) (fun s hs => hs) m m1 hP h1) h
        | throw e => rw [h1] at h; simp at h
        | ub => rw [h1] at h; simp at h
  exact hfrom n 0 (by omega) m m' hP h

end Train

/-! ## Sampling -/

theorem fullSetFrom_eq (n : Nat) : ∀ (fuel i : Nat), i ≤ n → n - i < fuel → fullSetFrom n fuel i = List.range' i (n - i) := by
  intro fuel
  induction fuel with
  | zero => intro i _ h; omega
  | succ fuel ih =>
    intro i hi hf
    rw [fullSetFrom]
    by_cases h : i = n
    · rw [if_pos h, h, Nat.sub_self]; rfl
    · rw [if_neg h, ih (i + 1) (by omega) (by omega)]
      have : n - i = (n - (i + 1)) + 1 := by omega
      rw [this, List.range'_succ]

theorem jackLoop_spec (draw : Nat → Nat) : ∀ (left i : Nat) (all : List Nat), all.Nodup → left ≤ all.length →
    (∀ j, j < left → draw (i + j) < all.length - j) →
    (jackLoop draw left i all).length = left ∧ (jackLoop draw left i all).Nodup ∧ ∀ x ∈ jackLoop draw left i all, x ∈ all := by
  intro left
  induction left with
  | zero => intro i all _ _ _; simp [jackLoop]
  | succ left ih =>
    intro i all hnd hl hd
    have h0 := hd 0 (by omega)
    simp only [Nat.add_zero, Nat.sub_zero] at h0
    have hlen : (all.eraseIdx (draw i)).length = all.length - 1 := by rw [List.length_eraseIdx, if_pos h0]
    obtain ⟨h1, h2, h3⟩ := ih (i + 1) (all.eraseIdx (draw i)) (hnd.sublist (List.eraseIdx_sublist ..)) (by omega) (by
      intro j hj
      have := hd (j + 1) (by omega)
      rw [show i + 1 + j = i + (j + 1) by omega, hlen]; omega)
    have hg : all[draw i]? = some all[draw i] := by simp [h0]
    rw [jackLoop, hg]
    refine ⟨by simp [h1], ?_, ?_⟩
    · refine List.nodup_cons.mpr ⟨?_, h2⟩
      intro hm
      have := h3 _ hm
      rw [List.mem_eraseIdx_iff_getElem] at this
      obtain ⟨k, hk, hne, he⟩ := this
      exact hne ((List.Nodup.getElem_inj_iff hnd).mp he)
    · intro x hx
      rcases List.mem_cons.mp hx with rfl | hx
      · exact List.getElem_mem _
      · exact (List.eraseIdx_sublist ..).subset (h3 x hx)

/-- Every selection of distinct elements is the result of some draws. -/
theorem jackLoop_surj : ∀ (sel : List Nat) (i : Nat) (all : List Nat), all.Nodup → sel.Nodup → (∀ x ∈ sel, x ∈ all) →
    ∃ draw : Nat → Nat, (∀ j, j < sel.length → draw (i + j) < all.length - j) ∧ jackLoop draw sel.length i all = sel := by
  intro sel
  induction sel with
  | nil => intro i all _ _ _; exact ⟨fun _ => 0, by simp, rfl⟩
  | cons a sel ih =>
    intro i all hnd hs hm
    obtain ⟨k, hk, hka⟩ := List.getElem_of_mem (hm a List.mem_cons_self)
    have hs' := List.nodup_cons.mp hs
    have hlen : (all.eraseIdx k).length = all.length - 1 := by rw [List.length_eraseIdx, if_pos hk]
    obtain ⟨draw, hd, he⟩ := ih (i + 1) (all.eraseIdx k) (hnd.sublist (List.eraseIdx_sublist ..)) hs'.2 (by
      intro x hx
      obtain ⟨k', hk', hx'⟩ := List.getElem_of_mem (hm x (List.mem_cons_of_mem _ hx))
      rw [List.mem_eraseIdx_iff_getElem]
      refine ⟨k', hk', ?_, hx'⟩
      rintro rfl
      rw [hka] at hx'
      exact hs'.1 (hx' ▸ hx))
    have hcong : ∀ (left i' : Nat) (l : List Nat) (d1 d2 : Nat → Nat), (∀ j, i' ≤ j → d1 j = d2 j) →
        jackLoop d1 left i' l = jackLoop d2 left i' l := by
      intro left
      induction left with
      | zero => intros; rfl
      | succ left ihl =>
        intro i' l d1 d2 h
        rw [jackLoop, jackLoop, h i' (Nat.le_refl _)]
        split
        · rfl
        · rw [ihl (i' + 1) _ d1 d2 (fun j hj => h j (by omega))]
    refine ⟨fun j => if j = i then k else draw j, ?_, ?_⟩
    · intro j hj
      simp only
      cases j with
      | zero => simpa using hk
      | succ j =>
        rw [if_neg (by omega)]
        have := hd j (by simpa using hj)
        rw [show i + (j + 1) = i + 1 + j by omega]
        omega
    · have hg : all[k]? = some a := by rw [List.getElem?_eq_getElem hk, hka]
      simp only [List.length_cons, jackLoop, if_true, hg]
      congr 1
      refine Eq.trans (hcong _ _ _ _ draw ?_) he
      intro j hj
      rw [if_neg (by omega)]

/-! ## Serialisation -/

theorem loadVals_map {K : Type} : ∀ (l : List K) (r : List (Tok K)), loadVals l.length (l.map Tok.val ++ r) = some (l, r) := by
  intro l
  induction l with
  | nil => intro r; rfl
  | cons a l ih => intro r; simp [loadVals, ih]

theorem loadCells_flatMap {K : Type} [Inhabited K] {nd : Nat} : ∀ (ws : List (Fin nd → K)) (r : List (Tok K)),
    loadCells nd ws.length ((ws.flatMap fun w => (List.finRange nd).map fun i => Tok.val (w i)) ++ r) = some (ws, r) := by
  intro ws
  induction ws with
  | nil => intro r; rfl
  | cons w ws ih =>
    intro r
    have h1 := loadVals_map ((List.finRange nd).map w)
      ((ws.flatMap fun w => (List.finRange nd).map fun i => Tok.val (w i)) ++ r)
    rw [List.length_map, List.length_finRange, List.map_map] at h1
    simp only [List.length_cons, List.flatMap_cons, List.append_assoc, loadCells]
    have h2 : (List.map (fun i => Tok.val (w i)) (List.finRange nd)) = List.map (Tok.val ∘ w) (List.finRange nd) := rfl
    rw [h2, h1]
    simp only [ih]
    congr 2
    congr 1
    funext i
    simp

end Alexandria.SOM
