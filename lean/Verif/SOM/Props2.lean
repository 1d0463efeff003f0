import Verif.SOM.Props
import Mathlib.Algebra.Order.BigOperators.Group.List

/-! # Further properties of the self organizing map (C79-C82): u-matrix, projection, Kohonen neighbourhood, learning restraints -/

namespace Alexandria.SOM

/-! ## C79: the u-matrix -/

theorem mem_neighbours {sx sy x y : Nat} (hx : x < sx) (hy : y < sy) (p : Nat × Nat) :
    p ∈ neighbours sx sy x y ↔ Spec.Adjacent p (x, y) ∧ p.1 < sx ∧ p.2 < sy := by
  obtain ⟨a, b⟩ := p
  simp only [neighbours, List.mem_flatMap, List.mem_filterMap, List.mem_cons, List.not_mem_nil, or_false, Spec.Adjacent, ne_eq,
    Prod.mk.injEq]
  constructor
  · rintro ⟨i, hi, j, hj, h⟩
    split at h
    · simp at h
    · split at h
      · simp at h
      · simp only [Option.some.injEq, Prod.mk.injEq] at h
        omega
  · rintro ⟨h, h1, h2⟩
    refine ⟨(a : Int), by omega, (b : Int), by omega, ?_⟩
    rw [if_neg (by omega), if_neg (by omega)]
    simp

theorem nodup_neighbours (sx sy x y : Nat) : (neighbours sx sy x y).Nodup := by
  simp only [neighbours]
  rw [List.nodup_flatMap]
  have hf : ∀ (i j : Int) (p : Nat × Nat), p ∈ (if i = x ∧ j = y then none
      else if i < 0 ∨ i = sx ∨ j < 0 ∨ j = sy then none else some (i.toNat, j.toNat) : Option (Nat × Nat)) →
      (p.1 : Int) = i ∧ (p.2 : Int) = j := by
    intro i j p h
    split at h
    · simp at h
    · split at h
      · simp at h
      · simp only [Option.mem_def, Option.some.injEq] at h
        subst h
        simp only
        omega
  constructor
  · intro i _
    refine List.Nodup.filterMap ?_ ?_
    · intro j j' p h h'
      have h1 := (hf i j p h).2
      have h2 := (hf i j' p h').2
      omega
    · simp only [List.nodup_cons, List.mem_cons, List.not_mem_nil, or_false, not_false_eq_true, List.nodup_nil, and_true]
      omega
  · have hd : ∀ i i' : Int, i ≠ i' → Function.onFun List.Disjoint (fun (i : Int) => List.filterMap (fun (j : Int) =>
        if i = x ∧ j = y then none else if i < 0 ∨ i = sx ∨ j < 0 ∨ j = sy then none else some (i.toNat, j.toNat))
        [(y : Int) - 1, (y : Int), (y : Int) + 1]) i i' := by
      intro i i' hne p h h'
      simp only [List.mem_filterMap] at h h'
      obtain ⟨j, _, h⟩ := h
      obtain ⟨j', _, h'⟩ := h'
      have h1 := (hf i j p h).1
      have h2 := (hf i' j' p h').1
      omega
    simp only [List.pairwise_cons, List.mem_cons, List.not_mem_nil, or_false, forall_eq_or_imp, forall_eq, List.Pairwise.nil, and_true,
      false_imp_iff, implies_true]
    exact ⟨⟨hd _ _ (by omega), hd _ _ (by omega)⟩, hd _ _ (by omega)⟩

theorem neighbours_ne_nil {sx sy x y : Nat} (hx : x < sx) (hy : y < sy) (h : 2 ≤ sx * sy) : neighbours sx sy x y ≠ [] := by
  have : ∃ p, p ∈ neighbours sx sy x y := by
    rcases Nat.lt_or_ge 1 sx with h1 | h1
    · rcases Nat.eq_zero_or_pos x with h0 | h0
      · exact ⟨(x + 1, y), (mem_neighbours hx hy _).mpr (by simp only [Spec.Adjacent, ne_eq, Prod.mk.injEq]; omega)⟩
      · exact ⟨(x - 1, y), (mem_neighbours hx hy _).mpr (by simp only [Spec.Adjacent, ne_eq, Prod.mk.injEq]; omega)⟩
    · have e : sx = 1 := by omega
      subst e
      rcases Nat.eq_zero_or_pos y with h0 | h0
      · exact ⟨(x, y + 1), (mem_neighbours hx hy _).mpr (by simp only [Spec.Adjacent, ne_eq, Prod.mk.injEq]; omega)⟩
      · exact ⟨(x, y - 1), (mem_neighbours hx hy _).mpr (by simp only [Spec.Adjacent, ne_eq, Prod.mk.injEq]; omega)⟩
  obtain ⟨p, hp⟩ := this
  exact List.ne_nil_of_mem hp

section Reduce
variable {K : Type} [Field K] [LinearOrder K]

theorem foldl_min (l : List K) : ∀ a : K, (l.foldl (fun b x => if x < b then x else b) a ∈ a :: l) ∧
    ∀ x ∈ a :: l, l.foldl (fun b x => if x < b then x else b) a ≤ x := by
  induction l with
  | nil => intro a; simp
  | cons b l ih =>
    intro a
    simp only [List.foldl_cons]
    by_cases h : b < a
    · rw [if_pos h]
      obtain ⟨h1, h2⟩ := ih b
      refine ⟨List.mem_cons_of_mem _ h1, ?_⟩
      intro x hx
      rcases List.mem_cons.mp hx with rfl | hx
      · exact le_trans (h2 b List.mem_cons_self) h.le
      · exact h2 x hx
    · rw [if_neg h]
      obtain ⟨h1, h2⟩ := ih a
      refine ⟨?_, ?_⟩
      · rcases List.mem_cons.mp h1 with h1 | h1
        · rw [h1]; exact List.mem_cons_self
        · exact List.mem_cons_of_mem _ (List.mem_cons_of_mem _ h1)
      · intro x hx
        rcases List.mem_cons.mp hx with rfl | hx
        · exact h2 _ List.mem_cons_self
        · rcases List.mem_cons.mp hx with rfl | hx
          · exact le_trans (h2 a List.mem_cons_self) (not_lt.mp h)
          · exact h2 x (List.mem_cons_of_mem _ hx)

theorem foldl_max (l : List K) : ∀ a : K, (l.foldl (fun b x => if b < x then x else b) a ∈ a :: l) ∧
    ∀ x ∈ a :: l, x ≤ l.foldl (fun b x => if b < x then x else b) a := by
  induction l with
  | nil => intro a; simp
  | cons b l ih =>
    intro a
    simp only [List.foldl_cons]
    by_cases h : a < b
    · rw [if_pos h]
      obtain ⟨h1, h2⟩ := ih b
      refine ⟨List.mem_cons_of_mem _ h1, ?_⟩
      intro x hx
      rcases List.mem_cons.mp hx with rfl | hx
      · exact le_trans h.le (h2 b List.mem_cons_self)
      · exact h2 x hx
    · rw [if_neg h]
      obtain ⟨h1, h2⟩ := ih a
      refine ⟨?_, ?_⟩
      · rcases List.mem_cons.mp h1 with h1 | h1
        · rw [h1]; exact List.mem_cons_self
        · exact List.mem_cons_of_mem _ (List.mem_cons_of_mem _ h1)
      · intro x hx
        rcases List.mem_cons.mp hx with rfl | hx
        · exact h2 _ List.mem_cons_self
        · rcases List.mem_cons.mp hx with rfl | hx
          · exact le_trans (not_lt.mp h) (h2 a List.mem_cons_self)
          · exact h2 x (List.mem_cons_of_mem _ hx)

end Reduce

namespace Spec

/-- `r` summarises the values `f p` over the cells `p` that touch `c` in a map of size `sx × sy`: the smallest, the largest, or the
mean (over an enumeration without repetition). -/
def Summary {K : Type} [Field K] [LinearOrder K] (sx sy : Nat) (c : Nat × Nat) (f : Nat × Nat → K) (t : UType) (r : K) : Prop :=
  match t with
  | .min => (∃ p, Adjacent p c ∧ p.1 < sx ∧ p.2 < sy ∧ r = f p) ∧ ∀ p, Adjacent p c → p.1 < sx → p.2 < sy → r ≤ f p
  | .max => (∃ p, Adjacent p c ∧ p.1 < sx ∧ p.2 < sy ∧ r = f p) ∧ ∀ p, Adjacent p c → p.1 < sx → p.2 < sy → f p ≤ r
  | .mean => ∃ ps : List (Nat × Nat), ps.Nodup ∧ (∀ p, p ∈ ps ↔ Adjacent p c ∧ p.1 < sx ∧ p.2 < sy) ∧
      r * (ps.length : K) = (ps.map f).sum

end Spec

theorem uCell_go {nd : Nat} {K : Type} [Field K] [LinearOrder K] (m : Map nd K) (dist : (Fin nd → K) → (Fin nd → K) → K)
    (wt : Nat → Nat → Fin nd → K) (w : Fin nd → K) : ∀ ps : List (Nat × Nat), (∀ p ∈ ps, m.at p.1 p.2 = .ok (wt p.1 p.2)) →
    uCell.go m dist w ps = .ok (ps.map fun p => dist w (wt p.1 p.2)) := by
  intro ps
  induction ps with
  | nil => intro _; rfl
  | cons p ps ih =>
    intro h
    rw [uCell.go, h p List.mem_cons_self, Outcome.bind_ok, ih (fun q hq => h q (List.mem_cons_of_mem _ hq)), Outcome.bind_ok]
    rfl

/-- Every cell of the u-matrix of a map with at least two cells is the minimum, maximum or mean of the distances to the cells that
touch it (eight inside, fewer at the border), each counted once. -/
theorem C79_umatrix_partial {nd : Nat} {K : Type} [Field K] [LinearOrder K] [IsStrictOrderedRing K] (m : Map nd K) (hw : m.WF)
    (h2 : 2 ≤ m.sx * m.sy) (dist : (Fin nd → K) → (Fin nd → K) → K) (t : UType) (x y : Nat) (hx : x < m.sx) (hy : y < m.sy)
    (wt : Nat → Nat → Fin nd → K) (hwt : ∀ x y, x < m.sx → y < m.sy → m.at x y = .ok (wt x y)) :
    ∃ r, uCell m dist t x y = .ok r ∧ Spec.Summary m.sx m.sy (x, y) (fun p => dist (wt x y) (wt p.1 p.2)) t r := by
  have hmem := mem_neighbours hx hy
  have hgo := uCell_go m dist wt (wt x y) (neighbours m.sx m.sy x y) (fun p hp => by
    obtain ⟨_, h1, h2⟩ := (hmem p).mp hp
    exact hwt _ _ h1 h2)
  have hu : uCell m dist t x y = reduceU t ((neighbours m.sx m.sy x y).map fun p => dist (wt x y) (wt p.1 p.2)) := by
    unfold uCell
    rw [hwt x y hx hy, Outcome.bind_ok, hgo, Outcome.bind_ok]
  rw [hu]
  have hne := neighbours_ne_nil hx hy h2
  have hnd := nodup_neighbours m.sx m.sy x y
  generalize neighbours m.sx m.sy x y = ps at hmem hne hnd
  generalize hg : (fun p : Nat × Nat => dist (wt x y) (wt p.1 p.2)) = f
  have hmm : ∀ v, v ∈ ps.map f ↔ ∃ p, Spec.Adjacent p (x, y) ∧ p.1 < m.sx ∧ p.2 < m.sy ∧ v = f p := by
    intro v
    rw [List.mem_map]
    constructor
    · rintro ⟨p, hp, rfl⟩
      obtain ⟨h1, h2, h3⟩ := (hmem p).mp hp
      exact ⟨p, h1, h2, h3, rfl⟩
    · rintro ⟨p, h1, h2, h3, rfl⟩
      exact ⟨p, (hmem p).mpr ⟨h1, h2, h3⟩, rfl⟩
  cases t with
  | mean =>
    obtain ⟨a, as, rfl⟩ := List.exists_cons_of_ne_nil hne
    refine ⟨_, rfl, a :: as, hnd, hmem, ?_⟩
    have hl : ((a :: as).length : K) ≠ 0 := by
      rw [Nat.cast_ne_zero]; simp
    rw [← List.map_cons (f := f), List.length_map, div_mul_cancel₀ _ hl, List.sum_eq_foldl]
  | min =>
    obtain ⟨a, as, rfl⟩ := List.exists_cons_of_ne_nil hne
    obtain ⟨h1, h2⟩ := foldl_min (as.map f) (f a)
    refine ⟨_, rfl, (hmm _).mp h1, fun p h3 h4 h5 => h2 _ ((hmm _).mpr ⟨p, h3, h4, h5, rfl⟩)⟩
  | max =>
    obtain ⟨a, as, rfl⟩ := List.exists_cons_of_ne_nil hne
    obtain ⟨h1, h2⟩ := foldl_max (as.map f) (f a)
    refine ⟨_, rfl, (hmm _).mp h1, fun p h3 h4 h5 => h2 _ ((hmm _).mpr ⟨p, h3, h4, h5, rfl⟩)⟩

/-- The full claim: the u-matrix exists for every map with cells. -/
def C79_full : Prop := ∀ (m : Map 1 ℚ), m.WF → 0 < m.sx → 0 < m.sy → ∀ (dist : (Fin 1 → ℚ) → (Fin 1 → ℚ) → ℚ) (t : UType) (x y : Nat),
  x < m.sx → y < m.sy → ∃ r, uCell m dist t x y = .ok r

/-- It fails for a map with a single cell, which has no neighbours: the minimum of an empty vector is dereferenced. -/
theorem C79_violated : ¬ C79_full := by
  intro h
  obtain ⟨r, hr⟩ := h ⟨1, 1, [fun _ => 0]⟩ rfl (by decide) (by decide) (fun _ _ => 0) .min 0 0 (by decide) (by decide)
  have : uCell (K := ℚ) (nd := 1) ⟨1, 1, [fun _ => 0]⟩ (fun _ _ => 0) .min 0 0 = .ub := rfl
  rw [this] at hr
  cases hr

/-- The distances between neighbours are symmetric, so is the list of neighbours. -/
theorem C79_symmetric {sx sy : Nat} {a b : Nat × Nat} (ha : a.1 < sx ∧ a.2 < sy) (hb : b.1 < sx ∧ b.2 < sy) :
    a ∈ neighbours sx sy b.1 b.2 ↔ b ∈ neighbours sx sy a.1 a.2 := by
  rw [mem_neighbours hb.1 hb.2, mem_neighbours ha.1 ha.2]
  unfold Spec.Adjacent
  constructor
  · rintro ⟨⟨h1, h2, h3, h4, h5⟩, _⟩; exact ⟨⟨fun h => h1 (by rw [h]), h3, h2, h5, h4⟩, hb⟩
  · rintro ⟨⟨h1, h2, h3, h4, h5⟩, _⟩; exact ⟨⟨fun h => h1 (by rw [h]), h3, h2, h5, h4⟩, ha⟩

example : neighbours 3 2 0 0 = [(0, 1), (1, 0), (1, 1)] ∧ (neighbours 3 3 1 1).length = 8 := by decide
example : uCell (K := ℚ) (nd := 1) ⟨2, 2, [![1], ![2], ![4], ![8]]⟩ (fun a b => |a 0 - b 0|) .mean 0 0 = .ok (11 / 3) := by
  decide +kernel

/-! ## C80: projection -/

/-- The projection of a list of inputs: the cell `(x, y)` of the result holds the inputs whose best matching unit it is, added one by
one in input order to the initial value; in particular no input is lost and none counted twice. -/
theorem C80_project {T I : Type} (sx sy : Nat) (init : T) (add : T → I → T) (bmu : I → Nat × Nat) (inputs : List I)
    (hb : ∀ i ∈ inputs, (bmu i).1 < sx ∧ (bmu i).2 < sy) :
    ∃ cells, project sx sy init add (fun i => .ok (bmu i)) inputs (List.replicate (sx * sy) init) = .ok cells ∧
      cells.length = sx * sy ∧ ∀ x y, x < sx → y < sy →
        cells[x + y * sx]? = some ((inputs.filter fun i => bmu i = (x, y)).foldl add init) := by
  have gen : ∀ (inputs : List I), (∀ i ∈ inputs, (bmu i).1 < sx ∧ (bmu i).2 < sy) → ∀ (start : List T) (v : Nat → Nat → T),
      start.length = sx * sy → (∀ x y, x < sx → y < sy → start[x + y * sx]? = some (v x y)) →
      ∃ cells, project sx sy init add (fun i => .ok (bmu i)) inputs start = .ok cells ∧
      cells.length = sx * sy ∧ ∀ x y, x < sx → y < sy →
        cells[x + y * sx]? = some ((inputs.filter fun i => bmu i = (x, y)).foldl add (v x y)) := by
    intro inputs
    induction inputs with
    | nil => intro _ start v hl hv; exact ⟨start, rfl, hl, by simpa using hv⟩
    | cons i rest ih =>
      intro hb start v hl hv
      obtain ⟨h1, h2⟩ := hb i List.mem_cons_self
      have hlt := index_lt h1 h2
      obtain ⟨cells, e1, e2, e3⟩ := ih (fun j hj => hb j (List.mem_cons_of_mem _ hj))
        (start.set ((bmu i).1 + (bmu i).2 * sx) (add (v (bmu i).1 (bmu i).2) i))
        (fun x y => if bmu i = (x, y) then add (v x y) i else v x y) (by simp [hl]) (by
          intro x y hx hy
          by_cases h : bmu i = (x, y)
          · rw [if_pos h, h]
            simp only
            rw [List.getElem?_set_self (by rw [hl]; exact index_lt hx hy)]
          · rw [if_neg h, List.getElem?_set_ne, hv x y hx hy]
            intro e
            apply h
            have c1 := coords_of h1 h2
            rw [e, coords_of hx hy] at c1
            rw [c1])
      refine ⟨cells, ?_, e2, ?_⟩
      · rw [project]
        simp only [Outcome.bind_ok]
        rw [hv _ _ h1 h2]
        exact e1
      · intro x y hx hy
        rw [e3 x y hx hy]
        by_cases h : bmu i = (x, y)
        · simp [h]
        · simp [h]
  refine gen inputs hb (List.replicate (sx * sy) init) (fun _ _ => init) (by simp) ?_
  intro x y hx hy
  rw [List.getElem?_replicate, if_pos (index_lt hx hy)]

/-- Counting projection: the counts of all cells sum to the number of inputs. -/
theorem C80_count {I : Type} (sx sy : Nat) (bmu : I → Nat × Nat) (inputs : List I)
    (hb : ∀ i ∈ inputs, (bmu i).1 < sx ∧ (bmu i).2 < sy) (cells : List Nat)
    (h : project sx sy 0 (fun n _ => n + 1) (fun i => .ok (bmu i)) inputs (List.replicate (sx * sy) 0) = .ok cells) :
    cells.sum = inputs.length := by
  have gen : ∀ (inputs : List I) (start cells : List Nat),
      project sx sy 0 (fun n _ => n + 1) (fun i => .ok (bmu i)) inputs start = .ok cells →
      cells.sum = start.sum + inputs.length := by
    intro inputs
    induction inputs with
    | nil => intro start cells h; simp only [project, Outcome.ok.injEq] at h; simp [h]
    | cons i rest ih =>
      intro start cells h
      rw [project] at h
      simp only [Outcome.bind_ok] at h
      cases hc : start[(bmu i).1 + (bmu i).2 * sx]? with
      | none => rw [hc] at h; simp at h
      | some c =>
        rw [hc] at h
        have := ih _ _ h
        rw [this]
        obtain ⟨hlt, hce⟩ := List.getElem?_eq_some_iff.mp hc
        have hs : ∀ (l : List Nat) (k : Nat) (hk : k < l.length), (l.set k (l[k] + 1)).sum = l.sum + 1 := by
          intro l
          induction l with
          | nil => intro k hk; simp at hk
          | cons a l ih =>
            intro k hk
            cases k with
            | zero => simp; omega
            | succ k =>
              simp only [List.set_cons_succ, List.sum_cons, List.getElem_cons_succ]
              rw [ih k (by simpa using hk)]; omega
        have := hs start _ hlt
        rw [hce] at this
        rw [this, List.length_cons]; omega
  have := gen inputs _ _ h
  simpa using this

example : project 2 2 0 (fun n (_ : Nat) => n + 1) (fun i => .ok (i % 2, i / 2 % 2)) [0, 1, 5, 7] (List.replicate 4 0) = .ok [1, 2, 0, 1] := by
  decide

/-! ## C81: the Kohonen neighbourhood -/

namespace Spec

/-- Gaussian of width `s`, cut off at `mult` widths. -/
noncomputable def gauss (mult s d2 : ℝ) : ℝ := if d2 < (mult * s) ^ 2 then Real.exp (-d2 / (2 * s ^ 2)) else 0

/-- The width: half the larger side of the map at the beginning, with exponent going linearly to zero. -/
noncomputable def width (sx sy : Nat) (i n : Nat) : ℝ :=
  let w : ℝ := (max sx sy : Nat) / 2
  w * Real.exp (-((i : ℝ) / n) * Real.log w)

end Spec

theorem kSigma_eq (w : ℝ) (i n : Nat) : kSigma w i n = w * Real.exp (-((i : ℝ) / n) * Real.log w) := by
  unfold kSigma
  congr 2
  rw [div_div_eq_mul_div]
  ring

/-- The values of a sequence of calls of one function object. -/
noncomputable def kRun (sx sy : Nat) (mult : ℝ) : KBuf → List ((Nat × Nat) × (Nat × Nat) × Nat × Nat) → List ℝ
  | _, [] => []
  | buf, c :: cs =>
    let r := kohonenCall sx sy mult buf c.1 c.2.1 c.2.2.1 c.2.2.2
    r.2 :: kRun sx sy mult r.1 cs

/-- The buffered width does not show: in every sequence of calls (with a positive number of iterations) each result is the Gaussian of
the distance on the map with the width of its own iteration. -/
theorem C81_kohonen (sx sy : Nat) (mult : ℝ) (calls : List ((Nat × Nat) × (Nat × Nat) × Nat × Nat)) (hn : ∀ c ∈ calls, 0 < c.2.2.2) :
    kRun sx sy mult kInit calls =
      calls.map fun c => Spec.gauss mult (Spec.width sx sy c.2.2.1 c.2.2.2) (Spec.cellDist2 c.1 c.2.1) := by
  have gen : ∀ (calls : List ((Nat × Nat) × (Nat × Nat) × Nat × Nat)), (∀ c ∈ calls, 0 < c.2.2.2) → ∀ buf : KBuf,
      (buf.2.1 ≠ 0 → buf.2.2 = kSigma ((max sx sy : Nat) / 2) buf.1 buf.2.1) → kRun sx sy mult buf calls =
      calls.map fun c => Spec.gauss mult (Spec.width sx sy c.2.2.1 c.2.2.2) (Spec.cellDist2 c.1 c.2.1) := by
    intro calls
    induction calls with
    | nil => intros; rfl
    | cons c cs ih =>
      intro hn buf hbuf
      obtain ⟨b, d, i, n⟩ := c
      have hnp := hn _ List.mem_cons_self
      simp only at hnp
      have hb2 : (if buf.1 ≠ i ∨ buf.2.1 ≠ n then ((i, n, kSigma ((max sx sy : Nat) / 2) i n) : KBuf) else buf) =
          (i, n, kSigma ((max sx sy : Nat) / 2) i n) := by
        by_cases h : buf.1 ≠ i ∨ buf.2.1 ≠ n
        · rw [if_pos h]
        · rw [if_neg h]
          rw [not_or, not_not, not_not] at h
          obtain ⟨b1, b2, b3⟩ := buf
          simp only at h hbuf ⊢
          obtain ⟨rfl, rfl⟩ := h
          rw [hbuf (by omega)]
      rw [kRun, List.map_cons]
      simp only [kohonenCall, hb2]
      rw [ih (fun c hc => hn c (List.mem_cons_of_mem _ hc)) _ (by intro _; rfl)]
      congr 1
      unfold Spec.gauss Spec.width Spec.cellDist2
      simp only
      rw [kSigma_eq]
      generalize ((max sx sy : Nat) : ℝ) / 2 * Real.exp (-((i : ℝ) / n) * Real.log (((max sx sy : Nat) : ℝ) / 2)) = s
      have e1 : ((b.1 : ℝ) - d.1) * ((b.1 : ℝ) - d.1) + ((b.2 : ℝ) - d.2) * ((b.2 : ℝ) - d.2) =
          ((b.1 : ℝ) - d.1) ^ 2 + ((b.2 : ℝ) - d.2) ^ 2 := by ring
      have e2 : mult * mult * (s * s) = (mult * s) ^ 2 := by ring
      rw [e1, e2, neg_one_mul, ← pow_two s]
  exact gen calls hn kInit (by simp [kInit])

/-- Its values are between zero and one, one at the best matching unit, and do not increase with the distance. -/
theorem C81_kohonen_shape (mult s : ℝ) :
    (∀ d, 0 ≤ d → 0 ≤ Spec.gauss mult s d ∧ Spec.gauss mult s d ≤ 1) ∧ (mult ≠ 0 → s ≠ 0 → Spec.gauss mult s 0 = 1) ∧
    ∀ d d', d ≤ d' → Spec.gauss mult s d' ≤ Spec.gauss mult s d := by
  refine ⟨?_, ?_, ?_⟩
  · intro d hd
    unfold Spec.gauss
    split
    · refine ⟨(Real.exp_pos _).le, ?_⟩
      rw [Real.exp_le_one_iff]
      exact div_nonpos_of_nonpos_of_nonneg (by linarith) (by positivity)
    · exact ⟨le_refl _, zero_le_one⟩
  · intro hm hs
    unfold Spec.gauss
    rw [if_pos (by positivity)]
    simp
  · intro d d' h
    unfold Spec.gauss
    by_cases h1 : d' < (mult * s) ^ 2
    · rw [if_pos h1, if_pos (lt_of_le_of_lt h h1), Real.exp_le_exp]
      exact div_le_div_of_nonneg_right (by linarith) (by positivity)
    · rw [if_neg h1]
      split
      · exact (Real.exp_pos _).le
      · exact le_refl _

/-- On maps with a side of at least two the width starts at half that side, never increases, and never gets below one during the
training. -/
theorem C81_width (sx sy : Nat) (h : 2 ≤ max sx sy) (n : Nat) (hn : 0 < n) :
    Spec.width sx sy 0 n = (max sx sy : Nat) / 2 ∧ (∀ i j, i ≤ j → Spec.width sx sy j n ≤ Spec.width sx sy i n) ∧
    ∀ i, i ≤ n → 1 ≤ Spec.width sx sy i n := by
  have hw : (1 : ℝ) ≤ ((max sx sy : Nat) : ℝ) / 2 := by
    rw [le_div_iff₀ (by norm_num)]
    have : ((2 : Nat) : ℝ) ≤ ((max sx sy : Nat) : ℝ) := Nat.cast_le.mpr h
    simpa using this
  have hn' : (0 : ℝ) < n := Nat.cast_pos.mpr hn
  unfold Spec.width
  simp only
  generalize ((max sx sy : Nat) : ℝ) / 2 = w at hw
  have hl : 0 ≤ Real.log w := Real.log_nonneg hw
  refine ⟨by simp, ?_, ?_⟩
  · intro i j hij
    apply mul_le_mul_of_nonneg_left _ (by linarith)
    rw [Real.exp_le_exp]
    apply mul_le_mul_of_nonneg_right _ hl
    rw [neg_le_neg_iff]
    exact div_le_div_of_nonneg_right (Nat.cast_le.mpr hij) hn'.le
  · intro i hi
    have h1 : Real.exp (-Real.log w) ≤ Real.exp (-((i : ℝ) / n) * Real.log w) := by
      rw [Real.exp_le_exp, neg_mul, neg_le_neg_iff]
      apply mul_le_of_le_one_left hl
      rw [div_le_one hn']
      exact Nat.cast_le.mpr hi
    rw [Real.exp_neg, Real.exp_log (by linarith)] at h1
    calc (1 : ℝ) = w * w⁻¹ := by rw [mul_inv_cancel₀ (by linarith)]
      _ ≤ _ := mul_le_mul_of_nonneg_left h1 (by linarith)

/-- The training invariant `C56_hull` thus covers the Kohonen neighbourhood. -/
theorem C81_factor_range (sx sy : Nat) (mult : ℝ) (b c : Nat × Nat) (i n : Nat) :
    0 ≤ Spec.gauss mult (Spec.width sx sy i n) (Spec.cellDist2 b c) ∧ Spec.gauss mult (Spec.width sx sy i n) (Spec.cellDist2 b c) ≤ 1 := by
  apply (C81_kohonen_shape _ _).1
  unfold Spec.cellDist2
  positivity

example : ∀ c ∈ [(((0, 0), (1, 1), 0, 5) : (Nat × Nat) × (Nat × Nat) × Nat × Nat), ((0, 0), (1, 1), 1, 5)], 0 < c.2.2.2 := by decide

/-! ## C82: learning restraints -/

/-- The linear restraint starts at one and strictly decreases during the training; it never reaches zero. -/
theorem C82_linear {K : Type} [Field K] [LinearOrder K] [IsStrictOrderedRing K] {n : Nat} (hn : n < 2 ^ 64) (h0 : 0 < n) :
    (linear 0 n : K) = 1 ∧ (∀ i j, i < j → j < n → (linear j n : K) < linear i n) ∧ ∀ i, i < n → (1 : K) / n ≤ linear i n := by
  have h2 : (0 : K) < n := by exact_mod_cast h0
  refine ⟨by rw [linear_eq h0 hn]; simp, ?_, ?_⟩
  · intro i j h1 h3
    rw [linear_eq h3 hn, linear_eq (by omega) hn]
    have : (i : K) / n < (j : K) / n := (div_lt_div_iff_of_pos_right h2).mpr (by exact_mod_cast h1)
    linarith
  · intro i hi
    rw [linear_eq hi hn, le_sub_iff_add_le, ← add_div, div_le_one h2]
    have : ((1 + i : Nat) : K) ≤ n := by exact_mod_cast (by omega : 1 + i ≤ n)
    simpa using this

/-- The exponential restraint starts at the given rate, strictly decreases, and stays above `rate / e`. -/
theorem C82_exponential (r : ℝ) (hr : 0 < r) {n : Nat} (h0 : 0 < n) :
    exponentialDecay r 0 n = r ∧ (∀ i j, i < j → exponentialDecay r j n < exponentialDecay r i n) ∧
    ∀ i, i < n → r / Real.exp 1 < exponentialDecay r i n := by
  have h2 : (0 : ℝ) < n := Nat.cast_pos.mpr h0
  unfold exponentialDecay
  refine ⟨by simp, ?_, ?_⟩
  · intro i j hij
    apply mul_lt_mul_of_pos_left _ hr
    rw [Real.exp_lt_exp, neg_one_mul, neg_one_mul, div_lt_div_iff_of_pos_right h2, neg_lt_neg_iff]
    exact Nat.cast_lt.mpr hij
  · intro i hi
    rw [div_eq_mul_inv, ← Real.exp_neg]
    apply mul_lt_mul_of_pos_left _ hr
    rw [Real.exp_lt_exp, lt_div_iff₀ h2]
    have : (i : ℝ) < n := Nat.cast_lt.mpr hi
    linarith

example : (linear 1 4 : ℚ) = 3 / 4 ∧ (linear 0 4 : ℚ) = 1 := by decide +kernel

end Alexandria.SOM
