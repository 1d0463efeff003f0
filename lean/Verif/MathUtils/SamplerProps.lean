import Verif.MathUtils.SamplerLemmas

/-! # Drawing from a density on a grid (C105) -/

namespace Alexandria.MathUtils

open NdArray (Nd Heap)
open NdArray.Spec (card Valid allCoords)

section
variable {K D : Type} [Field K] [LinearOrder K] [DecidableEq D] [IsStrictOrderedRing K]

/-- The random numbers that the elements of row `j` of `n` rows use, when `k` numbers were used before: the last axis uses the first `n` ones. -/
def Spec.used (us : Nat → K) (n k j axes : Nat) : List K := (List.range axes).reverse.map fun m => us (k + m * n + j)

theorem used_succ (us : Nat → K) (n k j axes : Nat) : Spec.used us n k j (axes + 1) = us (k + axes * n + j) :: Spec.used us n k j axes := by
  rw [Spec.used, List.range_succ, List.reverse_append]
  rfl

theorem densities_nonneg {ax : Axis K D} {axs : List (Axis K D)} {v : List Nat → K} {xs : List (K ⊕ D)} {ds : List K} (hok : ∀ b ∈ axs, Spec.AxisOk b)
    (hpos : ∀ is, Valid ((ax :: axs).map Axis.size) is → 0 ≤ v is) (hlen : ds.length = ax.size)
    (hds : ∀ i < ax.size, ∃ d, ds[i]? = some d ∧ Spec.Value axs (fun is => v (i :: is)) xs d) : ∀ d ∈ ds, 0 ≤ d := by
  intro d hd
  obtain ⟨i, hi, rfl⟩ := List.mem_iff_getElem.mp hd
  obtain ⟨e, he, hval⟩ := hds i (by omega)
  rw [List.getElem?_eq_getElem hi] at he
  cases he
  exact Value.nonneg hval hok fun is his => hpos _ ⟨by omega, his⟩

/-- The samplers that the constructors build, and what they draw. Both can fail only for a discrete axis. -/
theorem sampler_ok {sqrt : K → K} (hsq : Spec.IsSqrt sqrt) {us : Nat → K} (hus : ∀ k, 0 ≤ us k ∧ us k ≤ 1) (axes : List (Axis K D)) :
    ∀ (h h' : Heap K) (shape : List Nat) (data : List K) (a : Nd) (v : List Nat → K), Spec.Setup h h' shape data a axes →
    (∀ is, Valid (axes.map Axis.size) is → NdArray.at' h' a is.reverse = .ok (v is)) → (∀ is, Valid (axes.map Axis.size) is → 0 ≤ v is) →
    (mkSampler h' axes a = .throw .notFinite ∧ (∃ ax ∈ axes, ax.IsDisc) ∧ ¬ ((∀ ax ∈ axes, ax.IsDisc) ∧ ∀ is, Valid (axes.map Axis.size) is → 0 < v is)) ∨
    ∃ h2 s, mkSampler h' axes a = .ok (h2, s) ∧ h' <+: h2 ∧ ∀ n k,
      (draw sqrt us n s k = .throw .notFinite ∧ (∃ ax ∈ axes, ax.IsDisc) ∧ ¬ ((∀ ax ∈ axes, ax.IsDisc) ∧ ∀ is, Valid (axes.map Axis.size) is → 0 < v is)) ∨
      ∃ rows, draw sqrt us n s k = .ok (rows, k + axes.length * n) ∧ rows.length = n ∧
        ∀ (j : Nat) row, rows[j]? = some row → Spec.Drawn axes v (Spec.used us n k j axes.length) row := by
  induction axes with
  | nil => intro h h' shape data a v S; exact absurd rfl S.some
  | cons ax axs ih =>
    intro h h' shape data a v S hv hpos
    have hok := S.axesOk ax List.mem_cons_self
    match axs, ih, S, hv, hpos with
    | [], _, S, hv, hpos =>
      have hshape : shape = [ax.size] := by rw [S.extents]; simp
      have hs : a.shape = shape := by
        obtain ⟨_, _, rfl⟩ := NdArray.mkData_spec S.made
        rfl
      obtain ⟨l, hl, hlen, hcard, hat⟩ := NdArray.C04_iteration_row_major h h' shape data a a S.made S.small (by rw [hshape]; simp) [] rfl
      have hlen' : l.length = ax.size := by rw [hlen, hcard, hs, hshape]; simp [card]
      have hds : ∀ i < ax.size, l[i]? = some (v [i]) := by
        intro i hi
        have h1 := congrArg (fun l => l[i]?) hat
        rw [hs, hshape, allCoords_one] at h1
        simp only [List.getElem?_map, List.getElem?_range hi, Option.map_some] at h1
        rw [show ([i] : List Nat) = [i].reverse from rfl, hv [i] ⟨hi, trivial⟩] at h1
        rw [List.getElem?_eq_getElem (by omega)] at h1 ⊢
        simpa using h1.symm
      have hnn : ∀ d ∈ l, 0 ≤ d := by
        intro d hd
        obtain ⟨i, hi, rfl⟩ := List.mem_iff_getElem.mp hd
        have h1 := hds i (by omega)
        rw [List.getElem?_eq_getElem hi] at h1
        rw [Option.some.inj h1]
        exact hpos [i] ⟨by omega, trivial⟩
      rcases mkInv_ok hsq hok hlen' hnn with ⟨ht, hd, hsum⟩ | ⟨inv, hi, hcall⟩
      · left
        refine ⟨by rw [mkSampler, hl]; simp only [fromNd, Outcome.bind_ok, ht]; rfl, ⟨ax, List.mem_cons_self, hd⟩, ?_⟩
        rintro ⟨_, hp⟩
        apply hsum
        have := AxisOk.pos hok
        refine sum_pos_of (by intro hc; rw [hc] at hlen'; simp at hlen'; omega) ?_
        intro d hd
        obtain ⟨i, hi, rfl⟩ := List.mem_iff_getElem.mp hd
        have h1 := hds i (by omega)
        rw [List.getElem?_eq_getElem hi] at h1
        rw [Option.some.inj h1]
        exact hp [i] ⟨by omega, trivial⟩
      · right
        refine ⟨h', .last inv, ?_, List.prefix_refl _, ?_⟩
        · rw [mkSampler, hl]
          simp only [fromNd, Outcome.bind_ok, hi]
          rw [if_neg (by simp [hs, hshape])]
          rfl
        · intro n k
          right
          obtain ⟨rows, h1, h2, h3⟩ := lastLoop_ok (P := Spec.Quantile ax l) (fun k => hcall (us k) (hus k).1 (hus k).2) n k
          refine ⟨rows, by rw [draw, h1]; simp, h2, ?_⟩
          intro j row hj
          obtain ⟨x, rfl, hx⟩ := h3 j row hj
          have : Spec.used us n k j [ax].length = [us (k + j)] := by simp [Spec.used]
          rw [this]
          exact .last hlen' hds hx
    | ax2 :: rest, ih, S, hv, hpos =>
      have hshape : a.shape.length = rest.length + 2 := by
        obtain ⟨_, _, rfl⟩ := NdArray.mkData_spec S.made
        simp [S.extents]
      have hmono : ∀ {P : Prop}, P ∧ (∃ b ∈ ax2 :: rest, b.IsDisc) ∧ ¬ ((∀ b ∈ ax2 :: rest, b.IsDisc) ∧
            ∀ is, Valid ((ax2 :: rest).map Axis.size) is → 0 < Spec.margin ax v is) →
          P ∧ (∃ b ∈ ax :: ax2 :: rest, b.IsDisc) ∧ ¬ ((∀ b ∈ ax :: ax2 :: rest, b.IsDisc) ∧ ∀ is, Valid ((ax :: ax2 :: rest).map Axis.size) is → 0 < v is) := by
        rintro P ⟨hp, ⟨b, hb, hbd⟩, hno⟩
        refine ⟨hp, ⟨b, List.mem_cons_of_mem _ hb, hbd⟩, fun hc => hno ⟨fun b hb => hc.1 b (List.mem_cons_of_mem _ hb), fun is his => ?_⟩⟩
        exact margin_pos hok (hc.1 ax List.mem_cons_self) fun i hi => hc.2 _ ⟨hi, his⟩
      have hne : shape ≠ [] := by rw [S.extents]; simp
      have hI : ∃ I, build h' (ax :: ax2 :: rest) a = .ok I ∧ ∀ e, Den e (ax :: ax2 :: rest) (call e I) v := by
        have hs : a.shape = shape := by
          obtain ⟨_, _, rfl⟩ := NdArray.mkData_spec S.made
          rfl
        obtain ⟨I, h1, h2⟩ := build_den h h' shape data a S.made S.small hne (fun c => v c.reverse)
          (by
            intro c hc
            rw [S.extents] at hc
            have := hv c.reverse (by simpa using valid_reverse hc)
            rwa [List.reverse_reverse] at this)
          (ax :: ax2 :: rest) S.some S.axesOk [] a rfl (by rw [hs]; exact S.extents)
        refine ⟨I, h1, fun e => ?_⟩
        have := h2 e
        simpa [NdArray.Spec.embed] using this
      obtain ⟨I, hI, hden⟩ := hI
      obtain ⟨g, m, d, hm, S', hv'⟩ := marginal_ok S hv
      have hpre : h' <+: g := by
        obtain ⟨_, rfl, _⟩ := NdArray.mkData_spec S'.made
        exact List.prefix_append _ _
      rcases ih h' g _ d m (Spec.margin ax v) S' hv' (fun is his => margin_nonneg hok fun i hi => hpos _ ⟨hi, his⟩) with ht | ⟨h2, s, hs, hpre2, hdraw⟩
      · left
        obtain ⟨ht, hbad⟩ := hmono ht
        exact ⟨by rw [mkSampler, if_neg (by omega), hI, Outcome.bind_ok, hm]; simp only [Outcome.bind_ok, ht]; rfl, hbad⟩
      · right
        refine ⟨h2, .node I ax s, ?_, hpre.trans hpre2, ?_⟩
        · rw [mkSampler, if_neg (by omega), hI, Outcome.bind_ok, hm]
          simp only [Outcome.bind_ok, hs]
          rfl
        · intro n k
          rcases hdraw n k with ht | ⟨subs, h1, h2, h3⟩
          · left
            obtain ⟨ht, hbad⟩ := hmono ht
            exact ⟨by rw [draw, ht]; rfl, hbad⟩
          · have hloop := nodeLoop_ok (sqrt := sqrt) (I := I) (axis := ax) (us := us)
              (bad := (∃ b ∈ ax :: ax2 :: rest, b.IsDisc) ∧ ¬ ((∀ b ∈ ax :: ax2 :: rest, b.IsDisc) ∧ ∀ is, Valid ((ax :: ax2 :: rest).map Axis.size) is → 0 < v is))
              (P := fun p x sub => ∃ ds : List K, ds.length = ax.size ∧
                (∀ i < ax.size, ∃ d, ds[i]? = some d ∧ Spec.Value (ax2 :: rest) (fun is => v (i :: is)) sub d) ∧ Spec.Quantile ax ds p x) subs
              (by
                intro sub hsub
                obtain ⟨j, hj, rfl⟩ := List.mem_iff_getElem.mp hsub
                have hdr := h3 j _ (List.getElem?_eq_getElem hj)
                obtain ⟨ds, e1, e2, e3⟩ := densities_ok (hden false) (Drawn.fits hdr)
                have hok' : ∀ b ∈ ax2 :: rest, Spec.AxisOk b := fun b hb => S.axesOk b (List.mem_cons_of_mem _ hb)
                refine ⟨ds, e1, ?_⟩
                rcases mkInv_ok hsq hok e2 (densities_nonneg hok' hpos e2 e3) with ⟨ht, hd, hsum⟩ | ⟨inv, hi, hcall⟩
                · left
                  refine ⟨ht, ⟨ax, List.mem_cons_self, hd⟩, ?_⟩
                  rintro ⟨hall, hp⟩
                  apply hsum
                  have := AxisOk.pos hok
                  refine sum_pos_of (by intro hc; rw [hc] at e2; simp at e2; omega) ?_
                  intro d hd
                  obtain ⟨i, hi, rfl⟩ := List.mem_iff_getElem.mp hd
                  obtain ⟨y, hy, hval⟩ := e3 i (by omega)
                  rw [List.getElem?_eq_getElem hi] at hy
                  cases hy
                  exact Value.pos hval (fun b hb => hall b (List.mem_cons_of_mem _ hb)) fun is his => hp _ ⟨by omega, his⟩
                · right
                  refine ⟨inv, hi, fun k => ?_⟩
                  obtain ⟨x, hx, hq⟩ := hcall (us k) (hus k).1 (hus k).2
                  exact ⟨x, hx, ds, e2, e3, hq⟩)
              (k + (ax2 :: rest).length * n)
            rcases hloop with ⟨ht, hbad⟩ | ⟨rows, e1, e2, e3⟩
            · left
              exact ⟨by rw [draw, h1]; simp only [Outcome.bind_ok]; exact ht, hbad⟩
            · right
              refine ⟨rows, ?_, by rw [e2, h2], ?_⟩
              · rw [draw, h1]
                simp only [Outcome.bind_ok]
                rw [e1, h2]
                congr 2
                simp only [List.length_cons]
                ring
              · intro j row hj
                obtain ⟨x, sub, hsub, rfl, ds, f1, f2, f3⟩ := e3 j row hj
                rw [List.length_cons, used_succ]
                exact .more (h3 j sub hsub) f1 f2 f3

/-! ## Theorems -/

/-- **C105 (draws).** For an array of non-negative densities that fits the axes: the constructor leaves the array alone and, when it returns, `n` draws that return give `n` rows, use `n`
random numbers for each axis, the last axis first, and in every row each element belongs to its random number, in the density along its axis at the elements that follow it and with
the axes before it integrated out.  Missing for the full statement: the element of a continuous axis can be up to `2e-8` too small (`C105_full`), and when a
density along a discrete axis vanishes the result is not a number. -/
theorem C105_draw_partial (sqrt : K → K) (hsq : Spec.IsSqrt sqrt) (us : Nat → K) (hus : ∀ k, 0 ≤ us k ∧ us k ≤ 1) (axes : List (Axis K D)) (h h' : Heap K) (shape : List Nat)
    (data : List K) (a : Nd) (S : Spec.Setup h h' shape data a axes) (v : List Nat → K)
    (hv : ∀ is, Valid (axes.map Axis.size) is → NdArray.at' h' a is.reverse = .ok (v is)) (hpos : ∀ is, Valid (axes.map Axis.size) is → 0 ≤ v is) :
    mkSampler h' axes a = .throw .notFinite ∨ ∃ h2 s, mkSampler h' axes a = .ok (h2, s) ∧ h' <+: h2 ∧ ∀ n k, draw sqrt us n s k = .throw .notFinite ∨
      ∃ rows, draw sqrt us n s k = .ok (rows, k + axes.length * n) ∧ rows.length = n ∧
        ∀ (j : Nat) row, rows[j]? = some row → Spec.Drawn axes v (Spec.used us n k j axes.length) row := by
  rcases sampler_ok hsq hus axes h h' shape data a v S hv hpos with ht | ⟨h2, s, h1, h3, h4⟩
  · exact Or.inl ht.1
  · exact Or.inr ⟨h2, s, h1, h3, fun n k => (h4 n k).imp And.left id⟩

/-- **C105 (returns).** When all axes are continuous, and when all are discrete and all densities positive, the constructor and every draw return. -/
theorem C105_returns (sqrt : K → K) (hsq : Spec.IsSqrt sqrt) (us : Nat → K) (hus : ∀ k, 0 ≤ us k ∧ us k ≤ 1) (axes : List (Axis K D)) (h h' : Heap K) (shape : List Nat)
    (data : List K) (a : Nd) (S : Spec.Setup h h' shape data a axes) (v : List Nat → K)
    (hv : ∀ is, Valid (axes.map Axis.size) is → NdArray.at' h' a is.reverse = .ok (v is)) (hpos : ∀ is, Valid (axes.map Axis.size) is → 0 ≤ v is)
    (hall : (∀ ax ∈ axes, ∃ ks, ax = .cont ks) ∨ (∀ ax ∈ axes, ∃ ks, ax = .disc ks) ∧ ∀ is, Valid (axes.map Axis.size) is → 0 < v is) :
    ∃ h2 s, mkSampler h' axes a = .ok (h2, s) ∧ ∀ n k, ∃ rows, draw sqrt us n s k = .ok (rows, k + axes.length * n) ∧ rows.length = n := by
  have hbad : ¬ ((∃ ax ∈ axes, ax.IsDisc) ∧ ¬ ((∀ ax ∈ axes, ax.IsDisc) ∧ ∀ is, Valid (axes.map Axis.size) is → 0 < v is)) := by
    rintro ⟨⟨ax, hax, hd⟩, hno⟩
    rcases hall with hc | ⟨hc, hp⟩
    · obtain ⟨ks, rfl⟩ := hc ax hax
      exact hd
    · refine hno ⟨fun b hb => ?_, hp⟩
      obtain ⟨ks, rfl⟩ := hc b hb
      trivial
  rcases sampler_ok hsq hus axes h h' shape data a v S hv hpos with ht | ⟨h2, s, h1, _, h4⟩
  · exact absurd ht.2 hbad
  · refine ⟨h2, s, h1, fun n k => ?_⟩
    rcases h4 n k with ht | ⟨rows, e1, e2, _⟩
    · exact absurd ht.2 hbad
    · exact ⟨rows, e1, e2⟩

omit [IsStrictOrderedRing K] in
/-- **C105 (refused).** Several axes with an array of another rank, and an output area of another size, are refused. -/
theorem C105_refused (sqrt : K → K) (us : Nat → K) (h : Heap K) (axes : List (Axis K D)) (h2 : 2 ≤ axes.length) (a : Nd) (hrank : a.shape.length ≠ axes.length)
    (n m k : Nat) (hm : m ≠ n) (s : Sampler K D) : mkSampler h axes a = .throw .elements ∧ drawInto sqrt us n m s k = .throw .elements := by
  constructor
  · match axes, h2, hrank with
    | _ :: _ :: rest, _, hrank => rw [mkSampler, if_pos (by simpa using hrank)]
  · rw [drawInto, if_pos hm]

omit [IsStrictOrderedRing K] in
/-- **C105 (grids).** The sampler of a grid is that of an array whose element for the indices `is` of the axes is the element of the grid at these indices. -/
theorem C105_grid (h : Heap K) (axes : List (Axis K D)) (hne : axes ≠ []) (hok : ∀ ax ∈ axes, Spec.AxisOk ax) (hsmall : card (axes.map Axis.size) < 2 ^ 31) (cells : List K)
    (hl : cells.length = card (axes.map Axis.size)) :
    ∃ h' a, Spec.Setup h h' (axes.map Axis.size).reverse cells a axes ∧ samplerFromGrid h axes cells = mkSampler h' axes a ∧
      ∀ is, Valid (axes.map Axis.size) is → NdArray.at' h' a is.reverse = .ok (cells.getD (Spec.flat (axes.map Axis.size) is) 0) := by
  have hm : ∃ h' a, NdArray.mkData h (axes.map Axis.size).reverse cells = .ok (h', a) := by
    rw [NdArray.mkData, if_neg (by rw [NdArray.accU32_eq, card_reverse, Nat.mod_eq_of_lt (by omega)]; simp [hl])]
    exact ⟨_, _, rfl⟩
  obtain ⟨h', a, hm⟩ := hm
  exact ⟨h', a, ⟨hm, by rw [card_reverse]; exact hsmall, hne, hok, rfl⟩, by rw [samplerFromGrid, hm]; rfl, fun is his => made_read hm hl his⟩

omit [IsStrictOrderedRing K] in
/-- **C105 (grids of vectors).** The elements of the cells are a further axis in front of the axes of the grid: the element for the indices `i :: is` is the
`i`-th one of the cell of the grid at the indices `is`. -/
theorem C105_cells (h : Heap K) (cellAxis : Axis K D) (axes : List (Axis K D)) (hok : ∀ ax ∈ cellAxis :: axes, Spec.AxisOk ax)
    (hsmall : card ((cellAxis :: axes).map Axis.size) < 2 ^ 31) (cells : List (List K)) (hl : cells.length = card (axes.map Axis.size))
    (hcell : ∀ cell ∈ cells, cell.length = cellAxis.size) :
    ∃ h' a data, Spec.Setup h h' ((cellAxis :: axes).map Axis.size).reverse data a (cellAxis :: axes) ∧ samplerFromCells h cellAxis axes cells = mkSampler h' (cellAxis :: axes) a ∧
      ∀ i is, i < cellAxis.size → Valid (axes.map Axis.size) is → ∃ cell x, cells[Spec.flat (axes.map Axis.size) is]? = some cell ∧ cell[i]? = some x ∧
        NdArray.at' h' a (is.reverse ++ [i]) = .ok x := by
  have hlen : ∀ cells : List (List K), (∀ cell ∈ cells, cell.length = cellAxis.size) → cells.flatten.length = cellAxis.size * cells.length := by
    intro cells
    induction cells with
    | nil => intro _; simp
    | cons c cells ih =>
      intro h
      rw [List.flatten_cons, List.length_append, ih fun c hc => h c (List.mem_cons_of_mem _ hc), h c List.mem_cons_self, List.length_cons]
      ring
  have hget : ∀ (cells : List (List K)), (∀ cell ∈ cells, cell.length = cellAxis.size) → ∀ (m : Nat) cell (i : Nat) x, cells[m]? = some cell → cell[i]? = some x →
      cells.flatten[i + cellAxis.size * m]? = some x := by
    intro cells
    induction cells with
    | nil => intro _ m cell i x hm; simp at hm
    | cons c cells ih =>
      intro h m cell i x hm hi
      have hc := h c List.mem_cons_self
      rw [List.flatten_cons]
      cases m with
      | zero =>
        simp only [List.getElem?_cons_zero, Option.some.injEq] at hm
        subst hm
        rw [Nat.mul_zero, Nat.add_zero, List.getElem?_append_left (List.getElem?_eq_some_iff.mp hi).1]
        exact hi
      | succ m =>
        have e : i + cellAxis.size * (m + 1) = c.length + (i + cellAxis.size * m) := by rw [hc]; ring
        rw [e, List.getElem?_append_right (by omega), Nat.add_sub_cancel_left]
        exact ih (fun c hc => h c (List.mem_cons_of_mem _ hc)) m cell i x (by simpa using hm) hi
  have hflat : cells.flatten.length = card ((cellAxis :: axes).map Axis.size) := by
    rw [hlen cells hcell, hl]
    rfl
  have hshape : ((cellAxis :: axes).map Axis.size).reverse = (axes.map Axis.size).reverse ++ [cellAxis.size] := by simp
  have hacc : NdArray.accU32 ((cellAxis :: axes).map Axis.size).reverse = card ((cellAxis :: axes).map Axis.size) := by
    rw [NdArray.accU32_eq, card_reverse, Nat.mod_eq_of_lt (by omega)]
  have hm : NdArray.mkData h ((cellAxis :: axes).map Axis.size).reverse cells.flatten =
      .ok (h ++ [cells.flatten], (NdArray.mkZero (0 : K) h ((cellAxis :: axes).map Axis.size).reverse).2) :=
    mkData_of_zero rfl (by rw [hacc, hflat])
  refine ⟨_, _, cells.flatten, ⟨hm, by rw [card_reverse]; exact hsmall, by simp, hok, rfl⟩, ?_, ?_⟩
  · rw [samplerFromCells, ← hshape]
    have hloop := cellLoop_ok (h := h) (a := (NdArray.mkZero (0 : K) h ((cellAxis :: axes).map Axis.size).reverse).2) rfl rfl rfl
      (show ((cellAxis :: axes).map Axis.size).reverse ≠ [] by simp)
      (show ∀ d ∈ ((cellAxis :: axes).map Axis.size).reverse, 0 < d by
        intro d hd
        rw [List.mem_reverse, List.mem_map] at hd
        obtain ⟨ax, hax, rfl⟩ := hd
        exact AxisOk.pos (hok ax hax))
      cells.flatten 0 (List.replicate (NdArray.accU32 ((cellAxis :: axes).map Axis.size).reverse) 0)
      (by rw [List.length_replicate, hacc]; exact (card_reverse _).symm) (by rw [List.length_replicate, hacc, hflat]; omega)
    have : (NdArray.mkZero (0 : K) h ((cellAxis :: axes).map Axis.size).reverse).1 =
        h ++ [List.replicate (NdArray.accU32 ((cellAxis :: axes).map Axis.size).reverse) 0] := rfl
    simp only
    rw [this, hloop]
    simp only [fromNd, Outcome.bind_ok, List.take_zero, List.nil_append, Nat.zero_add]
    rw [List.drop_of_length_le (by rw [List.length_replicate, hacc, hflat]), List.append_nil]
  · intro i is hi his
    have hf := flat_lt his
    have h1 : cells[Spec.flat (axes.map Axis.size) is]? = some (cells[Spec.flat (axes.map Axis.size) is]'(by omega)) := List.getElem?_eq_getElem (by omega)
    have hc := hcell _ (List.getElem_mem (show Spec.flat (axes.map Axis.size) is < cells.length by omega))
    have h2 := List.getElem?_eq_getElem (show i < (cells[Spec.flat (axes.map Axis.size) is]'(by omega)).length by omega)
    refine ⟨_, _, h1, h2, ?_⟩
    have hr := made_read hm hflat (is := i :: is) ⟨hi, his⟩
    rw [List.reverse_cons] at hr
    rw [hr, Spec.flat.eq_def]
    simp only [List.map_cons]
    rw [List.getD_eq_getElem?_getD, hget cells hcell _ _ i _ h1 h2]
    rfl

end

/-- **C105 (grids of vectors without knots).** The indices of the elements of the cells are then the knots of the first axis. A grid without cells is dereferenced. -/
theorem C105_indexed {K : Type} [Field K] [LinearOrder K] (h : Heap K) (axes : List (Axis K Nat)) (hok : ∀ ax ∈ axes, Spec.AxisOk ax) (n : Nat) (hn : 0 < n)
    (hsmall : n * card (axes.map Axis.size) < 2 ^ 31) (cells : List (List K)) (hl : cells.length = card (axes.map Axis.size)) (hcell : ∀ cell ∈ cells, cell.length = n) :
    samplerFromIndexed h axes [] = .ub ∧
    ∃ h' a data, Spec.Setup h h' (n :: axes.map Axis.size).reverse data a (.disc (List.range n) :: axes) ∧
      samplerFromIndexed h axes cells = mkSampler h' (.disc (List.range n) :: axes) a ∧
      ∀ i is, i < n → Valid (axes.map Axis.size) is → ∃ cell x, cells[Spec.flat (axes.map Axis.size) is]? = some cell ∧ cell[i]? = some x ∧
        NdArray.at' h' a (is.reverse ++ [i]) = .ok x := by
  refine ⟨rfl, ?_⟩
  have hsz : (Axis.disc (List.range n) : Axis K Nat).size = n := by simp [Axis.size]
  have hok' : ∀ ax ∈ (Axis.disc (List.range n) : Axis K Nat) :: axes, Spec.AxisOk ax := by
    intro ax hax
    rcases List.mem_cons.mp hax with rfl | hax
    · exact ⟨by simp; omega, List.nodup_range⟩
    · exact hok ax hax
  obtain ⟨h', a, data, h1, h2, h3⟩ := C105_cells h (.disc (List.range n)) axes hok' (by rw [List.map_cons, hsz]; exact hsmall) cells hl (fun c hc => by rw [hsz]; exact hcell c hc)
  rw [List.map_cons, hsz] at h1
  refine ⟨h', a, data, h1, ?_, fun i is hi his => h3 i is (by rw [hsz]; exact hi) his⟩
  rw [← h2]
  cases cells with
  | nil =>
    have : 0 < card (axes.map Axis.size) := by
      rw [NdArray.card_pos_iff]
      intro d hd
      obtain ⟨ax, hax, rfl⟩ := List.mem_map.mp hd
      exact AxisOk.pos (hok ax hax)
    rw [← hl] at this
    simp at this
  | cons c cells => rw [samplerFromIndexed, hcell c List.mem_cons_self]

/-! ## What the full statement would be -/

/-- The situation of `C105_outside`: the second axis has the knots 0 and `1e-9`, and the density is not 0 only where both have their last knots. -/
def vioAxes : List (Axis ℚ Nat) := [.cont [0, 1], .cont [0, 1 / 1000000000]]
def vioData : List ℚ := [0, 0, 0, 1]
def vioNd : Nd := ⟨0, 0, [2, 2], [2, 1], [], 4⟩

def vioInterp : Interp ℚ Nat := .node (.cont [0, 1]) [.last (.cont [0, 1 / 1000000000]) [0, 0], .last (.cont [0, 1 / 1000000000]) [0, 1]]
def vioSampler : Sampler ℚ Nat := .node vioInterp (.cont [0, 1]) (.last (.cont ⟨[0, 1 / 1000000000], [0, 1 / 2], [0, 1 / 4000000000]⟩))

theorem vio_made : NdArray.mkData [] [2, 2] vioData = .ok ([vioData], vioNd) := by decide +kernel

theorem vio_build : build [vioData] vioAxes vioNd = .ok vioInterp := by rfl

theorem vio_marginal : (marginal [vioData] vioNd (.cont [0, 1] : Axis ℚ Nat)) = .ok ([vioData, [0, 1 / 2]], ⟨1, 0, [2], [1], [], 2⟩) := by decide +kernel

theorem vio_iterate : NdArray.iterate [vioData, [0, 1 / 2]] ⟨1, 0, [2], [1], [], 2⟩ = .ok [0, 1 / 2] := by decide +kernel

theorem vio_inv : mkInverse [0, (1 / 1000000000 : ℚ)] [0, 1 / 2] = .ok ⟨[0, 1 / 1000000000], [0, 1 / 2], [0, 1 / 4000000000]⟩ := by decide +kernel

theorem vio_mk : mkSampler [vioData] vioAxes vioNd = .ok ([vioData, [0, 1 / 2]], vioSampler) := by
  have hb := vio_build
  rw [vioAxes] at hb ⊢
  rw [mkSampler, if_neg (by decide), hb, Outcome.bind_ok, vio_marginal]
  simp only [Outcome.bind_ok, mkSampler, vio_iterate, fromNd, mkInv, vio_inv, Outcome.pure_eq]
  rfl

theorem vio_sub (sqrt : ℚ → ℚ) (h : sqrt (1 / 4000000000000000000) = 1 / 2000000000) :
    inverseCall sqrt ⟨[0, 1 / 1000000000], [0, 1 / 2], [0, 1 / 4000000000]⟩ (1 / 4) = .ok (-(1 / 2000000000)) := by
  rw [inverseCall, if_neg (by norm_num)]
  simp only [List.head?_cons, List.getLast?_cons_cons, List.getLast?_singleton]
  rw [if_neg (by norm_num), if_neg (by norm_num)]
  have hi : ([0, 1 / 4000000000] : List ℚ).takeWhile (fun c => decide (c ≤ 1 / 4 * (1 / 4000000000 - 0) + 0)) = [0] := by decide +kernel
  rw [hi]
  simp only [List.length_cons, List.length_nil, List.getElem?_cons_zero, List.getElem?_cons_succ, Nat.zero_add, Nat.reduceSub]
  rw [inverseSegment, if_neg (by norm_num), if_neg (by norm_num), div?, if_neg (by norm_num)]
  simp only [Outcome.bind_ok]
  rw [solveSquare, if_pos (by norm_num), div?, if_neg (by norm_num), div?, if_neg (by norm_num)]
  simp only [Outcome.bind_ok]
  rw [if_neg (by norm_num)]
  norm_num [h, tol]

theorem vio_densities : densities vioInterp [.inl (-(1 / 2000000000))] (Axis.cont [0, 1] : Axis ℚ Nat).knots = .ok [0, 0] := by decide +kernel

theorem vio_zero (sqrt : ℚ → ℚ) (p : ℚ) (h0 : 0 ≤ p) (h1 : p ≤ 1) : ∃ I, mkInverse [0, (1 : ℚ)] [0, 0] = .ok I ∧ inverseCall sqrt I p = .ok 0 := by
  refine ⟨⟨[0], [0, 0], [0]⟩, by decide +kernel, ?_⟩
  rw [inverseCall, if_neg (by simp; exact ⟨h0, h1⟩)]
  simp

/-- **C105, in full**: with an exact square root, what is drawn on continuous axes is between the first and the last knot. -/
def C105_full : Prop := ∀ (sqrt : ℚ → ℚ), (∀ x, 0 ≤ x → sqrt (x * x) = x) → ∀ (us : Nat → ℚ), (∀ k, 0 ≤ us k ∧ us k ≤ 1) → ∀ (axes : List (Axis ℚ Nat)), (∀ ax ∈ axes, ∃ ks, ax = .cont ks) →
  ∀ (h h' : Heap ℚ) shape data a, Spec.Setup h h' shape data a axes → (∀ x ∈ data, 0 ≤ x) → ∀ h2 s, mkSampler h' axes a = .ok (h2, s) →
  ∀ n k rows k', draw sqrt us n s k = .ok (rows, k') → ∀ row ∈ rows, ∀ (i : Nat) ks x, axes[i]? = some (.cont ks) → row[i]? = some (.inl x) →
    (∃ l ∈ ks, l ≤ x) ∧ ∃ l ∈ ks, x ≤ l

theorem vio_draw (sqrt : ℚ → ℚ) (h : sqrt (1 / 4000000000000000000) = 1 / 2000000000) (us : Nat → ℚ) (h0 : us 0 = 1 / 4) (h1 : 0 ≤ us 1 ∧ us 1 ≤ 1) :
    draw sqrt us 1 vioSampler 0 = .ok ([[.inl 0, .inl (-(1 / 2000000000))]], 2) := by
  obtain ⟨I, hI, hz⟩ := vio_zero sqrt (us 1) h1.1 h1.2
  rw [vioSampler, draw, draw, lastLoop, invCall, h0, vio_sub sqrt h]
  simp only [Outcome.bind_ok, Outcome.pure_eq, lastLoop, nodeLoop, vio_densities, mkInv, hI, invCall, Nat.zero_add, hz]

theorem vio_setup : Spec.Setup [] [vioData] [2, 2] vioData vioNd vioAxes :=
  ⟨vio_made, by decide, by simp [vioAxes], by simp [vioAxes, Spec.AxisOk], rfl⟩

/-- A square root of the squares. -/
theorem exists_root : ∃ sqrt : ℚ → ℚ, ∀ x, 0 ≤ x → sqrt (x * x) = x := by
  classical
  refine ⟨fun y => if h : ∃ x : ℚ, 0 ≤ x ∧ x * x = y then h.choose else 0, fun x hx => ?_⟩
  have h : ∃ z : ℚ, 0 ≤ z ∧ z * z = x * x := ⟨x, hx, rfl⟩
  simp only
  rw [dif_pos h]
  have h1 := h.choose_spec
  exact (mul_self_inj h1.1 hx).mp h1.2

/-- **C105 (outside).** The full statement fails: the element of the second axis is below its first knot. -/
theorem C105_violated : ¬ C105_full := by
  intro hfull
  obtain ⟨sqrt, hs⟩ := exists_root
  have h1 := hs (1 / 2000000000) (by norm_num)
  have hd := vio_draw sqrt (by rw [← h1]; norm_num) (fun _ => 1 / 4) rfl (by norm_num)
  obtain ⟨⟨l, hl, hle⟩, _⟩ := hfull sqrt hs (fun _ => 1 / 4) (by intro _; norm_num) vioAxes (by simp [vioAxes]) [] _ _ _ _ vio_setup (by simp [vioData]) _ _ vio_mk 1 0 _ _ hd _
    List.mem_cons_self 1 [0, 1 / 1000000000] (-(1 / 2000000000)) rfl rfl
  simp only [List.mem_cons, List.not_mem_nil, or_false] at hl
  rcases hl with rfl | rfl <;> norm_num at hle

/-- **C105 (outside, consequence).** As the density is 0 there, the element of the first axis is then its first knot for every random number, while along the whole second
axis the density rises from 0 at the first knot. -/
theorem C105_outside_violated (sqrt : ℚ → ℚ) (hs : ∀ x, 0 ≤ x → sqrt (x * x) = x) (us : Nat → ℚ) (h0 : us 0 = 1 / 4) (h1 : 0 ≤ us 1 ∧ us 1 ≤ 1) :
    ∃ h2 s y, mkSampler [vioData] vioAxes vioNd = .ok (h2, s) ∧ draw sqrt us 1 s 0 = .ok ([[.inl 0, .inl y]], 2) :=
  ⟨_, _, _, vio_mk, vio_draw sqrt (by rw [← hs (1 / 2000000000) (by norm_num)]; norm_num) us h0 h1⟩

/-- **C105, the refusals in full**: an array of another rank is refused for one axis, too. -/
def C105_rank_full : Prop := ∀ (h : Heap ℚ) (axis : Axis ℚ Nat) (shape : List Nat) (data : List ℚ) (h' : Heap ℚ) (a : Nd), NdArray.mkData h shape data = .ok (h', a) →
  shape ≠ [] → shape.length ≠ 1 → ∃ e, mkSampler h' [axis] a = .throw e

/-- **C105 (rank).** The inverse of the cumulative is built from the elements before the rank is checked, and reads behind the knots. -/
theorem C105_rank_violated : ¬ C105_rank_full := by
  intro h
  obtain ⟨e, he⟩ := h [] (.cont [0, 1]) [2, 2] [1, 1, 1, 1] [[1, 1, 1, 1]] ⟨0, 0, [2, 2], [2, 1], [], 4⟩ (by decide +kernel) (by simp) (by simp)
  have hi : NdArray.iterate [[(1 : ℚ), 1, 1, 1]] ⟨0, 0, [2, 2], [2, 1], [], 4⟩ = .ok [1, 1, 1, 1] := by decide +kernel
  have hm : mkInverse [(0 : ℚ), 1] [1, 1, 1, 1] = .ub := by decide +kernel
  rw [mkSampler, hi] at he
  simp only [fromNd, Outcome.bind_ok, mkInv, hm] at he
  cases he

/-- A discrete and a continuous axis, the density of a triangle for the first discrete value and a constant one for the second, meet the conditions, and what the marginal is. -/
example : ∃ (h' : Heap ℚ) (a : Nd), Spec.Setup [] h' [2, 2] [0, 1, 2, 1] a ([.disc [7, 8], .cont [0, 1]] : List (Axis ℚ Nat)) ∧
    (∀ is, Valid [2, 2] is → NdArray.at' h' a is.reverse = .ok ([0, 1, 2, 1].getD (Spec.flat [2, 2] is) 0)) ∧
    Spec.margin (.disc [7, 8] : Axis ℚ Nat) (fun is => ([0, 1, 2, 1] : List ℚ).getD (Spec.flat [2, 2] is) 0) [1] = 3 :=
  ⟨_, _, ⟨rfl, by decide, by simp, by simp [Spec.AxisOk], rfl⟩, fun is his => made_read (sizes := [2, 2]) rfl rfl his, by decide +kernel⟩

/-- All conditions of the theorem about continuous axes hold in a case with a triangular density, for the real square root. -/
example : Spec.IsSqrt Real.sqrt ∧ ∃ (h' : Heap ℝ) (a : Nd), Spec.Setup [] h' [2, 2] [0, 1, 2, 1] a ([.cont [0, 1], .cont [0, 3]] : List (Axis ℝ Nat)) ∧
    (∀ is, Valid [2, 2] is → NdArray.at' h' a is.reverse = .ok ([0, 1, 2, 1].getD (Spec.flat [2, 2] is) 0)) :=
  ⟨fun x hx => ⟨Real.sqrt_nonneg x, Real.mul_self_sqrt hx⟩, _, _, ⟨rfl, by decide, by simp, by simp [Spec.AxisOk], rfl⟩,
    fun is his => made_read (sizes := [2, 2]) rfl rfl his⟩

/-- Cells of three elements in a grid of two cells. -/
example : ∃ h' a, samplerFromCells ([] : Heap ℚ) (.disc [0, 1, 2] : Axis ℚ Nat) [.cont [0, 1]] [[1, 2, 3], [4, 5, 6]] = mkSampler h' [.disc [0, 1, 2], .cont [0, 1]] a ∧
    NdArray.at' h' a [1, 2] = .ok 6 := by
  obtain ⟨h', a, data, _, h1, h2⟩ := C105_cells ([] : Heap ℚ) (.disc [0, 1, 2] : Axis ℚ Nat) [.cont [0, 1]] (by simp [Spec.AxisOk]) (by decide) [[1, 2, 3], [4, 5, 6]] rfl (by simp [Axis.size])
  obtain ⟨cell, x, e1, e2, e3⟩ := h2 2 [1] (by decide) (by decide)
  refine ⟨h', a, h1, ?_⟩
  have : cell = [4, 5, 6] := by simpa [Spec.flat, Axis.size] using e1.symm
  subst this
  have : x = 6 := by simpa using e2.symm
  subst this
  exact e3

end Alexandria.MathUtils
