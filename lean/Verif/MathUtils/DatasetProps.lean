import Verif.MathUtils.DatasetModel
import Verif.MathUtils.LinearProps
import Verif.MathUtils.SplineProps
import Verif.XYDataset.ProviderProps
import Verif.XYDataset.Props3

/-!
# C161: functions of data sets
-/

namespace Alexandria.MathUtils

open Alexandria.Table Alexandria.XYDataset

section
variable {K : Type} [Field K] [LinearOrder K]

theorem getXYs_eq (l : List (K × K)) : getXYs l = (l.map Prod.fst, l.map Prod.snd) := by
  induction l with
  | nil => rfl
  | cons p l ih => rw [getXYs, ih]; rfl

/-- A data set made of two vectors is treated as the two vectors. -/
theorem C161_vectors (xs ys : List K) (l : List (K × K)) (h : factory xs ys = .ok l) (lo hi r : K) (type : InterpType) (e : Bool) (n fuel : Nat) :
    interpolateSet lo hi l type e = interpolate lo hi xs ys type e ∧ cumulativeSet l = mkCumulative xs ys ∧ cumulativeSet l = .ok l ∧
    fromPdfSet l = fromPdf xs ys ∧
    highestModesSet l r n = highestModes xs r n ys ∧ biggestModesSet fuel l r n = biggestModes fuel xs ys r n := by
  obtain ⟨hl, h1, h2⟩ := ((C86_factory xs ys).1 l).mp h
  have hz : xs.zip ys = l := by rw [← h1, ← h2, List.zip_map']; simp
  have hg : getXYs l = (xs, ys) := by rw [getXYs_eq, h1, h2]
  unfold interpolateSet cumulativeSet fromPdfSet highestModesSet biggestModesSet mkCumulative
  rw [hg, if_neg (not_not.mpr hl)]
  exact ⟨rfl, rfl, by rw [hz], rfl, rfl, rfl⟩

variable [IsStrictOrderedRing K]

/-- The interpolation through a data set of at least two points, the abscissae of which increase, goes through its points and is zero outside
if it is not extrapolated. -/
theorem C161_nodes (lo hi : K) (l : List (K × K)) (type : InterpType) (e : Bool) (hs : (l.map Prod.fst).Pairwise (· < ·)) (hn : 2 ≤ l.length)
    (hb : e = true → ∀ p ∈ l, lo ≤ p.1 ∧ p.1 ≤ hi) :
    ∃ F, interpolateSet lo hi l type e = .ok F ∧ (∀ p ∈ l, eval F p.1 = .ok p.2) ∧
      (e = false → ∀ t, ((∀ p ∈ l, t < p.1) ∨ ∀ p ∈ l, p.1 < t) → eval F t = .ok 0) := by
  unfold interpolateSet
  rw [getXYs_eq]
  have hb' : e = true → ∀ a ∈ l.map Prod.fst, lo ≤ a ∧ a ≤ hi := by
    intro he a ha
    obtain ⟨p, hp, rfl⟩ := List.mem_map.mp ha
    exact hb he p hp
  have hout : ∀ {t : K}, ((∀ p ∈ l, t < p.1) ∨ ∀ p ∈ l, p.1 < t) → ((∀ a ∈ l.map Prod.fst, t < a) ∨ ∀ a ∈ l.map Prod.fst, a < t) := by
    intro t ht
    simpa using ht
  have hnode : ∀ p ∈ l, ∃ i : Nat, (l.map Prod.fst)[i]? = some p.1 ∧ (l.map Prod.snd)[i]? = some p.2 := by
    intro p hp
    obtain ⟨i, hi⟩ := List.mem_iff_getElem?.mp hp
    exact ⟨i, by rw [List.getElem?_map, hi]; rfl, by rw [List.getElem?_map, hi]; rfl⟩
  cases type with
  | linear =>
    obtain ⟨F, hF, h1, _, h2, _⟩ := C34_linear lo hi (l.map Prod.fst) (l.map Prod.snd) e (by simp) hs (by simpa using hn) hb'
    refine ⟨F, hF, fun p hp => ?_, fun he t ht => h2 he t (hout ht)⟩
    obtain ⟨i, hi1, hi2⟩ := hnode p hp
    exact h1 i _ _ hi1 hi2
  | cubicSpline =>
    obtain ⟨F, cs, hF, _, _, h2⟩ := C35_spline lo hi (l.map Prod.fst) (l.map Prod.snd) e (by simp) hs (by simpa using hn) hb'
    refine ⟨F, hF, fun p hp => ?_, fun he t ht => h2 he t (hout ht)⟩
    obtain ⟨i, hi1, hi2⟩ := hnode p hp
    exact C35_nodes lo hi _ _ e (by simp) hs (by simpa using hn) hb' F hF i _ _ hi1 hi2

/-- A curve in a file below the root of a provider: the data set of its name, interpolated, has at the first number of every data line of the
file the second number of the line. -/
theorem C161_curve_partial {F : Type} (fmt : Fmt F K) (hq : AsciiIO.Spec.NoQuotes fmt) (isDouble : Str.Bytes → Bool) (d : Disk) (ht : XYDataset.Spec.Tree d.fs)
    (fuel : Nat) (core : Str.Bytes) (k : Nat) (hcore : core.getLast? ≠ some '/') (hlen : core.length + k < 2 ^ 64 - 1) (p : Prov)
    (h : mkProvider d (asciiParser isDouble d) fuel (core ++ List.replicate k '/') = .ok p) (f t name : Str.Bytes) (gs : List Str.Bytes)
    (hf : Below d.fs (core ++ ['/']) f) (hfile : d.fs.isFile f = true) (htext : d.text f = some t) (hd : isDatasetFile isDouble t = true)
    (hname : AsciiIO.getName f (some t) = .ok name) (hne : name ≠ []) (hg : XYDataset.Spec.Located (core ++ ['/']) f gs)
    (hh : AsciiIO.Spec.PlainHeader t) (l : List (K × K)) (hl : AsciiIO.Spec.Points fmt t l) (hs : (l.map Prod.fst).Pairwise (· < ·)) (hn : 2 ≤ l.length)
    (lo hi : K) (e : Bool) (hb : e = true → ∀ p ∈ l, lo ≤ p.1 ∧ p.1 ≤ hi) (type : InterpType) :
    ∃ q s G, mkName gs name = .ok q ∧ q ∈ p.names ∧ p.getDataset fmt d q = .ok (some s) ∧ interpolateSet lo hi s type e = .ok G ∧
      (∀ line ∈ dataLines ['#'] t, ∀ pt, AsciiIO.Spec.Point fmt line pt → eval G pt.1 = .ok pt.2) ∧
      (e = false → ∀ u, ((∀ pt ∈ l, u < pt.1) ∨ ∀ pt ∈ l, pt.1 < u) → eval G u = .ok 0) := by
  obtain ⟨q, h1, h2, h3, _⟩ := (C118_ascii fmt isDouble d ht fuel core k hcore hlen p h).1 f t name gs hf hfile htext hd hname hne hg
  obtain ⟨G, hG, h4, h5⟩ := C161_nodes lo hi l type e hs hn hb
  refine ⟨q, l, G, h1, h2, by rw [h3]; exact (AsciiIO.C112_dataset_partial fmt hq t hh l).mpr hl, hG, ?_, h5⟩
  intro line hline pt hpt
  have hmem : ∃ pt' ∈ l, AsciiIO.Spec.Point fmt line pt' := by
    have := hl.2
    generalize dataLines ['#'] t = ls at this hline
    clear hs hn hb hl hG h4 h5 h3
    induction this with
    | nil => cases hline
    | cons ha _ ih =>
      rcases List.mem_cons.mp hline with rfl | hm
      · exact ⟨_, List.mem_cons_self .., ha⟩
      · obtain ⟨pt', h6, h7⟩ := ih hm
        exact ⟨pt', List.mem_cons_of_mem _ h6, h7⟩
  obtain ⟨pt', h6, a, b, h7, h8, h9⟩ := hmem
  obtain ⟨a', b', h7', h8', h9'⟩ := hpt
  rw [h7, List.cons.injEq, List.cons.injEq] at h7'
  obtain ⟨rfl, rfl, _⟩ := h7'
  rw [h8, Option.some.injEq] at h8'
  rw [h9, Option.some.injEq] at h9'
  rw [← h8', ← h9']
  exact h4 pt' h6

/-- A data set of one point: extrapolated it is a constant; otherwise its value at the point is undefined and it is zero elsewhere. -/
theorem C161_single (lo hi a b : K) (type : InterpType) :
    (∃ F, interpolateSet lo hi [(a, b)] type true = .ok F ∧ ∀ t, eval F t = .ok b) ∧
    ∃ F, interpolateSet lo hi [(a, b)] type false = .ok F ∧ eval F a = .ub ∧ ∀ t, t ≠ a → eval F t = .ok 0 := by
  refine ⟨⟨_, rfl, fun t => by simp [eval]⟩, .piecewise [a] [], by cases type <;> simp [interpolateSet, getXYs, interpolate, dedupLoop, linearInterp, splineInterp, splineForward, splineBack, segments, finalKnots, mkPiecewise, knotsOk], ?_, ?_⟩
  · simp [eval, pieceIndex, evalNth]
  · intro t ht
    rcases lt_or_gt_of_ne ht with h | h
    · simp [eval, pieceIndex, h]
    · simp [eval, pieceIndex, h, h.ne', not_lt.mpr h.le]

end

/-- The numbers of a file are words of digits. -/
def ratFmt : Fmt Unit ℚ := ⟨⟨fun _ => [], fun _ => none⟩, ⟨fun _ => [], fun s => (AsciiIO.natFmt.f64.parse s).map fun n => (n : ℚ)⟩⟩

example : factory [1, 2, 4] [5, 7, (0 : ℚ)] = .ok [(1, 5), (2, 7), (4, 0)] := by decide +kernel
example : fromPdfSet [(1, 5), (2, 7), (4, (0 : ℚ))] = .ok [(1, 5), (2, 12), (4, 12)] := by decide +kernel

/-- The two curves of a disk, the second one found as `s/flux`: its interpolation has the value 7 at 2 and 6 between 1 and 2. -/
def curve (type : InterpType) (t : ℚ) : Res (Option ℚ) :=
  let d := exDisk "# first\n1 2\n".toList "# NAME : flux\n# unit: Jy\n1 5\n2 7\n".toList
  match mkProvider d (asciiParser isNat d) 3 "r//".toList with
  | .ok p => match p.getDataset ratFmt d ⟨[['s']], "flux".toList, "s/flux".toList, 0⟩ with
    | .ok (some l) => do
      let F ← interpolateSet 0 100 l type false
      let v ← eval F t
      return some v
    | _ => .ok none
  | _ => .ok none

example : curve .linear 2 = .ok (some 7) ∧ curve .linear (3 / 2) = .ok (some 6) ∧ curve .cubicSpline 1 = .ok (some 5) ∧ curve .linear 3 = .ok (some 0) := by decide +kernel
example : AsciiIO.Spec.PlainHeader "# NAME : flux\n# unit: Jy\n1 5\n2 7\n".toList := by
  refine ⟨by decide +kernel, ?_⟩
  have : lastWords (headerComments ['#'] "# NAME : flux\n# unit: Jy\n1 5\n2 7\n".toList) = ["unit:".toList, "Jy".toList] := by decide +kernel
  rw [this]
  intro a b h
  simp only [List.cons.injEq] at h
  obtain ⟨rfl, rfl, _⟩ := h
  exact ⟨by decide, ⟨by decide, by unfold OneLine; decide +kernel⟩, by decide, by unfold OneLine; decide +kernel⟩

/-- The claim without the restriction to two points. -/
def C161_full : Prop := ∀ (text : Str.Bytes) (l : List (ℚ × ℚ)), AsciiIO.getDataset ratFmt (some text) = .ok (some l) → (l.map Prod.fst).Pairwise (· < ·) →
  ∀ type, ∃ F, interpolateSet 0 100 l type false = .ok F ∧ ∀ p ∈ l, eval F p.1 = .ok p.2

theorem C161_violated : ¬ C161_full := fun h => by
  obtain ⟨F, hF, hp⟩ := h "1 5\n".toList [(1, 5)] (by decide +kernel) (by simp) .linear
  obtain ⟨G, hG, hu, _⟩ := (C161_single (0 : ℚ) 100 1 5 .linear).2
  rw [hF, Outcome.ok.injEq] at hG
  subst hG
  rw [hp (1, 5) (by simp)] at hu
  cases hu

end Alexandria.MathUtils
