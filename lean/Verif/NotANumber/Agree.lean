import Verif.NotANumber.Model
import Verif.MathUtils.Model
import Verif.KdTree.Model

/-!
# Without NaN the models of this directory are those of the components
-/

namespace Alexandria.NotANumber

variable {K : Type}

/-- An outcome without the kind of the exception. -/
def forget {ε α : Type} : Outcome ε α → Outcome Unit α
  | .ok a => .ok a
  | .throw _ => .throw ()
  | .ub => .ub

@[simp] theorem nan_add [Add K] (a : Num K) : Num.nan + a = Num.nan := by cases a <;> rfl
@[simp] theorem add_nan [Add K] (a : Num K) : a + Num.nan = Num.nan := by cases a <;> rfl
@[simp] theorem nan_sub [Sub K] (a : Num K) : Num.nan - a = Num.nan := by cases a <;> rfl
@[simp] theorem sub_nan [Sub K] (a : Num K) : a - Num.nan = Num.nan := by cases a <;> rfl
@[simp] theorem nan_mul [Mul K] (a : Num K) : Num.nan * a = Num.nan := by cases a <;> rfl
@[simp] theorem mul_nan [Mul K] (a : Num K) : a * Num.nan = Num.nan := by cases a <;> rfl
@[simp] theorem val_add [Add K] (a b : K) : Num.val a + Num.val b = .val (a + b) := rfl
@[simp] theorem val_sub [Sub K] (a b : K) : Num.val a - Num.val b = .val (a - b) := rfl
@[simp] theorem val_mul [Mul K] (a b : K) : Num.val a * Num.val b = .val (a * b) := rfl

section
variable [LinearOrder K]
@[simp] theorem nan_lt (a : Num K) : Num.nan.lt a = false := by cases a <;> rfl
@[simp] theorem lt_nan (a : Num K) : a.lt Num.nan = false := by cases a <;> rfl
@[simp] theorem nan_le (a : Num K) : Num.nan.le a = false := by cases a <;> rfl
@[simp] theorem le_nan (a : Num K) : a.le Num.nan = false := by cases a <;> rfl
@[simp] theorem nan_eq (a : Num K) : Num.nan.eq a = false := by cases a <;> rfl
@[simp] theorem eq_nan (a : Num K) : a.eq Num.nan = false := by cases a <;> rfl
@[simp] theorem val_lt (a b : K) : (Num.val a).lt (.val b) = decide (a < b) := rfl
@[simp] theorem val_le (a b : K) : (Num.val a).le (.val b) = decide (a ≤ b) := rfl
@[simp] theorem val_eq (a b : K) : (Num.val a).eq (.val b) = decide (a = b) := rfl
end

variable [Field K] [LinearOrder K]

theorem polyLoop_agree (x : K) (c : List K) (r p : K) : polyLoop (.val x) c (.val r) (.val p) = .val (MathUtils.polyLoop x c r p) := by
  induction c generalizing r p with
  | nil => rfl
  | cons c cs ih => rw [polyLoop, MathUtils.polyLoop, val_mul, val_add, val_mul, ih]

theorem polyEval_agree (c : List K) (x : K) : polyEval c (.val x) = .val (MathUtils.polyEval c x) := polyLoop_agree x c 0 1

theorem pieceIndex_agree (ks : List K) (x : K) : pieceIndex ks (.val x) = forget (MathUtils.pieceIndex ks x) := by
  cases ks with
  | nil => rfl
  | cons k ks =>
    unfold pieceIndex MathUtils.pieceIndex
    dsimp only
    by_cases h1 : x < k
    · rw [if_pos (show (Num.val x).lt (.val k) = true by simp [h1]), if_pos h1]; rfl
    · rw [if_neg (show ¬ (Num.val x).lt (.val k) = true by simp [h1]), if_neg h1]
      by_cases h2 : x = k
      · rw [if_pos (show (Num.val x).eq (.val k) = true by simp [h2]), if_pos h2]; rfl
      · rw [if_neg (show ¬ (Num.val x).eq (.val k) = true by simp [h2]), if_neg h2]
        have h3 : k < x := lt_of_le_of_ne (not_lt.mp h1) (Ne.symm h2)
        have h4 : ((k :: ks).takeWhile fun k => (Num.val k).lt (.val x)).length ≠ 0 := by simp [h3]
        have e : ((k :: ks).takeWhile fun k => decide (k < x)).length = ((k :: ks).takeWhile fun k => (Num.val k).lt (.val x)).length := rfl
        rw [e]
        generalize ((k :: ks).takeWhile fun k => (Num.val k).lt (.val x)).length = i at h4
        by_cases h5 : i = (k :: ks).length
        · rw [if_pos h5, if_pos h5]; rfl
        · rw [if_neg h5, if_neg h5, if_neg h4]; rfl

theorem piecewiseEval_agree (ks : List K) (fs : List (List K)) (x : K) :
    piecewiseEval ks fs (.val x) = (match forget (MathUtils.eval (.piecewise ks (fs.map .poly)) x) with
      | .ok v => .ok (.val v) | .throw e => .throw e | .ub => .ub) := by
  have nth : ∀ (fs : List (List K)) (i : Nat), MathUtils.evalNth (fs.map .poly) i x =
      match fs[i]? with | some c => .ok (MathUtils.polyEval c x) | none => .ub := by
    intro fs
    induction fs with
    | nil => intro i; rfl
    | cons f fs ih =>
      intro i
      cases i with
      | zero => rw [List.map_cons, MathUtils.evalNth, MathUtils.eval]; rfl
      | succ i => rw [List.map_cons, MathUtils.evalNth, ih]; rfl
  rw [piecewiseEval, pieceIndex_agree, MathUtils.eval]
  cases hp : MathUtils.pieceIndex ks x with
  | ub => rfl
  | throw e => rfl
  | ok o =>
    cases o with
    | none => rfl
    | some i =>
      simp only [forget, nth]
      cases fs[i]? with
      | none => rfl
      | some c => simp [polyEval_agree]

theorem edgeIndex_agree (edges : List K) (x : K) : edgeIndex edges (.val x) = forget (Histogram.edgeIndex edges x) := by
  unfold edgeIndex Histogram.edgeIndex
  cases edges.head? with
  | none => rfl
  | some f =>
    cases edges.getLast? with
    | none => rfl
    | some b =>
      simp only [val_lt, Bool.or_eq_true, decide_eq_true_eq, gt_iff_lt]
      by_cases h : x < f ∨ b < x
      · rw [if_pos h, if_pos h]; rfl
      · rw [if_neg h, if_neg h]; rfl

theorem updateCell_agree {nd : Nat} (nf lf : K) (s w : Fin nd → K) :
    updateCell nf lf (fun j => .val (s j)) (fun j => .val (w j)) = fun j => .val (SOM.updateCell nf lf s w j) := by
  unfold updateCell SOM.updateCell
  by_cases h : nf ≠ 0
  · rw [if_pos h, if_pos h]; rfl
  · rw [if_neg h, if_neg h]

theorem findValue_agree (c : List (K × K)) (ratio : K) (position : MathUtils.Tray) :
    findValue (c.map fun p => (p.1, .val p.2)) (.val ratio) position = forget (MathUtils.findValue c ratio position) := by
  unfold findValue MathUtils.findValue
  simp only [val_lt, Bool.or_eq_true, decide_eq_true_eq, gt_iff_lt]
  by_cases h : 1 < ratio ∨ ratio < 0
  · rw [if_pos h, if_pos h]; rfl
  · rw [if_neg h, if_neg h, List.getLast?_map]
    cases hl : c.getLast? with
    | none => rfl
    | some l =>
      simp only [Option.map_some, val_mul, List.dropWhile_map, List.takeWhile_map, Function.comp_def, val_lt]
      cases hd : c.dropWhile fun p => decide (p.2 < l.2 * ratio) with
      | nil => rfl
      | cons p rest =>
        simp only [List.map_cons, List.takeWhile_cons, val_eq, decide_true, if_true]
        rw [List.getLast?_append_of_ne_nil _ (by simp)]
        simp only [List.takeWhile_map, Function.comp_def, val_eq]
        rw [← List.map_cons (f := fun p : K × K => (p.1, Num.val p.2)), List.getLast?_map]
        have : (p :: rest.takeWhile fun q => decide (q.2 = p.2)).getLast? =
            some ((p :: rest.takeWhile fun q => decide (q.2 = p.2)).getLastD p) := by
          simp [List.getLast?_cons]
        rw [this]
        simp only [Option.map_some, forget]
        cases position <;> rfl

theorem minLoop_agree (rate : K) (l1 l2 : List (K × K)) (correction mn mx : K) :
    minLoop (.val rate) (l1.map fun p => (p.1, .val p.2)) (l2.map fun p => (p.1, .val p.2)) (.val correction) mn mx =
      MathUtils.minLoop rate l1 l2 correction mn mx := by
  induction l1 generalizing l2 correction mn mx with
  | nil => rfl
  | cons p1 l1 ih =>
    rw [List.map_cons, minLoop, MathUtils.minLoop]
    simp only [val_sub, val_add, val_lt, List.dropWhile_map, Function.comp_def]
    cases hd : l2.dropWhile fun p2 => decide (p2.2 - p1.2 + correction < rate) with
    | nil => rfl
    | cons p2 l2 =>
      simp only [List.map_cons]
      by_cases h : p2.1 - p1.1 ≤ mx - mn
      · rw [if_pos h, if_pos h]; exact ih (p2 :: l2) 0 _ _
      · rw [if_neg h, if_neg h]; exact ih (p2 :: l2) 0 _ _

theorem findMinInterval_agree (c : List (K × K)) (rate : K) :
    findMinInterval (c.map fun p => (p.1, .val p.2)) (.val rate) = forget (MathUtils.findMinInterval c rate) := by
  unfold findMinInterval MathUtils.findMinInterval
  simp only [val_lt, val_le, Bool.or_eq_true, decide_eq_true_eq, gt_iff_lt]
  by_cases h : 1 < rate ∨ rate ≤ 0
  · rw [if_pos h, if_pos h]; rfl
  · rw [if_neg h, if_neg h, List.getLast?_map]
    cases c with
    | nil => rfl
    | cons p l =>
      rw [List.getLast?_eq_some_getLast (l := p :: l) (by simp)]
      simp only [List.map_cons, Option.map_some, val_mul, forget]
      rw [← List.map_cons (f := fun p : K × K => (p.1, Num.val p.2)), minLoop_agree]

theorem integLoop_agree (mn mx : K) (p : Nat) (ks : List K) (fs : List (List K)) :
    integLoop (.val mn) (.val mx) p ks fs = (match forget (MathUtils.integLoop mn mx p ks (fs.map .poly)) with
      | .ok v => .ok (.val v) | .throw e => .throw e | .ub => .ub) := by
  induction fs generalizing p ks with
  | nil =>
    cases p with
    | succ p => simp [integLoop, MathUtils.integLoop, forget]
    | zero =>
      rcases ks with _ | ⟨k, _ | ⟨l, ks⟩⟩ <;> simp [integLoop, MathUtils.integLoop, forget]
  | cons f fs ih =>
    cases p with
    | succ p =>
      cases ks with
      | nil => simp [integLoop, MathUtils.integLoop, forget]
      | cons k ks => rw [integLoop, List.map_cons, MathUtils.integLoop, ih]
    | zero =>
      rcases ks with _ | ⟨k, _ | ⟨l, ks⟩⟩
      · simp [integLoop, MathUtils.integLoop, forget]
      · simp [integLoop, MathUtils.integLoop, forget]
      · rw [integLoop, List.map_cons, MathUtils.integLoop]
        simp only [val_le, val_lt, decide_eq_true_eq, gt_iff_lt]
        by_cases h1 : mx ≤ k
        · rw [if_pos h1, if_pos h1]; rfl
        · rw [if_neg h1, if_neg h1]
          by_cases h2 : mn < l
          · rw [if_pos h2, if_pos h2, ih]
            have e1 : (if k < mn then Num.val mn else .val k) = .val (if k < mn then mn else k) := by split <;> rfl
            have e2 : (if mx < l then Num.val mx else .val l) = .val (if mx < l then mx else l) := by split <;> rfl
            rw [e1, e2, MathUtils.integ]
            cases MathUtils.integLoop mn mx 0 (l :: ks) (fs.map .poly) with
            | ok r => simp [forget, polyIntegrate, polyEval_agree, MathUtils.polyIntegrate]
            | throw e => simp [forget]
            | ub => simp [forget]
          · rw [if_neg h2, if_neg h2, ih]

theorem piecewiseIntegrate_agree (ks : List K) (fs : List (List K)) (a b : K) :
    piecewiseIntegrate ks fs (.val a) (.val b) = (match forget (MathUtils.integ (.piecewise ks (fs.map .poly)) a b) with
      | .ok v => .ok (.val v) | .throw e => .throw e | .ub => .ub) := by
  rw [piecewiseIntegrate, MathUtils.integ]
  simp only [val_eq, val_lt, decide_eq_true_eq, gt_iff_lt]
  by_cases h : a = b
  · rw [if_pos h, if_pos h]; rfl
  · rw [if_neg h, if_neg h]
    have e1 : (if b < a then Num.val b else .val a) = .val (if b < a then b else a) := by split <;> rfl
    have e2 : (if b < a then Num.val a else .val b) = .val (if b < a then a else b) := by split <;> rfl
    have e3 : (if b < a then Num.val (-1 : K) else .val 1) = .val (if b < a then -1 else 1) := by split <;> rfl
    rw [e1, e2, e3, integLoop_agree]
    have e4 : (fun k => !((Num.val (if b < a then b else a)).lt (.val k))) = fun k => decide (k ≤ if b < a then b else a) := by
      funext k
      rw [val_lt, ← decide_not, decide_eq_decide, not_lt]
    rw [e4]
    generalize MathUtils.integLoop _ _ _ ks (fs.map .poly) = o
    cases o <;> simp [forget]

theorem uniformIndex_agree [IsStrictOrderedRing K] [FloorRing K] (nbins : Nat) (start step stop value : K) :
    uniformIndex nbins start step stop (.val value) = forget (Histogram.uniformIndex nbins start step stop value) := by
  unfold uniformIndex Histogram.uniformIndex
  by_cases h : value = stop
  · rw [if_pos (by simp [h]), if_pos h]; rfl
  · rw [if_neg (by simp [h]), if_neg h]
    by_cases h2 : step = 0
    · rw [if_pos h2, if_pos h2]; rfl
    · rw [if_neg h2, if_neg h2]; rfl

theorem bmuLoop_agree {W : Type} (dist : W → K) (dist' : W → Num K) (hd : ∀ w, dist' w = .val (dist w)) (ws : List W) (i best : Nat) (c : K) :
    SOM.bmuLoop dist' ws i best (.val c) = ((SOM.bmuLoop dist ws i best c).1, .val (SOM.bmuLoop dist ws i best c).2) := by
  induction ws generalizing i best c with
  | nil => rfl
  | cons w ws ih =>
    rw [SOM.bmuLoop, SOM.bmuLoop, hd w]
    by_cases h : dist w < c
    · rw [if_pos h, if_pos (show Num.val (dist w) < Num.val c from by change (Num.val (dist w)).lt (.val c) = true; simp [h]), ih]
    · rw [if_neg h, if_neg (show ¬ Num.val (dist w) < Num.val c from by change ¬ (Num.val (dist w)).lt (.val c) = true; simpa using h), ih]

theorem bmuLoop_map {W V L : Type} [LT L] [DecidableLT L] (g : V → W) (dist : W → L) (ws : List V) (i best : Nat) (c : L) :
    SOM.bmuLoop dist (ws.map g) i best c = SOM.bmuLoop (fun v => dist (g v)) ws i best c := by
  induction ws generalizing i best c with
  | nil => rfl
  | cons w ws ih =>
    rw [List.map_cons, SOM.bmuLoop, SOM.bmuLoop]
    by_cases h : dist (g w) < c
    · rw [if_pos h, if_pos h, ih]
    · rw [if_neg h, if_neg h, ih]

/-- The same map seen as one that could contain NaN. -/
def numMap {nd : Nat} (m : SOM.Map nd K) : SOM.Map nd (Num K) := ⟨m.sx, m.sy, m.cells.map fun w j => .val (w j)⟩

/-- The distance of `Distance.h` 56-62 for numbers. -/
def numL2 {nd : Nat} (root : K → K) (left right : Fin nd → K) : K :=
  root ((List.finRange nd).foldl (fun r i => r + (left i - right i) * (left i - right i)) 0)

theorem fold_agree {A : Type} (f : A → K) (l : List A) (t : K) : l.foldl (fun r i => r + Num.val (f i)) (.val t) = .val (l.foldl (fun r i => r + f i) t) := by
  induction l generalizing t with
  | nil => rfl
  | cons a l ih => rw [List.foldl_cons, List.foldl_cons, val_add, ih]

theorem l2_agree {nd : Nat} (root : K → K) (left right : Fin nd → K) :
    l2 root (fun j => .val (left j)) (fun j => .val (right j)) = .val (numL2 root left right) := by
  unfold l2 numL2
  simp only [val_sub, val_mul]
  rw [fold_agree (fun i => (left i - right i) * (left i - right i))]

theorem trainSample_agree {nd : Nat} (root : K → K) (big : K) (neigh : SOM.Neigh K) (i n : Nat) (lf : K) (m : SOM.Map nd K) (s : Fin nd → K) :
    trainSample root big neigh i n lf (numMap m) (fun j => .val (s j)) =
      (do let m' ← SOM.trainSample (numL2 root) big neigh i n lf m s; return numMap m') := by
  have e : SOM.findBMU (numMap m) (fun w => l2 root w fun j => .val (s j)) (.val big) =
      (do let r ← SOM.findBMU m (fun w => numL2 root w s) big; return (r.1, r.2.1, .val r.2.2)) := by
    unfold SOM.findBMU
    by_cases h : m.sx = 0 ∨ m.sx * m.sy = 0
    · rw [if_pos (show (numMap m).sx = 0 ∨ (numMap m).sx * (numMap m).sy = 0 from h), if_pos h]; rfl
    · rw [if_neg (show ¬ ((numMap m).sx = 0 ∨ (numMap m).sx * (numMap m).sy = 0) from h), if_neg h]
      have : (numMap m).cells = m.cells.map fun w j => .val (w j) := rfl
      rw [this, bmuLoop_map, bmuLoop_agree (fun w => numL2 root w s) _ (fun w => l2_agree root w s)]
      rfl
  rw [trainSample, SOM.trainSample, e]
  cases SOM.findBMU m (fun w => numL2 root w s) big with
  | throw x => rfl
  | ub => rfl
  | ok r =>
    obtain ⟨bx, by', d⟩ := r
    change Outcome.ok _ = Outcome.ok _
    simp only [numMap, Outcome.ok.injEq, SOM.Map.mk.injEq, true_and]
    apply List.ext_getElem?
    intro k
    simp only [List.getElem?_mapIdx, List.getElem?_map, Option.map_map]
    cases m.cells[k]? with
    | none => rfl
    | some w => simp only [Option.map_some, Function.comp, updateCell_agree]

/-- The tree of the component seen as one that could contain NaN. -/
def numTree {T : Type} : KdTree.Tree T K → Tree T K
  | .leaf data => .leaf data
  | .split axis v l r => .split axis (.val v) (numTree l) (numTree r)

theorem query_agree {T : Type} (N : Nat) (getCoord : T → Nat → K) (coord : Nat → K) (radius : K) (t : KdTree.Tree T K) :
    (numTree t).query N (fun e i => .val (getCoord e i)) (fun i => .val (coord i)) (.val radius) =
      t.query (Rounding.exact K) N getCoord coord radius := by
  induction t with
  | leaf data =>
    rw [numTree, Tree.query, KdTree.Tree.query]
    induction data with
    | nil => rfl
    | cons e data ih =>
      have hd : squareDist N (fun e i => .val (getCoord e i)) e (fun i => .val (coord i)) =
          .val (KdTree.squareDist (Rounding.exact K) N getCoord e coord) := by
        unfold squareDist KdTree.squareDist
        simp only [val_sub, val_mul]
        rw [fold_agree (fun i => (getCoord e i - coord i) * (getCoord e i - coord i))]
        rfl
      have hr : (Rounding.exact K).rnd (radius * radius) = radius * radius := rfl
      rw [List.filter_cons, hd, val_mul, val_lt, KdTree.leafQuery, hr, ← ih]
      by_cases h : KdTree.squareDist (Rounding.exact K) N getCoord e coord < radius * radius
      · rw [if_pos (by simp [h]), if_pos h]; rfl
      · rw [if_neg (by simp [h]), if_neg h]; rfl
  | split axis v l r ihl ihr =>
    have h1 : (Rounding.exact K).rnd (coord axis + radius) = coord axis + radius := rfl
    have h2 : (Rounding.exact K).rnd (coord axis - radius) = coord axis - radius := rfl
    rw [numTree, Tree.query, KdTree.Tree.query, ihl, ihr, h1, h2, val_add, val_sub, val_lt, val_lt]
    by_cases h : coord axis + radius < v
    · rw [if_pos (by simp [h]), if_pos h]
    · rw [if_neg (by simp [h]), if_neg h]
      by_cases h' : v < coord axis - radius
      · rw [if_pos (by simp [h']), if_pos h']
      · rw [if_neg (by simp [h']), if_neg (by simpa using h')]

end Alexandria.NotANumber
