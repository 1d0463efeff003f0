import Verif.Overflow.Model
import Verif.MathUtils.CumulativeRoundModel
import Verif.Common.Gradual
import Mathlib.Tactic.NormNum
import Mathlib.Data.List.Induction

/-!
# Property C156 for cumulatives: sums that overflow
-/

namespace Alexandria.Overflow

variable {K : Type} [Field K] [LinearOrder K]

/-! ## Specification -/

/-- The samples of a cumulative: finite sums (`A`), then infinite ones (`B`). -/
structure Spec.Split (M : K) (c A B : List (K × Ext K)) : Prop where
  all : c = A ++ B
  finite : ∀ p ∈ A, ∃ y, p.2 = .fin y ∧ 0 ≤ y ∧ y ≤ M
  infinite : ∀ p ∈ B, p.2 = .pinf

variable [IsStrictOrderedRing K] (R : Rounding K) (M : K)

/-! ## Lemmas -/

theorem sums_pinf (pdf : List K) : sums R M .pinf pdf = List.replicate pdf.length .pinf := by
  induction pdf with
  | nil => rfl
  | cons p ps ih =>
    rw [sums, show Ext.add R M .pinf (.fin p) = .pinf from rfl, ih]; rfl

theorem sums_split (hM : 0 ≤ M) (pdf : List K) (hpos : ∀ v ∈ pdf, 0 ≤ v) : ∀ (s : K), 0 ≤ s → s ≤ M → ∃ n, n ≤ pdf.length ∧
    sums R M (.fin s) pdf = ((MathUtils.machineSumLoop R s pdf).take n).map .fin ++ List.replicate (pdf.length - n) .pinf ∧
    (∀ y ∈ (MathUtils.machineSumLoop R s pdf).take n, 0 ≤ y ∧ y ≤ M) ∧
    ∀ y, (MathUtils.machineSumLoop R s pdf)[n]? = some y → M < y := by
  induction pdf with
  | nil => intro s _ _; exact ⟨0, le_refl _, rfl, by simp, by simp [MathUtils.machineSumLoop]⟩
  | cons p ps ih =>
    intro s h0 h1
    have hn := R.nonneg (add_nonneg h0 (hpos p (by simp)))
    by_cases h : M < R.rnd (s + p)
    · refine ⟨0, by omega, ?_, by simp, ?_⟩
      · rw [sums, show Ext.add R M (.fin s) (.fin p) = .pinf by simp [Ext.add, Ext.result, h], sums_pinf]
        simp [List.replicate_succ]
      · intro y hy
        simp [MathUtils.machineSumLoop] at hy
        rw [← hy]; exact h
    · obtain ⟨n, a, b, c, d⟩ := ih (fun v hv => hpos v (List.mem_cons_of_mem _ hv)) _ hn (not_lt.mp h)
      refine ⟨n + 1, by simpa using a, ?_, ?_, ?_⟩
      · rw [sums, show Ext.add R M (.fin s) (.fin p) = .fin (R.rnd (s + p)) from Ext.result_fin (not_lt.mp h) (by linarith), b]
        simp [MathUtils.machineSumLoop]
      · intro y hy
        rw [MathUtils.machineSumLoop, List.take_succ_cons, List.mem_cons] at hy
        rcases hy with rfl | hy
        · exact ⟨hn, not_lt.mp h⟩
        · exact c y hy
      · intro y hy
        rw [MathUtils.machineSumLoop, List.getElem?_cons_succ] at hy
        exact d y hy

theorem machineSum_length (s : K) (pdf : List K) : (MathUtils.machineSumLoop R s pdf).length = pdf.length := by
  induction pdf generalizing s with
  | nil => rfl
  | cons p ps ih => simp [MathUtils.machineSumLoop, ih]

/-! ## The property -/

/-- **C156**: the sums of densities that are not negative are the rounded sums until one is beyond the greatest number; from there on they are
infinite. -/
theorem C156_sums (hM : 0 ≤ M) (xs pdf : List K) (hl : xs.length = pdf.length) (hpos : ∀ v ∈ pdf, 0 ≤ v) :
    ∃ c A B, fromPdf R M xs pdf = .ok c ∧ c.map Prod.fst = xs ∧ Spec.Split M c A B ∧
      A.map Prod.snd = ((MathUtils.machineSumLoop R 0 pdf).take A.length).map .fin ∧
      (∀ y, (MathUtils.machineSumLoop R 0 pdf)[A.length]? = some y → M < y) := by
  obtain ⟨n, a, b, c, d⟩ := sums_split R M hM pdf hpos 0 le_rfl hM
  have hlen := machineSum_length R 0 pdf
  have hlen1 : (((MathUtils.machineSumLoop R 0 pdf).take n).map Ext.fin).length = n := by
    rw [List.length_map, List.length_take]; omega
  have hzip : xs.zip (sums R M (.fin 0) pdf) =
      (xs.take n).zip (((MathUtils.machineSumLoop R 0 pdf).take n).map .fin) ++ (xs.drop n).zip (List.replicate (pdf.length - n) .pinf) := by
    rw [b]
    conv_lhs => rw [← List.take_append_drop n xs]
    rw [List.zip_append]
    rw [hlen1, List.length_take]; omega
  have hA : ((xs.take n).zip (((MathUtils.machineSumLoop R 0 pdf).take n).map Ext.fin)).length = n := by
    rw [List.length_zip, hlen1, List.length_take]; omega
  refine ⟨_, _, _, by rw [fromPdf, if_neg (by simpa using hl)], ?_, ⟨hzip, ?_, ?_⟩, ?_, ?_⟩
  · rw [List.map_fst_zip]
    rw [b, List.length_append, hlen1, List.length_replicate]; omega
  · intro p hp
    obtain ⟨y, hy, e⟩ := List.mem_map.1 (List.of_mem_zip (show (p.1, p.2) ∈ _ from hp)).2
    exact ⟨y, e.symm, c y hy⟩
  · intro p hp
    exact List.eq_of_mem_replicate (List.of_mem_zip (show (p.1, p.2) ∈ _ from hp)).2
  · rw [hA, List.map_snd_zip]
    rw [hlen1, List.length_take]; omega
  · rw [hA]; exact d

/-- The three greatest doubles at 0, 1, 2: the second sum is infinite. -/
example : fromPdf Binary.double Binary.doubleMax [0, 1, 2] [Binary.doubleMax, Binary.doubleMax, 1] =
    .ok [(0, .fin Binary.doubleMax), (1, .pinf), (2, .pinf)] := by decide +kernel

theorem takeWhile_append {T : Type} (f : T → Bool) (A B : List T) (h : ∀ a ∈ A, f a = true) : (A ++ B).takeWhile f = A ++ B.takeWhile f := by
  induction A with
  | nil => rfl
  | cons a A ih => rw [List.cons_append, List.takeWhile_cons, if_pos (h a (by simp)), ih fun x hx => h x (List.mem_cons_of_mem _ hx)]; rfl

theorem dropWhile_append {T : Type} (f : T → Bool) (A B : List T) (h : ∀ a ∈ A, f a = true) : (A ++ B).dropWhile f = B.dropWhile f := by
  induction A with
  | nil => rfl
  | cons a A ih => rw [List.cons_append, List.dropWhile_cons, if_pos (h a (by simp)), ih fun x hx => h x (List.mem_cons_of_mem _ hx)]

theorem takeWhile_every {T : Type} (f : T → Bool) (A : List T) (h : ∀ a ∈ A, f a = true) : A.takeWhile f = A := by
  have := takeWhile_append f A [] h
  simpa using this

theorem getLast_append_cons {T : Type} (A B : List T) (b : T) : (A ++ b :: B).getLast? = (b :: B).getLast? := by
  rw [List.getLast?_append_of_ne_nil _ (by simp)]

/-- **C156**: once the sums are infinite, every positive ratio gives the first sample with an infinite sum, the last sample and
the middle of the two. -/
theorem C156_findValue {c A B : List (K × Ext K)} {b : K × Ext K} (hs : Spec.Split M c A (b :: B)) {ratio : K} (h0 : 0 < ratio) (h1 : ratio ≤ 1) :
    findValue R M c ratio .begin = .ok (.fin b.1) ∧ findValue R M c ratio .end' = .ok (.fin ((b :: B).getLast (by simp)).1) ∧
    (|R.rnd (b.1 + ((b :: B).getLast (by simp)).1)| ≤ M → |R.rnd (R.rnd (b.1 + ((b :: B).getLast (by simp)).1) / 2)| ≤ M →
      findValue R M c ratio .middle = .ok (.fin (R.rnd (R.rnd (b.1 + ((b :: B).getLast (by simp)).1) / 2)))) := by
  obtain ⟨rfl, hf, hi⟩ := hs
  have hlast : (A ++ b :: B).getLast? = some ((b :: B).getLast (by simp)) := by
    rw [getLast_append_cons, List.getLast?_eq_some_getLast]
  have hv : ((b :: B).getLast (by simp)).2 = .pinf := hi _ (List.getLast_mem _)
  have hval : Ext.mul R M .pinf (.fin ratio) = .pinf := by
    simp [Ext.mul, Ext.scale, ne_of_gt h0, h0]
  have hA : ∀ a ∈ A, a.2.lt .pinf = true := by
    intro a ha
    obtain ⟨y, e, -⟩ := hf a ha
    rw [e]; rfl
  have hb : b.2 = .pinf := hi b (by simp)
  have hall : ∀ q ∈ b :: B, q.2.eq b.2 = true := by
    intro q hq
    rw [hi q hq, hb]; rfl
  have main : ∀ pos, findValue R M (A ++ b :: B) ratio pos = .ok (match pos with
      | .begin => .fin b.1
      | .middle => Ext.half R M (Ext.add R M (.fin b.1) (.fin ((b :: B).getLast (by simp)).1))
      | .end' => .fin ((b :: B).getLast (by simp)).1) := by
    intro pos
    rw [findValue, if_neg (by rintro (h | h) <;> linarith), hlast]
    simp only [hv, hval]
    rw [dropWhile_append _ A _ hA, takeWhile_append _ A _ hA, List.dropWhile_cons, if_neg (by rw [hb]; simp)]
    simp only
    rw [takeWhile_every _ _ hall, List.takeWhile_cons, if_neg (by rw [hb]; simp), List.append_nil, hlast]
    cases pos <;> rfl
  refine ⟨main .begin, main .end', fun h2 h3 => ?_⟩
  rw [main .middle]
  simp only [Ext.add]
  rw [Ext.result_fin (abs_le.mp h2).2 (abs_le.mp h2).1]
  simp only [Ext.half]
  rw [Ext.result_fin (abs_le.mp h3).2 (abs_le.mp h3).1]

/-- A tenth of the total is found at 1, although the first of three equal densities is a third of it. -/
example : findValue Binary.double Binary.doubleMax [(0, .fin Binary.doubleMax), (1, .pinf), (2, .pinf)] (1 / 16) .begin = .ok (.fin 1) := by
  exact (C156_findValue Binary.double Binary.doubleMax (c := [(0, .fin Binary.doubleMax), (1, .pinf), (2, .pinf)]) (A := [(0, .fin Binary.doubleMax)])
    (b := (1, .pinf)) (B := [(2, .pinf)]) ⟨rfl, by simp; decide +kernel, by simp⟩ (by norm_num) (by norm_num)).1

/-- **C156**: when such a cumulative is normalised the finite sums become zero and the infinite ones NaN; every ratio then gives the samples from
the first one to the last one with a finite sum. -/
theorem C156_normalized {c A B : List (K × Ext K)} {a b : K × Ext K} (hs : Spec.Split M c (a :: A) (b :: B)) :
    normalize R M c = .ok ((a :: A).map (fun p => (p.1, .fin 0)) ++ (b :: B).map fun p => (p.1, .nan)) ∧
    ∀ ratio, 0 ≤ ratio → ratio ≤ 1 →
      findValue R M ((a :: A).map (fun p => (p.1, .fin 0)) ++ (b :: B).map fun p => (p.1, .nan)) ratio .begin = .ok (.fin a.1) ∧
      findValue R M ((a :: A).map (fun p => (p.1, .fin 0)) ++ (b :: B).map fun p => (p.1, .nan)) ratio .end' =
        .ok (.fin ((a :: A).getLast (by simp)).1) := by
  obtain ⟨rfl, hf, hi⟩ := hs
  have hlast : (a :: A ++ b :: B).getLast? = some ((b :: B).getLast (by simp)) := by
    rw [getLast_append_cons, List.getLast?_eq_some_getLast]
  have hv : ((b :: B).getLast (by simp)).2 = .pinf := hi _ (List.getLast_mem _)
  refine ⟨?_, fun ratio h0 h1 => ?_⟩
  · rw [normalize, hlast]
    simp only [hv]
    rw [List.map_append]
    congr 2
    · apply List.map_congr_left
      intro p hp
      obtain ⟨y, e, -⟩ := hf p hp
      rw [e]; rfl
    · apply List.map_congr_left
      intro p hp
      rw [hi p hp]; rfl
  · have hl2 : ((a :: A).map (fun p => (p.1, (Ext.fin 0 : Ext K))) ++ (b :: B).map fun p => (p.1, (Ext.nan : Ext K))).getLast? =
        some (((b :: B).getLast (by simp)).1, .nan) := by
      rw [List.map_cons (l := B), getLast_append_cons, ← List.map_cons (f := fun p : K × Ext K => (p.1, (Ext.nan : Ext K))), List.getLast?_map,
        List.getLast?_eq_some_getLast (by simp)]
      rfl
    have hnan : Ext.mul R M .nan (.fin ratio) = .nan := rfl
    have main : ∀ pos, findValue R M ((a :: A).map (fun p => (p.1, .fin 0)) ++ (b :: B).map fun p => (p.1, .nan)) ratio pos = .ok (match pos with
        | .begin => .fin a.1
        | .middle => Ext.half R M (Ext.add R M (.fin a.1) (.fin ((a :: A).getLast (by simp)).1))
        | .end' => .fin ((a :: A).getLast (by simp)).1) := by
      intro pos
      rw [findValue, if_neg (by rintro (h | h) <;> linarith), hl2]
      simp only [hnan, Ext.lt_nan]
      rw [List.map_cons, List.cons_append, List.dropWhile_cons, if_neg (by simp)]
      simp only
      rw [List.takeWhile_cons, if_neg (by simp), List.nil_append, ← List.cons_append,
        ← List.map_cons (f := fun p : K × Ext K => (p.1, (Ext.fin 0 : Ext K))), takeWhile_append _ _ _ (by
          intro q hq
          obtain ⟨p, -, rfl⟩ := List.mem_map.1 hq
          simp [Ext.eq]), List.map_cons (l := B), List.takeWhile_cons, if_neg (by simp [Ext.eq]), List.append_nil, List.getLast?_map,
        List.getLast?_eq_some_getLast (by simp)]
      rfl
    exact ⟨main .begin, main .end'⟩

theorem result_le {x y : K} (h : x ≤ y) : (Ext.result R M x).le (Ext.result R M y) = true := by
  have hm := R.mono _ _ h
  unfold Ext.result
  by_cases h1 : M < R.rnd x
  · rw [if_pos h1, if_pos (lt_of_lt_of_le h1 hm)]; rfl
  rw [if_neg h1]
  by_cases h2 : R.rnd x < -M
  · rw [if_pos h2]
    by_cases h3 : M < R.rnd y
    · rw [if_pos h3]; rfl
    rw [if_neg h3]
    by_cases h4 : R.rnd y < -M
    · rw [if_pos h4]; rfl
    · rw [if_neg h4]; rfl
  rw [if_neg h2]
  by_cases h3 : M < R.rnd y
  · rw [if_pos h3]; rfl
  · rw [if_neg h3, if_neg (fun h4 => h2 (lt_of_le_of_lt hm h4))]
    simpa [Ext.le] using hm

theorem sub_fin (a b : K) : Ext.sub R M (.fin a) (.fin b) = Ext.result R M (a - b) := by
  simp [Ext.sub, Ext.neg, Ext.add, sub_eq_add_neg]

/-- The loop over the samples with infinite sums. -/
theorem minLoop_infinite (b : K × Ext K) (B : List (K × Ext K)) (hb : b.2 = .pinf) : ∀ (l : List (K × Ext K)) (mn mx : K) (p : K × Ext K),
    (∀ q ∈ p :: l, q.2 = .pinf) → ((p :: l).map Prod.fst).Pairwise (· ≤ ·) → b.1 - p.1 ≤ mx - mn →
    minLoop R M .pinf (p :: l) (b :: B) (.fin 0) mn mx = (((p :: l).getLast (by simp)).1, b.1) := by
  have step : ∀ (l : List (K × Ext K)) (mn mx : K) (p : K × Ext K), p.2 = .pinf → b.1 - p.1 ≤ mx - mn →
      minLoop R M .pinf (p :: l) (b :: B) (.fin 0) mn mx = minLoop R M .pinf l (b :: B) (.fin 0) p.1 b.1 := by
    intro l mn mx p hp hd
    rw [minLoop, List.dropWhile_cons, if_neg (by rw [hp, hb]; simp [Ext.sub, Ext.neg, Ext.add])]
    simp only
    rw [if_pos (by rw [sub_fin, sub_fin]; exact result_le R M hd)]
  intro l
  induction l with
  | nil => intro mn mx p hp hs hd; rw [step _ _ _ _ (hp p (by simp)) hd, minLoop]; rfl
  | cons q l ih =>
    intro mn mx p hp hs hd
    rw [step _ _ _ _ (hp p (by simp)) hd]
    rw [List.map_cons, List.pairwise_cons] at hs
    rw [ih p.1 b.1 q (fun r hr => hp r (List.mem_cons_of_mem _ hr)) hs.2 (by have := hs.1 q.1 (by simp); linarith)]
    simp

/-- The loop over the samples with finite sums but the first. -/
theorem minLoop_finite (hM : 0 ≤ M) (hMfix : R.rnd M = M) (b : K × Ext K) (B : List (K × Ext K)) (hB : ∀ q ∈ b :: B, q.2 = .pinf) :
    ∀ (A1 A2 : List (K × Ext K)) (mn mx : K), (∀ p ∈ A1, ∃ y, p.2 = .fin y ∧ 0 ≤ y ∧ y ≤ M) → (∀ p ∈ A2, ∃ y, p.2 = .fin y ∧ 0 ≤ y ∧ y ≤ M) →
    ((A1 ++ b :: B).map Prod.fst).Pairwise (· ≤ ·) → mn ≤ mx → (A1 = [] → A2 = []) →
    minLoop R M .pinf (A1 ++ b :: B) (A2 ++ b :: B) (.fin 0) mn mx = (((b :: B).getLast (by simp)).1, b.1) := by
  have hb := hB b (by simp)
  intro A1
  induction A1 with
  | nil =>
    intro A2 mn mx _ _ hs hle h2
    rw [h2 rfl, List.nil_append]
    exact minLoop_infinite R M b B hb B mn mx b hB hs (by linarith)
  | cons p A1 ih =>
    intro A2 mn mx hf1 hf2 hs hle _
    obtain ⟨y1, e1, h10, h1M⟩ := hf1 p (by simp)
    have hdrop : ∀ q ∈ A2, (Ext.add R M (Ext.sub R M q.2 p.2) (.fin 0)).lt .pinf = true := by
      intro q hq
      obtain ⟨y2, e2, h20, h2M⟩ := hf2 q hq
      have u1 : R.rnd (y2 - y1) ≤ M := by
        have := R.mono (y2 - y1) M (by linarith)
        rwa [hMfix] at this
      have u2 : -M ≤ R.rnd (y2 - y1) := by
        have := R.mono (-M) (y2 - y1) (by linarith)
        rwa [R.neg, hMfix] at this
      rw [e1, e2, sub_fin, Ext.result_fin u1 u2]
      simp only [Ext.add]
      rw [add_zero, Ext.result_fin (by rw [R.idem]; exact u1) (by rw [R.idem]; exact u2)]
      rfl
    have hstop : ¬ ((Ext.add R M (Ext.sub R M b.2 p.2) (.fin 0)).lt .pinf = true) := by
      rw [hb, e1]; simp [Ext.sub, Ext.neg, Ext.add]
    rw [List.cons_append, List.map_cons, List.pairwise_cons] at hs
    have hpb : p.1 ≤ b.1 := hs.1 _ (by simp)
    rw [List.cons_append, minLoop, dropWhile_append _ _ _ hdrop, List.dropWhile_cons, if_neg hstop]
    simp only
    have next : ∀ mn mx, mn ≤ mx → minLoop R M .pinf (A1 ++ b :: B) (b :: B) (.fin 0) mn mx = (((b :: B).getLast (by simp)).1, b.1) := by
      intro mn mx h
      exact ih [] mn mx (fun q hq => hf1 q (List.mem_cons_of_mem _ hq)) (by simp) hs.2 h (fun _ => rfl)
    by_cases hc : (Ext.sub R M (.fin b.1) (.fin p.1)).le (Ext.sub R M (.fin mx) (.fin mn)) = true
    · rw [if_pos hc]; exact next _ _ hpb
    · rw [if_neg hc]; exact next _ _ hle

theorem dropWhile_until {T : Type} (f : T → Bool) (A B : List T) (b : T) (h : f b = false) : (A ++ b :: B).dropWhile f = A.dropWhile f ++ b :: B := by
  induction A with
  | nil => rw [List.nil_append, List.dropWhile_cons, if_neg (by simp [h])]; rfl
  | cons a A ih =>
    rw [List.cons_append, List.dropWhile_cons, List.dropWhile_cons]
    by_cases ha : f a = true
    · rw [if_pos ha, if_pos ha, ih]
    · rw [if_neg ha, if_neg ha, List.cons_append]

/-- **C156**: once the sums are infinite, the minimal interval of every rate goes from the last sample back to the first one with an infinite sum. -/
theorem C156_min_interval (hM : 0 ≤ M) (hMfix : R.rnd M = M) {c A B : List (K × Ext K)} {a b : K × Ext K} (hs : Spec.Split M c (a :: A) (b :: B))
    (hx : (c.map Prod.fst).Pairwise (· ≤ ·)) {rate : K} (h0 : 0 < rate) (h1 : rate ≤ 1) :
    findMinInterval R M c rate = .ok (((b :: B).getLast (by simp)).1, b.1) := by
  obtain ⟨rfl, hf, hi⟩ := hs
  have hlast : (a :: A ++ b :: B).getLast? = some ((b :: B).getLast (by simp)) := by
    rw [getLast_append_cons, List.getLast?_eq_some_getLast]
  have hv : ((b :: B).getLast (by simp)).2 = .pinf := hi _ (List.getLast_mem _)
  have hval : Ext.mul R M (.fin rate) .pinf = .pinf := by
    simp [Ext.mul, Ext.scale, ne_of_gt h0, h0]
  have hb : b.2 = .pinf := hi b (by simp)
  obtain ⟨y, e, hy0, hyM⟩ := hf a (by simp)
  unfold findMinInterval
  rw [if_neg (by rintro (h | h) <;> linarith), hlast]
  simp only [List.cons_append, hv, hval]
  rw [List.cons_append, List.map_cons, List.pairwise_cons] at hx
  have hal : a.1 ≤ ((b :: B).getLast (by simp)).1 :=
    hx.1 _ (List.mem_map_of_mem (List.mem_append_right _ (List.getLast_mem _)))
  rw [minLoop, dropWhile_until _ _ _ _ (by rw [hb, e]; simp [Ext.sub, Ext.neg, Ext.add])]
  congr 1
  have hsub : ∀ q ∈ A.dropWhile fun p2 => (Ext.add R M (Ext.sub R M p2.2 a.2) a.2).lt .pinf, q ∈ A :=
    fun q hq => (List.dropWhile_sublist _).subset hq
  have hAnil : A = [] → A.dropWhile (fun p2 => (Ext.add R M (Ext.sub R M p2.2 a.2) a.2).lt .pinf) = [] := by
    intro h; rw [h]; rfl
  have hf' : ∀ p ∈ A, ∃ y, p.2 = .fin y ∧ 0 ≤ y ∧ y ≤ M := fun p hp => hf p (List.mem_cons_of_mem _ hp)
  revert hsub hAnil
  generalize A.dropWhile (fun p2 => (Ext.add R M (Ext.sub R M p2.2 a.2) a.2).lt .pinf) = D
  intro hsub hAnil
  have next : ∀ mn mx, mn ≤ mx → minLoop R M .pinf (A ++ b :: B) (D ++ b :: B) (.fin 0) mn mx = (((b :: B).getLast (by simp)).1, b.1) :=
    fun mn mx h => minLoop_finite R M hM hMfix b B hi A D mn mx hf' (fun q hq => hf' q (hsub q hq)) hx.2 h hAnil
  cases D with
  | nil =>
    simp only [List.nil_append]
    by_cases hc : (Ext.sub R M (.fin b.1) (.fin a.1)).le (Ext.sub R M (.fin ((b :: B).getLast (by simp)).1) (.fin a.1)) = true
    · rw [if_pos hc]; exact next _ _ (hx.1 _ (by simp))
    · rw [if_neg hc]; exact next _ _ hal
  | cons d D =>
    simp only [List.cons_append]
    have hd : a.1 ≤ d.1 := hx.1 _ (List.mem_map_of_mem (List.mem_append_left _ (hsub d (by simp))))
    by_cases hc : (Ext.sub R M (.fin d.1) (.fin a.1)).le (Ext.sub R M (.fin ((b :: B).getLast (by simp)).1) (.fin a.1)) = true
    · rw [if_pos hc]; exact next _ _ hd
    · rw [if_neg hc]; exact next _ _ hal

/-- Three densities that overflow: the interval of half of the total goes from 2 to 1. -/
example : findMinInterval Binary.double Binary.doubleMax [(0, .fin Binary.doubleMax), (1, .pinf), (2, .pinf)] (1 / 2) = .ok (2, 1) := by decide +kernel

/-! ## What does not hold -/

/-- For doubles that are not negative, at increasing abscissae, the minimal interval is in order, and what is found does not change when the
cumulative is normalised. -/
def C156_cumulative_full : Prop :=
  ∀ (xs pdf : List Rat) (c c' : List (Rat × Ext Rat)), xs.Pairwise (· < ·) →
    (∀ v ∈ pdf, 0 ≤ v ∧ Binary.double.rnd v = v ∧ v ≤ Binary.doubleMax) →
    fromPdf Binary.double Binary.doubleMax xs pdf = .ok c → normalize Binary.double Binary.doubleMax c = .ok c' → ∀ rate, 0 < rate → rate ≤ 1 →
    (∀ lo hi, findMinInterval Binary.double Binary.doubleMax c rate = .ok (lo, hi) → lo ≤ hi) ∧
    findValue Binary.double Binary.doubleMax c rate .begin = findValue Binary.double Binary.doubleMax c' rate .begin

/-- **C156, violated** for the densities `M`, `M` and `1`, where `M` is the greatest double. -/
theorem C156_cumulative_violated : ¬ C156_cumulative_full := by
  intro h
  have := (h [0, 1, 2] [Binary.doubleMax, Binary.doubleMax, 1] [(0, .fin Binary.doubleMax), (1, .pinf), (2, .pinf)] [(0, .fin 0), (1, .nan), (2, .nan)]
    (by decide) (by
      intro v hv
      simp only [List.mem_cons, List.not_mem_nil, or_false] at hv
      rcases hv with rfl | rfl | rfl <;> exact ⟨by decide +kernel, by decide +kernel, by decide +kernel⟩)
    (by decide +kernel) (by decide +kernel) (1 / 2) (by decide +kernel) (by decide +kernel)).1 2 1 (by decide +kernel)
  exact absurd this (by decide +kernel)

end Alexandria.Overflow
