import Verif.Histogram.VarsModel
import Mathlib.Tactic.Linarith

/-!
# Property C157: variables of type `Histogram` are values
-/

namespace Alexandria.Histogram.Vars

variable {V W : Type} [Add W] [Zero W] [LinearOrder V]

/-! ## Specification: every variable holds a histogram of its own -/

namespace Spec

/-- One statement on variables that hold histograms. -/
def step (s : Nat → Option (Histo V W)) : Op V W → Outcome Err ((Nat → Option (Histo V W)) × Bool)
  | .make v b data =>
    match histogram b data with
    | .ok x => .ok (fun w => if w = v then some x else s w, false)
    | .throw _ => .ok (s, true)
    | .ub => .ub
  | .copy dst src =>
    match s src with
    | none => .ub
    | some x => .ok (fun w => if w = dst then some x else s w, false)
  | .move dst src => .ok (if dst = src then s else fun w => if w = src then none else if w = dst then s src else s w, false)
  | .clip v min max =>
    match s v with
    | none => .ub
    | some x =>
      match x.clip min max with
      | .ok y => .ok (fun w => if w = v then some y else s w, false)
      | .throw _ => .ok (s, true)
      | .ub => .ub

def run (s : Nat → Option (Histo V W)) : List (Op V W) → Outcome Err ((Nat → Option (Histo V W)) × List Bool)
  | [] => .ok (s, [])
  | op :: ops =>
    match step s op with
    | .ub => .ub
    | .throw e => .throw e
    | .ok (s, t) =>
      match run s ops with
      | .ub => .ub
      | .throw e => .throw e
      | .ok (s, ts) => .ok (s, t :: ts)

/-- The search of the bin does not throw. -/
def Quiet (b : Binning V) : Prop := ∀ v e, b.index v ≠ .throw e

/-- The binnings that a program uses do not throw. -/
def QuietProgram (ops : List (Op V W)) : Prop := ∀ v b data, Op.make v b data ∈ ops → Quiet b

end Spec

/-! ## The binnings of the library -/

omit [Add W] [Zero W] in
theorem edgeVector_quiet (edges : List V) : Spec.Quiet (edgeVector edges) := by
  intro v e h
  simp only [edgeVector, edgeIndex] at h
  revert h
  repeat' split
  all_goals simp

theorem uniform_quiet {K : Type} [Field K] [LinearOrder K] [IsStrictOrderedRing K] [FloorRing K] (n : Nat) (start step stop : K) :
    Spec.Quiet (uniform n start step stop) := by
  intro v e h
  simp only [uniform, uniformIndex] at h
  revert h
  repeat' split
  all_goals simp

/-! ## The invariant -/

/-- Every object is of one variable at most, and its counts are there. -/
structure Good (h : Heap V W) : Prop where
  unique : ∀ v w a, h.vars v = some a → h.vars w = some a → v = w
  inside : ∀ v a, h.vars v = some a → a < h.objects.length
  counts : ∀ o ∈ h.objects, o.counts < h.vectors.length
  quiet : ∀ o ∈ h.objects, Spec.Quiet o.binning

theorem good_empty : Good (Heap.empty : Heap V W) :=
  ⟨fun _ _ _ h => (by cases h), fun _ _ h => (by cases h), fun _ h => (by cases h), fun _ h => (by cases h)⟩

omit [Add W] [Zero W] [LinearOrder V] in
theorem view_congr {h h' : Heap V W} {v w : Nat} (hv : h'.vars v = h.vars w) (ho : ∀ a, h.vars w = some a → h'.objects[a]? = h.objects[a]?)
    (hc : ∀ o ∈ h.objects, h'.vectors[o.counts]? = h.vectors[o.counts]?) : h'.view v = h.view w := by
  unfold Heap.view
  rw [hv]
  cases e : h.vars w with
  | none => rfl
  | some a =>
    simp only
    rw [ho a e]
    cases e2 : h.objects[a]? with
    | none => rfl
    | some o =>
      simp only
      rw [hc o (List.mem_of_getElem? e2)]

omit [Add W] [Zero W] in
theorem clipObj_spec (o : Obj V) (c : List W) (hq : Spec.Quiet o.binning) (min max : V) :
    match clipObj o min max, (⟨o.binning, c, o.left, o.right⟩ : Histo V W).clip min max with
    | .ok (o', false), .ok y => y = ⟨o.binning, c, o'.left, o'.right⟩ ∧ o'.binning = o.binning ∧ o'.counts = o.counts
    | .ok (o', true), .throw _ => o' = o
    | .ub, .ub => True
    | _, _ => False := by
  unfold clipObj Histo.clip
  by_cases h1 : min > max
  · simp only [if_pos h1]
  · simp only [if_neg h1]
    cases e1 : o.binning.index min with
    | throw e => exact absurd e1 (hq min e)
    | ub => simp only; trivial
    | ok minBin =>
      simp only [Outcome.bind_ok]
      by_cases h2 : minBin > o.left ∧ minBin ≤ o.right
      · simp only [if_pos h2]
        cases e2 : o.binning.index max with
        | throw e => exact absurd e2 (hq max e)
        | ub => simp only; trivial
        | ok maxBin =>
          simp only [Outcome.bind_ok]
          by_cases h3 : maxBin ≥ minBin ∧ maxBin < o.right
          · simp only [if_pos h3]; exact ⟨rfl, rfl, rfl⟩
          · simp only [if_neg h3]; exact ⟨rfl, rfl, rfl⟩
      · simp only [if_neg h2]
        cases e2 : o.binning.index max with
        | throw e => exact absurd e2 (hq max e)
        | ub => simp only; trivial
        | ok maxBin =>
          simp only [Outcome.bind_ok]
          by_cases h3 : maxBin ≥ o.left ∧ maxBin < o.right
          · simp only [if_pos h3]; exact ⟨rfl, rfl, rfl⟩
          · simp only [if_neg h3]; exact ⟨rfl, rfl, rfl⟩

theorem step_refines {h : Heap V W} {s : Nat → Option (Histo V W)} (hg : Good h) (hs : ∀ v, h.view v = s v) (op : Op V W)
    (hq : ∀ v b data, op = .make v b data → Spec.Quiet b) :
    (∃ h' s' t, step h op = .ok (h', t) ∧ Spec.step s op = .ok (s', t) ∧ Good h' ∧ ∀ v, h'.view v = s' v) ∨
    (step h op = .ub ∧ Spec.step s op = .ub) := by
  have seen : ∀ v a, h.vars v = some a → ∃ o c, h.objects[a]? = some o ∧ h.vectors[o.counts]? = some c ∧
      s v = some ⟨o.binning, c, o.left, o.right⟩ := by
    intro v a ha
    have h1 := hg.inside v a ha
    obtain ⟨o, ho⟩ : ∃ o, h.objects[a]? = some o := ⟨_, List.getElem?_eq_getElem h1⟩
    have h2 := hg.counts o (List.mem_of_getElem? ho)
    obtain ⟨c, hc⟩ : ∃ c, h.vectors[o.counts]? = some c := ⟨_, List.getElem?_eq_getElem h2⟩
    refine ⟨o, c, ho, hc, ?_⟩
    rw [← hs v, Heap.view, ha]
    simp only [ho, hc]
  have unseen : ∀ v, h.vars v = none → s v = none := by
    intro v hv
    rw [← hs v, Heap.view, hv]
  cases op with
  | make v b data =>
    have hb := hq v b data rfl
    cases e : countLoop b data (List.replicate b.nbins 0) with
    | ub => exact .inr ⟨by simp only [step, e], by simp only [Spec.step, histogram, e]; rfl⟩
    | throw err => exact .inl ⟨h, s, true, by simp only [step, e], by simp only [Spec.step, histogram, e]; rfl, hg, hs⟩
    | ok counts =>
      refine .inl ⟨⟨h.vectors ++ [counts], h.objects ++ [⟨b, h.vectors.length, 0, (b.nbins : Int) - 1⟩], assign h.vars v (some h.objects.length)⟩,
        fun w => if w = v then some ⟨b, counts, 0, (b.nbins : Int) - 1⟩ else s w, false, by simp only [step, e],
        by simp only [Spec.step, histogram, e, Outcome.bind_ok]; rfl, ⟨?_, ?_, ?_, ?_⟩, ?_⟩
      · intro x y a hx hy
        simp only [assign] at hx hy
        by_cases h1 : x = v <;> by_cases h2 : y = v
        · rw [h1, h2]
        · rw [if_pos h1, Option.some.injEq] at hx
          rw [if_neg h2] at hy
          have := hg.inside y a hy
          omega
        · rw [if_neg h1] at hx
          rw [if_pos h2, Option.some.injEq] at hy
          have := hg.inside x a hx
          omega
        · rw [if_neg h1] at hx
          rw [if_neg h2] at hy
          exact hg.unique x y a hx hy
      · intro x a hx
        simp only [assign] at hx
        rw [List.length_append]
        by_cases h1 : x = v
        · rw [if_pos h1, Option.some.injEq] at hx
          simp [← hx]
        · rw [if_neg h1] at hx
          have := hg.inside x a hx
          omega
      · intro o ho
        rw [List.length_append]
        rcases List.mem_append.mp ho with ho | ho
        · have := hg.counts o ho
          omega
        · rw [List.mem_singleton] at ho
          subst ho
          simp
      · intro o ho
        rcases List.mem_append.mp ho with ho | ho
        · exact hg.quiet o ho
        · rw [List.mem_singleton] at ho
          subst ho
          exact hb
      · intro x
        beta_reduce
        by_cases h1 : x = v
        · simp [Heap.view, assign, h1]
        · rw [if_neg h1, ← hs x]
          refine view_congr (by simp [assign, h1]) (fun a ha => ?_) (fun o ho => ?_)
          · exact List.getElem?_append_left (hg.inside x a ha)
          · exact List.getElem?_append_left (hg.counts o ho)
  | copy dst src =>
    cases e : h.vars src with
    | none => exact .inr ⟨by simp only [step, e], by simp only [Spec.step, unseen src e]⟩
    | some a =>
      obtain ⟨o, c, ho, hc, hsv⟩ := seen src a e
      refine .inl ⟨⟨h.vectors, h.objects ++ [o], assign h.vars dst (some h.objects.length)⟩,
        fun w => if w = dst then some ⟨o.binning, c, o.left, o.right⟩ else s w, false, by simp only [step, e, ho], by simp only [Spec.step, hsv], ⟨?_, ?_, ?_, ?_⟩, ?_⟩
      · intro x y a hx hy
        simp only [assign] at hx hy
        by_cases h1 : x = dst <;> by_cases h2 : y = dst
        · rw [h1, h2]
        · rw [if_pos h1, Option.some.injEq] at hx
          rw [if_neg h2] at hy
          have := hg.inside y a hy
          omega
        · rw [if_neg h1] at hx
          rw [if_pos h2, Option.some.injEq] at hy
          have := hg.inside x a hx
          omega
        · rw [if_neg h1] at hx
          rw [if_neg h2] at hy
          exact hg.unique x y a hx hy
      · intro x b hx
        simp only [assign] at hx
        rw [List.length_append]
        by_cases h1 : x = dst
        · rw [if_pos h1, Option.some.injEq] at hx
          simp [← hx]
        · rw [if_neg h1] at hx
          have := hg.inside x b hx
          omega
      · intro o' ho'
        rcases List.mem_append.mp ho' with ho' | ho'
        · exact hg.counts o' ho'
        · rw [List.mem_singleton] at ho'
          subst ho'
          exact hg.counts o' (List.mem_of_getElem? ho)
      · intro o' ho'
        rcases List.mem_append.mp ho' with ho' | ho'
        · exact hg.quiet o' ho'
        · rw [List.mem_singleton] at ho'
          subst ho'
          exact hg.quiet o' (List.mem_of_getElem? ho)
      · intro x
        beta_reduce
        by_cases h1 : x = dst
        · simp [Heap.view, assign, h1, hc]
        · rw [if_neg h1, ← hs x]
          refine view_congr (by simp [assign, h1]) (fun a ha => ?_) (fun o ho => rfl)
          exact List.getElem?_append_left (hg.inside x a ha)
  | move dst src =>
    by_cases h1 : dst = src
    · exact .inl ⟨h, s, false, by simp only [step, if_pos h1], by simp only [Spec.step, if_pos h1], hg, hs⟩
    · refine .inl ⟨⟨h.vectors, h.objects, assign (assign h.vars dst (h.vars src)) src none⟩,
        fun w => if w = src then none else if w = dst then s src else s w, false, by simp only [step, if_neg h1], by simp only [Spec.step, if_neg h1], ⟨?_, ?_, hg.counts, hg.quiet⟩, ?_⟩
      · intro x y a hx hy
        simp only [assign] at hx hy
        by_cases x1 : x = src
        · rw [if_pos x1] at hx; cases hx
        · by_cases y1 : y = src
          · rw [if_pos y1] at hy; cases hy
          · rw [if_neg x1] at hx
            rw [if_neg y1] at hy
            by_cases x2 : x = dst <;> by_cases y2 : y = dst
            · rw [x2, y2]
            · rw [if_pos x2] at hx
              rw [if_neg y2] at hy
              exact absurd (hg.unique src y a hx hy).symm y1
            · rw [if_neg x2] at hx
              rw [if_pos y2] at hy
              exact absurd (hg.unique src x a hy hx).symm x1
            · rw [if_neg x2] at hx
              rw [if_neg y2] at hy
              exact hg.unique x y a hx hy
      · intro x a hx
        simp only [assign] at hx
        by_cases x1 : x = src
        · rw [if_pos x1] at hx; cases hx
        · rw [if_neg x1] at hx
          by_cases x2 : x = dst
          · rw [if_pos x2] at hx; exact hg.inside src a hx
          · rw [if_neg x2] at hx; exact hg.inside x a hx
      · intro x
        beta_reduce
        by_cases x1 : x = src
        · simp [Heap.view, assign, x1]
        · rw [if_neg x1]
          by_cases x2 : x = dst
          · rw [if_pos x2, ← hs src]
            exact view_congr (by simp [assign, x2, h1]) (fun _ _ => rfl) (fun _ _ => rfl)
          · rw [if_neg x2, ← hs x]
            exact view_congr (by simp [assign, x1, x2]) (fun _ _ => rfl) (fun _ _ => rfl)
  | clip v min max =>
    cases e : h.vars v with
    | none => exact .inr ⟨by simp only [step, e], by simp only [Spec.step, unseen v e]⟩
    | some a =>
      obtain ⟨o, c, ho, hc, hsv⟩ := seen v a e
      have hoq := hg.quiet o (List.mem_of_getElem? ho)
      have key := clipObj_spec o c hoq min max
      have halt : a < h.objects.length := hg.inside v a e
      have main : ∀ o' : Obj V, o'.counts = o.counts → o'.binning = o.binning →
          Good (⟨h.vectors, h.objects.set a o', h.vars⟩ : Heap V W) ∧
          ∀ x, (⟨h.vectors, h.objects.set a o', h.vars⟩ : Heap V W).view x = if x = v then some ⟨o.binning, c, o'.left, o'.right⟩ else s x := by
        intro o' h1 h2
        refine ⟨⟨hg.unique, fun x b hb => by rw [List.length_set]; exact hg.inside x b hb, ?_, ?_⟩, ?_⟩
        · intro p hp
          rcases List.mem_or_eq_of_mem_set hp with hp | hp
          · exact hg.counts p hp
          · rw [hp, h1]; exact hg.counts o (List.mem_of_getElem? ho)
        · intro p hp
          rcases List.mem_or_eq_of_mem_set hp with hp | hp
          · exact hg.quiet p hp
          · rw [hp, h2]; exact hoq
        · intro x
          by_cases x1 : x = v
          · subst x1
            rw [if_pos rfl]
            simp only [Heap.view, e, List.getElem?_set_self halt, h1, hc, h2]
          · rw [if_neg x1, ← hs x]
            unfold Heap.view
            simp only
            cases e2 : h.vars x with
            | none => rfl
            | some b =>
              have : a ≠ b := fun hab => x1 (hg.unique x v b e2 (hab ▸ e))
              simp only [List.getElem?_set_ne this]
      revert key
      cases e3 : clipObj o min max with
      | ub =>
        cases e4 : (⟨o.binning, c, o.left, o.right⟩ : Histo V W).clip min max with
        | ub => intro _; exact .inr ⟨by simp only [step, e, ho, e3], by simp only [Spec.step, hsv, e4]⟩
        | ok _ => intro k; exact k.elim
        | throw _ => intro k; exact k.elim
      | throw _ =>
        cases (⟨o.binning, c, o.left, o.right⟩ : Histo V W).clip min max <;> intro k <;> exact k.elim
      | ok r =>
        obtain ⟨o', t⟩ := r
        cases t with
        | false =>
          cases e4 : (⟨o.binning, c, o.left, o.right⟩ : Histo V W).clip min max with
          | ub => intro k; exact k.elim
          | throw _ => intro k; exact k.elim
          | ok y =>
            rintro ⟨rfl, k2, k3⟩
            obtain ⟨m1, m2⟩ := main o' k3 k2
            exact .inl ⟨_, _, false, by simp only [step, e, ho, e3], by simp only [Spec.step, hsv, e4], m1, m2⟩
        | true =>
          cases e4 : (⟨o.binning, c, o.left, o.right⟩ : Histo V W).clip min max with
          | ub => intro k; exact k.elim
          | ok _ => intro k; exact k.elim
          | throw _ =>
            intro k
            subst k
            obtain ⟨m1, m2⟩ := main o' rfl rfl
            refine .inl ⟨_, s, true, by simp only [step, e, ho, e3], by simp only [Spec.step, hsv, e4], m1, fun x => ?_⟩
            rw [m2 x]
            by_cases x1 : x = v
            · rw [if_pos x1, x1, hsv]
            · rw [if_neg x1]

theorem run_refines (ops : List (Op V W)) : ∀ {h : Heap V W} {s : Nat → Option (Histo V W)}, Good h → (∀ v, h.view v = s v) →
    Spec.QuietProgram ops →
    (∃ h' s' ts, run h ops = .ok (h', ts) ∧ Spec.run s ops = .ok (s', ts) ∧ ∀ v, h'.view v = s' v) ∨ (run h ops = .ub ∧ Spec.run s ops = .ub) := by
  induction ops with
  | nil => intro h s _ hs _; exact .inl ⟨h, s, [], rfl, rfl, hs⟩
  | cons op ops ih =>
    intro h s hg hs hq
    rcases step_refines hg hs op (fun v b data e => hq v b data (by rw [e]; exact List.mem_cons_self)) with ⟨h1, s1, t, e1, e2, g1, v1⟩ | ⟨e1, e2⟩
    · rcases ih g1 v1 (fun v b data hm => hq v b data (List.mem_cons_of_mem _ hm)) with ⟨h2, s2, ts, e3, e4, v2⟩ | ⟨e3, e4⟩
      · exact .inl ⟨h2, s2, t :: ts, by simp only [run, e1, e3], by simp only [Spec.run, e2, e4], v2⟩
      · exact .inr ⟨by simp only [run, e1, e3], by simp only [Spec.run, e2, e4]⟩
    · exact .inr ⟨by simp only [run, e1], by simp only [Spec.run, e2]⟩

/-! ## The property -/

/-- **C157**: in every program that constructs, copies, moves and clips histograms, each variable behaves like a value of its own: the same statements throw, the
same programs are undefined, and at the end every variable holds what it would hold without shared counts. -/
theorem C157_values (ops : List (Op V W)) (hq : Spec.QuietProgram ops) :
    (∃ h s ts, run Heap.empty ops = .ok (h, ts) ∧ Spec.run (fun _ => none) ops = .ok (s, ts) ∧ ∀ v, h.view v = s v) ∨
    (run (Heap.empty : Heap V W) ops = .ub ∧ Spec.run (fun _ => none) ops = .ub) :=
  run_refines ops good_empty (fun _ => rfl) hq

/-- **C157**: the binnings of the library do not throw. -/
theorem C157_library (edges : List V) : Spec.Quiet (edgeVector edges) := edgeVector_quiet edges

/-- **C157**: nor do those of equal bins. -/
theorem C157_library_uniform {K : Type} [Field K] [LinearOrder K] [IsStrictOrderedRing K] [FloorRing K] (n : Nat) (start step stop : K) :
    Spec.Quiet (uniform n start step stop) := uniform_quiet n start step stop

/-- **C157**: with a binning of the user that throws in the second search, a clip that throws has changed the histogram. -/
theorem C157_half_clipped (o : Obj V) (min max : V) (h : min ≤ max) {i : Int} (h1 : o.binning.index min = .ok i) (hi : o.left < i ∧ i ≤ o.right)
    (h2 : ∃ e, o.binning.index max = .throw e) : clipObj o min max = .ok ({ o with left := i }, true) := by
  obtain ⟨e, h2⟩ := h2
  rw [clipObj, if_neg (not_lt.mpr h), h1]
  simp only
  rw [if_pos hi]
  simp only [h2]

/-- A copy is clipped; the original is not. -/
example : ∃ h, run (Heap.empty : Heap Int Int) [.make 0 (edgeVector [0, 1, 2, 3]) [(0, 1), (1, 1), (2, 5)], .copy 1 0, .clip 1 1 2] = .ok (h, [false, false, false]) ∧
    (h.view 0).map Histo.getCounts = some [1, 1, 5] ∧ (h.view 1).map Histo.getCounts = some [1, 5] := by
  refine ⟨_, rfl, ?_, ?_⟩ <;> decide

end Alexandria.Histogram.Vars
