import Verif.SOM.InitModel
import Verif.SOM.Lemmas
import Mathlib.Tactic.Linarith
import Mathlib.Tactic.Positivity

/-! # C119: the initial weights of a map -/

namespace Alexandria.SOM.Init

variable {K R N : Type}

/-- The values of successive calls. -/
def draws [Add K] [Sub K] [Mul K] [Zero K] (E : Engines K R N) (f : Fun K R N) : Nat → K
  | 0 => (f.call E).1
  | n + 1 => draws E (f.call E).2 n

/-- The function after some calls. -/
def after [Add K] [Sub K] [Mul K] [Zero K] (E : Engines K R N) (f : Fun K R N) : Nat → Fun K R N
  | 0 => f
  | n + 1 => after E (f.call E).2 n

section

variable [Add K] [Sub K] [Mul K] [Zero K] (E : Engines K R N)

theorem draws_after (f : Fun K R N) (n m : Nat) : draws E (after E f n) m = draws E f (n + m) := by
  induction n generalizing f with
  | zero => rw [Nat.zero_add]; rfl
  | succ n ih => rw [after, ih, Nat.succ_add]; rfl

theorem after_after (f : Fun K R N) (n m : Nat) : after E (after E f n) m = after E f (n + m) := by
  induction n generalizing f with
  | zero => rw [Nat.zero_add]; rfl
  | succ n ih => rw [after, ih, Nat.succ_add]; rfl

theorem fillCell_eq (nd : Nat) (f : Fun K R N) : fillCell E nd f = (fun i => draws E f i.val, after E f nd) := by
  induction nd generalizing f with
  | zero => simp only [fillCell, after, Prod.mk.injEq, and_true]; funext i; exact i.elim0
  | succ nd ih =>
    rw [fillCell, ih]
    simp only [after, Prod.mk.injEq, and_true]
    funext i
    refine Fin.cases ?_ (fun j => ?_) i
    · rfl
    · rfl

theorem fillCells_eq (nd n : Nat) (f : Fun K R N) : fillCells E nd n f =
    ((List.range n).map fun c => fun i => draws E f (c * nd + i.val), after E f (n * nd)) := by
  induction n generalizing f with
  | zero => simp only [fillCells, List.range_zero, List.map_nil, Nat.zero_mul]; rfl
  | succ n ih =>
    rw [fillCells, fillCell_eq, ih]
    simp only [List.range_succ_eq_map, List.map_cons, List.map_map, Prod.mk.injEq]
    refine ⟨?_, ?_⟩
    · congr 1
      · funext i; simp
      · apply List.map_congr_left
        intro c _
        funext i
        simp only [Function.comp]
        rw [draws_after, Nat.succ_mul]
        congr 1
        omega
    · rw [after_after, Nat.succ_mul, Nat.add_comm]

/-- The constructor is that of `Model.lean`, with the successive draws. -/
theorem C119_constructor (nd sx sy : Nat) (f : Fun K R N) : construct E nd sx sy f = mkMap nd sx sy (draws E f) := by
  rw [construct, mkMap, fillCells_eq]

/-- The weights are the successive draws: weight `i` of the cell `(x, y)` is draw number `(y * sx + x) * nd + i`. -/
theorem C119_draws (nd sx sy : Nat) (f : Fun K R N) :
    (construct E nd sx sy f).sx = sx ∧ (construct E nd sx sy f).sy = sy ∧ (construct E nd sx sy f).cells.length = sx * sy ∧
    ∀ x y, x < sx → y < sy → (construct E nd sx sy f).at x y = .ok fun i => draws E f ((y * sx + x) * nd + i.val) := by
  refine ⟨rfl, rfl, by simp [construct, fillCells_eq], ?_⟩
  intro x y hx hy
  have hlt : x + y * sx < sx * sy := by
    have : (y + 1) * sx ≤ sy * sx := Nat.mul_le_mul_right sx hy
    rw [Nat.succ_mul] at this
    rw [Nat.mul_comm sx sy]
    omega
  unfold Map.at construct
  simp only [fillCells_eq]
  rw [List.getElem?_map, List.getElem?_range hlt]
  simp only [Option.map_some]
  rw [Nat.add_comm x]

theorem prefix_get {α : Type} {l l' : List α} (h : l <+: l') {i : Nat} {a : α} (hi : l[i]? = some a) : l'[i]? = some a := by
  obtain ⟨t, rfl⟩ := h
  have hlt : i < l.length := by
    by_cases h : i < l.length
    · exact h
    · rw [List.getElem?_eq_none (by omega)] at hi; cases hi
  rw [List.getElem?_append_left hlt, hi]

/-- The functions of a program never change: making maps and functions adds new variables only. -/
theorem step_funs {nd : Nat} (w w' : World nd K R N) (o : Op K) (h : w.step E o = some w') : w.funs <+: w'.funs ∧ w.maps <+: w'.maps := by
  cases o with
  | uniform a b => simp only [World.step, Option.some.injEq] at h; subst h; exact ⟨List.prefix_append _ _, List.prefix_refl _⟩
  | normal s a b => simp only [World.step, Option.some.injEq] at h; subst h; exact ⟨List.prefix_append _ _, List.prefix_refl _⟩
  | build v sx sy =>
    rw [World.step] at h
    split at h
    · simp only [Option.some.injEq] at h; subst h; exact ⟨List.prefix_refl _, List.prefix_append _ _⟩
    · cases h

theorem run_funs {nd : Nat} (os : List (Op K)) : ∀ (w w' : World nd K R N), w.run E os = some w' → w.funs <+: w'.funs ∧ w.maps <+: w'.maps := by
  induction os with
  | nil => intro w w' h; simp only [World.run, Option.some.injEq] at h; subst h; exact ⟨List.prefix_refl _, List.prefix_refl _⟩
  | cons o os ih =>
    intro w w' h
    rw [World.run] at h
    cases hs : w.step E o with
    | none => rw [hs] at h; cases h
    | some w1 =>
      rw [hs] at h
      obtain ⟨a, b⟩ := step_funs E w w1 o hs
      obtain ⟨c, d⟩ := ih w1 w' h
      exact ⟨a.trans c, b.trans d⟩

/-- Whatever the program does, a map has the first draws of its function, and later steps leave it alone. -/
theorem C119_program {nd : Nat} (before rest : List (Op K)) (w w1 w2 : World nd K R N) (v sx sy : Nat) (f : Fun K R N) (hf : w.funs[v]? = some f)
    (h1 : w.run E before = some w1) (h2 : w1.run E (.build v sx sy :: rest) = some w2) :
    w2.maps[w1.maps.length]? = some (construct E nd sx sy f) ∧ w2.funs[v]? = some f := by
  obtain ⟨a, _⟩ := run_funs E before w w1 h1
  have hf1 : w1.funs[v]? = some f := prefix_get a hf
  rw [World.run] at h2
  have hs : w1.step E (.build v sx sy) = some { w1 with maps := w1.maps ++ [construct E nd sx sy f] } := by rw [World.step, hf1]
  rw [hs] at h2
  obtain ⟨c, d⟩ := run_funs E rest _ w2 h2
  exact ⟨prefix_get d (by simp), prefix_get c hf1⟩

end

/-- With numbers of the engine from 0 up to 1, all weights lie between the bounds of `uniformRandom`. -/
theorem C119_range [Field K] [LinearOrder K] [IsStrictOrderedRing K] (E : Engines K R N) (hE : ∀ r, 0 ≤ (E.uni r).1 ∧ (E.uni r).1 < 1) (min max : K) (hm : min < max)
    (nd sx sy x y : Nat) (cell : Fin nd → K) (h : (construct E nd sx sy (uniformRandom E min max)).at x y = .ok cell) (i : Fin nd) :
    min ≤ cell i ∧ cell i < max := by
  have hd : ∀ n (re : R), min ≤ draws E (.uniform min max re) n ∧ draws E (.uniform min max re) n < max := by
    intro n
    induction n with
    | zero =>
      intro re
      obtain ⟨h0, h1⟩ := hE re
      have hp : 0 < max - min := sub_pos.mpr hm
      have ha : 0 ≤ (E.uni re).1 * (max - min) := mul_nonneg h0 hp.le
      have hb : (E.uni re).1 * (max - min) < 1 * (max - min) := mul_lt_mul_of_pos_right h1 hp
      show min ≤ (E.uni re).1 * (max - min) + min ∧ (E.uni re).1 * (max - min) + min < max
      constructor <;> linarith
    | succ n ih => intro re; exact ih (E.uni re).2
  have hmem : cell ∈ (construct E nd sx sy (uniformRandom E min max)).cells := by
    unfold Map.at at h
    split at h
    · rename_i w hw
      cases h
      exact List.mem_of_getElem? hw
    · cases h
  simp only [construct, fillCells_eq, List.mem_map] at hmem
  obtain ⟨c, _, rfl⟩ := hmem
  exact hd _ _

/-- `InitFunc::zero` gives zeros only. -/
theorem C119_zero [Field K] (E : Engines K R N) (nd sx sy x y : Nat) (cell : Fin nd → K) (h : (construct E nd sx sy .zero).at x y = .ok cell) :
    cell = fun _ => 0 := by
  have hd : ∀ n, draws E (.zero : Fun K R N) n = 0 := by
    intro n
    induction n with
    | zero => rfl
    | succ n ih => exact ih
  have hmem : cell ∈ (construct E nd sx sy .zero).cells := by
    unfold Map.at at h
    split at h
    · rename_i w hw
      cases h
      exact List.mem_of_getElem? hw
    · cases h
  simp only [construct, fillCells_eq, List.mem_map] at hmem
  obtain ⟨c, _, rfl⟩ := hmem
  funext i
  exact hd _

/-- The full statement: maps that are made one after the other from one random function have different draws, the second one continuing where the first one ended. -/
def C119_full : Prop := ∀ (E : Engines Rat Nat Nat) (nd sx sy : Nat) (min max : Rat) (w : World nd Rat Nat Nat),
  World.run E ⟨[], []⟩ [.uniform min max, .build 0 sx sy, .build 0 sx sy] = some w →
  ∃ m, w.maps[1]? = some m ∧ ∀ x y, x < sx → y < sy →
    m.at x y = .ok fun i => draws E (uniformRandom E min max) (sx * sy * nd + (y * sx + x) * nd + i.val)

/-- An engine for the examples: the state counts the calls, the numbers are 0, 1/2, 2/3, ... -/
def counter : Engines Rat Nat Nat := ⟨fun r => ((r : Rat) / (r + 1), r + 1), 0, fun n => ((n : Rat), n + 1), fun s _ _ => s⟩

theorem C119_violated : ¬ C119_full := by
  intro h
  obtain ⟨m, hm, hx⟩ := h counter 1 1 1 0 1 ⟨[uniformRandom counter 0 1], [construct counter 1 1 1 (uniformRandom counter 0 1), construct counter 1 1 1 (uniformRandom counter 0 1)]⟩ rfl
  simp only [List.getElem?_cons_succ, List.getElem?_cons_zero, Option.some.injEq] at hm
  subst hm
  have h1 := hx 0 0 (by decide) (by decide)
  rw [(C119_draws counter 1 1 1 (uniformRandom counter 0 1)).2.2.2 0 0 (by decide) (by decide)] at h1
  simp only [Outcome.ok.injEq] at h1
  have h2 := congrFun h1 0
  revert h2
  decide +kernel

/-- What holds instead: two maps of the same size from one function, or from two functions of `uniformRandom` with the same bounds, are always equal, whatever the
program does in between. -/
theorem C119_same {nd : Nat} [Add K] [Sub K] [Mul K] [Zero K] (E : Engines K R N) (mid rest : List (Op K)) (w0 w1 w2 : World nd K R N) (v v' sx sy : Nat) (min max : K)
    (hv : w0.funs[v]? = some (uniformRandom E min max)) (hv' : w0.funs[v']? = some (uniformRandom E min max))
    (h1 : w0.run E (.build v sx sy :: mid) = some w1) (h2 : w1.run E (.build v' sx sy :: rest) = some w2) :
    ∃ m, w2.maps[w0.maps.length]? = some m ∧ w2.maps[w1.maps.length]? = some m ∧ w0.maps.length < w1.maps.length := by
  obtain ⟨a, _⟩ := C119_program E [] mid w0 w0 w1 v sx sy _ hv rfl h1
  obtain ⟨b, _⟩ := C119_program E (.build v sx sy :: mid) rest w0 w1 w2 v' sx sy _ hv' h1 h2
  refine ⟨_, prefix_get (run_funs E _ _ _ h2).2 a, b, ?_⟩
  by_cases h : w0.maps.length < w1.maps.length
  · exact h
  · rw [List.getElem?_eq_none (by omega)] at a; cases a

example : (construct counter 2 2 1 (uniformRandom counter 1 3)).at 1 0 = .ok fun i => draws counter (uniformRandom counter 1 3) (2 + i.val) :=
  (C119_draws counter 2 2 1 _).2.2.2 1 0 (by decide) (by decide)

example : ∀ r, 0 ≤ (counter.uni r).1 ∧ (counter.uni r).1 < 1 := by
  intro r
  have h : (0 : Rat) < (r : Rat) + 1 := by positivity
  exact ⟨by unfold counter; positivity, by show (r : Rat) / (r + 1) < 1; rw [div_lt_one h]; linarith⟩

example : ∃ w0 w1 w2 : World 1 Rat Nat Nat, w0.funs[0]? = some (uniformRandom counter 0 1) ∧ w0.funs[1]? = some (uniformRandom counter 0 1) ∧
    w0.run counter (.build 0 2 1 :: [.normal 7 1 0, .build 2 1 1]) = some w1 ∧ w1.run counter (.build 1 2 1 :: [.uniform 2 3]) = some w2 ∧ w2.maps.length = 3 :=
  ⟨⟨[uniformRandom counter 0 1, uniformRandom counter 0 1], []⟩, _, _, rfl, rfl, rfl, rfl, rfl⟩

example : draws counter (uniformRandom counter 1 3) 1 = 2 ∧ draws counter (uniformRandom counter 1 3) 3 = 5 / 2 := by decide +kernel

end Alexandria.SOM.Init
