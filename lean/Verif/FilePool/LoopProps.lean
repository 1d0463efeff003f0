import Verif.FilePool.LoopModel
import Mathlib.Data.List.Count
import Mathlib.Tactic.Common

/-! # C73: threads that open and close files again and again -/

namespace Alexandria.FilePool

theorem count_move (x : LoopPC) : ∀ (l : List LoopPC) (i : Nat) (a b : LoopPC), l[i]? = some a →
    (l.set i b).count x + (if a = x then 1 else 0) = l.count x + (if b = x then 1 else 0)
  | [], i, a, b, e => by simp at e
  | c :: l, 0, a, b, e => by
    simp at e; subst e
    simp [List.count_cons]; omega
  | c :: l, i + 1, a, b, e => by
    simp at e
    have := count_move x l i a b e
    simp [List.count_cons]; omega

theorem count_total : ∀ l : List LoopPC,
    l.count .idle + l.count .opening + l.count .opened + l.count .filed + l.count .closing + l.count .removed = l.length
  | [] => rfl
  | c :: l => by
    have := count_total l
    cases c <;> simp [List.count_cons] <;> omega

structure LoopInv (limit n : Nat) (s : Loop) : Prop where
  lim : s.limit = limit
  len : s.pcs.length = n
  files : s.os + s.pcs.count .closing + s.pcs.count .removed = s.files + s.pcs.count .opened
  sorted : s.sorted + s.pcs.count .removed + s.pcs.count .filed = s.files
  less : s.pcs.count .closing ≤ s.sorted
  bound : s.files + s.pcs.count .opened + s.pcs.count .opening ≤ limit - 1 + n

theorem loop_step {limit n : Nat} (hl : 1 ≤ limit) {s s' : Loop} (h : LoopInv limit n s) (a : LoopAction) (hs : s.step a = some s') : LoopInv limit n s' := by
  obtain ⟨h1, h2, h3, h4, h6, h5⟩ := h
  have key : ∀ (i : Nat) (b c : LoopPC), s.pcs[i]? = some b → ∀ x, (s.pcs.set i c).count x + (if b = x then 1 else 0) = s.pcs.count x + (if c = x then 1 else 0) :=
    fun i b c hb x => count_move x s.pcs i b c hb
  have pos : ∀ (i : Nat) (b : LoopPC), s.pcs[i]? = some b → 0 < s.pcs.count b := fun i b hb => List.count_pos_iff.mpr (List.mem_of_getElem? hb)
  cases a with
  | «open» i =>
    simp only [Loop.step] at hs
    by_cases hp : s.pcs[i]? = some .idle
    · rw [if_pos hp] at hs
      by_cases hf : s.files ≥ s.limit
      · rw [if_pos hf] at hs; cases hs; exact ⟨h1, h2, h3, h4, h6, h5⟩
      · rw [if_neg hf] at hs; cases hs
        have k := key i .idle .opening hp
        have k1 := k .closing
        have k2 := k .removed
        have k3 := k .opened
        have k4 := k .filed
        have k5 := k .opening
        have tot := count_total (s.pcs.set i .opening)
        simp at k1 k2 k3 k4 k5
        rw [List.length_set] at tot
        refine ⟨h1, by simpa using h2, ?_, ?_, ?_, ?_⟩ <;> simp only <;> omega
    · rw [if_neg hp] at hs; cases hs
  | fail i =>
    simp only [Loop.step] at hs
    by_cases hp : s.pcs[i]? = some .opening
    · rw [if_pos hp] at hs; cases hs
      have k := key i .opening .idle hp
      have k1 := k .closing
      have k2 := k .removed
      have k3 := k .opened
      have k4 := k .filed
      have k5 := k .opening
      simp at k1 k2 k3 k4 k5
      refine ⟨h1, by simpa using h2, ?_, ?_, ?_, ?_⟩ <;> simp only <;> omega
    · rw [if_neg hp] at hs; cases hs
  | close i =>
    simp only [Loop.step] at hs
    by_cases hp : s.pcs[i]? = some .idle ∧ s.pcs.count .closing < s.sorted
    · rw [if_pos hp] at hs; cases hs
      have k := key i .idle .closing hp.1
      have k1 := k .closing
      have k2 := k .removed
      have k3 := k .opened
      have k4 := k .filed
      have k5 := k .opening
      simp at k1 k2 k3 k4 k5
      have := hp.2
      refine ⟨h1, by simpa using h2, ?_, ?_, ?_, ?_⟩ <;> simp only <;> omega
    · rw [if_neg hp] at hs; cases hs
  | move i =>
    simp only [Loop.step] at hs
    cases hp : s.pcs[i]? with
    | none => rw [hp] at hs; cases hs
    | some c =>
      rw [hp] at hs
      have hpos := pos i c hp
      cases c with
      | idle => simp only at hs; cases hs
      | opening =>
        simp only at hs; cases hs
        have k := key i .opening .opened hp
        have k1 := k .closing
        have k2 := k .removed
        have k3 := k .opened
        have k4 := k .filed
        have k5 := k .opening
        simp at k1 k2 k3 k4 k5
        refine ⟨h1, by simpa using h2, ?_, ?_, ?_, ?_⟩ <;> simp only <;> omega
      | opened =>
        simp only at hs; cases hs
        have k := key i .opened .filed hp
        have k1 := k .closing
        have k2 := k .removed
        have k3 := k .opened
        have k4 := k .filed
        have k5 := k .opening
        simp at k1 k2 k3 k4 k5
        refine ⟨h1, by simpa using h2, ?_, ?_, ?_, ?_⟩ <;> simp only <;> omega
      | filed =>
        simp only at hs; cases hs
        have k := key i .filed .idle hp
        have k1 := k .closing
        have k2 := k .removed
        have k3 := k .opened
        have k4 := k .filed
        have k5 := k .opening
        simp at k1 k2 k3 k4 k5
        refine ⟨h1, by simpa using h2, ?_, ?_, ?_, ?_⟩ <;> simp only <;> omega
      | closing =>
        simp only at hs; cases hs
        have k := key i .closing .removed hp
        have k1 := k .closing
        have k2 := k .removed
        have k3 := k .opened
        have k4 := k .filed
        have k5 := k .opening
        simp at k1 k2 k3 k4 k5
        refine ⟨h1, by simpa using h2, ?_, ?_, ?_, ?_⟩ <;> simp only <;> omega
      | removed =>
        simp only at hs; cases hs
        have k := key i .removed .idle hp
        have k1 := k .closing
        have k2 := k .removed
        have k3 := k .opened
        have k4 := k .filed
        have k5 := k .opening
        simp at k1 k2 k3 k4 k5
        refine ⟨h1, by simpa using h2, ?_, ?_, ?_, ?_⟩ <;> simp only <;> omega

theorem loop_new (limit n : Nat) : LoopInv limit n (Loop.new limit n) := by
  refine ⟨rfl, by simp [Loop.new], ?_, ?_, ?_, ?_⟩ <;> simp [Loop.new, List.count_replicate]

theorem loop_run {limit n : Nat} (hl : 1 ≤ limit) : ∀ (as : List LoopAction) {s s' : Loop}, LoopInv limit n s → s.run as = some s' → LoopInv limit n s'
  | [], s, s', h, e => by cases e; exact h
  | a :: as, s, s', h, e => by
    simp only [Loop.run] at e
    cases ha : s.step a with
    | none => rw [ha] at e; cases e
    | some t => rw [ha] at e; exact loop_run hl as (loop_step hl h a ha) e

theorem run_append : ∀ (as bs : List LoopAction) (s : Loop), s.run (as ++ bs) = (s.run as).bind (·.run bs)
  | [], bs, s => rfl
  | a :: as, bs, s => by
    simp only [List.cons_append, Loop.run]
    cases s.step a with
    | none => rfl
    | some t => exact run_append as bs t

/-- Thread `0` opens `k` files, one after the other. -/
def Spec.openOnes (k : Nat) : List LoopAction := (List.replicate k [.open 0, .move 0, .move 0, .move 0]).flatten

/-- Threads `0 … n-1` make the same action, one after the other. -/
def Spec.each (n : Nat) (f : Nat → LoopAction) : List LoopAction := (List.range n).map f

theorem run_openOnes (limit n : Nat) (hn : 1 ≤ n) : ∀ (k j : Nat), j + k ≤ limit →
    Loop.run ⟨limit, j, j, j, List.replicate n .idle⟩ (Spec.openOnes k) = some ⟨limit, j + k, j + k, j + k, List.replicate n .idle⟩
  | 0, j, h => rfl
  | k + 1, j, h => by
    obtain ⟨m, rfl⟩ : ∃ m, n = m + 1 := ⟨n - 1, by omega⟩
    have e : Spec.openOnes (k + 1) = [.open 0, .move 0, .move 0, .move 0] ++ Spec.openOnes k := by
      simp [Spec.openOnes, List.replicate_succ]
    have lt : ¬ (j ≥ limit) := by omega
    rw [e, run_append]
    simp [Loop.run, Loop.step, List.replicate_succ, lt]
    have := run_openOnes limit (m + 1) hn k (j + 1) (by omega)
    rw [List.replicate_succ] at this
    rw [this]; congr 2 <;> omega

theorem replicate_step {α : Type} (x y : α) (i m : Nat) :
    (List.replicate i y ++ List.replicate (m + 1) x)[i]? = some x ∧ (List.replicate i y ++ List.replicate (m + 1) x).set i y = List.replicate (i + 1) y ++ List.replicate m x := by
  constructor
  · rw [List.getElem?_append_right (by simp)]; simp [List.replicate_succ]
  · rw [List.set_append_right _ _ (by simp)]
    rw [List.replicate_succ (n := m), List.replicate_succ' (n := i), List.append_assoc]
    simp

theorem run_opens (limit k : Nat) (hk : k < limit) : ∀ (m i : Nat),
    Loop.run ⟨limit, k, k, k, List.replicate i .opening ++ List.replicate m .idle⟩ ((List.range' i m).map .open) = some ⟨limit, k, k, k, List.replicate (i + m) .opening⟩
  | 0, i => by simp [Loop.run]
  | m + 1, i => by
    obtain ⟨e1, e2⟩ := replicate_step LoopPC.idle LoopPC.opening i m
    have lt : ¬ (k ≥ limit) := by omega
    rw [List.range'_succ, List.map_cons, Loop.run]
    simp only [Loop.step, e1, if_pos, if_neg lt, e2]
    rw [run_opens limit k hk m (i + 1)]
    congr 3; omega

theorem run_moves (limit k : Nat) : ∀ (m i : Nat),
    Loop.run ⟨limit, k + i, k, k, List.replicate i .opened ++ List.replicate m .opening⟩ ((List.range' i m).map .move) = some ⟨limit, k + i + m, k, k, List.replicate (i + m) .opened⟩
  | 0, i => by simp [Loop.run]
  | m + 1, i => by
    obtain ⟨e1, e2⟩ := replicate_step LoopPC.opening LoopPC.opened i m
    rw [List.range'_succ, List.map_cons, Loop.run]
    simp only [Loop.step, e1, e2]
    have := run_moves limit k m (i + 1)
    rw [← Nat.add_assoc] at this
    rw [this]
    congr 2
    · omega
    · congr 1; omega

theorem run_files (limit k o : Nat) : ∀ (m i : Nat),
    Loop.run ⟨limit, o, k + i, k, List.replicate i .filed ++ List.replicate m .opened⟩ ((List.range' i m).map .move) = some ⟨limit, o, k + i + m, k, List.replicate (i + m) .filed⟩
  | 0, i => by simp [Loop.run]
  | m + 1, i => by
    obtain ⟨e1, e2⟩ := replicate_step LoopPC.opened LoopPC.filed i m
    rw [List.range'_succ, List.map_cons, Loop.run]
    simp only [Loop.step, e1, e2]
    have := run_files limit k o m (i + 1)
    rw [← Nat.add_assoc] at this
    rw [this]
    congr 2
    · omega
    · congr 1; omega

theorem run_sorts (limit k o f : Nat) : ∀ (m i : Nat),
    Loop.run ⟨limit, o, f, k + i, List.replicate i .idle ++ List.replicate m .filed⟩ ((List.range' i m).map .move) = some ⟨limit, o, f, k + i + m, List.replicate (i + m) .idle⟩
  | 0, i => by simp [Loop.run]
  | m + 1, i => by
    obtain ⟨e1, e2⟩ := replicate_step LoopPC.filed LoopPC.idle i m
    rw [List.range'_succ, List.map_cons, Loop.run]
    simp only [Loop.step, e1, e2]
    have := run_sorts limit k o f m (i + 1)
    rw [← Nat.add_assoc] at this
    rw [this]
    congr 2
    · omega
    · congr 1; omega

/-- **C73** However often `n` threads open and close files, and whatever the order of their steps, no more than `limit - 1 + n` files are ever open, as the operating system counts them,
as `m_files` does and as `getUsed` does; a single thread never has more than the limit open; and whenever all threads are outside of the manager the three counts are the same. -/
theorem C73_loop (limit n : Nat) (hl : 1 ≤ limit) (as : List LoopAction) (s : Loop) (h : (Loop.new limit n).run as = some s) :
    s.os ≤ limit - 1 + n ∧ s.files ≤ limit - 1 + n ∧ s.used ≤ limit - 1 + n ∧ (n = 1 → s.os ≤ limit) ∧
    ((∀ pc ∈ s.pcs, pc = .idle) → s.os = s.files ∧ s.used = s.files) := by
  have i := loop_run hl as (loop_new limit n) h
  have h1 := i.files
  have h2 := i.sorted
  have h3 := i.bound
  unfold Loop.used
  refine ⟨by omega, by omega, by omega, by omega, fun hi => ?_⟩
  have z : ∀ c : LoopPC, c ≠ .idle → s.pcs.count c = 0 := fun c hc => List.count_eq_zero.mpr fun hm => hc (hi c hm)
  have z1 := z .closing (by decide)
  have z2 := z .removed (by decide)
  have z3 := z .opened (by decide)
  have z4 := z .filed (by decide)
  omega

/-- One thread opens `limit - 1` files; then all `n` make the test, and after that all open a file. -/
def Spec.crowd (limit n : Nat) : List LoopAction :=
  Spec.openOnes (limit - 1) ++ (Spec.each n .open ++ (Spec.each n .move ++ (Spec.each n .move ++ Spec.each n .move)))

/-- **C73** The bound is attained, for every limit and every number of threads: there is an execution after which `limit - 1 + n` files are open, all threads being outside of the
manager; if there are two threads or more, `getAvailable` then answers a number near `2³²`, and so `used + available` is not the limit. -/
theorem C73_loop_attained (limit n : Nat) (hl : 1 ≤ limit) (hn : 1 ≤ n) :
    ∃ s, (Loop.new limit n).run (Spec.crowd limit n) = some s ∧ s.os = limit - 1 + n ∧ s.used = limit - 1 + n ∧ (∀ pc ∈ s.pcs, pc = .idle) ∧
      (2 ≤ n → limit < 2 ^ 32 → n ≤ 2 ^ 32 → s.available = 2 ^ 32 - (n - 1)) := by
  have e1 := run_openOnes limit n hn (limit - 1) 0 (by omega)
  have e2 := run_opens limit (limit - 1) (by omega) n 0
  have e3 := run_moves limit (limit - 1) n 0
  have e4 := run_files limit (limit - 1) (limit - 1 + n) n 0
  have e5 := run_sorts limit (limit - 1) (limit - 1 + n) (limit - 1 + n) n 0
  simp only [Nat.zero_add, Nat.add_zero, List.replicate_zero, List.nil_append, ← List.range_eq_range'] at e1 e2 e3 e4 e5
  refine ⟨⟨limit, limit - 1 + n, limit - 1 + n, limit - 1 + n, List.replicate n .idle⟩, ?_, rfl, rfl, fun pc hp => (List.mem_replicate.mp hp).2, fun h1 h2 h3 => ?_⟩
  · unfold Spec.crowd Loop.new Spec.each
    rw [run_append, e1, Option.bind_some, run_append, e2, Option.bind_some, run_append, e3, Option.bind_some, run_append, e4, Option.bind_some, e5]
  · show (limit + 2 ^ 32 - (limit - 1 + n)) % 2 ^ 32 = 2 ^ 32 - (n - 1)
    rw [Nat.mod_eq_of_lt (by omega)]; omega

/-- **C73** `used + available` is the limit, in exactly the states where no more files than that are in use. -/
theorem C73_loop_available (s : Loop) (hl : s.limit < 2 ^ 32) (hs : s.sorted < 2 ^ 32) : s.used + s.available = s.limit ↔ s.used ≤ s.limit := by
  unfold Loop.used Loop.available
  by_cases h : s.sorted ≤ s.limit
  · have e : s.limit + 2 ^ 32 - s.sorted = (s.limit - s.sorted) + 2 ^ 32 := by omega
    rw [e, Nat.add_mod_right, Nat.mod_eq_of_lt (by omega)]; omega
  · constructor
    · intro e
      omega
    · intro e; exact absurd e h

/-- Three threads, limit two: four files are open after the execution, and three threads that close one after the other bring the number down again. -/
example : ((Loop.new 2 3).run (Spec.crowd 2 3)).map (fun s => (s.os, s.used, s.available)) = some (4, 4, 4294967294) := by decide +kernel

example : ((Loop.new 2 3).run (Spec.crowd 2 3 ++ [.close 0, .close 1, .move 0, .open 2, .move 1, .move 1, .move 0, .open 2])).map (fun s => (s.os, s.files, s.used, s.pcs)) =
    some (2, 2, 2, [.idle, .idle, .idle]) := by decide +kernel

example : (⟨2, 4, 4, 4, [.idle]⟩ : Loop).used ≤ 2 ↔ False := by decide

end Alexandria.FilePool
