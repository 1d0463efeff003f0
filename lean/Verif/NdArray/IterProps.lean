import Verif.NdArray.IterModel
import Verif.NdArray.Lemmas2

/-!
# Property C110: iterators of n-dimensional arrays
-/

namespace Alexandria.NdArray

open Spec

variable {T : Type}

namespace Spec

/-- The position after some movements that all stay between the beginning and the end of `size` elements. -/
def track (size : Nat) : Nat → List Move → Option Nat
  | p, [] => some p
  | p, .inc :: ms => if p + 1 ≤ size then track size (p + 1) ms else none
  | p, .add n :: ms => if p + n ≤ size then track size (p + n) ms else none
  | p, .sub n :: ms => if n ≤ p then track size (p - n) ms else none

end Spec

theorem go_ok (size : Nat) (hs : size < 2 ^ 64) (cid offset row stride : Nat) (ms : List Move) (p q : Nat) (h : track size p ms = some q) (hp : p ≤ size) :
    Iter.go ⟨cid, offset, row, stride, p⟩ ms = .ok ⟨cid, offset, row, stride, q⟩ ∧ q ≤ size := by
  induction ms generalizing p with
  | nil =>
    cases h
    exact ⟨rfl, hp⟩
  | cons m ms ih =>
    cases m with
    | inc =>
      rw [track] at h
      split at h
      · rename_i hle
        obtain ⟨h1, h2⟩ := ih (p + 1) h hle
        refine ⟨?_, h2⟩
        rw [Iter.go, Move.apply, Outcome.bind_ok, Iter.inc, Nat.mod_eq_of_lt (by show p + 1 < _; omega)]
        exact h1
      · cases h
    | add n =>
      rw [track] at h
      split at h
      · rename_i hle
        obtain ⟨h1, h2⟩ := ih (p + n) h hle
        refine ⟨?_, h2⟩
        rw [Iter.go, Move.apply, Outcome.bind_ok, Iter.add, Nat.mod_eq_of_lt (by show p + n < _; omega)]
        exact h1
      · cases h
    | sub n =>
      rw [track] at h
      split at h
      · rename_i hle
        obtain ⟨h1, h2⟩ := ih (p - n) h (by omega)
        refine ⟨?_, h2⟩
        rw [Iter.go, Move.apply, Iter.sub, if_pos hle, Outcome.bind_ok]
        exact h1
      · cases h

/-- What the iterators of a well-formed array are. -/
theorem begin_ok (a : Nd) (ha : WF a) : ∃ u, 0 < u ∧ a.strides.getLast? = some u ∧ a.begin = .ok ⟨a.cid, a.offset, accI32 a.shape, u, 0⟩ ∧
    a.last = .ok ⟨a.cid, a.offset, accI32 a.shape, u, a.size⟩ := by
  obtain ⟨u, hu, hc⟩ := ha.compat
  have := hc.getLast ha.rank
  exact ⟨u, hu, this, by rw [Nd.begin, mkIter, this], by rw [Nd.last, mkIter, this]⟩

theorem wf_size (a : Nd) (ha : WF a) : a.size < 2 ^ 31 := by
  rw [ha.size]
  exact ha.small

theorem bmod_small (p q : Nat) (hp : p < 2 ^ 31) (hq : q < 2 ^ 31) : Int.bmod ((p : Int) - q) (2 ^ 64) = (p : Int) - q := by
  apply Int.bmod_eq_of_le <;> omega

/-- **C110** (partial: without post-increments): iterators that were moved to and fro by any sequence of `++it`, `+= n`, `+ n`, `-= n` and `- n` within the array show, at `it[k]`, the element
`k` places after the position that they have reached; they are the end exactly if they are there, and comparisons and differences are those of the positions. -/
theorem C110_walk_partial (h : Heap T) (a : Nd) (ha : WF a) (l : List T) (hl : iterate h a = .ok l) :
    ∃ b e, a.begin = .ok b ∧ a.last = .ok e ∧ ∀ ms p, track l.length 0 ms = some p → ∃ it, b.go ms = .ok it ∧
      (it.eq e = true ↔ p = l.length) ∧ (∀ k (hk : p + k < l.length), it.read h k = .ok l[p + k]) ∧ e.diff it = .ok ((l.length : Int) - p) ∧
      ∀ ms' p', track l.length 0 ms' = some p' → ∃ it', b.go ms' = .ok it' ∧ (it.eq it' = true ↔ p = p') ∧ it.lt it' = .ok (decide (p < p')) ∧ it.gt it' = .ok (decide (p > p')) ∧
        it.diff it' = .ok ((p : Int) - p') := by
  obtain ⟨u, _, hu, hb, he⟩ := begin_ok a ha
  obtain ⟨hlen, hread⟩ := iterate_ok_spec hu hl
  have hsz := wf_size a ha
  refine ⟨_, _, hb, he, ?_⟩
  intro ms p hp
  rw [hlen] at hp
  obtain ⟨hgo, hle⟩ := go_ok a.size (by omega) a.cid a.offset (accI32 a.shape) u ms 0 p hp (by omega)
  refine ⟨_, hgo, ?_, ?_, ?_, ?_⟩
  · simp [Iter.eq, hlen]
  · intro k hk
    have := hread (p + k) hk
    rw [Iter.read, Iter.index]
    simp only
    rw [Nat.mod_eq_of_lt (by omega)]
    rw [atOffset] at this
    exact this
  · rw [Iter.diff, if_pos rfl, bmod_small _ _ hsz (show p < _ by omega), hlen]
  · intro ms' p' hp'
    rw [hlen] at hp'
    obtain ⟨hgo', hle'⟩ := go_ok a.size (by omega) a.cid a.offset (accI32 a.shape) u ms' 0 p' hp' (by omega)
    refine ⟨_, hgo', ?_, ?_, ?_, ?_⟩
    · simp [Iter.eq]
    · rw [Iter.lt, if_pos rfl]
    · rw [Iter.gt, if_pos rfl]
    · rw [Iter.diff, if_pos rfl, bmod_small _ _ (show p < _ by omega) (show p' < _ by omega)]

/-- **C110**: writing through an iterator replaces the element at its position and nothing else, neither in the array nor in another container. -/
theorem C110_write (h : Heap T) (a : Nd) (ha : WF a) (l : List T) (hl : iterate h a = .ok l) (b : Iter) (hb : a.begin = .ok b) (ms : List Move) (p : Nat) (hp : track l.length 0 ms = some p)
    (k : Nat) (hk : p + k < l.length) (x : T) : ∃ it h', b.go ms = .ok it ∧ it.write h k x = .ok h' ∧ iterate h' a = .ok (l.set (p + k) x) ∧
      ∀ c : Nd, c.cid ≠ a.cid → iterate h' c = iterate h c := by
  obtain ⟨u, hu0, hu, hb', _⟩ := begin_ok a ha
  rw [hb'] at hb
  cases hb
  obtain ⟨hlen, hread⟩ := iterate_ok_spec hu hl
  have hsz := wf_size a ha
  rw [hlen] at hp
  obtain ⟨hgo, hle⟩ := go_ok a.size (by omega) a.cid a.offset (accI32 a.shape) u ms 0 p hp (by omega)
  have hrk := hread (p + k) hk
  rw [atOffset] at hrk
  match hc : h[a.cid]? with
  | none =>
    rw [hc] at hrk
    cases hrk
  | some c =>
    rw [hc] at hrk
    simp only at hrk
    have hin : a.offset + (p + k) * u < c.length := by
      rcases Nat.lt_or_ge (a.offset + (p + k) * u) c.length with hlt | hge
      · exact hlt
      · rw [List.getElem?_eq_none hge] at hrk
        cases hrk
    have hcl : a.cid < h.length := (List.getElem?_eq_some_iff.1 hc).1
    refine ⟨_, h.set a.cid (c.set (a.offset + (p + k) * u) x), hgo, ?_, ?_, ?_⟩
    · rw [Iter.write, Iter.index]
      simp only
      rw [Nat.mod_eq_of_lt (by omega), setOffset, hc]
      simp only
      rw [if_pos hin]
    · rw [iterate, hu]
      simp only
      rw [show (l.set (p + k) x) = (List.range a.size).map fun i => (l.set (p + k) x).getD i x from ?_]
      · refine collect_map_ok _ _ _ ?_
        intro i hi
        rw [List.mem_range] at hi
        rw [atOffset, List.getElem?_set_self hcl]
        simp only
        by_cases hik : i = p + k
        · subst hik
          rw [List.getElem?_set_self hin]
          simp [List.getD, hk]
        · have hne : a.offset + (p + k) * u ≠ a.offset + i * u := by
            intro heq
            exact hik (Nat.eq_of_mul_eq_mul_right hu0 (by omega)).symm
          rw [List.getElem?_set_ne hne]
          have := hread i (by omega)
          rw [atOffset, hc] at this
          simp only at this
          rw [List.getD, List.getElem?_set_ne (Ne.symm hik), List.getElem?_eq_getElem (show i < l.length by omega)]
          exact this
      · apply List.ext_getElem?
        intro i
        by_cases hi : i < a.size
        · rw [List.getElem?_map, List.getElem?_range hi]
          simp only [Option.map_some, List.getD]
          rw [List.getElem?_eq_getElem (by simp; omega)]
          rfl
        · rw [List.getElem?_eq_none (by simp; omega), List.getElem?_eq_none (by simp; omega)]
    · intro d hd
      rw [iterate, iterate]
      have : ∀ o, atOffset (h.set a.cid (c.set (a.offset + (p + k) * u) x)) d o = atOffset h d o := by
        intro o
        rw [atOffset, atOffset, List.getElem?_set_ne (Ne.symm hd)]
      simp only [this]

/-- **C110**: the loop from `begin` to `end` with `++it` ends after `size` steps and meets the elements that the model of the range-based loop gives. -/
theorem C110_loop (h : Heap T) (a : Nd) (ha : WF a) (l : List T) (hl : iterate h a = .ok l) (b e : Iter) (hb : a.begin = .ok b) (he : a.last = .ok e) (fuel : Nat) (hf : l.length < fuel) :
    walk h fuel b e = some (.ok l) := by
  obtain ⟨u, _, hu, hb', he'⟩ := begin_ok a ha
  rw [hb'] at hb
  rw [he'] at he
  cases hb
  cases he
  obtain ⟨hlen, hread⟩ := iterate_ok_spec hu hl
  have hsz := wf_size a ha
  have key : ∀ (fuel p : Nat), l.length < fuel + p → p ≤ l.length →
      walk h fuel ⟨a.cid, a.offset, accI32 a.shape, u, p⟩ ⟨a.cid, a.offset, accI32 a.shape, u, a.size⟩ = some (.ok (l.drop p)) := by
    intro fuel
    induction fuel with
    | zero =>
      intro p h1 h2
      omega
    | succ fuel ih =>
      intro p h1 h2
      rw [walk]
      by_cases hp : p = l.length
      · subst hp
        rw [if_pos (by simp [Iter.eq, hlen]), List.drop_length]
      · have hr := hread p (by omega)
        rw [atOffset] at hr
        rw [if_neg (by simp [Iter.eq]; omega), show Iter.read h ⟨a.cid, a.offset, accI32 a.shape, u, p⟩ 0 = .ok l[p] from ?_]
        · simp only
          rw [Iter.inc]
          simp only
          rw [Nat.mod_eq_of_lt (by omega), ih (p + 1) (by omega) (by omega), List.drop_eq_getElem_cons (show p < l.length by omega)]
          rfl
        · rw [Iter.read, Iter.index]
          simp only
          rw [Nat.mod_eq_of_lt (by omega)]
          exact hr
  have := key fuel 0 (by omega) (by omega)
  rwa [List.drop_zero] at this

/-- The statement for the post-increment: it gives the iterator as it was and moves it on. -/
def C110_post_full : Prop := ∀ (a : Nd) (b : Iter), WF a → 0 < a.size → a.begin = .ok b → b.postInc = (b.inc, b)

/-- The post-increment does it the other way round: the iterator stays where it is and the result is the next one. So a loop with `*it++` skips the first element and never ends. -/
theorem C110_post_violated : ¬ C110_post_full := by
  intro hall
  have := hall ⟨0, 0, [2], [1], [], 2⟩ ⟨0, 0, 2, 1, 0⟩ ⟨⟨1, by omega, rfl, trivial⟩, rfl, by decide, by decide⟩ (by decide) rfl
  revert this
  decide

/-- **C110** (what the code does instead): the usual loop with post-increments never ends on an array of at least two elements. -/
theorem C110_post_loop_violated (h : Heap T) (a : Nd) (ha : WF a) (l : List T) (hl : iterate h a = .ok l) (h2 : 2 ≤ l.length) (b e : Iter) (hb : a.begin = .ok b) (he : a.last = .ok e) :
    ∀ fuel, walkPost h fuel b e = none := by
  obtain ⟨u, _, hu, hb', he'⟩ := begin_ok a ha
  rw [hb'] at hb
  rw [he'] at he
  cases hb
  cases he
  obtain ⟨hlen, hread⟩ := iterate_ok_spec hu hl
  intro fuel
  induction fuel with
  | zero => rfl
  | succ fuel ih =>
    have hr := hread 1 (by omega)
    rw [atOffset] at hr
    rw [walkPost, if_neg (by simp [Iter.eq]; omega), show Iter.read h (Iter.postInc ⟨a.cid, a.offset, accI32 a.shape, u, 0⟩).2 0 = .ok l[1] from ?_]
    · rw [show (Iter.postInc ⟨a.cid, a.offset, accI32 a.shape, u, 0⟩).1 = ⟨a.cid, a.offset, accI32 a.shape, u, 0⟩ from rfl, ih]
      rfl
    · exact hr

/-- The documentation of the comparison: two iterators are equal if they point to the same position on the same data. -/
def C110_same_full : Prop := ∀ (a b : Nd) (i j : Iter), WF a → WF b → a.begin = .ok i → b.begin = .ok j → 0 < a.size → 0 < b.size → i.cid = j.cid → i.index 0 = j.index 0 → i.eq j = true

/-- The first iterators of an array and of its first slice point to the same element of the same data but are not equal. -/
theorem C110_same_violated : ¬ C110_same_full := by
  intro hall
  have := hall ⟨0, 0, [2, 2], [2, 1], [], 4⟩ ⟨0, 0, [2], [1], [], 2⟩ ⟨0, 0, 4, 1, 0⟩ ⟨0, 0, 2, 1, 0⟩ ⟨⟨1, by omega, rfl, rfl, trivial⟩, rfl, by decide, by decide⟩
    ⟨⟨1, by omega, rfl, trivial⟩, rfl, by decide, by decide⟩ rfl rfl (by decide) (by decide) rfl rfl
  revert this
  decide

/-! ## Examples -/

/-- The right slice 1 of an array with three rows and two columns. -/
example : ∃ b e, (⟨0, 1, [3], [2], [], 3⟩ : Nd).begin = .ok b ∧ (⟨0, 1, [3], [2], [], 3⟩ : Nd).last = .ok e ∧
    ∃ it, b.go [.add 3, .sub 2] = .ok it ∧ it.read [[1, 2, 3, 4, 5, 6]] 1 = .ok 6 := by
  obtain ⟨b, e, h1, h2, h3⟩ := C110_walk_partial [[1, 2, 3, 4, 5, 6]] ⟨0, 1, [3], [2], [], 3⟩ ⟨⟨2, by omega, rfl, trivial⟩, rfl, by decide, by decide⟩ [2, 4, 6] rfl
  obtain ⟨it, h4, _, h5, _⟩ := h3 [.add 3, .sub 2] 1 rfl
  exact ⟨b, e, h1, h2, it, h4, h5 1 (by decide)⟩

example : ∃ it h', (⟨0, 1, 3, 2, 0⟩ : Iter).go [.inc] = .ok it ∧ it.write [[1, 2, 3, 4, 5, 6], [7]] 1 9 = .ok h' ∧ iterate h' ⟨0, 1, [3], [2], [], 3⟩ = .ok [2, 4, 9] := by
  obtain ⟨it, h', h1, h2, h3, _⟩ := C110_write [[1, 2, 3, 4, 5, 6], [7]] ⟨0, 1, [3], [2], [], 3⟩ ⟨⟨2, by omega, rfl, trivial⟩, rfl, by decide, by decide⟩ [2, 4, 6] rfl ⟨0, 1, 3, 2, 0⟩ rfl [.inc] 1 rfl 1
    (by decide) 9
  exact ⟨it, h', h1, h2, h3⟩

example : walk [[1, 2, 3, 4, 5, 6]] 10 ⟨0, 1, 3, 2, 0⟩ ⟨0, 1, 3, 2, 3⟩ = some (.ok [2, 4, 6]) :=
  C110_loop [[1, 2, 3, 4, 5, 6]] ⟨0, 1, [3], [2], [], 3⟩ ⟨⟨2, by omega, rfl, trivial⟩, rfl, by decide, by decide⟩ [2, 4, 6] rfl _ _ rfl rfl 10 (by decide)

example : ∀ fuel, walkPost [[1, 2, 3, 4, 5, 6]] fuel ⟨0, 1, 3, 2, 0⟩ ⟨0, 1, 3, 2, 3⟩ = none :=
  C110_post_loop_violated [[1, 2, 3, 4, 5, 6]] ⟨0, 1, [3], [2], [], 3⟩ ⟨⟨2, by omega, rfl, trivial⟩, rfl, by decide, by decide⟩ [2, 4, 6] rfl (by decide) _ _ rfl rfl

end Alexandria.NdArray
