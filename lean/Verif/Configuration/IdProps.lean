import Verif.Configuration.IdModel
import Mathlib.Data.List.Nodup

/-!
# Properties of the ids of configuration managers
-/

namespace Alexandria.Configuration

/-- **C116**, the full statement: the ids of successive calls are different, whatever the clock shows. -/
def C116_full : Prop := ∀ (readings : List Int) (n : Nat) (ids : List Int), uniqueIds 0 readings n = some ids → ids.Nodup

/-- **C116** fails if the clock is set back: only the last id is remembered. -/
theorem C116_clock_violated : uniqueIds 0 [5, 6, 5] 3 = some [5, 6, 5] := by decide

theorem C116_violated : ¬ C116_full := by
  intro h
  have := h [5, 6, 5] 3 _ C116_clock_violated
  revert this
  decide

/-- **C116** fails with two threads: both read the clock before either stores its id. -/
theorem C116_threads_violated (t : Int) (ht : t ≠ 0) : uniqueIdTwice 0 [t] [t] = some (t, t) := by
  simp [uniqueIdTwice, uniqueId, ht]

theorem uniqueId_spec : ∀ {readings : List Int} {last i : Int} {rest : List Int}, uniqueId last readings = some (i, rest) →
    ∃ k, readings = List.replicate k last ++ i :: rest ∧ i ≠ last
  | [], last, i, rest, h => by cases h
  | t :: readings, last, i, rest, h => by
    rw [uniqueId] at h
    by_cases ht : t = last
    · rw [if_pos ht] at h
      obtain ⟨k, hk, hi⟩ := uniqueId_spec h
      exact ⟨k + 1, by rw [hk, ht]; rfl, hi⟩
    · rw [if_neg ht] at h
      cases h
      exact ⟨0, rfl, ht⟩

/-- An id is the first reading of the clock that differs from the id before; the readings after it remain. -/
theorem C116_reading (last i : Int) (readings rest : List Int) :
    uniqueId last readings = some (i, rest) ↔ ∃ k, readings = List.replicate k last ++ i :: rest ∧ i ≠ last := by
  constructor
  · exact uniqueId_spec
  · rintro ⟨k, rfl, hi⟩
    induction k with
    | zero => rw [List.replicate_zero, List.nil_append, uniqueId, if_neg hi]
    | succ k ih => rw [List.replicate_succ, List.cons_append, uniqueId, if_pos rfl, ih]

example : uniqueId 7 [7, 7, 8, 9] = some (8, [9]) := by decide

/-- **C116** for a clock that never goes back and shows a time after 1970: the ids of any number of successive calls strictly increase. -/
theorem C116_increasing_partial (readings : List Int) (hmono : readings.Pairwise (· ≤ ·)) (last : Int) (hpos : ∀ t ∈ readings, last ≤ t)
    (n : Nat) (ids : List Int) (h : uniqueIds last readings n = some ids) :
    (last :: ids).Pairwise (· < ·) ∧ ids.length = n ∧ ∀ i ∈ ids, i ∈ readings := by
  induction n generalizing last readings ids with
  | zero => cases h; simp
  | succ n ih =>
    rw [uniqueIds] at h
    cases h1 : uniqueId last readings with
    | none => rw [h1] at h; cases h
    | some p =>
      obtain ⟨i, rest⟩ := p
      rw [h1] at h
      cases h2 : uniqueIds i rest n with
      | none => simp [h2] at h
      | some is =>
        simp [h2] at h
        subst h
        obtain ⟨k, rfl, hi⟩ := uniqueId_spec h1
        have hm := (List.pairwise_append.1 hmono).2.1
        rw [List.pairwise_cons] at hm
        obtain ⟨hp, hl, hs⟩ := ih rest hm.2 i hm.1 is h2
        have hli : last < i := by
          have := hpos i (by simp)
          omega
        refine ⟨?_, by simp [hl], ?_⟩
        · rw [List.pairwise_cons]
          refine ⟨?_, hp⟩
          intro j hj
          rw [List.pairwise_cons] at hp
          rcases List.mem_cons.1 hj with rfl | hj
          · exact hli
          · exact Int.lt_trans hli (hp.1 j hj)
        · intro j hj
          rcases List.mem_cons.1 hj with rfl | hj
          · simp
          · have := hs j hj
            simp [this]

example : uniqueIds 0 [10, 10, 10, 11, 11, 14, 15] 3 = some [10, 11, 14] := by decide

/-- **C116**: the call waits exactly as long as the clock shows the last id. -/
theorem C116_waits (last : Int) (readings : List Int) : uniqueId last readings = none ↔ ∀ t ∈ readings, t = last := by
  induction readings with
  | nil => simp [uniqueId]
  | cons t readings ih =>
    rw [uniqueId]
    by_cases ht : t = last
    · rw [if_pos ht, ih]
      simp [ht]
    · rw [if_neg ht]
      simp [ht]

example : uniqueId 7 [7, 7] = none := by decide

/-! ## getInstance -/

theorem getInstance_spec (ms : Managers) (hn : ms.Nodup) (id : Int) :
    ∃ extra, (getInstance ms id).1 = ms ++ extra ∧ (getInstance ms id).1.Nodup ∧ (getInstance ms id).1[(getInstance ms id).2]? = some id := by
  unfold getInstance
  cases h : ms.findIdx? (· == id) with
  | some k =>
    rw [List.findIdx?_eq_some_iff_getElem] at h
    obtain ⟨hk, he, _⟩ := h
    refine ⟨[], by simp, hn, ?_⟩
    simp only
    rw [List.getElem?_eq_getElem hk]
    simpa using he
  | none =>
    rw [List.findIdx?_eq_none_iff] at h
    refine ⟨[id], rfl, ?_, by simp⟩
    rw [List.nodup_append]
    refine ⟨hn, by simp, ?_⟩
    intro a ha b hb
    have := h a ha
    simp at this hb
    rw [hb]; exact this

theorem getInstances_spec (is : List Int) : ∀ (ms : Managers), ms.Nodup →
    ∃ final : Managers, final.Nodup ∧ (∃ extra, final = ms ++ extra) ∧ (getInstances ms is).length = is.length ∧
      ∀ (j : Nat) (k : Nat), (getInstances ms is)[j]? = some k → ∃ i, is[j]? = some i ∧ final[k]? = some i := by
  induction is with
  | nil => intro ms hn; exact ⟨ms, hn, ⟨[], by simp⟩, rfl, fun j k h => by simp [getInstances] at h⟩
  | cons i is ih =>
    intro ms hn
    obtain ⟨e1, h1, h2, h3⟩ := getInstance_spec ms hn i
    obtain ⟨final, hf, ⟨e2, h4⟩, hl, hr⟩ := ih _ h2
    refine ⟨final, hf, ⟨e1 ++ e2, by rw [h4, h1, List.append_assoc]⟩, by simp [getInstances, hl], ?_⟩
    intro j k hj
    cases j with
    | zero =>
      simp only [getInstances, List.getElem?_cons_zero, Option.some.injEq] at hj
      refine ⟨i, rfl, ?_⟩
      subst hj
      rw [h4]
      have hlt := (List.getElem?_eq_some_iff.1 h3).1
      rw [List.getElem?_append_left hlt, h3]
    | succ j =>
      simp only [getInstances, List.getElem?_cons_succ] at hj
      exact hr j k hj

/-- **C117**: two calls of `getInstance` return the same manager exactly if they have the same id, whatever calls come before, between
and after. -/
theorem C117_same_iff (is : List Int) (j k : Nat) (i i' : Int) (hj : is[j]? = some i) (hk : is[k]? = some i') :
    (getInstances [] is)[j]? = (getInstances [] is)[k]? ↔ i = i' := by
  obtain ⟨final, hf, _, hl, hr⟩ := getInstances_spec is [] (by simp)
  have hjl : j < (getInstances [] is).length := by rw [hl]; exact (List.getElem?_eq_some_iff.1 hj).1
  have hkl : k < (getInstances [] is).length := by rw [hl]; exact (List.getElem?_eq_some_iff.1 hk).1
  obtain ⟨x, hx1, hx2⟩ := hr j _ (List.getElem?_eq_getElem hjl)
  obtain ⟨y, hy1, hy2⟩ := hr k _ (List.getElem?_eq_getElem hkl)
  rw [hj] at hx1; cases hx1
  rw [hk] at hy1; cases hy1
  rw [List.getElem?_eq_getElem hjl, List.getElem?_eq_getElem hkl, Option.some.injEq]
  constructor
  · intro h
    rw [h, hy2] at hx2
    exact (Option.some.inj hx2).symm
  · rintro rfl
    obtain ⟨h1, h2⟩ := List.getElem?_eq_some_iff.1 hx2
    obtain ⟨h3, h4⟩ := List.getElem?_eq_some_iff.1 hy2
    exact (List.Nodup.getElem_inj_iff hf).1 (h2.trans h4.symm)

/-- **C117**: a call returns one of the managers there were or makes a new one; the others stay. -/
theorem C117_keeps (ms : Managers) (hn : ms.Nodup) (id : Int) :
    (id ∈ ms → (getInstance ms id).1 = ms) ∧ (id ∉ ms → (getInstance ms id).1 = ms ++ [id]) ∧
      (getInstance ms id).1[(getInstance ms id).2]? = some id := by
  refine ⟨?_, ?_, (getInstance_spec ms hn id).choose_spec.2.2⟩
  · intro h
    unfold getInstance
    cases e : ms.findIdx? (· == id) with
    | some k => rfl
    | none =>
      rw [List.findIdx?_eq_none_iff] at e
      exact absurd (e id h) (by simp)
  · intro h
    unfold getInstance
    cases e : ms.findIdx? (· == id) with
    | none => rfl
    | some k =>
      rw [List.findIdx?_eq_some_iff_getElem] at e
      obtain ⟨hk, he, _⟩ := e
      exact absurd (by rw [← show ms[k] = id by simpa using he]; exact List.getElem_mem hk) h

example : getInstances [] [5, 7, 5, 9, 7] = [0, 1, 0, 2, 1] := by decide

end Alexandria.Configuration
