import Verif.Grid.ArchiveModel
import Verif.Grid.FitsLemmas

/-!
# Lemmas about grids in boost archives (C108)
-/

namespace Alexandria.Grid.Archive

open Alexandria.Str Alexandria.XYDataset Alexandria.Grid Alexandria.Grid.Spec Alexandria.Grid.FitsIO

variable {A V T : Type}

namespace Spec

/-- The values that are loaded as they were stored, whatever follows them. -/
def Comes (c : Codec A α) (v : α) : Prop := ∀ rest, c.get (c.put v ++ rest) = .ok (v, rest)

/-- The knots of the axes are loaded as they were stored. -/
def AxesCome (cs : List (Codec A V)) (axes : List (Axis V)) : Prop := List.Forall₂ (fun c (a : Axis V) => ∀ v ∈ a.values, Comes c v) cs axes

end Spec

open Archive.Spec

theorem getMark_ptr (ts : List (Tok A)) : getMark isPtr (.ptr :: ts) = .ok ts := rfl

theorem getMark_header (ts : List (Tok A)) : getMark isHeader (.header :: ts) = .ok ts := rfl

theorem getMany_ok (c : Codec A α) (vs : List α) (h : ∀ v ∈ vs, Comes c v) (rest : List (Tok A)) : getMany c vs.length (vs.flatMap c.put ++ rest) = .ok (vs, rest) := by
  induction vs with
  | nil => rfl
  | cons v vs ih =>
    rw [List.length_cons, getMany, List.flatMap_cons, List.append_assoc, h v (by simp), Outcome.bind_ok]
    simp only
    rw [ih (fun v hv => h v (List.mem_cons_of_mem _ hv)), Outcome.bind_ok]
    rfl

theorem getAxis_ok (c : Codec A V) (a : Axis V) (h : ∀ v ∈ a.values, Comes c v) (rest : List (Tok A)) : getAxis c (putAxis c a ++ rest) = .ok (a, rest) := by
  rw [putAxis, getAxis, List.cons_append, getText, Outcome.bind_ok]
  simp only
  rw [List.cons_append, getNum, Outcome.bind_ok]
  simp only
  rw [Axis.size, getMany_ok c a.values h, Outcome.bind_ok]
  simp only
  rw [String.ofList_toList]
  rfl

theorem getAxes_ok {cs : List (Codec A V)} {axes : List (Axis V)} (h : AxesCome cs axes) (rest : List (Tok A)) :
    getAxes cs (putAxes cs axes ++ rest) = .ok (axes.reverse, rest) := by
  induction h with
  | nil => rfl
  | @cons c a cs as ha _ ih =>
    rw [putAxes, getAxes, List.cons_append, List.cons_append, getMark_ptr, Outcome.bind_ok, List.append_assoc, getAxis_ok c a ha, Outcome.bind_ok]
    simp only
    rw [ih, Outcome.bind_ok]
    simp only [List.reverse_cons]
    rfl

theorem putCells_ok (c : Codec A T) (cs : List T) : ∀ ps : List Nat, (∀ p ∈ ps, p < cs.length) →
    ∃ xs : List T, putCells c cs ps = .ok (xs.flatMap c.put) ∧ xs.length = ps.length ∧ ∀ (j p : Nat), ps[j]? = some p → xs[j]? = cs[p]? := by
  intro ps
  induction ps with
  | nil => intro _; exact ⟨[], rfl, rfl, fun j p h => by simp at h⟩
  | cons p ps ih =>
    intro hp
    have hlt := hp p (by simp)
    obtain ⟨xs, h1, h2, h3⟩ := ih fun q hq => hp q (List.mem_cons_of_mem _ hq)
    refine ⟨cs[p] :: xs, ?_, by simp [h2], ?_⟩
    · rw [putCells, List.getElem?_eq_getElem hlt]
      simp only
      rw [h1, Outcome.bind_ok]
      rfl
    · intro j q hj
      cases j with
      | zero => simp only [List.getElem?_cons_zero, Option.some.injEq] at hj; subst hj; simp [List.getElem?_eq_getElem hlt]
      | succ j => simpa using h3 j q (by simpa using hj)

theorem getCells_ok (c : Codec A T) (rest : List (Tok A)) : ∀ (xs : List T) (i : Nat) (done old : List T), done.length = i → old.length = xs.length → (∀ x ∈ xs, Comes c x) →
    getCells c (List.range' i xs.length) (xs.flatMap c.put ++ rest) (done ++ old) = .ok (done ++ xs, rest) := by
  intro xs
  induction xs with
  | nil => intro i done old h1 h2 _; rw [List.length_eq_zero_iff.1 h2]; rfl
  | cons x xs ih =>
    intro i done old h1 h2 h
    obtain ⟨r, old, rfl⟩ : ∃ r rs, old = r :: rs := List.exists_cons_of_length_eq_add_one h2
    rw [List.length_cons, List.range'_succ, getCells, List.flatMap_cons, List.append_assoc, h x (by simp), Outcome.bind_ok]
    simp only
    rw [if_pos (by simp [h1]), List.set_append_right _ _ (by omega), h1, Nat.sub_self, List.set_cons_zero]
    have := ih (i + 1) (done ++ [x]) old (by simp [h1]) (by simpa using h2) (fun y hy => h y (List.mem_cons_of_mem _ hy))
    rw [List.append_assoc, List.singleton_append, List.append_assoc, List.singleton_append] at this
    exact this

theorem fixIteratorAxes_none (szs : List Nat) (axes : List (Axis V)) (k : Nat) (it : Iter) : fixIteratorAxes szs (axes.map fun _ => none) k it = .ok it := by
  induction axes generalizing k with
  | nil => rfl
  | cons a as ih => rw [List.map_cons, fixIteratorAxes]; exact ih _

/-- The iteration over a new grid, also if it has no cells. -/
theorem positions_new (axes : List (Axis V)) : positions (Grid.mk axes) = .ok (List.range (cellCount axes)) := by
  by_cases h : ∃ a ∈ axes, a.values = []
  · have h0 : cellCount axes = 0 := by
      rw [cellCount_eq]
      obtain ⟨a, ha, he⟩ := h
      have : ∀ l : List (Axis V), a ∈ l → total (sizes l) = 0 := by
        intro l
        induction l with
        | nil => intro h; cases h
        | cons b l ih =>
          intro hm
          rcases List.mem_cons.1 hm with rfl | hm
          · simp [sizes, total, Axis.size, he]
          · have := ih hm
            simp only [sizes] at this
            simp [sizes, total, this]
      exact this axes ha
    have hb : (Grid.mk axes).begin' = .ok ⟨0, axes.map fun _ => none⟩ := fixIteratorAxes_none _ _ _ _
    rw [positions, hb, Outcome.bind_ok, show (Grid.mk axes).axes = axes from rfl, h0]
    rfl
  · have hne : ∀ a ∈ axes, a.values ≠ [] := fun a ha he => h ⟨a, ha, he⟩
    have hp : ∀ s ∈ sizes axes, 0 < s := by
      intro s hs'
      simp only [sizes, List.mem_map] at hs'
      obtain ⟨a, ha, rfl⟩ := hs'
      exact List.length_pos_iff.2 (hne a ha)
    have hnone : (Grid.mk axes).fixed = (sizes axes).map fun _ => none := by simp [Grid.mk, sizes, Function.comp_def]
    rw [positions_ok axes hne _ Reach.new, hnone, cells_new _ hp, cellCount_eq]

theorem gridExport_ok (ac : List (Codec A V)) (cc : Codec A T) (g : GridC V) (cs : List T) (ps : List Nat) (hpos : positions g = .ok ps) (hlt : ∀ p ∈ ps, p < cs.length) (hlen : ps.length = g.size)
    (ha : AxesCome ac g.axesFixed) (hc : ∀ x ∈ cs, Comes cc x) (cell0 : T) :
    ∃ ts xs, gridExport ac cc g cs = .ok ts ∧ xs.length = cellCount g.axesFixed ∧ (∀ (j p : Nat), ps[j]? = some p → xs[j]? = cs[p]?) ∧
      ∀ rest, gridImport ac cc cell0 (ts ++ rest) = .ok ((Grid.mk g.axesFixed, xs), rest) := by
  obtain ⟨xs, h1, h2, h3⟩ := putCells_ok cc cs ps hlt
  have hcc : g.size = cellCount g.axesFixed := by rw [size_eq, cellCount_eq]
  refine ⟨_, xs, by rw [gridExport, hpos]; simp only [liftGrid, Outcome.bind_ok]; rw [h1, Outcome.bind_ok]; rfl, by omega, h3, fun rest => ?_⟩
  have har : AxesCome ac.reverse g.axesFixed.reverse := List.forall₂_reverse_iff.2 ha
  have hxs : ∀ x ∈ xs, Comes cc x := by
    intro x hx
    obtain ⟨j, hj, rfl⟩ := List.getElem_of_mem hx
    have h4 := h3 j (ps[j]'(by omega)) (List.getElem?_eq_getElem (by omega))
    rw [List.getElem?_eq_getElem hj] at h4
    exact hc _ (List.mem_of_getElem? h4.symm)
  rw [gridImport, List.cons_append, List.cons_append, List.cons_append, List.cons_append, getMark_header, Outcome.bind_ok, getMark_ptr, Outcome.bind_ok, List.append_assoc,
    getAxes_ok har, Outcome.bind_ok]
  simp only [List.reverse_reverse]
  rw [positions_new]
  simp only [liftGrid, Outcome.bind_ok]
  have := getCells_ok cc rest xs 0 [] (List.replicate (cellCount g.axesFixed) cell0) rfl (by simp; omega) hxs
  rw [show xs.length = cellCount g.axesFixed by omega, ← List.range_eq_range', List.nil_append, List.nil_append] at this
  rw [this, Outcome.bind_ok]
  rfl

end Alexandria.Grid.Archive
