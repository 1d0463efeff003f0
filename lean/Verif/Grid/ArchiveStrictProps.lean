import Verif.Grid.ArchiveProps

/-!
# What is accepted from boost archives (C144)
-/

namespace Alexandria.Grid.Archive

open Alexandria.Str Alexandria.XYDataset Alexandria.Grid Alexandria.Grid.Spec Alexandria.Grid.FitsIO

variable {A V T : Type}

open Archive.Spec FitsIO.Spec

namespace Spec

/-- From any stream the value is loaded that is stored at its beginning, and that value comes back whenever it is stored, or an exception is thrown. -/
def Strict (c : Codec A α) : Prop := ∀ ts, (∃ v rest, c.get ts = .ok (v, rest) ∧ ts = c.put v ++ rest ∧ Comes c v) ∨ ∃ e, c.get ts = .throw e

end Spec

theorem getText_strict (ts : List (Tok A)) : (∃ s rest, getText ts = .ok (s, rest) ∧ ts = .text s :: rest) ∨ getText ts = .throw .stream := by
  unfold getText
  split
  · exact Or.inl ⟨_, _, rfl, rfl⟩
  · exact Or.inr rfl

theorem getNum_strict (ts : List (Tok A)) : (∃ n rest, getNum ts = .ok (n, rest) ∧ ts = .num n :: rest) ∨ getNum ts = .throw .stream := by
  unfold getNum
  split
  · exact Or.inl ⟨_, _, rfl, rfl⟩
  · exact Or.inr rfl

theorem getPtr_strict (ts : List (Tok A)) : (∃ rest, getMark isPtr ts = .ok rest ∧ ts = .ptr :: rest) ∨ getMark isPtr ts = .throw .stream := by
  cases ts with
  | nil => exact Or.inr rfl
  | cons t ts => cases t with
    | ptr => exact Or.inl ⟨_, rfl, rfl⟩
    | _ => exact Or.inr rfl

theorem getHeader_strict (ts : List (Tok A)) : (∃ rest, getMark isHeader ts = .ok rest ∧ ts = .header :: rest) ∨ getMark isHeader ts = .throw .stream := by
  cases ts with
  | nil => exact Or.inr rfl
  | cons t ts => cases t with
    | header => exact Or.inl ⟨_, rfl, rfl⟩
    | _ => exact Or.inr rfl

theorem getMany_strict {c : Codec A α} (h : Strict c) (n : Nat) : ∀ ts, (∃ vs rest, getMany c n ts = .ok (vs, rest) ∧ vs.length = n ∧ ts = vs.flatMap c.put ++ rest ∧ ∀ v ∈ vs, Comes c v) ∨
    ∃ e, getMany c n ts = .throw e := by
  induction n with
  | zero => intro ts; exact Or.inl ⟨[], ts, rfl, rfl, rfl, by simp⟩
  | succ n ih =>
    intro ts
    rw [getMany]
    rcases h ts with ⟨v, r, h1, h2, hv⟩ | ⟨e, h1⟩
    · rw [h1, Outcome.bind_ok]
      simp only
      rcases ih r with ⟨vs, r2, h3, h4, h5, hvs⟩ | ⟨e, h3⟩
      · rw [h3, Outcome.bind_ok]
        exact Or.inl ⟨v :: vs, r2, rfl, by simp [h4], by rw [h2, h5, List.flatMap_cons, List.append_assoc], List.forall_mem_cons.mpr ⟨hv, hvs⟩⟩
      · rw [h3]; exact Or.inr ⟨e, rfl⟩
    · rw [h1]; exact Or.inr ⟨e, rfl⟩

theorem textCodec_strict : Strict (textCodec : Codec A Bytes) := by
  intro ts
  rcases getText_strict ts with ⟨s, r, h1, h2⟩ | h
  · exact Or.inl ⟨s, r, h1, h2, fun _ => rfl⟩
  · exact Or.inr ⟨_, h⟩

theorem getAxis_strict {c : Codec A V} (h : Strict c) (ts : List (Tok A)) : (∃ a rest, getAxis c ts = .ok (a, rest) ∧ ts = putAxis c a ++ rest ∧ ∀ v ∈ a.values, Comes c v) ∨ ∃ e, getAxis c ts = .throw e := by
  rw [getAxis]
  rcases getText_strict ts with ⟨s, r, h1, h2⟩ | h1
  · rw [h1, Outcome.bind_ok]
    simp only
    rcases getNum_strict r with ⟨n, r2, h3, h4⟩ | h3
    · rw [h3, Outcome.bind_ok]
      simp only
      rcases getMany_strict h n r2 with ⟨vs, r3, h5, h6, h7, hvs⟩ | ⟨e, h5⟩
      · rw [h5, Outcome.bind_ok]
        refine Or.inl ⟨_, _, rfl, ?_, hvs⟩
        rw [h2, h4, h7, putAxis, Axis.size, h6, String.toList_ofList]
        rfl
      · rw [h5]; exact Or.inr ⟨e, rfl⟩
    · rw [h3]; exact Or.inr ⟨_, rfl⟩
  · rw [h1]; exact Or.inr ⟨_, rfl⟩

theorem getAxes_strict {cs : List (Codec A V)} (h : ∀ c ∈ cs, Strict c) : ∀ ts, (∃ axes rest, getAxes cs ts = .ok (axes, rest) ∧ axes.length = cs.length ∧ ts = putAxes cs axes.reverse ++ rest ∧ AxesCome cs axes.reverse) ∨
    ∃ e, getAxes cs ts = .throw e := by
  induction cs with
  | nil => intro ts; exact Or.inl ⟨[], ts, rfl, rfl, rfl, .nil⟩
  | cons c cs ih =>
    intro ts
    rw [getAxes]
    rcases getPtr_strict ts with ⟨r, h1, h2⟩ | h1
    · rw [h1, Outcome.bind_ok]
      rcases getAxis_strict (h c (by simp)) r with ⟨a, r2, h3, h4, hv⟩ | ⟨e, h3⟩
      · rw [h3, Outcome.bind_ok]
        simp only
        rcases ih (fun c hc => h c (List.mem_cons_of_mem _ hc)) r2 with ⟨as, r3, h5, h6, h7, hvs⟩ | ⟨e, h5⟩
        · rw [h5, Outcome.bind_ok]
          refine Or.inl ⟨_, _, rfl, by simp [h6], ?_, by
            rw [List.reverse_append, List.reverse_singleton, List.singleton_append]
            exact .cons hv hvs⟩
          rw [h2, h4, h7, List.reverse_append, List.reverse_singleton, List.singleton_append, putAxes]
          simp
        · rw [h5]; exact Or.inr ⟨e, rfl⟩
      · rw [h3]; exact Or.inr ⟨e, rfl⟩
    · rw [h1]; exact Or.inr ⟨_, rfl⟩

theorem getCells_strict {c : Codec A T} (h : Strict c) : ∀ (n i : Nat) (ts : List (Tok A)) (done old : List T), done.length = i → old.length = n →
    (∃ xs rest, getCells c (List.range' i n) ts (done ++ old) = .ok (done ++ xs, rest) ∧ xs.length = n ∧ ts = xs.flatMap c.put ++ rest ∧ ∀ x ∈ xs, Comes c x) ∨
      ∃ e, getCells c (List.range' i n) ts (done ++ old) = .throw e := by
  intro n
  induction n with
  | zero => intro i ts done old _ h2; rw [List.length_eq_zero_iff.1 h2]; exact Or.inl ⟨[], ts, rfl, rfl, rfl, by simp⟩
  | succ n ih =>
    intro i ts done old h1 h2
    obtain ⟨r, old, rfl⟩ : ∃ r rs, old = r :: rs := List.exists_cons_of_length_eq_add_one h2
    rw [List.range'_succ, getCells]
    rcases h ts with ⟨x, r2, h3, h4, hv⟩ | ⟨e, h3⟩
    · rw [h3, Outcome.bind_ok]
      simp only
      rw [if_pos (by simp [h1]), List.set_append_right _ _ (by omega), h1, Nat.sub_self, List.set_cons_zero]
      have := ih (i + 1) r2 (done ++ [x]) old (by simp [h1]) (by simpa using h2)
      simp only [List.append_assoc, List.singleton_append] at this
      rcases this with ⟨xs, r3, h5, h6, h7, hvs⟩ | ⟨e, h5⟩
      · exact Or.inl ⟨x :: xs, r3, h5, by simp [h6], by rw [h4, h7, List.flatMap_cons, List.append_assoc], List.forall_mem_cons.mpr ⟨hv, hvs⟩⟩
      · exact Or.inr ⟨e, h5⟩
    · rw [h3]; exact Or.inr ⟨e, rfl⟩

/-- The cells of a new grid are stored one after the other. -/
theorem putCells_new (c : Codec A T) (cs : List T) : ∀ (n i : Nat), i + n = cs.length → putCells c cs (List.range' i n) = .ok ((cs.drop i).flatMap c.put) := by
  intro n
  induction n with
  | zero => intro i h; rw [List.drop_eq_nil_of_le (by omega)]; rfl
  | succ n ih =>
    intro i h
    rw [List.range'_succ, putCells, List.getElem?_eq_getElem (by omega : i < cs.length)]
    simp only
    rw [ih (i + 1) (by omega), Outcome.bind_ok, List.drop_eq_getElem_cons (by omega : i < cs.length)]
    rfl

/-- **C144**: names and values of plain types are loaded only from streams that they were stored in. -/
theorem C144_names : Strict (nameCodec : Codec A QName) ∧ Strict (plain : Codec A A) := by
  constructor
  · intro ts
    simp only [nameCodec]
    rcases getPtr_strict ts with ⟨r, h1, h2⟩ | h1
    · rw [h1, Outcome.bind_ok]
      rcases getNum_strict r with ⟨n, r2, h3, h4⟩ | h3
      · rw [h3, Outcome.bind_ok]
        simp only
        rcases getMany_strict textCodec_strict n r2 with ⟨gs, r3, h5, h6, h7, -⟩ | ⟨e, h5⟩
        · rw [h5, Outcome.bind_ok]
          simp only
          rcases getText_strict r3 with ⟨s, r4, h8, h9⟩ | h8
          · rw [h8, Outcome.bind_ok]
            simp only
            cases hm : mkName gs s with
            | ok q =>
              obtain ⟨e1, e2, -⟩ := (C28_accepts gs s).2 q hm
              refine Or.inl ⟨q, r4, rfl, ?_, (C108_names gs s q hm).1⟩
              have hf : gs.flatMap (textCodec (A := A)).put = gs.map .text := by
                generalize gs = l
                induction l with
                | nil => rfl
                | cons a l ih => rw [List.flatMap_cons, ih]; rfl
              rw [h2, h4, h7, h9, hf, e1, e2, h6]
              simp
            | throw e => exact Or.inr ⟨_, rfl⟩
            | ub =>
              by_cases hp : (∀ g ∈ gs, XYDataset.Spec.Part g) ∧ XYDataset.Spec.Part s
              · obtain ⟨q, hq⟩ := (C28_accepts gs s).1.2 hp
                rw [hm] at hq
                cases hq
              · rw [mkName_bad hp] at hm
                cases hm
          · rw [h8]; exact Or.inr ⟨_, rfl⟩
        · rw [h5]; exact Or.inr ⟨e, rfl⟩
      · rw [h3]; exact Or.inr ⟨_, rfl⟩
    · rw [h1]; exact Or.inr ⟨_, rfl⟩
  · intro ts
    cases ts with
    | nil => exact Or.inr ⟨_, rfl⟩
    | cons t ts => cases t with
      | atom a => exact Or.inl ⟨a, ts, rfl, rfl, fun _ => rfl⟩
      | _ => exact Or.inr ⟨_, rfl⟩

/-- **C144**: whatever a stream contains, the import throws an exception or gives a grid with as many axes as there are types, with all its cells, whose export is what was taken from the stream. -/
theorem C144_import (ac : List (Codec A V)) (cc : Codec A T) (cell0 : T) (ha : ∀ c ∈ ac, Strict c) (hc : Strict cc) (ts : List (Tok A)) :
    (∃ axes cs pre rest, gridImport ac cc cell0 ts = .ok ((Grid.mk axes, cs), rest) ∧ AxesCome ac axes ∧ cs.length = cellCount axes ∧ (∀ x ∈ cs, Comes cc x) ∧
      gridExport ac cc (Grid.mk axes) cs = .ok pre ∧ ts = pre ++ rest) ∨ ∃ e, gridImport ac cc cell0 ts = .throw e := by
  rw [gridImport]
  rcases getHeader_strict ts with ⟨r, h1, h2⟩ | h1
  · rw [h1, Outcome.bind_ok]
    rcases getPtr_strict r with ⟨r2, h3, h4⟩ | h3
    · rw [h3, Outcome.bind_ok]
      rcases getAxes_strict (cs := ac.reverse) (fun c hc => ha c (List.mem_reverse.mp hc)) r2 with ⟨axes, r3, h5, h6, h7, hva⟩ | ⟨e, h5⟩
      · rw [h5, Outcome.bind_ok]
        simp only
        rw [positions_new]
        simp only [liftGrid, Outcome.bind_ok]
        have := getCells_strict hc (cellCount axes) 0 r3 [] (List.replicate (cellCount axes) cell0) rfl (by simp)
        rw [← List.range_eq_range'] at this
        simp only [List.nil_append] at this
        rcases this with ⟨cs, r4, h8, h9, h10, hvc⟩ | ⟨e, h8⟩
        · rw [h8, Outcome.bind_ok]
          refine Or.inl ⟨axes, cs, .header :: .ptr :: putAxes ac.reverse axes.reverse ++ cs.flatMap cc.put, r4, rfl, List.forall₂_reverse_iff.1 hva, h9, hvc, ?_, ?_⟩
          · rw [gridExport, positions_new]
            simp only [liftGrid, Outcome.bind_ok]
            have := putCells_new cc cs (cellCount axes) 0 (by omega)
            rw [← List.range_eq_range', List.drop_zero] at this
            rw [this, Outcome.bind_ok]
            rfl
          · rw [h2, h4, h7, h10]
            simp
        · rw [h8]; exact Or.inr ⟨e, rfl⟩
      · rw [h5]; exact Or.inr ⟨e, rfl⟩
    · rw [h3]; exact Or.inr ⟨_, rfl⟩
  · rw [h1]; exact Or.inr ⟨_, rfl⟩

/-- **C144**: a stream that ends before the end of what was exported is refused. -/
theorem C144_truncated (ac : List (Codec A V)) (cc : Codec A T) (cell0 : T) (hs : ∀ c ∈ ac, Strict c) (hc : Strict cc) (axes : List (Axis V)) (cs : List T) (hl : cs.length = cellCount axes)
    (ha : AxesCome ac axes) (hx : ∀ x ∈ cs, Comes cc x) (ts : List (Tok A)) (he : gridExport ac cc (Grid.mk axes) cs = .ok ts) (k : Nat) (hk : k < ts.length) :
    ∃ e, gridImport ac cc cell0 (ts.take k) = .throw e := by
  obtain ⟨ts', h1, h2⟩ := C108_whole ac cc cell0 axes cs hl ha hx
  rw [he] at h1
  cases h1
  rcases C144_import ac cc cell0 hs hc (ts.take k) with ⟨axes2, cs2, pre, rest, -, h4, h5, h5', h6, h7⟩ | h
  · exfalso
    obtain ⟨ts', h8, h9⟩ := C108_whole ac cc cell0 axes2 cs2 h5 h4 h5'
    rw [h6] at h8
    cases h8
    have h10 := h9 (rest ++ ts.drop k)
    have h11 := h2 []
    rw [← List.append_assoc, ← h7, List.take_append_drop] at h10
    rw [List.append_nil, h10] at h11
    have h12 : rest ++ ts.drop k = [] := by
      injection h11 with h
      exact (Prod.mk.inj h).2
    have := (List.append_eq_nil_iff.mp h12).2
    rw [List.drop_eq_nil_iff] at this
    omega
  · exact h

/-- A grid with two axes: its stream cut before any of the last values. -/
example (k : Nat) (hk : k < 13) : ∃ e, gridImport [plain, plain] plain (0 : Int) (([.header, .ptr, .ptr, .text ['y'], .num 1, .atom 1, .ptr, .text ['x'], .num 2, .atom 1, .atom 2, .atom 5, .atom 6] :
    List (Tok Int)).take k) = .throw e := by
  have hp : ∀ a : Int, Comes plain a := fun a rest => rfl
  exact C144_truncated [plain, plain] plain (0 : Int) (by simp [C144_names.2]) C144_names.2 [⟨"x", [1, 2]⟩, ⟨"y", [1]⟩] [5, 6] rfl (.cons (fun v _ => hp v) (.cons (fun v _ => hp v) .nil))
    (fun v _ => hp v) _ (by decide +kernel) k (by simp; omega)

/-- Streams that are refused: a name that is none, a number where a mark should be. -/
example : gridImport [(nameCodec : Codec Int QName)] plain (0 : Int) [.header, .ptr, .ptr, .text ['x'], .num 1, .ptr, .num 0, .text ['a', '/'], .atom 7] = .throw .elements ∧
    gridImport [(plain : Codec Int Int)] plain (0 : Int) [.header, .atom 1, .ptr, .text ['x'], .num 0] = .throw .stream := by
  constructor <;> decide +kernel

end Alexandria.Grid.Archive
