import Verif.NdArray.PrintModel
import Verif.NdArray.IterProps
import Verif.NdArray.ExactProps
import Verif.Common.StringsLemmas

/-!
# Property C148: the text of an array
-/

namespace Alexandria.NdArray

open Spec Alexandria.Str

variable {T : Type}

namespace Spec

/-- Texts with commas between them. -/
def commas (l : List (List Char)) : List Char := [','].intercalate l

/-- The text of an array with this shape and these elements: the dimensions in angle brackets, and the elements. -/
def text (pr : T → List Char) (shape : List Nat) (l : List T) : List Char := '<' :: (commas (shape.map fun n => n.repr.toList) ++ '>' :: commas (l.map pr))

end Spec

/-! ## Lemmas -/

theorem commas_cons (a b : List Char) (l : List (List Char)) : commas (a :: b :: l) = a ++ ',' :: commas (b :: l) := by
  simp [commas, List.intercalate, List.intersperse]

theorem printDims_eq : ∀ shape : List Nat, shape ≠ [] → printDims shape = .ok (commas (shape.map showNat))
  | [], h => absurd rfl h
  | [n], _ => by simp [printDims, commas, List.intercalate]
  | n :: m :: l, _ => by
    rw [printDims, printDims_eq (m :: l) (by simp)]
    simp only [List.map_cons, commas_cons]
    rfl

theorem showNat_repr (n : Nat) : showNat n = n.repr.toList := by
  simp [showNat, Nat.repr]

theorem split_at {x : Char} {a b : List Char} (ha : x ∉ a) (hb : x ∉ b) {r s : List Char} (h : a ++ x :: r = b ++ x :: s) : a = b ∧ r = s := by
  induction a generalizing b with
  | nil =>
    cases b with
    | nil => simpa using h
    | cons c b =>
      simp only [List.nil_append, List.cons_append, List.cons.injEq] at h
      exact absurd List.mem_cons_self (h.1 ▸ hb)
  | cons c a ih =>
    cases b with
    | nil =>
      simp only [List.nil_append, List.cons_append, List.cons.injEq] at h
      exact absurd List.mem_cons_self (h.1 ▸ ha)
    | cons d b =>
      simp only [List.cons_append, List.cons.injEq] at h
      obtain ⟨h1, h2⟩ := ih (fun hm => ha (List.mem_cons_of_mem _ hm)) (fun hm => hb (List.mem_cons_of_mem _ hm)) h.2
      exact ⟨by rw [h.1, h1], h2⟩

theorem commas_inj : ∀ (l m : List (List Char)), l ≠ [] → m ≠ [] → (∀ a ∈ l, ',' ∉ a) → (∀ a ∈ m, ',' ∉ a) → commas l = commas m → l = m
  | [], _, h, _, _, _, _ => absurd rfl h
  | _, [], _, h, _, _, _ => absurd rfl h
  | [a], [b], _, _, _, _, h => by simpa [commas, List.intercalate] using h
  | [a], b :: c :: m, _, _, hl, _, h => by
    rw [commas_cons] at h
    have : commas [a] = a := by simp [commas, List.intercalate]
    rw [this] at h
    exact absurd (h ▸ by simp) (hl a List.mem_cons_self)
  | a :: c :: l, [b], _, _, _, hm, h => by
    rw [commas_cons] at h
    have : commas [b] = b := by simp [commas, List.intercalate]
    rw [this] at h
    exact absurd (h ▸ by simp) (hm b List.mem_cons_self)
  | a :: c :: l, b :: d :: m, _, _, hl, hm, h => by
    rw [commas_cons, commas_cons] at h
    obtain ⟨h1, h2⟩ := split_at (hl a List.mem_cons_self) (hm b List.mem_cons_self) h
    rw [h1, commas_inj (c :: l) (d :: m) (by simp) (by simp) (fun x hx => hl x (List.mem_cons_of_mem _ hx)) (fun x hx => hm x (List.mem_cons_of_mem _ hx)) h2]

theorem mem_commas {c : Char} : ∀ {l : List (List Char)}, c ∈ commas l → c = ',' ∨ ∃ a ∈ l, c ∈ a
  | [], h => by simp [commas, List.intercalate] at h
  | [a], h => by
    have : commas [a] = a := by simp [commas, List.intercalate]
    rw [this] at h
    exact Or.inr ⟨a, by simp, h⟩
  | a :: b :: l, h => by
    rw [commas_cons, List.mem_append, List.mem_cons] at h
    rcases h with h | h | h
    · exact Or.inr ⟨a, by simp, h⟩
    · exact Or.inl h
    · rcases mem_commas h with h | ⟨x, hx, h⟩
      · exact Or.inl h
      · exact Or.inr ⟨x, List.mem_cons_of_mem _ hx, h⟩

theorem not_mem_showNat {c : Char} (hc : c.isDigit = false) (n : Nat) : c ∉ showNat n := fun h => by
  rw [isDigit_showNat h] at hc
  cases hc

theorem showNat_inj {n m : Nat} (h : showNat n = showNat m) : n = m := by
  have := congrArg (fun s => Nat.ofDigitChars 10 s 0) h
  simpa [showNat, Nat.ofDigitChars_ten_toDigits] using this

theorem text_inj (pr : T → List Char) (hpr : Function.Injective pr) (hc : ∀ x, ',' ∉ pr x) {s s' : List Nat} (hs : s ≠ []) (hs' : s' ≠ []) {l l' : List T} (hl : l ≠ []) (hl' : l' ≠ [])
    (h : text pr s l = text pr s' l') : s = s' ∧ l = l' := by
  have hsh : ∀ s : List Nat, s.map (fun n => n.repr.toList) = s.map showNat := fun s => List.map_congr_left fun n _ => (showNat_repr n).symm
  rw [text, text, List.cons.injEq, hsh, hsh] at h
  have hn : ∀ s : List Nat, '>' ∉ commas (s.map showNat) := by
    intro s hm
    rcases mem_commas hm with h | ⟨a, ha, h⟩
    · revert h; decide
    · obtain ⟨n, _, rfl⟩ := List.mem_map.1 ha
      exact not_mem_showNat (by decide) n h
  have hd : ∀ s : List Nat, ∀ a ∈ s.map showNat, ',' ∉ a := by
    intro s a ha
    obtain ⟨n, _, rfl⟩ := List.mem_map.1 ha
    exact not_mem_showNat (by decide) n
  have he : ∀ l : List T, ∀ a ∈ l.map pr, ',' ∉ a := by
    intro l a ha
    obtain ⟨x, _, rfl⟩ := List.mem_map.1 ha
    exact hc x
  obtain ⟨h1, h2⟩ := split_at (hn s) (hn s') h.2
  exact ⟨List.map_injective_iff.2 (fun _ _ => showNat_inj) (commas_inj _ _ (by simpa using hs) (by simpa using hs') (hd s) (hd s') h1),
    List.map_injective_iff.2 hpr (commas_inj _ _ (by simpa using hl) (by simpa using hl') (he l) (he l') h2)⟩

/-! ## C148 -/

/-- **C148 (whatever the size says).** What is written are the shape and the elements that iteration shows, also if the size is not that of the shape, as after `concatenate`. -/
theorem C148_shown (pr : T → List Char) (h : Heap T) (a : Nd) (hr : a.shape ≠ []) (hsz : a.size < 2 ^ 63) (l : List T) (hl : iterate h a = .ok l) (fuel : Nat) (hf : l.length ≤ fuel) :
    printNd pr h a fuel = some (.ok (if l = [] then [] else text pr a.shape l)) := by
  obtain ⟨u, hu⟩ : ∃ u, a.strides.getLast? = some u := by
    cases hu : a.strides.getLast? with
    | none => rw [iterate, hu] at hl; cases hl
    | some u => exact ⟨u, rfl⟩
  have hb : a.begin = .ok ⟨a.cid, a.offset, accI32 a.shape, u, 0⟩ := by rw [Nd.begin, mkIter, hu]
  have he : a.last = .ok ⟨a.cid, a.offset, accI32 a.shape, u, a.size⟩ := by rw [Nd.last, mkIter, hu]
  obtain ⟨hlen, hread⟩ := iterate_ok_spec hu hl
  unfold printNd
  by_cases h0 : a.size = 0
  · rw [if_pos h0, if_pos (List.length_eq_zero_iff.1 (by omega))]
  · have hne : l ≠ [] := fun hn => h0 (by rw [← hlen, hn]; rfl)
    have key : ∀ (fuel p : Nat), l.length ≤ fuel + p → p < l.length →
        printElems pr h fuel ⟨a.cid, a.offset, accI32 a.shape, u, p⟩ ⟨a.cid, a.offset, accI32 a.shape, u, a.size - 1⟩ = some (.ok (commas ((l.drop p).map pr))) := by
      intro fuel
      induction fuel with
      | zero => intro p h1 h2; omega
      | succ fuel ih =>
        intro p h1 h2
        have hr : Iter.read h ⟨a.cid, a.offset, accI32 a.shape, u, p⟩ 0 = .ok l[p] := by
          have := hread p h2
          rw [atOffset] at this
          rw [Iter.read, Iter.index]
          simp only
          rw [Nat.mod_eq_of_lt (by omega)]
          exact this
        rw [printElems, hr, List.drop_eq_getElem_cons h2]
        simp only
        by_cases hp : p = a.size - 1
        · rw [if_pos (by simp [Iter.eq, hp]), List.drop_eq_nil_of_le (by omega)]
          simp [commas, List.intercalate]
        · rw [if_neg (by simp [Iter.eq]; omega), Iter.inc]
          simp only
          rw [Nat.mod_eq_of_lt (by omega), ih (p + 1) (by omega) (by omega), List.drop_eq_getElem_cons (show p + 1 < l.length by omega), List.map_cons, List.map_cons, List.map_cons, commas_cons]
          rfl
    rw [if_neg h0, printDims_eq a.shape hr, hb, he, if_neg hne]
    simp only
    rw [Iter.sub, if_pos (by show 1 ≤ a.size; omega)]
    simp only
    rw [key fuel 0 (by omega) (List.length_pos_iff.2 hne), List.drop_zero]
    have hsh : a.shape.map (fun n => n.repr.toList) = a.shape.map showNat := List.map_congr_left fun n _ => (showNat_repr n).symm
    rw [text, hsh]
    rfl

/-- **C148.** An array or view that has elements is written as its shape and its elements in order; the loop needs as many tests as there are elements. One without elements is written as
nothing. -/
theorem C148_text (pr : T → List Char) (h : Heap T) (a : Nd) (ha : WF a) (l : List T) (hl : iterate h a = .ok l) (fuel : Nat) (hf : l.length ≤ fuel) :
    printNd pr h a fuel = some (.ok (if l = [] then [] else text pr a.shape l)) :=
  C148_shown pr h a ha.rank (Nat.lt_trans (wf_size a ha) (by decide)) l hl fuel hf

/-- **C148 (after `concatenate`).** After any number of calls of `concatenate` the shape that is written is the new one and the elements are those of the array before the first call. -/
theorem C148_concatenated (pr : T → List Char) (zero : T) (h h' g : Heap T) (d : Nat) (ds : List Nat) (da : List T) (a : Nd) (bs : List (Nd × List T))
    (hm : mkData h (d :: ds) da = .ok (h', a)) (hg : g[a.cid]? = some da) (hbs : ∀ p ∈ bs, p.1.shape.tail = ds ∧ p.1.cid ≠ a.cid ∧ WF p.1 ∧ iterate g p.1 = .ok p.2)
    (hsmall : card ((d + (bs.map fun p => p.1.shape.headD 0).sum) :: ds) < 2 ^ 31) (fuel : Nat) (hf : da.length ≤ fuel) :
    ∃ g' a', bs.foldlM (fun s p => concatenate zero s.1 s.2 p.1) (g, a) = .ok (g', a') ∧
      printNd pr g' a' fuel = some (.ok (if da = [] then [] else text pr ((d + (bs.map fun p => p.1.shape.headD 0).sum) :: ds) da)) := by
  obtain ⟨g', a', h1, h2, _, h4, h5⟩ := C06_concatenate_chain zero h h' g d ds da a bs hm hg hbs hsmall
  have hle : card (d :: ds) ≤ card ((d + (bs.map fun p => p.1.shape.headD 0).sum) :: ds) := by
    simp only [card]; exact Nat.mul_le_mul_right _ (by omega)
  refine ⟨g', a', h1, ?_⟩
  rw [C148_shown pr g' a' (by rw [h2]; simp) (by omega) da h5 fuel hf, h2]

/-- **C148 (partial: arrays with elements).** Two arrays are written in the same way only if they have the same shape and the same elements, if this is so for elements, and no text of an element has a
comma. -/
theorem C148_same_partial (pr : T → List Char) (hpr : Function.Injective pr) (hc : ∀ x, ',' ∉ pr x) (h h' : Heap T) (a b : Nd) (ha : WF a) (hb : WF b) (l m : List T) (hl : iterate h a = .ok l)
    (hm : iterate h' b = .ok m) (h0 : 0 < a.size) (fuel : Nat) (hf : l.length ≤ fuel) (hf' : m.length ≤ fuel) (he : printNd pr h a fuel = printNd pr h' b fuel) : a.shape = b.shape ∧ l = m := by
  obtain ⟨u, _, hu, _, _⟩ := begin_ok a ha
  obtain ⟨hlen, _⟩ := iterate_ok_spec hu hl
  have hne : l ≠ [] := fun hn => by rw [hn] at hlen; simp at hlen; omega
  rw [C148_text pr h a ha l hl fuel hf, C148_text pr h' b hb m hm fuel hf', if_neg hne] at he
  by_cases hm0 : m = []
  · rw [if_pos hm0] at he
    simp [text] at he
  · rw [if_neg hm0] at he
    simp only [Option.some.injEq, Outcome.ok.injEq] at he
    exact text_inj pr hpr hc ha.rank hb.rank hne hm0 he

/-- The text of any array would tell its shape and its elements. -/
def C148_full : Prop := ∀ (h h' : Heap Nat) (a b : Nd) (l m : List Nat), WF a → WF b → iterate h a = .ok l → iterate h' b = .ok m →
  ∀ fuel, l.length ≤ fuel → m.length ≤ fuel → printNd (fun n => n.repr.toList) h a fuel = printNd (fun n => n.repr.toList) h' b fuel → a.shape = b.shape ∧ l = m

/-- **C148 (violated).** Arrays without elements are written as nothing, whatever their shape; and after `concatenate` the new shape is written with the old elements only (a consequence of C06). -/
theorem C148_violated : ¬ C148_full ∧ ∃ h a b c h', mkData [] [2] [(7 : Nat), 8] = .ok (h, a) ∧ mkData h [1] [9] = .ok (c, b) ∧ concatenate 0 c a b = .ok h' ∧
    printNd (fun n => n.repr.toList) h'.1 h'.2 10 = some (.ok "<3>7,8".toList) := by
  refine ⟨?_, ⟨_, _, _, _, _, rfl, rfl, rfl, by decide +kernel⟩⟩
  intro hf
  have := hf [[]] [[]] ⟨0, 0, [0], [1], [], 0⟩ ⟨0, 0, [0, 3], [3, 1], [], 0⟩ [] [] ⟨⟨1, by omega, rfl, trivial⟩, rfl, by decide, by decide⟩ ⟨⟨1, by omega, rfl, rfl, trivial⟩, rfl, by decide, by decide⟩ rfl rfl
    1 (by decide) (by decide) rfl
  revert this
  decide

/-- A slice is written like the array with its elements. -/
example : ∃ h a b, mkData [] [2, 3] [(1 : Nat), 2, 3, 4, 5, 6] = .ok (h, a) ∧ rslice a 1 = .ok b ∧ printNd (fun n => n.repr.toList) h b 10 = some (.ok "<2>2,5".toList) :=
  ⟨_, _, _, rfl, rfl, by decide +kernel⟩

end Alexandria.NdArray
