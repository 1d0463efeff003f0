import Verif.XYDataset.Props2

/-!
# C83: which directories cannot be listed

`getRecursiveDirectoryContents` follows what `order.txt` names as well as what is in a directory. The names of `order.txt` may be anything that exists,
`.` and `..` among them.
-/

namespace Alexandria.XYDataset

open Str

/-- `n` is an entry of the directory, or a line of its `order.txt` names it and it exists. -/
def Spec.Named (fs : FS) (d n : Bytes) : Prop :=
  n ∈ fs.names d ∨ n ≠ [] ∧ fs.has d n = true ∧ ∃ lines, fs.order d = some lines ∧ ∃ line ∈ lines, n = trim (line.takeWhile (· ≠ '#'))

/-- A chain of directories, each of which is named in the one before, that does not end. -/
def Spec.Endless (fs : FS) (dir : Bytes) : Prop :=
  ∃ f : Nat → Bytes, f 0 = dir ∧ ∀ i, ∃ n, Spec.Named fs (f i) n ∧ fs.isDir (f (i + 1)) = true ∧ f (i + 1) = appendPath (f i) n

theorem mem_getOrder (fs : FS) (d n : Bytes) : n ∈ getOrder fs d ↔ Spec.Named fs d n := by
  unfold getOrder Spec.Named
  simp only [List.mem_append, List.mem_insertionSort, List.mem_filter, List.mem_map, decide_eq_true_eq, orderName]
  cases fs.order d with
  | none => simp
  | some lines =>
    simp only [Option.getD_some, Option.some.injEq, exists_eq_left']
    constructor
    · rintro (⟨⟨line, hl, he⟩, hn⟩ | ⟨h, _⟩)
      · exact Or.inr ⟨hn.1, hn.2, line, hl, he.symm⟩
      · exact Or.inl h
    · intro h
      by_cases hm : (∃ a ∈ lines, trim (a.takeWhile (· ≠ '#')) = n) ∧ n ≠ [] ∧ fs.has d n = true
      · exact Or.inl hm
      · rcases h with h | ⟨h1, h2, line, hl, he⟩
        · exact Or.inr ⟨h, hm⟩
        · exact absurd ⟨⟨line, hl, he.symm⟩, h1, h2⟩ hm

theorem contentsOf_none (fs : FS) (below : Bytes → Option (List Bytes)) (dir : Bytes) (ns : List Bytes) :
    contentsOf fs below dir ns = none ↔ ∃ n ∈ ns, fs.isDir (appendPath dir n) = true ∧ below (appendPath dir n) = none := by
  induction ns with
  | nil => simp [contentsOf]
  | cons n ns ih =>
    rw [contentsOf]
    by_cases hd : fs.isDir (appendPath dir n) = true
    · rw [if_pos hd]
      cases hb : below (appendPath dir n) with
      | none => simp [hd, hb]
      | some a =>
        cases hc : contentsOf fs below dir ns with
        | none => simp only [true_iff]; obtain ⟨m, hm, h⟩ := ih.mp hc; exact ⟨m, List.mem_cons_of_mem _ hm, h⟩
        | some b =>
          simp only [reduceCtorEq, List.mem_cons, exists_eq_or_imp, hb, and_false, false_or, false_iff]
          intro h
          rw [ih.mpr h] at hc
          cases hc
    · rw [if_neg hd]
      cases hc : contentsOf fs below dir ns with
      | none => simp only [true_iff]; obtain ⟨m, hm, h⟩ := ih.mp hc; exact ⟨m, List.mem_cons_of_mem _ hm, h⟩
      | some b =>
        simp only [reduceCtorEq, List.mem_cons, exists_eq_or_imp, hd, false_and, false_or, false_iff]
        intro h
        rw [ih.mpr h] at hc
        cases hc

/-- The result does not depend on the bound. -/
theorem contents_more (fs : FS) (fuel : Nat) : ∀ (dir : Bytes) (l : List Bytes), contents fs fuel dir = some l → contents fs (fuel + 1) dir = some l := by
  induction fuel with
  | zero => intro dir l h; simp [contents] at h
  | succ fuel ih =>
    intro dir l h
    rw [contents] at h ⊢
    generalize getOrder fs dir = ns at h
    induction ns generalizing l with
    | nil => exact h
    | cons n ns ihn =>
      rw [contentsOf] at h ⊢
      cases hc : contentsOf fs (contents fs fuel) dir ns with
      | none => rw [hc] at h; split at h <;> simp_all
      | some b =>
        rw [hc] at h
        rw [ihn b hc]
        by_cases hd : fs.isDir (appendPath dir n) = true
        · rw [if_pos hd] at h ⊢
          cases hb : contents fs fuel (appendPath dir n) with
          | none => rw [hb] at h; cases h
          | some a => rw [hb] at h; rw [ih _ _ hb]; exact h
        · rw [if_neg hd] at h ⊢; exact h

theorem contents_le (fs : FS) (dir : Bytes) (l : List Bytes) {n m : Nat} (hnm : n ≤ m) (h : contents fs n dir = some l) : contents fs m dir = some l := by
  induction hnm with
  | refl => exact h
  | step _ ih => exact contents_more fs _ dir l ih

theorem endless_step (fs : FS) (dir : Bytes) (h : ∀ fuel, contents fs fuel dir = none) :
    ∃ n, Spec.Named fs dir n ∧ fs.isDir (appendPath dir n) = true ∧ ∀ fuel, contents fs fuel (appendPath dir n) = none := by
  by_contra hno
  push_neg at hno
  have key : ∀ ns : List Bytes, (∀ n ∈ ns, Spec.Named fs dir n) → ∃ fuel, contentsOf fs (contents fs fuel) dir ns ≠ none := by
    intro ns
    induction ns with
    | nil => intro _; exact ⟨0, by simp [contentsOf]⟩
    | cons n ns ih =>
      intro hm
      obtain ⟨f1, h1⟩ := ih fun m hm' => hm m (List.mem_cons_of_mem _ hm')
      by_cases hd : fs.isDir (appendPath dir n) = true
      · obtain ⟨f2, h2⟩ := hno n (hm n (List.mem_cons_self ..)) hd
        refine ⟨max f1 f2, fun hc => ?_⟩
        obtain ⟨m, hm1, hm2, hm3⟩ := (contentsOf_none ..).mp hc
        rcases List.mem_cons.mp hm1 with rfl | hm1
        · obtain ⟨l, hl⟩ := Option.ne_none_iff_exists'.mp h2
          rw [contents_le fs _ l (le_max_right f1 f2) hl] at hm3
          cases hm3
        · refine h1 ((contentsOf_none ..).mpr ⟨m, hm1, hm2, ?_⟩)
          cases hb : contents fs f1 (appendPath dir m) with
          | none => rfl
          | some l => rw [contents_le fs _ l (le_max_left f1 f2) hb] at hm3; cases hm3
      · refine ⟨f1, fun hc => ?_⟩
        obtain ⟨m, hm1, hm2, hm3⟩ := (contentsOf_none ..).mp hc
        rcases List.mem_cons.mp hm1 with rfl | hm1
        · exact hd hm2
        · exact h1 ((contentsOf_none ..).mpr ⟨m, hm1, hm2, hm3⟩)
  obtain ⟨fuel, hf⟩ := key (getOrder fs dir) fun n hn => (mem_getOrder fs dir n).mp hn
  exact hf (h (fuel + 1))

/-- A directory cannot be listed, however deep the recursion may be, exactly if there is a chain of directories that does not end, each of which
is in the one before or named by its `order.txt`. -/
theorem C83_endless (fs : FS) (dir : Bytes) : (∀ fuel, contents fs fuel dir = none) ↔ Spec.Endless fs dir := by
  constructor
  · intro h
    have step : ∀ d : { d // ∀ fuel, contents fs fuel d = none }, ∃ e : { d // ∀ fuel, contents fs fuel d = none },
        ∃ n, Spec.Named fs d.1 n ∧ fs.isDir e.1 = true ∧ e.1 = appendPath d.1 n := by
      rintro ⟨d, hd⟩
      obtain ⟨n, h1, h2, h3⟩ := endless_step fs d hd
      exact ⟨⟨appendPath d n, h3⟩, n, h1, h2, rfl⟩
    choose g hg using step
    let f : Nat → { d // ∀ fuel, contents fs fuel d = none } := fun i => g^[i] ⟨dir, h⟩
    refine ⟨fun i => (f i).1, rfl, fun i => ?_⟩
    have : f (i + 1) = g (f i) := Function.iterate_succ_apply' g i _
    simp only [this]
    exact hg (f i)
  · rintro ⟨f, h0, hf⟩ fuel
    have : ∀ fuel i, contents fs fuel (f i) = none := by
      intro fuel
      induction fuel with
      | zero => intro i; rfl
      | succ fuel ih =>
        intro i
        rw [contents, contentsOf_none]
        obtain ⟨n, h1, h2, h3⟩ := hf i
        exact ⟨n, (mem_getOrder fs _ n).mpr h1, h3 ▸ h2, h3 ▸ ih (i + 1)⟩
    rw [← h0]
    exact this fuel 0

/-- Otherwise there is one listing, from some depth on. -/
theorem C83_ends (fs : FS) (dir : Bytes) (h : ¬ Spec.Endless fs dir) : ∃ depth l, ∀ fuel, depth ≤ fuel → contents fs fuel dir = some l := by
  rw [← C83_endless] at h
  push_neg at h
  obtain ⟨n, hn⟩ := h
  obtain ⟨l, hl⟩ := Option.ne_none_iff_exists'.mp hn
  exact ⟨n, l, fun fuel hf => contents_le fs dir l hf hl⟩

/-- A line `.` in `order.txt`, in a file system in which `d/.` is the directory `d`: the listing never ends. -/
theorem C83_dot (fs : FS) (dir : Bytes) (lines : List Bytes) (ho : fs.order dir = some lines) (line : Bytes) (hl : line ∈ lines)
    (hn : trim (line.takeWhile (· ≠ '#')) = ['.'])
    (hsame : ∀ k : Nat, let d := (fun e => appendPath e ['.'])^[k] dir
      fs.order d = fs.order dir ∧ fs.has d ['.'] = true ∧ fs.isDir (appendPath d ['.']) = true) :
    ∀ fuel, contents fs fuel dir = none := by
  rw [C83_endless]
  refine ⟨fun k => (fun e => appendPath e ['.'])^[k] dir, rfl, fun k => ⟨['.'], ?_, ?_, ?_⟩⟩
  · obtain ⟨h1, h2, _⟩ := hsame k
    exact Or.inr ⟨by simp, h2, lines, h1.trans ho, line, hl, hn.symm⟩
  · simp only [Function.iterate_succ_apply']
    exact (hsame k).2.2
  · simp only [Function.iterate_succ_apply']

/-- A directory `r` with one file, `order.txt`, which has the line ` . # here`. Paths that end with `.` are directories. -/
def dotFs : FS where
  names _ := ["order.txt".toList]
  order _ := some [" . # here".toList]
  has _ n := n = ['.'] ∨ n = "order.txt".toList
  isDir p := p.getLast? = some '.' ∨ p = ['r']
  isFile p := p.getLast? = some 't'

/-- The claim: what contains no endless chain of directories can be listed. -/
def C83_ends_full : Prop := ∀ (fs : FS) (dir : Bytes),
  (¬ ∃ f : Nat → Bytes, f 0 = dir ∧ ∀ i, ∃ n ∈ fs.names (f i), fs.isDir (f (i + 1)) = true ∧ f (i + 1) = appendPath (f i) n) →
  ∃ fuel l, contents fs fuel dir = some l

theorem C83_dot_violated : ¬ C83_ends_full := fun h => by
  have hlast : ∀ (d : Bytes) (c : Char) (n : Bytes), n.getLast? = some c → (appendPath d n).getLast? = some c := by
    intro d c n hn
    unfold appendPath
    split
    · rw [List.getLast?_append, hn]; rfl
    · rw [List.getLast?_append, hn]; rfl
  obtain ⟨fuel, l, hl⟩ := h dotFs ['r'] (by
    rintro ⟨f, _, hf⟩
    obtain ⟨n, hn, hd, he⟩ := hf 0
    have hn : n = "order.txt".toList := List.mem_singleton.mp hn
    subst hn
    have := hlast (f 0) 't' "order.txt".toList (by decide)
    rw [← he] at this
    have hd : (f 1).getLast? = some '.' ∨ f 1 = ['r'] := of_decide_eq_true hd
    rw [this] at hd
    rcases hd with hd | hd
    · exact absurd hd (by decide)
    · rw [hd] at this
      exact absurd this (by decide))
  have := C83_dot dotFs ['r'] _ rfl " . # here".toList (by simp) (by decide) (fun k => ⟨rfl, (by decide : decide ((['.'] : Bytes) = ['.'] ∨ (['.'] : Bytes) = "order.txt".toList) = true), by
    exact decide_eq_true (Or.inl (hlast _ '.' ['.'] rfl))⟩) fuel
  rw [hl] at this
  cases this

example : ¬ Spec.Endless ⟨fun d => if d = ['r'] then [['a'], ['s']] else if d = "r/s".toList then [['b']] else [], fun _ => none, fun _ _ => false,
    fun p => p = ['r'] ∨ p = "r/s".toList, fun _ => true⟩ ['r'] := by
  rw [← C83_endless]
  intro h
  exact absurd (h 3) (by decide +kernel)

end Alexandria.XYDataset
