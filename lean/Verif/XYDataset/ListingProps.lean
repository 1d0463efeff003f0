import Verif.XYDataset.EndlessProps

/-!
# C83: what is listed, whatever the `order.txt` files say
-/

namespace Alexandria.XYDataset

open Str

/-- The names of a line of `order.txt` that exist, in its order. -/
def Spec.inOrder (fs : FS) (dir : Bytes) : List Bytes :=
  match fs.order dir with
  | none => []
  | some lines => (lines.map fun line => trim (line.takeWhile (· ≠ '#'))).filter fun n => n ≠ [] ∧ fs.has dir n = true

/-- A file that is reached by entries of directories and names of `order.txt` files. -/
inductive Spec.Reaches (fs : FS) : Bytes → Bytes → Prop
  | file (dir n : Bytes) : Spec.Named fs dir n → fs.isDir (appendPath dir n) = false → Spec.Reaches fs dir (appendPath dir n)
  | sub (dir n p : Bytes) : Spec.Named fs dir n → fs.isDir (appendPath dir n) = true → Spec.Reaches fs (appendPath dir n) p → Spec.Reaches fs dir p

/-- A directory that is reached so. -/
inductive Spec.Subdir (fs : FS) : Bytes → Bytes → Prop
  | self (dir : Bytes) : Spec.Subdir fs dir dir
  | sub (dir n d : Bytes) : Spec.Named fs dir n → fs.isDir (appendPath dir n) = true → Spec.Subdir fs (appendPath dir n) d → Spec.Subdir fs dir d

theorem inOrder_eq (fs : FS) (dir : Bytes) : Spec.inOrder fs dir = ordered fs dir := by
  unfold Spec.inOrder ordered
  cases fs.order dir with
  | none => rfl
  | some lines => rfl

/-- **C83 (one directory).** Whatever `order.txt` says, first come the names in it that exist, in its order and as often as they are in it, and then in alphabetical
order the entries of the directory that are not among them. -/
theorem C83_order (fs : FS) (dir : Bytes) : ∃ rest, getOrder fs dir = Spec.inOrder fs dir ++ rest ∧
    rest.Perm ((fs.names dir).filter fun n => n ∉ Spec.inOrder fs dir) ∧ rest.Pairwise (fun a b : Bytes => a ≤ b) := by
  rw [inOrder_eq]
  refine ⟨_, rfl, List.perm_insertionSort _ _, ?_⟩
  have ht : IsTrans Bytes (fun a b => leBytes a b = true) := ⟨fun a b c h1 h2 => by
    rw [leBytes_iff] at h1 h2 ⊢
    exact le_trans h1 h2⟩
  have hto : Std.Total (fun a b : Bytes => leBytes a b = true) := ⟨fun a b => by
    rw [leBytes_iff, leBytes_iff]
    exact le_total a b⟩
  have := List.pairwise_insertionSort (fun a b => leBytes a b = true) ((fs.names dir).filter fun n => n ∉ ordered fs dir)
  exact this.imp (by intro a b h; rwa [leBytes_iff] at h)

/-- What is listed for one name. -/
def partOf (fs : FS) (below : Bytes → Option (List Bytes)) (dir n : Bytes) : Option (List Bytes) :=
  if fs.isDir (appendPath dir n) then below (appendPath dir n) else some [appendPath dir n]

theorem contentsOf_parts (fs : FS) (below : Bytes → Option (List Bytes)) (dir : Bytes) : ∀ (ns l : List Bytes), contentsOf fs below dir ns = some l →
    l = ns.flatMap (fun n => (partOf fs below dir n).getD []) ∧ ∀ n ∈ ns, ∃ a, partOf fs below dir n = some a := by
  intro ns
  induction ns with
  | nil => intro l h; simp only [contentsOf, Option.some.injEq] at h; subst h; simp
  | cons n ns ih =>
    intro l h
    rw [contentsOf] at h
    change (match partOf fs below dir n, contentsOf fs below dir ns with | some a, some b => some (a ++ b) | _, _ => none) = some l at h
    cases ha : partOf fs below dir n with
    | none => rw [ha] at h; simp at h
    | some a =>
      cases hb : contentsOf fs below dir ns with
      | none => rw [ha, hb] at h; simp at h
      | some b =>
        rw [ha, hb] at h
        simp only [Option.some.injEq] at h
        subst h
        obtain ⟨h1, h2⟩ := ih b hb
        refine ⟨by rw [List.flatMap_cons, ha, Option.getD_some, ← h1], fun m hm => ?_⟩
        rcases List.mem_cons.mp hm with rfl | hm
        · exact ⟨a, ha⟩
        · exact h2 m hm

/-- **C83 (which files).** Whatever the `order.txt` files say, a listing that ends has exactly the files that are reached by entries of directories and existing names of
`order.txt` files. -/
theorem C83_listed (fs : FS) (fuel : Nat) : ∀ (dir : Bytes) (l : List Bytes), contents fs fuel dir = some l → ∀ p, p ∈ l ↔ Spec.Reaches fs dir p := by
  induction fuel with
  | zero => intro dir l h; simp [contents] at h
  | succ fuel ih =>
    intro dir l h p
    rw [contents] at h
    obtain ⟨rfl, h2⟩ := contentsOf_parts fs _ dir _ l h
    rw [List.mem_flatMap]
    constructor
    · rintro ⟨n, hn, hp⟩
      have hN := (mem_getOrder fs dir n).mp hn
      obtain ⟨a, ha⟩ := h2 n hn
      rw [ha, Option.getD_some] at hp
      unfold partOf at ha
      by_cases hd : fs.isDir (appendPath dir n) = true
      · rw [if_pos hd] at ha
        exact .sub dir n p hN hd ((ih _ a ha p).mp hp)
      · rw [if_neg hd, Option.some.injEq] at ha
        subst ha
        rw [List.mem_singleton] at hp
        subst hp
        exact .file dir n hN (by simpa using hd)
    · intro hr
      cases hr with
      | file _ n hN hd =>
        refine ⟨n, (mem_getOrder fs dir n).mpr hN, ?_⟩
        unfold partOf
        rw [if_neg (by simp [hd])]
        simp
      | sub _ n _ hN hd hb =>
        refine ⟨n, (mem_getOrder fs dir n).mpr hN, ?_⟩
        obtain ⟨a, ha⟩ := h2 n ((mem_getOrder fs dir n).mpr hN)
        rw [ha, Option.getD_some]
        unfold partOf at ha
        rw [if_pos hd] at ha
        exact (ih _ a ha p).mpr hb

theorem flatMap_nodup {α β : Type} [BEq α] [LawfulBEq α] (f : α → List β) (ns : List α) (hdis : ∀ n ∈ ns, ∀ m ∈ ns, ∀ x, x ∈ f n → x ∈ f m → n = m) :
    (ns.flatMap f).Nodup ↔ (∀ n ∈ ns, (f n).Nodup) ∧ ∀ n, 2 ≤ ns.count n → f n = [] := by
  induction ns with
  | nil => simp
  | cons a ns ih =>
    have ih' := ih fun n hn m hm => hdis n (List.mem_cons_of_mem _ hn) m (List.mem_cons_of_mem _ hm)
    rw [List.flatMap_cons, List.nodup_append, ih']
    constructor
    · rintro ⟨h1, ⟨h2, h3⟩, h4⟩
      refine ⟨fun n hn => ?_, fun n hn => ?_⟩
      · rcases List.mem_cons.mp hn with rfl | hn
        · exact h1
        · exact h2 n hn
      · by_cases e : a = n
        · subst e
          rw [List.count_cons_self] at hn
          have hm : a ∈ ns := List.count_pos_iff.mp (by omega)
          rw [List.eq_nil_iff_forall_not_mem]
          intro x hx
          exact h4 x hx x (List.mem_flatMap.mpr ⟨a, hm, hx⟩) rfl
        · rw [List.count_cons_of_ne e] at hn
          exact h3 n hn
    · rintro ⟨h1, h2⟩
      refine ⟨h1 a List.mem_cons_self, ⟨fun n hn => h1 n (List.mem_cons_of_mem _ hn), fun n hn => h2 n (le_trans hn (List.count_le_count_cons))⟩, ?_⟩
      rintro x hx y hy rfl
      obtain ⟨m, hm, hy⟩ := List.mem_flatMap.mp hy
      have e := hdis a List.mem_cons_self m (List.mem_cons_of_mem _ hm) x hx hy
      subst e
      have := h2 a (by rw [List.count_cons_self]; have := List.count_pos_iff.mpr hm; omega)
      rw [this] at hx
      cases hx

/-- In order.txt files that name entries of their directories only, the files that are reached are those below. -/
theorem reaches_below {fs : FS} (hsub : ∀ d, ∀ n ∈ Spec.inOrder fs d, n ∈ fs.names d) {d n : Bytes} (h : Spec.Named fs d n) : n ∈ fs.names d := by
  rcases h with h | ⟨h1, h2, lines, ho, line, hl, rfl⟩
  · exact h
  · refine hsub d _ ?_
    unfold Spec.inOrder
    rw [ho]
    simp only [List.mem_filter, List.mem_map, decide_eq_true_eq]
    exact ⟨⟨line, hl, rfl⟩, h1, h2⟩

theorem reaches_prefix {fs : FS} (hp : ∀ d, ∀ n, Spec.Named fs d n → Spec.Part n) {dir p : Bytes} (h : Spec.Reaches fs dir p) : base dir <+: p := by
  induction h with
  | file dir n hn _ => rw [appendPath_eq]; exact List.prefix_append _ _
  | sub dir n p hn _ _ ih =>
    rw [base_append (hp dir n hn), List.append_assoc] at ih
    exact (List.prefix_append _ _).trans ih

/-- **C83 (exactly when each is listed once).** If the `order.txt` files name entries of their directories, every file below the directory is listed, and each is listed
once exactly if no `order.txt` of a directory that is listed names an entry twice that is a file or has files below it. -/
theorem C83_once_iff (fs : FS) (hp : ∀ d, ∀ n ∈ fs.names d, Spec.Part n) (hnd : ∀ d, (fs.names d).Nodup) (hsub : ∀ d, ∀ n ∈ Spec.inOrder fs d, n ∈ fs.names d)
    (fuel : Nat) : ∀ (dir : Bytes) (l : List Bytes), contents fs fuel dir = some l →
      (l.Nodup ↔ ∀ d, Spec.Subdir fs dir d → ∀ n, 2 ≤ (Spec.inOrder fs d).count n → fs.isDir (appendPath d n) = true ∧ ∀ p, ¬ Spec.Reaches fs (appendPath d n) p) := by
  have hpn : ∀ d, ∀ n, Spec.Named fs d n → Spec.Part n := fun d n h => hp d n (reaches_below hsub h)
  induction fuel with
  | zero => intro dir l h; simp [contents] at h
  | succ fuel ih =>
    intro dir l h
    rw [contents] at h
    obtain ⟨rfl, h2⟩ := contentsOf_parts fs _ dir _ l h
    -- the parts have nothing in common
    have shape : ∀ n ∈ getOrder fs dir, ∀ x, x ∈ (partOf fs (contents fs fuel) dir n).getD [] → ∃ t, x = base dir ++ (n ++ t) ∧ (t = [] ∨ ∃ u, t = '/' :: u) := by
      intro n hn x hx
      have hN := (mem_getOrder fs dir n).mp hn
      obtain ⟨a, ha⟩ := h2 n hn
      rw [ha, Option.getD_some] at hx
      unfold partOf at ha
      by_cases hd : fs.isDir (appendPath dir n) = true
      · rw [if_pos hd] at ha
        obtain ⟨u, hu⟩ := reaches_prefix hpn ((C83_listed fs fuel _ a ha x).mp hx)
        rw [base_append (hpn dir n hN)] at hu
        exact ⟨'/' :: u, by rw [← hu]; simp, Or.inr ⟨u, rfl⟩⟩
      · rw [if_neg hd, Option.some.injEq] at ha
        subst ha
        rw [List.mem_singleton] at hx
        exact ⟨[], by rw [hx, appendPath_eq, List.append_nil], Or.inl rfl⟩
    have hdis : ∀ n ∈ getOrder fs dir, ∀ m ∈ getOrder fs dir, ∀ x, x ∈ (partOf fs (contents fs fuel) dir n).getD [] →
        x ∈ (partOf fs (contents fs fuel) dir m).getD [] → n = m := by
      intro n hn m hm x hx hy
      obtain ⟨t, e1, e2⟩ := shape n hn x hx
      obtain ⟨t', e1', e2'⟩ := shape m hm x hy
      have e3 : n ++ t = m ++ t' := List.append_cancel_left (e1.symm.trans e1')
      exact part_unique (hpn dir n ((mem_getOrder fs dir n).mp hn)).2 (hpn dir m ((mem_getOrder fs dir m).mp hm)).2 e2 e2' e3
    rw [flatMap_nodup _ _ hdis]
    -- names that are listed twice are so in order.txt
    have hcount : ∀ n, 2 ≤ (getOrder fs dir).count n ↔ 2 ≤ (Spec.inOrder fs dir).count n := by
      intro n
      obtain ⟨rest, hr, hperm, _⟩ := C83_order fs dir
      rw [hr, List.count_append, hperm.count_eq]
      by_cases hm : n ∈ Spec.inOrder fs dir
      · have h0 : ((fs.names dir).filter fun n => n ∉ Spec.inOrder fs dir).count n = 0 := by
          rw [List.count_eq_zero]
          intro hc
          have := (List.mem_filter.mp hc).2
          simp only [decide_eq_true_eq] at this
          exact this hm
        rw [h0]
        omega
      · have h1 : ((fs.names dir).filter fun n => n ∉ Spec.inOrder fs dir).count n ≤ 1 :=
          List.nodup_iff_count_le_one.mp ((hnd dir).filter _) n
        have h0 : (Spec.inOrder fs dir).count n = 0 := List.count_eq_zero.mpr hm
        omega
    have hempty : ∀ n, n ∈ getOrder fs dir → ((partOf fs (contents fs fuel) dir n).getD [] = [] ↔
        fs.isDir (appendPath dir n) = true ∧ ∀ p, ¬ Spec.Reaches fs (appendPath dir n) p) := by
      intro n hn
      obtain ⟨a, ha⟩ := h2 n hn
      rw [ha, Option.getD_some]
      unfold partOf at ha
      by_cases hd : fs.isDir (appendPath dir n) = true
      · rw [if_pos hd] at ha
        have := C83_listed fs fuel _ a ha
        constructor
        · rintro rfl
          exact ⟨hd, fun p hr => List.not_mem_nil ((this p).mpr hr)⟩
        · rintro ⟨_, h⟩
          rw [List.eq_nil_iff_forall_not_mem]
          intro p hm
          exact h p ((this p).mp hm)
      · rw [if_neg hd, Option.some.injEq] at ha
        subst ha
        simp [hd]
    constructor
    · rintro ⟨hA, hB⟩ d hs n hn
      cases hs with
      | self =>
        have hc := (hcount n).mpr hn
        exact (hempty n (List.count_pos_iff.mp (by omega))).mp (hB n hc)
      | sub _ m _ hN hd hs =>
        have hm := (mem_getOrder fs dir m).mpr hN
        obtain ⟨a, ha⟩ := h2 m hm
        have hnda := hA m hm
        rw [ha, Option.getD_some] at hnda
        unfold partOf at ha
        rw [if_pos hd] at ha
        exact (ih _ a ha).mp hnda d hs n hn
    · intro hall
      refine ⟨fun n hn => ?_, fun n hn => ?_⟩
      · have hN := (mem_getOrder fs dir n).mp hn
        obtain ⟨a, ha⟩ := h2 n hn
        rw [ha, Option.getD_some]
        unfold partOf at ha
        by_cases hd : fs.isDir (appendPath dir n) = true
        · rw [if_pos hd] at ha
          exact (ih _ a ha).mpr fun d hs => hall d (.sub dir n d hN hd hs)
        · rw [if_neg hd, Option.some.injEq] at ha
          subst ha
          simp
      · have hm : n ∈ getOrder fs dir := List.count_pos_iff.mp (by omega)
        exact (hempty n hm).mpr (hall dir (.self dir) n ((hcount n).mp hn))

/-- A directory with an empty directory that is named twice, a file and an order file: everything is listed once; if the file is named twice it is listed twice. -/
def exTwice (name : Bytes) : FS where
  names d := if d = "r/".toList then ["a".toList, "e".toList, "order.txt".toList] else []
  order d := if d = "r/".toList then some [name, "# no more".toList, name, "x".toList] else none
  has d n := d == "r/".toList && (n == "a".toList || n == "e".toList)
  isDir p := p == "r/".toList || p == "r/e".toList
  isFile p := p == "r/a".toList || p == "r/order.txt".toList

example : contents (exTwice "e ".toList) 3 "r/".toList = some ["r/a".toList, "r/order.txt".toList] ∧
    contents (exTwice "a".toList) 3 "r/".toList = some ["r/a".toList, "r/a".toList, "r/order.txt".toList] ∧
    Spec.inOrder (exTwice "a".toList) "r/".toList = ["a".toList, "a".toList] := by decide +kernel

/-- The example meets the hypotheses of `C83_once_iff`. -/
example : (∀ d, ∀ n ∈ (exTwice "a".toList).names d, Spec.Part n) ∧ (∀ d, ((exTwice "a".toList).names d).Nodup) ∧
    ∀ d, ∀ n ∈ Spec.inOrder (exTwice "a".toList) d, n ∈ (exTwice "a".toList).names d := by
  refine ⟨fun d n hn => ?_, fun d => ?_, fun d n hn => ?_⟩
  · by_cases h : d = "r/".toList
    · subst h
      have : n ∈ ["a".toList, "e".toList, "order.txt".toList] := hn
      have all : ∀ m ∈ ["a".toList, "e".toList, "order.txt".toList], m ≠ [] ∧ '/' ∉ m := by decide +kernel
      exact all n this
    · have e : (exTwice "a".toList).names d = [] := if_neg h
      rw [e] at hn
      cases hn
  · by_cases h : d = "r/".toList
    · subst h; decide +kernel
    · have e : (exTwice "a".toList).names d = [] := if_neg h
      rw [e]
      exact List.nodup_nil
  · by_cases h : d = "r/".toList
    · subst h
      have : n ∈ ["a".toList, "a".toList] := by
        have e : Spec.inOrder (exTwice "a".toList) "r/".toList = ["a".toList, "a".toList] := by decide +kernel
        rwa [e] at hn
      have all : ∀ m ∈ ["a".toList, "a".toList], m ∈ (exTwice "a".toList).names "r/".toList := by decide +kernel
      exact all n this
    · have e : (exTwice "a".toList).order d = none := if_neg h
      unfold Spec.inOrder at hn
      rw [e] at hn
      cases hn

end Alexandria.XYDataset
