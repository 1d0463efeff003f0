import Verif.XYDataset.ProviderModel
import Verif.XYDataset.Props2
import Verif.XYDataset.Props3
import Verif.XYDataset.AsciiParserProps

/-! # C118: a provider gives access to exactly the dataset files below its root -/

namespace Alexandria.XYDataset

open Str Alexandria.Table

variable {F D : Type}

namespace Spec

/-- The file is in the directory `gs` (one name per level) below `root`. -/
def Located (root f : Bytes) (gs : List Bytes) : Prop :=
  ∃ n, Part n ∧ (∀ g ∈ gs, Part g) ∧ f = root ++ text gs n

/-- A directory tree: the entries of a directory are different, and names of one level; `order.txt` names entries of its directory, none twice. -/
structure Tree (fs : FS) : Prop where
  part : ∀ d, ∀ n ∈ fs.names d, Part n
  nodup : ∀ d, (fs.names d).Nodup
  order : ∀ d, (getOrder fs d).Perm (fs.names d)

end Spec

/-- The file `f` below `root` is a dataset with this name. -/
def IsDataset (fs : FS) (ps : Parser) (root f name : Bytes) : Prop :=
  Below fs root f ∧ fs.isFile f = true ∧ ps.isDataset f = true ∧ ps.nameOf f = name ∧ name ≠ []

theorem text_cons (g : Bytes) (gs : List Bytes) (n : Bytes) : Spec.text (g :: gs) n = g ++ ['/'] ++ Spec.text gs n := by
  rw [text_eq, text_eq]
  simp [enc]

/-- A file below a directory is in some directory below it. -/
theorem Below.located {fs : FS} (hp : ∀ d, ∀ n ∈ fs.names d, Spec.Part n) {dir p : Bytes} (h : Below fs dir p) : ∃ gs, Spec.Located (base dir) p gs := by
  induction h with
  | file dir n hn _ => exact ⟨[], n, hp dir n hn, by simp, by rw [appendPath_eq, text_eq]; simp [enc]⟩
  | sub dir n p hn _ _ ih =>
    obtain ⟨gs, m, hm, hgs, e⟩ := ih
    refine ⟨n :: gs, m, hm, ?_, ?_⟩
    · intro g hg
      rcases List.mem_cons.mp hg with rfl | hg
      · exact hp dir _ hn
      · exact hgs g hg
    · rw [e, base_append (hp dir n hn), text_cons]
      simp

/-- The directories of a file are determined by its path. -/
theorem Spec.Located.groups {root f : Bytes} {gs : List Bytes} (h : Spec.Located root f gs) : (splitChar '/' (f.drop root.length)).dropLast = gs := by
  obtain ⟨n, hn, hgs, rfl⟩ := h
  rw [List.drop_left, split_text hgs hn]
  simp

theorem Spec.Located.length {root f : Bytes} {gs : List Bytes} (h : Spec.Located root f gs) : root.length ≤ f.length := by
  obtain ⟨n, hn, hgs, rfl⟩ := h
  simp

/-- The path of a directory with one slash at the end is its own base. -/
theorem base_checkEnd (core : Bytes) (n : Nat) (h : core.getLast? ≠ some '/') (hn : core.length + n < 2 ^ 64 - 1) :
    checkEndSlashes (core ++ List.replicate n '/') = core ++ ['/'] ∧ base (core ++ ['/']) = core ++ ['/'] := by
  refine ⟨?_, by simp [base]⟩
  exact C86_end core n h hn

/-- The text of the qualified name that the constructor makes for a file. -/
def keyOf (ps : Parser) (root f : Bytes) : Bytes := Spec.text (splitChar '/' (f.drop root.length)).dropLast (ps.nameOf f)

/-- The loop ends without an exception if all names are fine and different. -/
theorem ctorLoop_ok (fs : FS) (ps : Parser) (root : Bytes) : ∀ (files : List Bytes) (st : Prov),
    (∀ f ∈ datasets fs ps files, root.length ≤ f.length ∧ (∀ g ∈ (splitChar '/' (f.drop root.length)).dropLast, Spec.Part g) ∧ Spec.Part (ps.nameOf f)) →
    ((datasets fs ps files).map (keyOf ps root)).Nodup → (∀ f ∈ datasets fs ps files, assoc (keyOf ps root f) st.files = none) →
    ∃ st', ctorLoop fs ps root files st = .ok st' := by
  intro files
  induction files with
  | nil => intro st _ _ _; exact ⟨st, rfl⟩
  | cons f fl ih =>
    intro st hv hd hn
    rw [ctorLoop]
    by_cases h1 : fs.isFile f ∧ ps.isDataset f
    · rw [if_pos h1]
      by_cases h2 : ps.nameOf f = []
      · rw [if_pos h2]
        have e : datasets fs ps (f :: fl) = datasets fs ps fl := by simp [datasets, h2]
        rw [e] at hv hd hn
        exact ih st hv hd hn
      · rw [if_neg h2]
        have e : datasets fs ps (f :: fl) = f :: datasets fs ps fl := by simp [datasets, h1, h2]
        rw [e] at hv hd hn
        obtain ⟨v1, v2, v3⟩ := hv f List.mem_cons_self
        have hk := hn f List.mem_cons_self
        rw [List.map_cons, List.nodup_cons] at hd
        have es : substr f (some root.length) = .ok (f.drop root.length) := by
          unfold substr
          simp only
          rw [if_pos v1]
        rw [es, Outcome.bind_ok, mkName_ok v2 v3, Outcome.bind_ok]
        simp only
        rw [if_neg (by
          show ¬ (assoc (keyOf ps root f) st.files).isSome = true
          rw [hk]; simp)]
        refine ih _ (fun g hg => hv g (List.mem_cons_of_mem _ hg)) hd.2 (fun g hg => ?_)
        rw [assoc_append_none (hn g (List.mem_cons_of_mem _ hg)), if_neg]
        intro hc
        exact hd.1 (List.mem_map.mpr ⟨g, hg, hc⟩)
    · rw [if_neg h1]
      have e : datasets fs ps (f :: fl) = datasets fs ps fl := by
        unfold datasets
        rw [List.filter_cons_of_neg]
        rw [decide_eq_true_eq]
        rintro ⟨a, b, _⟩
        exact h1 ⟨a, b⟩
      rw [e] at hv hd hn
      exact ih st hv hd hn

/-- What a successful constructor has done. -/
theorem mkProvider_ok {d : Disk} {ps : Parser} {fuel : Nat} {root : Bytes} {p : Prov} (h : mkProvider d ps fuel root = .ok p) :
    ∃ files, contents d.fs fuel (checkEndSlashes root) = some files ∧ ctorLoop d.fs ps (checkEndSlashes root) files {} = .ok p := by
  unfold mkProvider at h
  simp only at h
  split at h
  · cases h
  · split at h
    · split at h
      · rename_i files hf
        exact ⟨files, hf, h⟩
      · cases h
    · cases h

theorem mem_datasets {d : Disk} (ht : Spec.Tree d.fs) (ps : Parser) {fuel : Nat} {root : Bytes} {files : List Bytes}
    (hc : contents d.fs fuel root = some files) (f : Bytes) : f ∈ datasets d.fs ps files ↔ IsDataset d.fs ps root f (ps.nameOf f) := by
  have hl := (C83_recursive_partial d.fs ht.part ht.nodup ht.order fuel _ files hc).2
  unfold datasets IsDataset
  rw [List.mem_filter, decide_eq_true_eq, hl]
  simp

/-- Each dataset file below the root is found under the name made of its directories and of the name that the parser gives. -/
theorem C118_found (d : Disk) (ht : Spec.Tree d.fs) (ps : Parser) (fuel : Nat) (core : Bytes) (k : Nat) (hcore : core.getLast? ≠ some '/')
    (hlen : core.length + k < 2 ^ 64 - 1) (p : Prov) (h : mkProvider d ps fuel (core ++ List.replicate k '/') = .ok p)
    (f name : Bytes) (hf : IsDataset d.fs ps (core ++ ['/']) f name) (gs : List Bytes) (hg : Spec.Located (core ++ ['/']) f gs) :
    ∃ q, mkName gs name = .ok q ∧ q ∈ p.names ∧ p.fileOf q = some f := by
  obtain ⟨e1, e2⟩ := base_checkEnd core k hcore hlen
  obtain ⟨files, hc, hl⟩ := mkProvider_ok h
  rw [e1] at hc hl
  have hn : ps.nameOf f = name := hf.2.2.2.1
  have hi := C30_ctor d.fs ps _ files p hl
  have hm : f ∈ datasets d.fs ps files := by rw [mem_datasets ht ps hc, hn]; exact hf
  obtain ⟨i, hi1, hi2⟩ := List.getElem_of_mem hm
  have hlen2 := hi.pairs.length_eq
  have hpair := hi.pairs.get (i := i) hi1 (by omega)
  simp only [List.get_eq_getElem] at hpair
  rw [hi2, hg.groups, hn] at hpair
  obtain ⟨hv, v1, v2, v3⟩ := hpair
  generalize hq : p.names[i]'(by omega) = q at hv v1 v2 v3
  have hmem : q ∈ p.names := by rw [← hq]; exact List.getElem_mem _
  refine ⟨q, ?_, hmem, v3⟩
  rw [mkName_ok (by rw [← v2]; exact hv.groups) (by rw [← v1]; exact hv.name), Outcome.ok.injEq]
  have hh : q.mhash = 0 := by rcases hv.hash with h | h <;> exact h
  have hqn := hv.qname
  obtain ⟨a, b, c, e⟩ := q
  simp only at v1 v2 hh hqn
  rw [hqn, v1, v2, hh]

/-- Nothing else is found: each listed name, and each name that has a file, is the name of a dataset file below the root. -/
theorem C118_only (d : Disk) (ht : Spec.Tree d.fs) (ps : Parser) (fuel : Nat) (core : Bytes) (k : Nat) (hcore : core.getLast? ≠ some '/')
    (hlen : core.length + k < 2 ^ 64 - 1) (p : Prov) (h : mkProvider d ps fuel (core ++ List.replicate k '/') = .ok p)
    (q : QName) (hv : q.Valid (fun _ => 0)) (hq : q ∈ p.names ∨ p.fileOf q ≠ none) :
    ∃ f, IsDataset d.fs ps (core ++ ['/']) f q.name ∧ Spec.Located (core ++ ['/']) f q.groups ∧ p.fileOf q = some f := by
  obtain ⟨e1, e2⟩ := base_checkEnd core k hcore hlen
  obtain ⟨files, hc, hl⟩ := mkProvider_ok h
  rw [e1] at hc hl
  have hi := C30_ctor d.fs ps _ files p hl
  have key : ∀ q ∈ p.names, ∃ f, IsDataset d.fs ps (core ++ ['/']) f q.name ∧ Spec.Located (core ++ ['/']) f q.groups ∧ p.fileOf q = some f := by
    intro q hq
    obtain ⟨i, hi1, rfl⟩ := List.getElem_of_mem hq
    have hlen2 := hi.pairs.length_eq
    have hpair := hi.pairs.get (i := i) (by omega) hi1
    simp only [List.get_eq_getElem] at hpair
    obtain ⟨hv, v1, v2, v3⟩ := hpair
    have hm := (mem_datasets ht ps hc _).1 (List.getElem_mem (l := datasets d.fs ps files) (n := i) (by omega))
    refine ⟨_, by rw [v1]; exact hm, ?_, v3⟩
    obtain ⟨gs, hgs⟩ := hm.1.located ht.part
    rw [e2] at hgs
    rw [v2, hgs.groups]
    exact hgs
  rcases hq with hq | hq
  · exact key q hq
  · cases hf : p.fileOf q with
    | none => exact absurd hf hq
    | some f =>
      obtain ⟨q', hq', he⟩ := List.mem_map.mp (hi.keys _ f hf)
      obtain ⟨f', h1, h2, h3⟩ := key q' hq'
      obtain ⟨i, hi1, hi3⟩ := List.getElem_of_mem hq'
      have hlen2 := hi.pairs.length_eq
      have hpair := hi.pairs.get (i := i) (by omega) hi1
      simp only [List.get_eq_getElem, hi3] at hpair
      have hv' := hpair.1
      have := text_inj hv.groups hv.name hv'.groups hv'.name (by rw [← hv.qname, ← hv'.qname]; exact he.symm)
      have hff : f' = f := by
        unfold Prov.fileOf at h3 hf
        rw [he, hf] at h3
        exact (Option.some.inj h3).symm
      subst hff
      refine ⟨f', by rw [this.2]; exact h1, by rw [this.1]; exact h2, rfl⟩

/-- The listing is in the order of the files (`C83`): the k-th name leads to the k-th dataset file. -/
theorem C118_order (d : Disk) (ps : Parser) (fuel : Nat) (root : Bytes) (p : Prov) (h : mkProvider d ps fuel root = .ok p) :
    p.listContents [] = .ok p.names ∧ (p.names.map (·.qname)).Nodup ∧
    ∃ files, contents d.fs fuel (checkEndSlashes root) = some files ∧ p.names.map p.fileOf = (datasets d.fs ps files).map some := by
  obtain ⟨files, hc, hl⟩ := mkProvider_ok h
  have hi := C30_ctor d.fs ps _ files p hl
  refine ⟨?_, hi.nodup, files, hc, ?_⟩
  · rw [C30_list (fun _ => 0) p (fun q hq => (C30_ctor_valid d.fs ps _ files p hl q hq).1) [] [] ⟨0, 0, rfl, by simp, by simp⟩]
    simp
  · have := hi.pairs
    generalize datasets d.fs ps files = l at this
    have gen : ∀ (l : List Bytes) (ns : List QName), List.Forall₂ (fun f q => p.fileOf q = some f) l ns → ns.map p.fileOf = l.map some := by
      intro l ns h
      induction h with
      | nil => rfl
      | cons h _ ih => rw [List.map_cons, List.map_cons, h, ih]
    exact gen l p.names (this.imp fun _ _ h => h.2.2.2)

/-- The constructor succeeds exactly if the root is a directory, the names of the datasets have no slash, and the datasets of one directory have different
names. -/
theorem C118_opens (d : Disk) (ht : Spec.Tree d.fs) (ps : Parser) (fuel : Nat) (core : Bytes) (k : Nat) (hcore : core.getLast? ≠ some '/')
    (hlen : core.length + k < 2 ^ 64 - 1) (hfuel : contents d.fs fuel (core ++ ['/']) ≠ none) :
    (∃ p, mkProvider d ps fuel (core ++ List.replicate k '/') = .ok p) ↔
    d.there (core ++ ['/']) = true ∧ d.fs.isDir (core ++ ['/']) = true ∧
    (∀ f name, IsDataset d.fs ps (core ++ ['/']) f name → '/' ∉ name) ∧
    (∀ f f' name gs, IsDataset d.fs ps (core ++ ['/']) f name → IsDataset d.fs ps (core ++ ['/']) f' name →
      Spec.Located (core ++ ['/']) f gs → Spec.Located (core ++ ['/']) f' gs → f = f') := by
  obtain ⟨e1, e2⟩ := base_checkEnd core k hcore hlen
  constructor
  · rintro ⟨p, h⟩
    have hp := h
    unfold mkProvider at h
    simp only [e1] at h
    by_cases h1 : d.there (core ++ ['/']) = false
    · rw [if_pos h1] at h; cases h
    rw [if_neg h1] at h
    by_cases h2 : d.fs.isDir (core ++ ['/']) = true
    · refine ⟨by simpa using h1, h2, ?_, ?_⟩
      · intro f name hf
        obtain ⟨gs, hgs⟩ := hf.1.located ht.part
        rw [e2] at hgs
        obtain ⟨q, hq, _, _⟩ := C118_found d ht ps fuel core k hcore hlen p hp f name hf gs hgs
        have := mkName_valid (h := fun _ => 0) hq
        rw [← this.2.2]
        exact this.1.name.2
      · intro f f' name gs hf hf' hg hg'
        obtain ⟨q, hq, _, h3⟩ := C118_found d ht ps fuel core k hcore hlen p hp f name hf gs hg
        obtain ⟨q', hq', _, h3'⟩ := C118_found d ht ps fuel core k hcore hlen p hp f' name hf' gs hg'
        rw [hq, Outcome.ok.injEq] at hq'
        subst hq'
        rw [h3] at h3'
        exact Option.some.inj h3'
    · rw [if_neg h2] at h; cases h
  · rintro ⟨h1, h2, h3, h4⟩
    obtain ⟨files, hc⟩ := Option.ne_none_iff_exists'.mp hfuel
    have hnd := (C83_recursive_partial d.fs ht.part ht.nodup ht.order fuel _ files hc).1
    have hds : ∀ f ∈ datasets d.fs ps files, IsDataset d.fs ps (core ++ ['/']) f (ps.nameOf f) ∧ ∃ gs, Spec.Located (core ++ ['/']) f gs := by
      intro f hf
      have := (mem_datasets ht ps hc f).1 hf
      obtain ⟨gs, hgs⟩ := this.1.located ht.part
      rw [e2] at hgs
      exact ⟨this, gs, hgs⟩
    have hparts : ∀ f ∈ datasets d.fs ps files, (core ++ ['/']).length ≤ f.length ∧
        (∀ g ∈ (splitChar '/' (f.drop (core ++ ['/']).length)).dropLast, Spec.Part g) ∧ Spec.Part (ps.nameOf f) := by
      intro f hf
      obtain ⟨hd, gs, hgs⟩ := hds f hf
      refine ⟨hgs.length, ?_, hd.2.2.2.2, h3 f _ hd⟩
      rw [hgs.groups]
      obtain ⟨_, _, hp, _⟩ := hgs
      exact hp
    obtain ⟨p, hp⟩ := ctorLoop_ok d.fs ps (core ++ ['/']) files {} hparts (by
      apply List.Nodup.map_on _ (hnd.filter _)
      intro f hf f' hf' he
      obtain ⟨hd, gs, hgs⟩ := hds f hf
      obtain ⟨hd', gs', hgs'⟩ := hds f' hf'
      obtain ⟨_, a2, a3⟩ := hparts f hf
      obtain ⟨_, b2, b3⟩ := hparts f' hf'
      obtain ⟨c1, c2⟩ := text_inj a2 a3 b2 b3 he
      rw [hgs.groups, hgs'.groups] at c1
      subst c1
      rw [← c2] at hd'
      exact h4 f f' _ gs hd hd' hgs hgs') (fun f hf => rfl)
    refine ⟨p, ?_⟩
    unfold mkProvider
    simp only [e1]
    rw [if_neg (by rw [h1]; simp), if_pos h2, hc]
    exact hp

/-! ## With ASCII files -/

/-- The points and parameters of a file are those that the parser finds in its text; an unknown name has none. -/
theorem C118_ascii (fmt : Fmt F D) (isDouble : Bytes → Bool) (d : Disk) (ht : Spec.Tree d.fs) (fuel : Nat) (core : Bytes) (k : Nat)
    (hcore : core.getLast? ≠ some '/') (hlen : core.length + k < 2 ^ 64 - 1) (p : Prov)
    (h : mkProvider d (asciiParser isDouble d) fuel (core ++ List.replicate k '/') = .ok p) :
    (∀ f t name gs, Below d.fs (core ++ ['/']) f → d.fs.isFile f = true → d.text f = some t → isDatasetFile isDouble t = true →
      AsciiIO.getName f (some t) = .ok name → name ≠ [] → Spec.Located (core ++ ['/']) f gs →
      ∃ q, mkName gs name = .ok q ∧ q ∈ p.names ∧ p.getDataset fmt d q = AsciiIO.getDataset fmt (some t) ∧
        ∀ key, p.getParameter d q key = .ok (getParameter key t)) ∧
    (∀ q, q.Valid (fun _ => 0) → q ∉ p.names → p.getDataset fmt d q = .ok none ∧ ∀ key, p.getParameter d q key = .ok []) := by
  refine ⟨?_, ?_⟩
  · intro f t name gs h1 h2 h3 h4 h5 h6 h7
    obtain ⟨q, hq, hm, hf⟩ := C118_found d ht (asciiParser isDouble d) fuel core k hcore hlen p h f name
      ⟨h1, h2, by simp only [asciiParser, h3]; exact h4, by simp only [asciiParser, h3, h5], h6⟩ gs h7
    refine ⟨q, hq, hm, ?_, fun key => ?_⟩
    · unfold Prov.getDataset; rw [hf]; simp only [h3]
    · unfold Prov.getParameter; rw [hf]; simp only [h3]
  · intro q hv hq
    have hn : p.fileOf q = none := by
      by_contra hc
      obtain ⟨f, h1, h2, h3⟩ := C118_only d ht (asciiParser isDouble d) fuel core k hcore hlen p h q hv (Or.inr hc)
      obtain ⟨q', hq', hm, _⟩ := C118_found d ht (asciiParser isDouble d) fuel core k hcore hlen p h f q.name h1 q.groups h2
      obtain ⟨v, v1, v2⟩ := mkName_valid (h := fun _ => 0) hq'
      apply hq
      have hh : q.mhash = 0 := by rcases hv.hash with h | h <;> exact h
      have hh' : q'.mhash = 0 := by rcases v.hash with h | h <;> exact h
      have e : q = q' := by
        have g1 := hv.qname
        have g2 := v.qname
        rw [v1, v2] at g2
        obtain ⟨a, b, c, e⟩ := q
        obtain ⟨a', b', c', e'⟩ := q'
        simp only at v1 v2 hh hh' g1 g2
        rw [v1, v2, hh, hh', g1, g2]
      rw [e]
      exact hm
    refine ⟨?_, fun key => ?_⟩
    · unfold Prov.getDataset; rw [hn]
    · unfold Prov.getParameter; rw [hn]

/-- Two files in two directories. -/
def exFs : FS where
  names d := if d = "r/".toList then [['a'], ['s']] else if d = "r/s".toList then ["b.txt".toList] else []
  order _ := none
  has _ _ := false
  isDir d := d == "r/".toList || d == "r/s".toList
  isFile f := f == "r/a".toList || f == "r/s/b.txt".toList

/-- `exFs` with these texts in the two files. -/
def exDisk (a b : Bytes) : Disk where
  fs := exFs
  there p := exFs.isDir p || exFs.isFile p
  text f := if f = "r/a".toList then some a else if f = "r/s/b.txt".toList then some b else none

theorem exFs_names (d : Bytes) : exFs.names d = [['a'], ['s']] ∨ exFs.names d = ["b.txt".toList] ∨ exFs.names d = [] := by
  unfold exFs
  simp only
  split
  · exact Or.inl rfl
  · split
    · exact Or.inr (Or.inl rfl)
    · exact Or.inr (Or.inr rfl)

theorem exFs_tree : Spec.Tree exFs := by
  refine ⟨?_, ?_, ?_⟩
  · intro d n hn
    rcases exFs_names d with h | h | h <;> rw [h] at hn
    · rcases List.mem_cons.mp hn with rfl | hn
      · exact ⟨by decide, by decide⟩
      · rw [List.mem_singleton] at hn; subst hn; exact ⟨by decide, by decide⟩
    · rw [List.mem_singleton] at hn; subst hn; exact ⟨by decide, by decide⟩
    · cases hn
  · intro d
    rcases exFs_names d with h | h | h <;> rw [h] <;> decide
  · intro d
    have ho : ordered exFs d = [] := rfl
    refine (C83_order_partial exFs d ?_ (by rw [ho]; simp) (by rw [ho]; simp)).1
    rcases exFs_names d with h | h | h <;> rw [h] <;> decide

/-- A number is a word of digits. -/
def isNat (s : Bytes) : Bool := (AsciiIO.natFmt.f64.parse s).isSome

/-- The second file is found as `s/flux`, with its points and its parameter. -/
example : ((mkProvider (exDisk "# first\n1 2\n".toList "# NAME : flux\n# unit: Jy\n1 5\n2 7\n".toList)
      (asciiParser isNat (exDisk "# first\n1 2\n".toList "# NAME : flux\n# unit: Jy\n1 5\n2 7\n".toList)) 3 "r//".toList).bind fun p => .ok (p.names.map (·.qname))) =
    .ok ["first".toList, "s/flux".toList] := by decide +kernel
example : ((mkProvider (exDisk "# first\n1 2\n".toList "# NAME : flux\n# unit: Jy\n1 5\n2 7\n".toList)
      (asciiParser isNat (exDisk "# first\n1 2\n".toList "# NAME : flux\n# unit: Jy\n1 5\n2 7\n".toList)) 3 "r".toList).bind fun p =>
      .ok (p.getDataset AsciiIO.natFmt (exDisk "# first\n1 2\n".toList "# NAME : flux\n# unit: Jy\n1 5\n2 7\n".toList) ⟨[['s']], "flux".toList, "s/flux".toList, 0⟩,
        p.getParameter (exDisk "# first\n1 2\n".toList "# NAME : flux\n# unit: Jy\n1 5\n2 7\n".toList) ⟨[['s']], "flux".toList, "s/flux".toList, 0⟩ "unit".toList)) =
    .ok (.ok (some [(1, 5), (2, 7)]), .ok "Jy".toList) := by decide +kernel

/-- The claim without conditions: a directory of datasets can be opened, and every dataset in it can be read. -/
def C118_full : Prop := ∀ (d : Disk), Spec.Tree d.fs → ∀ (fuel : Nat) (root : Bytes), d.there (root ++ ['/']) = true → d.fs.isDir (root ++ ['/']) = true →
  contents d.fs fuel (root ++ ['/']) ≠ none →
  ∃ p, mkProvider d (asciiParser isNat d) fuel root = .ok p ∧ ∀ q ∈ p.names, ∃ l, p.getDataset AsciiIO.natFmt d q = .ok (some l)

/-- One file whose name has a slash makes all the others inaccessible. -/
theorem C118_slash_violated : ¬ C118_full := fun h => by
  obtain ⟨p, hp, _⟩ := h (exDisk "1 2\n".toList "# NAME: a/b\n1 5\n".toList) exFs_tree 3 "r".toList (by decide +kernel) (by decide +kernel) (by decide +kernel)
  have : mkProvider (exDisk "1 2\n".toList "# NAME: a/b\n1 5\n".toList) (asciiParser isNat (exDisk "1 2\n".toList "# NAME: a/b\n1 5\n".toList)) 3 "r".toList =
    .throw .elements := by decide +kernel
  rw [this] at hp
  cases hp

/-- A listed dataset that cannot be read: only the first of its lines was examined. -/
theorem C118_violated : ¬ C118_full := fun h => by
  obtain ⟨p, hp, hq⟩ := h (exDisk "1 2\n3\n".toList "1 5\n".toList) exFs_tree 3 "r".toList (by decide +kernel) (by decide +kernel) (by decide +kernel)
  have : mkProvider (exDisk "1 2\n3\n".toList "1 5\n".toList) (asciiParser isNat (exDisk "1 2\n3\n".toList "1 5\n".toList)) 3 "r".toList =
    .ok ⟨[("a".toList, "r/a".toList), ("s/b".toList, "r/s/b.txt".toList)], [⟨[], "a".toList, "a".toList, 0⟩, ⟨[['s']], "b".toList, "s/b".toList, 0⟩]⟩ := by
    decide +kernel
  rw [this, Outcome.ok.injEq] at hp
  subst hp
  obtain ⟨l, hl⟩ := hq ⟨[], "a".toList, "a".toList, 0⟩ (by simp)
  have : Prov.getDataset AsciiIO.natFmt (exDisk "1 2\n3\n".toList "1 5\n".toList)
    ⟨[("a".toList, "r/a".toList), ("s/b".toList, "r/s/b.txt".toList)], [⟨[], "a".toList, "a".toList, 0⟩, ⟨[['s']], "b".toList, "s/b".toList, 0⟩]⟩
    ⟨[], "a".toList, "a".toList, 0⟩ = .throw .elements := by decide +kernel
  rw [this] at hl
  cases hl

end Alexandria.XYDataset
