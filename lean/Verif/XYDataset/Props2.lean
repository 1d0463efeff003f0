import Verif.XYDataset.Props
import Mathlib.Data.List.Forall2

/-! # The file system provider and the ASCII parser (C30, C83-C86) -/

namespace Alexandria.XYDataset

open Str

/-! ## C30: listing a group -/

theorem exists_stripped (s : Bytes) : ∃ core, Spec.Stripped s core := by
  have h1 : ∀ s : Bytes, ∃ m t, s = List.replicate m '/' ++ t ∧ t.head? ≠ some '/' := by
    intro s
    induction s with
    | nil => exact ⟨0, [], rfl, by simp⟩
    | cons c s ih =>
      by_cases h : c = '/'
      · obtain ⟨m, t, e, ht⟩ := ih
        exact ⟨m + 1, t, by rw [List.replicate_succ, List.cons_append, ← e, h], ht⟩
      · exact ⟨0, c :: s, rfl, by simpa using h⟩
  obtain ⟨m, t, e, ht⟩ := h1 s
  obtain ⟨n, u, e', hu⟩ := h1 t.reverse
  have et : t = u.reverse ++ List.replicate n '/' := by
    have := congrArg List.reverse e'
    rwa [List.reverse_reverse, List.reverse_append, List.reverse_replicate] at this
  refine ⟨u.reverse, m, n, by rw [e, et, List.append_assoc], ?_, ?_⟩
  · cases hu' : u.reverse with
    | nil => simp
    | cons c r => rw [et, hu'] at ht; simpa using ht
  · rw [List.getLast?_reverse]; exact hu

theorem dropWhile_replicate (n : Nat) (t : Bytes) (ht : t.head? ≠ some '/') :
    (List.replicate n '/' ++ t).dropWhile (fun c => decide (c = '/')) = t := by
  induction n with
  | zero =>
    cases t with
    | nil => rfl
    | cons c t => simp at ht; simp [ht]
  | succ n ih => rw [List.replicate_succ, List.cons_append, List.dropWhile_cons_of_pos (by simp), ih]

theorem firstNotSlash_replicate (m : Nat) (t : Bytes) (ht : t.head? ≠ some '/') (hne : t ≠ []) :
    firstNotSlash (List.replicate m '/' ++ t) = some m := by
  unfold firstNotSlash
  induction m with
  | zero =>
    cases t with
    | nil => exact absurd rfl hne
    | cons c t => simp at ht; simp [List.findIdx?_cons, ht]
  | succ m ih =>
    rw [List.replicate_succ, List.cons_append, List.findIdx?_cons, ih]
    simp

/-- The normalised group, for every way of writing it. -/
theorem groupPrefix_eq {s core : Bytes} (h : Spec.Stripped s core) :
    groupPrefix s = .ok (if core = [] then [] else core ++ ['/']) := by
  obtain ⟨m, n, e, hh, hl⟩ := h
  unfold groupPrefix
  by_cases hc : core = []
  · subst hc
    have : (s.reverse.dropWhile (fun c => decide (c = '/'))).reverse = [] := by
      rw [e]
      simp only [List.append_nil, ← List.replicate_add, List.reverse_replicate]
      have := dropWhile_replicate (m + n) [] (by simp)
      rw [List.append_nil] at this
      rw [this]; rfl
    simp only [this]
    simp
  · have hg : (s.reverse.dropWhile (fun c => decide (c = '/'))).reverse = List.replicate m '/' ++ core := by
      rw [e, List.reverse_append, List.reverse_replicate, dropWhile_replicate n, List.reverse_reverse]
      rw [List.reverse_append, List.head?_append]
      cases hr : core.reverse with
      | nil => simp at hr; exact absurd hr hc
      | cons c r =>
        rw [← List.head?_reverse, hr] at hl
        simpa using hl
    simp only [hg]
    have hf := firstNotSlash_replicate m core hh hc
    rw [hf, if_neg hc]
    have hne : List.replicate m '/' ++ core ≠ [] := by simp [hc]
    cases m with
    | zero => simp [hc]
    | succ m =>
      rw [if_pos ⟨hne, by simp⟩]
      unfold substr
      simp [hc]

theorem enc_split (core : Bytes) : enc (splitChar '/' core) = core ++ ['/'] := by
  have hne := splitChar_ne_nil '/' core
  have hj := splitChar_join '/' core
  have e : (splitChar '/' core).dropLast ++ [(splitChar '/' core).getLast hne] = splitChar '/' core :=
    List.dropLast_append_getLast hne
  have ht := text_eq (splitChar '/' core).dropLast ((splitChar '/' core).getLast hne)
  unfold Spec.text at ht
  rw [e, hj] at ht
  rw [← e, enc_append]
  conv_rhs => rw [ht]
  simp [enc]

/-- `listContents` gives, in the order of the provider, exactly the names whose groups begin with the given path, however many slashes
surround it; the empty path (or only slashes) gives all. -/
theorem C30_list (h : Bytes → Nat) (p : Prov) (hv : ∀ q ∈ p.names, q.Valid h) (group core : Bytes) (hs : Spec.Stripped group core) :
    p.listContents group = .ok (p.names.filter fun q => core = [] ∨ splitChar '/' core <+: q.groups) := by
  unfold Prov.listContents
  rw [groupPrefix_eq hs, Outcome.bind_ok, Outcome.pure_eq]
  congr 1
  apply List.filter_congr
  intro q hq
  have hvq := hv q hq
  by_cases hc : core = []
  · simp [hc]
  · rw [if_neg hc]
    have hiff : (core ++ ['/']) <+: q.qname ↔ splitChar '/' core <+: q.groups := by
      rw [hvq.qname, text_eq, ← enc_split]
      exact enc_prefix (splitChar_free '/' core) (fun g hg => (hvq.groups g hg).2) hvq.name.2
    rw [Bool.eq_iff_iff, List.isPrefixOf_iff_prefix, hiff]
    simp [hc]

/-- Surplus slashes at either end do not matter. -/
theorem C30_slashes (h : Bytes → Nat) (p : Prov) (hv : ∀ q ∈ p.names, q.Valid h) (group : Bytes) (m n : Nat) :
    p.listContents (List.replicate m '/' ++ group ++ List.replicate n '/') = p.listContents group := by
  obtain ⟨core, hs⟩ := exists_stripped group
  rw [C30_list h p hv group core hs]
  apply C30_list h p hv
  obtain ⟨m', n', e, h1, h2⟩ := hs
  refine ⟨m + m', n' + n, ?_, h1, h2⟩
  rw [e, List.replicate_add, List.replicate_add]
  simp only [List.append_assoc]

/-- Listing the text of a name gives the names that belong in the group of that name. -/
theorem C30_belongs (h : Bytes → Nat) (p : Prov) (hv : ∀ q ∈ p.names, q.Valid h) (g : QName) (hg : g.Valid h) :
    p.listContents g.qname = .ok (p.names.filter fun q => q.belongsInGroup g = .ok true) := by
  have hsp := split_text hg.groups hg.name
  rw [← hg.qname] at hsp
  have hne : ∀ t ∈ g.groups ++ [g.name], Spec.Part t := by
    intro t ht
    rcases List.mem_append.mp ht with ht | ht
    · exact hg.groups t ht
    · rw [List.mem_singleton] at ht; subst ht; exact hg.name
  have hcore : g.qname ≠ [] := by
    rw [hg.qname, text_eq]; simp [hg.name.1]
  have hs : Spec.Stripped g.qname g.qname := by
    refine ⟨0, 0, by simp, ?_, ?_⟩
    · rw [hg.qname, text_eq]
      cases hgs : g.groups with
      | nil =>
        simp only [enc, List.flatMap_nil, List.nil_append]
        intro hc
        exact hg.name.2 (List.mem_of_mem_head? hc)
      | cons a r =>
        have ha := hg.groups a (by rw [hgs]; exact List.mem_cons_self)
        obtain ⟨c, t, e⟩ := List.exists_cons_of_ne_nil ha.1
        simp only [enc, List.flatMap_cons, e, List.cons_append, List.head?_cons, ne_eq, Option.some.injEq]
        intro hc
        exact ha.2 (by rw [e, hc]; exact List.mem_cons_self)
    · rw [hg.qname, text_eq, List.getLast?_append]
      rw [List.getLast?_eq_some_getLast hg.name.1]
      simp only [Option.some_or, ne_eq, Option.some.injEq]
      intro hc
      exact hg.name.2 (by rw [← hc]; exact List.getLast_mem _)
  rw [C30_list h p hv _ _ hs, hsp]
  congr 1
  apply List.filter_congr
  intro q hq
  obtain ⟨b, h1, h2, _⟩ := C28_belongs h q g (hv q hq) hg
  rw [h1]
  simp only [hcore, false_or, Outcome.ok.injEq, decide_eq_decide]
  exact h2.symm

/-! ### The constructor -/

/-- The files that become data sets. -/
def datasets (fs : FS) (ps : Parser) (files : List Bytes) : List Bytes :=
  files.filter fun f => fs.isFile f ∧ ps.isDataset f ∧ ps.nameOf f ≠ []

theorem assoc_append_none {β : Type} {k : Bytes} {l : List (Bytes × β)} {a : Bytes} {v : β} (h : assoc k l = none) :
    assoc k (l ++ [(a, v)]) = if k = a then some v else none := by
  induction l with
  | nil => rfl
  | cons x l ih =>
    obtain ⟨b, w⟩ := x
    rw [assoc] at h
    by_cases hk : k = b
    · rw [if_pos hk] at h; cases h
    · rw [if_neg hk] at h; rw [List.cons_append, assoc, if_neg hk, ih h]

theorem assoc_append_some {β : Type} {k : Bytes} {l m : List (Bytes × β)} {v : β} (h : assoc k l = some v) :
    assoc k (l ++ m) = some v := by
  induction l with
  | nil => cases h
  | cons x l ih =>
    obtain ⟨b, w⟩ := x
    rw [assoc] at h
    rw [List.cons_append, assoc]
    by_cases hk : k = b
    · rw [if_pos hk] at h ⊢; exact h
    · rw [if_neg hk] at h ⊢; exact ih h

/-- What the constructor has established after some files. -/
structure Prov.Inv (ps : Parser) (root : Bytes) (done : List Bytes) (st : Prov) : Prop where
  pairs : List.Forall₂ (fun f q => q.Valid (fun _ => 0) ∧ q.name = ps.nameOf f ∧
    q.groups = (splitChar '/' (f.drop root.length)).dropLast ∧ assoc q.qname st.files = some f) done st.names
  nodup : (st.names.map (·.qname)).Nodup
  keys : ∀ k f, assoc k st.files = some f → k ∈ st.names.map (·.qname)

/-- The provider that the constructor builds: one name per data set file, in the order of the files, made of the directories below
the root and the name given by the parser; the names are distinct, and each leads to its file. -/
theorem C30_ctor (fs : FS) (ps : Parser) (root : Bytes) (files : List Bytes) (st : Prov)
    (h : ctorLoop fs ps root files {} = .ok st) : st.Inv ps root (datasets fs ps files) := by
  have gen : ∀ (files done : List Bytes) (st0 : Prov), st0.Inv ps root done → ctorLoop fs ps root files st0 = .ok st →
      st.Inv ps root (done ++ datasets fs ps files) := by
    intro files
    induction files with
    | nil => intro done st0 hi h; simp only [ctorLoop, Outcome.ok.injEq] at h; subst h; simpa [datasets] using hi
    | cons f fl ih =>
      intro done st0 hi h
      rw [ctorLoop] at h
      by_cases h1 : fs.isFile f ∧ ps.isDataset f
      · rw [if_pos h1] at h
        by_cases h2 : ps.nameOf f = []
        · rw [if_pos h2] at h
          have := ih done st0 hi h
          simpa [datasets, h2] using this
        · rw [if_neg h2] at h
          cases hs : substr f (some root.length) with
          | throw e => rw [hs] at h; simp at h
          | ub => rw [hs] at h; simp at h
          | ok str =>
            rw [hs, Outcome.bind_ok] at h
            have hstr : str = f.drop root.length := by
              unfold substr at hs
              simp only at hs
              split at hs
              · simpa using hs.symm
              · cases hs
            cases hm : mkName (splitChar '/' str).dropLast (ps.nameOf f) with
            | throw e => rw [hm] at h; simp at h
            | ub => rw [hm] at h; simp at h
            | ok q =>
              rw [hm, Outcome.bind_ok] at h
              obtain ⟨hv, hg, hn⟩ := mkName_valid (h := fun _ => 0) hm
              by_cases hd : (assoc q.qname st0.files).isSome
              · rw [if_pos hd] at h; cases h
              · rw [if_neg hd] at h
                have hnone : assoc q.qname st0.files = none := by simpa using hd
                have := ih (done ++ [f]) _ ⟨?_, ?_, ?_⟩ h
                · have e : datasets fs ps (f :: fl) = f :: datasets fs ps fl := by simp [datasets, h1, h2]
                  rw [e]
                  simpa using this
                · apply List.rel_append
                  · refine List.Forall₂.imp ?_ hi.pairs
                    rintro a b ⟨v1, v2, v3, v4⟩
                    exact ⟨v1, v2, v3, assoc_append_some v4⟩
                  · refine List.Forall₂.cons ⟨hv, hn, by rw [hg, hstr], ?_⟩ .nil
                    simp only
                    rw [assoc_append_none hnone, if_pos rfl]
                · simp only [List.map_append, List.map_cons, List.map_nil]
                  rw [List.nodup_append]
                  refine ⟨hi.nodup, by simp, ?_⟩
                  rintro a ha b hb rfl
                  simp only [List.mem_singleton] at hb
                  rw [hb, List.mem_map] at ha
                  obtain ⟨q', hq', he⟩ := ha
                  obtain ⟨k, hk, hk'⟩ := List.getElem_of_mem hq'
                  have hlen := hi.pairs.length_eq
                  have := hi.pairs.get (i := k) (by omega) hk
                  simp only [List.get_eq_getElem] at this
                  rw [hk', he, hnone] at this
                  exact absurd this.2.2.2 (by simp)
                · intro k g hk
                  simp only at hk
                  simp only [List.map_append, List.map_cons, List.map_nil, List.mem_append, List.mem_singleton]
                  cases hk0 : assoc k st0.files with
                  | some v => left; exact hi.keys k v hk0
                  | none =>
                    rw [assoc_append_none hk0] at hk
                    split at hk
                    · right; assumption
                    · cases hk
      · rw [if_neg h1] at h
        have := ih done st0 hi h
        have e : datasets fs ps (f :: fl) = datasets fs ps fl := by
          unfold datasets
          rw [List.filter_cons_of_neg]
          rw [decide_eq_true_eq]
          rintro ⟨a, b, _⟩
          exact h1 ⟨a, b⟩
        rw [e]
        exact this
  have := gen files [] {} ⟨.nil, by simp, by intro k f h; cases h⟩ h
  simpa using this

/-- So all names of a constructed provider are valid, and `C30_list` applies. -/
theorem C30_ctor_valid (fs : FS) (ps : Parser) (root : Bytes) (files : List Bytes) (st : Prov)
    (h : ctorLoop fs ps root files {} = .ok st) (q : QName) (hq : q ∈ st.names) :
    q.Valid (fun _ => 0) ∧ ∃ f ∈ datasets fs ps files, st.fileOf q = some f ∧ q.name = ps.nameOf f := by
  have hi := C30_ctor fs ps root files st h
  obtain ⟨k, hk, rfl⟩ := List.getElem_of_mem hq
  have hlen := hi.pairs.length_eq
  have := hi.pairs.get (i := k) (by omega) hk
  simp only [List.get_eq_getElem] at this
  exact ⟨this.1, _, List.getElem_mem _, this.2.2.2, this.2.1⟩

/-- Two data set files with the same directory and the same name are refused. -/
example : ctorLoop ⟨fun _ => [], fun _ => none, fun _ _ => false, fun _ => false, fun _ => true⟩ ⟨fun _ => true, fun _ => ['n']⟩ "r/".toList
    ["r/g/x".toList, "r/g/y".toList] ⟨[], []⟩ = .throw .elements := by decide
example : ((ctorLoop ⟨fun _ => [], fun _ => none, fun _ _ => false, fun _ => false, fun _ => true⟩ ⟨fun _ => true, fun f => f.drop 4⟩
    "r/".toList ["r/g/x".toList, "r/g/y".toList, "r/h/x".toList] ⟨[], []⟩).bind fun st => (st.listContents "/g//".toList).bind fun l =>
    .ok (l.map (·.qname))) = .ok ["g/x".toList, "g/y".toList] := by decide +kernel

/-! ## C83: the order of the files -/

/-- The names in `order.txt`. -/
def ordered (fs : FS) (dir : Bytes) : List Bytes :=
  (((fs.order dir).getD []).map orderName).filter fun n => n ≠ [] ∧ fs.has dir n

theorem leBytes_iff (a b : Bytes) : leBytes a b = true ↔ a ≤ b := by
  unfold leBytes
  rw [decide_eq_true_eq]
  exact not_lt

/-- When `order.txt` names entries of the directory without repeating one, the listing contains every entry exactly once: those of
`order.txt` in its order, then the others in alphabetical order. -/
theorem C83_order_partial (fs : FS) (dir : Bytes) (hnd : (fs.names dir).Nodup) (hsub : ∀ n ∈ ordered fs dir, n ∈ fs.names dir)
    (hrep : (ordered fs dir).Nodup) :
    (getOrder fs dir).Perm (fs.names dir) ∧ ∃ rest, getOrder fs dir = ordered fs dir ++ rest ∧ rest.Pairwise (fun a b : Bytes => a ≤ b) := by
  have hp : ((fs.names dir).filter fun n => n ∉ ordered fs dir).Perm
      (((fs.names dir).filter fun n => n ∉ ordered fs dir).insertionSort (fun a b => leBytes a b = true)) := (List.perm_insertionSort _ _).symm
  constructor
  · refine List.Perm.trans (List.Perm.append_left _ hp.symm) ?_
    rw [List.perm_ext_iff_of_nodup]
    · intro a
      change a ∈ ordered fs dir ++ (fs.names dir).filter (fun n => n ∉ ordered fs dir) ↔ _
      rw [List.mem_append, List.mem_filter, decide_eq_true_eq]
      constructor
      · rintro (h | h)
        · exact hsub a h
        · exact h.1
      · intro h
        by_cases ha : a ∈ ordered fs dir
        · left; exact ha
        · right; exact ⟨h, ha⟩
    · rw [List.nodup_append]
      refine ⟨hrep, hnd.filter _, ?_⟩
      rintro a ha b hb rfl
      simp only [List.mem_filter, decide_eq_true_eq] at hb
      exact hb.2 ha
    · exact hnd
  · refine ⟨_, rfl, ?_⟩
    have ht : IsTrans Bytes (fun a b => leBytes a b = true) := ⟨fun a b c h1 h2 => by
      rw [leBytes_iff] at h1 h2 ⊢
      exact le_trans h1 h2⟩
    have hto : Std.Total (fun a b : Bytes => leBytes a b = true) := ⟨fun a b => by
      rw [leBytes_iff, leBytes_iff]
      exact le_total a b⟩
    have := List.pairwise_insertionSort (fun a b => leBytes a b = true) ((fs.names dir).filter fun n => n ∉ ordered fs dir)
    exact this.imp (by intro a b h; rwa [leBytes_iff] at h)

/-- The full claim: every entry exactly once, whatever `order.txt` says. -/
def C83_full : Prop := ∀ (fs : FS) (dir : Bytes), (fs.names dir).Nodup → (∀ n, n ∈ fs.names dir → fs.has dir n) →
  (getOrder fs dir).Perm (fs.names dir)

/-- It fails when a name is repeated in `order.txt`: the file is listed twice (and the constructor then throws). -/
theorem C83_violated : ¬ C83_full := by
  intro h
  have := (h ⟨fun _ => [['a']], fun _ => some [['a'], ['a']], fun _ n => n == ['a'], fun _ => false, fun _ => true⟩ [] (by simp)
    (by intro n hn; simpa using hn)).length_eq
  revert this
  decide

/-- The files below a directory. -/
inductive Below (fs : FS) : Bytes → Bytes → Prop
  | file (dir n : Bytes) : n ∈ fs.names dir → fs.isDir (appendPath dir n) = false → Below fs dir (appendPath dir n)
  | sub (dir n p : Bytes) : n ∈ fs.names dir → fs.isDir (appendPath dir n) = true → Below fs (appendPath dir n) p → Below fs dir p

/-- The path of a directory with a slash at the end. -/
def base (dir : Bytes) : Bytes := if dir.getLast? = some '/' then dir else dir ++ ['/']

theorem appendPath_eq (dir n : Bytes) : appendPath dir n = base dir ++ n := by
  unfold appendPath base
  split <;> rfl

theorem base_append {dir n : Bytes} (hn : Spec.Part n) : base (appendPath dir n) = base dir ++ n ++ ['/'] := by
  rw [appendPath_eq]
  have : (base dir ++ n).getLast? ≠ some '/' := by
    rw [List.getLast?_append, List.getLast?_eq_some_getLast hn.1]
    simp only [Option.some_or, ne_eq, Option.some.injEq]
    intro h
    exact hn.2 (by rw [← h]; exact List.getLast_mem _)
  generalize base dir ++ n = x at this ⊢
  unfold base
  rw [if_neg this]

theorem Below.prefix {fs : FS} (hp : ∀ d, ∀ n ∈ fs.names d, Spec.Part n) {dir p : Bytes} (h : Below fs dir p) : base dir <+: p := by
  induction h with
  | file dir n hn _ => rw [appendPath_eq]; exact List.prefix_append _ _
  | sub dir n p hn _ _ ih =>
    rw [base_append (hp dir n hn), List.append_assoc] at ih
    exact (List.prefix_append _ _).trans ih

theorem part_unique {n m t t' : Bytes} (hn : '/' ∉ n) (hm : '/' ∉ m) (ht : t = [] ∨ ∃ u, t = '/' :: u) (ht' : t' = [] ∨ ∃ u, t' = '/' :: u)
    (h : n ++ t = m ++ t') : n = m := by
  induction n generalizing m with
  | nil =>
    cases m with
    | nil => rfl
    | cons c m =>
      simp only [List.mem_cons, not_or] at hm
      rcases ht with rfl | ⟨u, rfl⟩
      · cases h
      · simp only [List.nil_append, List.cons_append, List.cons.injEq] at h
        exact absurd h.1 hm.1
  | cons c n ih =>
    simp only [List.mem_cons, not_or] at hn
    cases m with
    | nil =>
      rcases ht' with rfl | ⟨u, rfl⟩
      · cases h
      · simp only [List.nil_append, List.cons_append, List.cons.injEq] at h
        exact absurd h.1.symm hn.1
    | cons d m =>
      simp only [List.mem_cons, not_or] at hm
      simp only [List.cons_append, List.cons.injEq] at h
      rw [h.1, ih hn.2 hm.2 h.2]

/-- The recursive listing contains every file below the root exactly once (when the directories satisfy `C83_order_partial`). -/
theorem C83_recursive_partial (fs : FS) (hp : ∀ d, ∀ n ∈ fs.names d, Spec.Part n) (hnd : ∀ d, (fs.names d).Nodup)
    (hperm : ∀ d, (getOrder fs d).Perm (fs.names d)) (fuel : Nat) (dir : Bytes) (l : List Bytes) (h : contents fs fuel dir = some l) :
    l.Nodup ∧ ∀ p, p ∈ l ↔ Below fs dir p := by
  have gen : ∀ (fuel : Nat) (dir : Bytes) (l : List Bytes), contents fs fuel dir = some l → l.Nodup ∧ ∀ p, p ∈ l ↔ Below fs dir p := by
    intro fuel
    induction fuel with
    | zero => intro dir l h; simp [contents] at h
    | succ fuel ih =>
      intro dir l h
      rw [contents] at h
      have loop : ∀ (ns : List Bytes), ns.Nodup → (∀ n ∈ ns, n ∈ fs.names dir) → ∀ l, contentsOf fs (contents fs fuel) dir ns = some l →
          l.Nodup ∧ ∀ p, p ∈ l ↔ ∃ n ∈ ns, (fs.isDir (appendPath dir n) = false ∧ p = appendPath dir n) ∨
            (fs.isDir (appendPath dir n) = true ∧ Below fs (appendPath dir n) p) := by
        intro ns
        induction ns with
        | nil => intro _ _ l h; simp only [contentsOf, Option.some.injEq] at h; subst h; simp
        | cons n ns ihn =>
          intro hns hsub l h
          rw [contentsOf] at h
          cases ha : (if fs.isDir (appendPath dir n) then contents fs fuel (appendPath dir n) else some [appendPath dir n]) with
          | none => rw [ha] at h; simp at h
          | some a =>
            cases hb : contentsOf fs (contents fs fuel) dir ns with
            | none => rw [ha, hb] at h; simp at h
            | some b =>
              rw [ha, hb] at h
              simp only [Option.some.injEq] at h
              subst h
              obtain ⟨hn1, hn2⟩ := List.nodup_cons.mp hns
              obtain ⟨b1, b2⟩ := ihn hn2 (fun x hx => hsub x (List.mem_cons_of_mem _ hx)) b hb
              have hA : a.Nodup ∧ ∀ p, p ∈ a ↔ (fs.isDir (appendPath dir n) = false ∧ p = appendPath dir n) ∨
                  (fs.isDir (appendPath dir n) = true ∧ Below fs (appendPath dir n) p) := by
                by_cases hd : fs.isDir (appendPath dir n) = true
                · rw [if_pos hd] at ha
                  obtain ⟨a1, a2⟩ := ih _ a ha
                  refine ⟨a1, fun p => ?_⟩
                  rw [a2]; simp [hd]
                · rw [if_neg hd, Option.some.injEq] at ha
                  subst ha
                  simp only [Bool.not_eq_true] at hd
                  refine ⟨by simp, fun p => ?_⟩
                  simp [hd]
              have shape : ∀ (n : Bytes), n ∈ fs.names dir → ∀ p, ((fs.isDir (appendPath dir n) = false ∧ p = appendPath dir n) ∨
                  (fs.isDir (appendPath dir n) = true ∧ Below fs (appendPath dir n) p)) →
                  ∃ t, p = base dir ++ (n ++ t) ∧ (t = [] ∨ ∃ u, t = '/' :: u) := by
                intro n hn p hcase
                rcases hcase with ⟨_, rfl⟩ | ⟨_, hb⟩
                · exact ⟨[], by rw [appendPath_eq, List.append_nil], Or.inl rfl⟩
                · obtain ⟨u, hu⟩ := hb.prefix hp
                  rw [base_append (hp dir n hn)] at hu
                  exact ⟨'/' :: u, by rw [← hu]; simp, Or.inr ⟨u, rfl⟩⟩
              refine ⟨?_, ?_⟩
              · rw [List.nodup_append]
                refine ⟨hA.1, b1, ?_⟩
                rintro x hx y hy rfl
                have hxa := (hA.2 x).mp hx
                obtain ⟨m, hm, hxm⟩ := (b2 x).mp hy
                obtain ⟨t, e1, e2⟩ := shape n (hsub n List.mem_cons_self) x hxa
                obtain ⟨t', e1', e2'⟩ := shape m (hsub m (List.mem_cons_of_mem _ hm)) x hxm
                have e3 : n ++ t = m ++ t' := List.append_cancel_left (e1.symm.trans e1')
                have : n = m := part_unique (hp dir n (hsub n List.mem_cons_self)).2 (hp dir m (hsub m (List.mem_cons_of_mem _ hm))).2 e2 e2' e3
                subst this
                exact hn1 hm
              · intro p
                rw [List.mem_append, hA.2, b2]
                simp
      have hpm := hperm dir
      obtain ⟨l1, l2⟩ := loop (getOrder fs dir) (hpm.nodup_iff.mpr (hnd dir)) (fun n hn => hpm.mem_iff.mp hn) l h
      refine ⟨l1, fun p => ?_⟩
      rw [l2]
      constructor
      · rintro ⟨n, hn, ⟨h1, rfl⟩ | ⟨h1, h2⟩⟩
        · exact .file dir n (hpm.mem_iff.mp hn) h1
        · exact .sub dir n p (hpm.mem_iff.mp hn) h1 h2
      · intro hb
        cases hb with
        | file _ n hn h1 => exact ⟨n, hpm.mem_iff.mpr hn, Or.inl ⟨h1, rfl⟩⟩
        | sub _ n _ hn h1 h2 => exact ⟨n, hpm.mem_iff.mpr hn, Or.inr ⟨h1, h2⟩⟩
  exact gen fuel dir l h

/-- A directory with `order.txt` naming `b`, and a subdirectory. -/
example : contents ⟨fun d => if d = "r/".toList then [['a'], ['b'], ['s']] else if d = "r/s".toList then [['x']] else [],
    fun d => if d = "r/".toList then some ["# order".toList, " b # first".toList] else none, fun _ n => n == ['b'],
    fun d => d == "r/s".toList, fun _ => true⟩ 3 "r/".toList = some ["r/b".toList, "r/a".toList, "r/s/x".toList] := by decide +kernel

end Alexandria.XYDataset
