import Verif.Npy.MmapModel
import Verif.Npy.Props

/-!
# Properties of memory mapped npy files
-/

namespace Alexandria.Npy.Mmap

open Alexandria.Str Alexandria.NdArray.Spec Npy.Spec

variable {T : Type}

/-! ## Memory -/

/-- Through the mapping one sees the bytes `V`. -/
structure Sees (m : Mem) (V : Bytes) : Prop where
  mode : m.mode ≠ .readonly
  shared : m.mode = .readwrite → m.overlay = []
  bytes : ∀ (i : Nat) (c : Char), V[i]? = some c → m.get i = .ok c

theorem get_bounds {m : Mem} {i : Nat} {c : Char} (h : m.get i = .ok c) : i < m.length ∧ i < m.disk.length := by
  unfold Mem.get at h
  split at h
  · cases h
  · split at h
    · cases h
    · rename_i h1
      split at h
      · cases h
      · rename_i d hd
        exact ⟨by omega, (List.getElem?_eq_some_iff.mp hd).1⟩

theorem put_sees {m : Mem} {V : Bytes} (hs : Sees m V) {i : Nat} (hi : i < V.length) (c : Char) :
    ∃ m', m.put i c = .ok m' ∧ Sees m' (V.set i c) ∧ m'.mode = m.mode ∧ m'.length = m.length ∧
      m'.disk = if m.mode = .readwrite then m.disk.set i c else m.disk := by
  obtain ⟨h1, h2⟩ := get_bounds (hs.bytes i _ (List.getElem?_eq_getElem hi))
  have hv : ∀ (j : Nat) (d : Char), (V.set i c)[j]? = some d → (j = i ∧ d = c) ∨ (j ≠ i ∧ m.get j = .ok d) := by
    intro j d hj
    by_cases hji : j = i
    · subst hji
      rw [List.getElem?_set_self hi] at hj
      cases hj; exact .inl ⟨rfl, rfl⟩
    · rw [List.getElem?_set_ne (Ne.symm hji)] at hj
      exact .inr ⟨hji, hs.bytes j d hj⟩
  obtain ⟨disk, mode, len, ov⟩ := m
  have hro := hs.mode
  have hov := hs.shared
  simp only at h1 h2 hro hov
  unfold Mem.put
  simp only
  rw [if_neg (by omega), if_neg (by omega)]
  cases mode with
  | readonly => exact absurd rfl hro
  | readwrite =>
    refine ⟨⟨disk.set i c, .readwrite, len, ov⟩, rfl, ⟨by simp, hov, ?_⟩, rfl, rfl, by simp⟩
    intro j d hj
    rcases hv j d hj with ⟨rfl, rfl⟩ | ⟨hji, hg⟩
    · unfold Mem.get
      simp only
      rw [if_neg (by simp), if_neg (by omega), List.getElem?_set_self h2, hov rfl]
      rfl
    · unfold Mem.get at hg ⊢
      simp only at hg ⊢
      rw [List.getElem?_set_ne (Ne.symm hji)]
      exact hg
  | priv =>
    refine ⟨⟨disk, .priv, len, (i, c) :: ov⟩, rfl, ⟨by simp, fun h => (by cases h), ?_⟩, rfl, rfl, by simp⟩
    intro j d hj
    rcases hv j d hj with ⟨rfl, rfl⟩ | ⟨hji, hg⟩
    · unfold Mem.get
      simp only
      rw [if_neg (by simp), if_neg (by omega), List.getElem?_eq_getElem h2]
      simp
    · unfold Mem.get at hg ⊢
      have h' : (i == j) = false := by simpa using Ne.symm hji
      simp only [List.find?_cons, h'] at hg ⊢
      exact hg

/-- Replace the bytes from a position on. -/
def splice (V : Bytes) (i : Nat) : Bytes → Bytes
  | [] => V
  | c :: cs => splice (V.set i c) (i + 1) cs

theorem splice_mid (cs : Bytes) : ∀ (pre old post : Bytes), old.length = cs.length →
    splice (pre ++ old ++ post) pre.length cs = pre ++ cs ++ post := by
  induction cs with
  | nil => intro pre old post h; rw [List.length_eq_zero_iff.mp h]; rfl
  | cons c cs ih =>
    intro pre old post h
    cases old with
    | nil => cases h
    | cons d old =>
      have h1 : (pre ++ (d :: old) ++ post).set pre.length c = (pre ++ [c]) ++ old ++ post := by simp
      have := ih (pre ++ [c]) old post (by simpa using h)
      rw [List.length_append, List.length_singleton] at this
      rw [splice, h1, this]
      simp

theorem puts_sees (cs : Bytes) : ∀ {m : Mem} {V : Bytes} (_ : Sees m V) {i : Nat} (_ : i + cs.length ≤ V.length),
    ∃ m', m.puts i cs = .ok m' ∧ Sees m' (splice V i cs) ∧ m'.mode = m.mode ∧ m'.length = m.length ∧
      m'.disk = if m.mode = .readwrite then splice m.disk i cs else m.disk := by
  induction cs with
  | nil => intro m V hs i _; exact ⟨m, rfl, hs, rfl, rfl, by simp [splice]⟩
  | cons c cs ih =>
    intro m V hs i hi
    rw [List.length_cons] at hi
    obtain ⟨m1, e1, s1, a1, b1, d1⟩ := put_sees hs (i := i) (by omega) c
    obtain ⟨m2, e2, s2, a2, b2, d2⟩ := ih s1 (i := i + 1) (by rw [List.length_set]; omega)
    refine ⟨m2, ?_, s2, a2.trans a1, b2.trans b1, ?_⟩
    · rw [Mem.puts, e1]; exact e2
    · rw [d2, d1, a1, splice]
      by_cases h : m.mode = .readwrite
      · rw [if_pos h, if_pos h, if_pos h]
      · rw [if_neg h, if_neg h, if_neg h]

theorem gets_sees (n : Nat) : ∀ {m : Mem} {V : Bytes} (_ : Sees m V) {i : Nat} (_ : i + n ≤ V.length),
    m.gets i n = .ok ((V.drop i).take n) := by
  induction n with
  | zero => intro m V _ i _; simp [Mem.gets]
  | succ n ih =>
    intro m V hs i hi
    have hil : i < V.length := by omega
    rw [Mem.gets, hs.bytes i _ (List.getElem?_eq_getElem hil)]
    simp only [Outcome.bind_ok]
    rw [ih hs (by omega), List.drop_eq_getElem_cons hil]
    rfl

/-! ## Elements -/

theorem flat_at (E : Elem T) {l : List T} {o : Nat} {x : T} (h : l[o]? = some x) :
    l.flatMap E.enc = (l.take o).flatMap E.enc ++ E.enc x ++ (l.drop (o + 1)).flatMap E.enc ∧
      ((l.take o).flatMap E.enc).length = o * E.dtype.size := by
  obtain ⟨ho, rfl⟩ := List.getElem?_eq_some_iff.mp h
  constructor
  · conv_lhs => rw [← List.take_append_drop o l, List.drop_eq_getElem_cons ho]
    rw [List.flatMap_append, List.flatMap_cons, List.append_assoc]
  · rw [enc_flat_length, List.length_take, Nat.mul_comm, Nat.min_eq_left (by omega)]

/-- The mapping shows the elements `l`, after a header; `disk` is the file if the mapping is shared. -/
structure Shows (E : Elem T) (m : Mem) (k : Cont) (pre : Bytes) (l : List T) (post extra : Bytes) : Prop where
  sees : Sees m (pre ++ l.flatMap E.enc ++ post)
  start : pre.length = k.dataOffset
  disk : m.mode = .readwrite → m.disk = pre ++ l.flatMap E.enc ++ post ++ extra

theorem getElem_shows (E : Elem T) {m : Mem} {k : Cont} {pre post extra : Bytes} {l : List T} (h : Shows E m k pre l post extra)
    {o : Nat} {x : T} (hx : l[o]? = some x) : getElem E m k o = .ok x := by
  obtain ⟨hf, hl⟩ := flat_at E hx
  have hs := h.sees
  rw [hf] at hs
  rw [getElem, gets_sees E.dtype.size hs (by
    have := E.enc_length x
    have := h.start
    simp only [List.length_append, hl]; omega)]
  simp only [Outcome.bind_ok, Outcome.pure_eq, Outcome.ok.injEq]
  have : ((pre ++ ((l.take o).flatMap E.enc ++ E.enc x ++ (l.drop (o + 1)).flatMap E.enc) ++ post).drop (k.dataOffset + o * E.dtype.size)).take
      E.dtype.size = E.enc x := by
    rw [← h.start, ← hl, ← List.length_append]
    simp only [← List.append_assoc]
    rw [List.append_assoc _ _ post, List.append_assoc (pre ++ _), List.drop_left, List.take_append_of_le_length (by
      rw [E.enc_length]), List.take_of_length_le (by rw [E.enc_length])]
  rw [this, E.dec_enc]

theorem setElem_shows (E : Elem T) {m : Mem} {k : Cont} {pre post extra : Bytes} {l : List T} (h : Shows E m k pre l post extra)
    {o : Nat} (ho : o < l.length) (x : T) :
    ∃ m', setElem E m k o x = .ok m' ∧ Shows E m' k pre (l.set o x) post extra ∧ m'.mode = m.mode ∧ m'.length = m.length ∧
      (m.mode = .priv → m'.disk = m.disk) := by
  obtain ⟨hf, hl⟩ := flat_at E (List.getElem?_eq_getElem ho)
  have hset : (l.set o x).flatMap E.enc = (l.take o).flatMap E.enc ++ E.enc x ++ (l.drop (o + 1)).flatMap E.enc := by
    rw [List.set_eq_take_append_cons_drop, if_pos ho]
    simp
  have hs := h.sees
  have hpos : k.dataOffset + o * E.dtype.size = (pre ++ (l.take o).flatMap E.enc).length := by
    rw [List.length_append, hl, h.start]
  have hsp : ∀ q : Bytes, splice (pre ++ l.flatMap E.enc ++ q) (k.dataOffset + o * E.dtype.size) (E.enc x) =
      pre ++ (l.set o x).flatMap E.enc ++ q := by
    intro q
    rw [hpos, hf, hset]
    have := splice_mid (E.enc x) (pre ++ (l.take o).flatMap E.enc) (E.enc l[o]) ((l.drop (o + 1)).flatMap E.enc ++ q)
      (by rw [E.enc_length, E.enc_length])
    simp only [List.append_assoc] at this ⊢
    exact this
  obtain ⟨m', e, s, a, b, d⟩ := puts_sees (E.enc x) hs (i := k.dataOffset + o * E.dtype.size) (by
    rw [hpos, hf]
    have h1 := E.enc_length x
    have h2 := E.enc_length l[o]
    simp only [List.length_append]; omega)
  rw [hsp] at s
  refine ⟨m', e, ⟨s, h.start, ?_⟩, a, b, ?_⟩
  · intro hm
    rw [a] at hm
    rw [d, if_pos hm, h.disk hm, List.append_assoc _ post, hsp, List.append_assoc _ post]
  · intro hm
    rw [d, if_neg (by rw [hm]; simp)]

/-! ## Opening -/

theorem headerEnd_written (ty : Bytes) (attrs : List Bytes) (s : List Nat) (hl : (dict ty attrs s).length + 65 < 2 ^ 32) (rest : Bytes) :
    headerEnd (headerBytes ty attrs s ++ rest) = (headerBytes ty attrs s).length := by
  obtain ⟨k, he, _, hle⟩ := padHeader_eq (dict ty attrs s)
  rw [headerBytes, Nat.mod_eq_of_lt (by omega)]
  generalize padHeader (dict ty attrs s) = P at he hle ⊢
  have h1 : ((magic ++ version ++ le32 P.length ++ P ++ rest).drop 6).take 1 = ['\x02'] := by simp [magic, version]
  have h2 : ((magic ++ version ++ le32 P.length ++ P ++ rest).drop 8).take 4 = le32 P.length := by simp [magic, version, le32]
  rw [headerEnd, h1, h2, if_neg (by decide), le32_val (by omega)]
  simp [magic, version, le32]
  omega

theorem card_le_append (s : List Nat) (n : Nat) : card s ≤ card (NdArray.appendAttrShape s n) := by
  rw [NdArray.appendAttrShape]
  split
  · rw [NdArray.card_append]
    simp only [card, Nat.mul_one]
    exact Nat.le_mul_of_pos_right _ (by omega)
  · exact Nat.le_refl _

theorem open_written (E : Elem T) (s : List Nat) (attrs : List String) (l : List T) (extra : Bytes) (mode : Mode) (maxSize : Nat)
    (hsafe : ∀ n ∈ attrs, SafeName n.toList) (hne : s ≠ []) (hb : ∀ n ∈ s, n < 2 ^ 64)
    (hsmall : card (NdArray.appendAttrShape s attrs.length) < 2 ^ 31)
    (hlen : (dict E.dtype.str (attrs.map String.toList) s).length + 65 < 2 ^ 32) (hmode : mode ≠ .readonly)
    (hmax : maxSize = 0 ∨ (headerBytes E.dtype.str (attrs.map String.toList) s ++ l.flatMap E.enc).length ≤ maxSize)
    (disk : Bytes) (hdisk : disk = headerBytes E.dtype.str (attrs.map String.toList) s ++ l.flatMap E.enc ++ extra) :
    mmapNpy E disk mode maxSize = .ok (⟨disk, mode, if maxSize ≠ 0 then maxSize else disk.length, []⟩,
      ⟨(headerBytes E.dtype.str (attrs.map String.toList) s).length, card (NdArray.appendAttrShape s attrs.length),
        if maxSize ≠ 0 then maxSize else disk.length, attrs.map String.toList⟩,
      ⟨0, 0, NdArray.appendAttrShape s attrs.length, NdArray.updateStrides (NdArray.appendAttrShape s attrs.length), attrs,
        card (NdArray.appendAttrShape s attrs.length)⟩) := by
  have hd0 : disk ≠ [] := by
    rw [hdisk, headerBytes]; simp [magic]
  rw [mmapNpy, if_neg hd0]
  generalize hL : (if maxSize ≠ 0 then maxSize else disk.length) = len
  have hlen2 : (headerBytes E.dtype.str (attrs.map String.toList) s).length ≤ len := by
    rcases hmax with h | h
    · rw [if_neg (by simpa using h)] at hL
      rw [← hL, hdisk]; simp only [List.length_append]; omega
    · rw [List.length_append] at h
      by_cases h0 : maxSize = 0
      · rw [if_neg (by simpa using h0)] at hL
        rw [← hL, hdisk]; simp only [List.length_append]; omega
      · rw [if_pos (by simpa using h0)] at hL; omega
  have hstream : (⟨disk, mode, len, []⟩ : Mem).stream =
      headerBytes E.dtype.str (attrs.map String.toList) s ++
        (l.flatMap E.enc ++ extra).take (len - (headerBytes E.dtype.str (attrs.map String.toList) s).length) := by
    rw [Mem.stream, if_neg hmode]
    simp only
    rw [hdisk, List.append_assoc, List.take_append, List.take_of_length_le hlen2]
  simp only [hstream]
  rw [readHeader_written E.dtype (by simpa using hsafe) hne hb hlen]
  simp only [Outcome.bind_ok, ne_eq, not_true_eq_false, if_false, List.map_eq_nil_iff, List.length_map, map_toList_ofList]
  rw [headerEnd_written _ _ _ hlen, if_neg (by rw [List.length_append]; omega)]
  have hcs := card_le_append s attrs.length
  have hn : (if ¬attrs = [] then NdArray.accI32 s * attrs.length % 2 ^ 64 else NdArray.accI32 s) =
      card (NdArray.appendAttrShape s attrs.length) := by
    rw [NdArray.accI32_eq (by omega)]
    by_cases ha : attrs = []
    · subst ha; simp [NdArray.appendAttrShape]
    · have hal : attrs.length ≠ 0 := by simpa using ha
      rw [if_pos ha]
      have hc : card (NdArray.appendAttrShape s attrs.length) = card s * attrs.length := by
        rw [NdArray.appendAttrShape, if_pos hal, NdArray.card_append]; simp [card]
      rw [hc]; rw [hc] at hsmall
      exact Nat.mod_eq_of_lt (by omega)
  rw [hn, NdArray.accU32_eq, Nat.mod_eq_of_lt (by omega), if_neg (by simp)]
  simp only [Outcome.pure_eq, List.length_append, Nat.add_sub_cancel]

theorem shows_open (E : Elem T) (pre : Bytes) (l : List T) (extra : Bytes) (mode : Mode) (len : Nat) (k : Cont)
    (hmode : mode ≠ .readonly) (hk : pre.length = k.dataOffset) (hlen : (pre ++ l.flatMap E.enc).length ≤ len) :
    Shows E ⟨pre ++ l.flatMap E.enc ++ extra, mode, len, []⟩ k pre l [] extra := by
  refine ⟨⟨hmode, fun _ => rfl, ?_⟩, hk, fun _ => by simp⟩
  intro i c hi
  rw [List.append_nil] at hi
  have hlt : i < (pre ++ l.flatMap E.enc).length := (List.getElem?_eq_some_iff.mp hi).1
  unfold Mem.get
  simp only
  rw [if_neg hmode, if_neg (by omega), List.getElem?_append_left hlt, hi]
  rfl

theorem getOffset_fresh (S : List Nat) (n : Nat) (attrs : List String) (c : List Nat) :
    (∃ o, NdArray.getOffset ⟨0, 0, S, NdArray.updateStrides S, attrs, n⟩ c = .ok o ∧ o < card S) ∨
      NdArray.getOffset ⟨0, 0, S, NdArray.updateStrides S, attrs, n⟩ c = .throw .outOfRange := by
  by_cases hv : Valid S c
  · left
    obtain ⟨q, hq, he⟩ := NdArray.dot_mem (NdArray.updateStrides_compat S) hv
    refine ⟨_, NdArray.getOffset_valid (NdArray.updateStrides_length S) hv, ?_⟩
    show 0 + NdArray.dot c (NdArray.updateStrides S) < _
    omega
  · exact .inr (NdArray.getOffset_invalid (NdArray.updateStrides_length S) hv)

/-! ## C113 -/

/-- What an array in memory does with a sequence of assignments. -/
def memSets (a : NdArray.Nd) : NdArray.Heap T → List (List Nat × T) → NdArray.Res (NdArray.Heap T)
  | h, [] => .ok h
  | h, (c, x) :: ws => do
    let h' ← NdArray.set' h a c x
    memSets a h' ws

theorem at_shows (E : Elem T) {m : Mem} {k : Cont} {pre post extra : Bytes} {l : List T} (h : Shows E m k pre l post extra) (S : List Nat)
    (attrs : List String) (n : Nat) (hl : l.length = card S) (c : List Nat) :
    at' E m k ⟨0, 0, S, NdArray.updateStrides S, attrs, n⟩ c =
      ofNd (NdArray.at' [l] ⟨0, 0, S, NdArray.updateStrides S, attrs, n⟩ c) := by
  rcases getOffset_fresh S n attrs c with ⟨o, ho, hlt⟩ | ho
  · rw [at', NdArray.at', ho]
    have hx : l[o]? = some l[o] := List.getElem?_eq_getElem (by omega)
    simp only [ofNd, Outcome.bind_ok]
    rw [getElem_shows E h hx, NdArray.atOffset]
    simp [hx]
  · rw [at', NdArray.at', ho]
    rfl

theorem set_shows (E : Elem T) {m : Mem} {k : Cont} {pre post extra : Bytes} {l : List T} (h : Shows E m k pre l post extra) (S : List Nat)
    (attrs : List String) (n : Nat) (hl : l.length = card S) (c : List Nat) (x : T) :
    (∃ l' m', l'.length = l.length ∧ NdArray.set' [l] ⟨0, 0, S, NdArray.updateStrides S, attrs, n⟩ c x = .ok [l'] ∧
      set' E m k ⟨0, 0, S, NdArray.updateStrides S, attrs, n⟩ c x = .ok m' ∧ Shows E m' k pre l' post extra ∧ m'.mode = m.mode ∧
        (m.mode = .priv → m'.disk = m.disk)) ∨
      (NdArray.set' [l] ⟨0, 0, S, NdArray.updateStrides S, attrs, n⟩ c x = .throw .outOfRange ∧
        set' E m k ⟨0, 0, S, NdArray.updateStrides S, attrs, n⟩ c x = .throw (.nd .outOfRange)) := by
  rcases getOffset_fresh S n attrs c with ⟨o, ho, hlt⟩ | ho
  · left
    obtain ⟨m', e, sh, a, _, d⟩ := setElem_shows E h (o := o) (by omega) x
    refine ⟨l.set o x, m', by simp, ?_, ?_, sh, a, d⟩
    · rw [NdArray.set', ho]
      simp only [Outcome.bind_ok]
      rw [NdArray.setOffset]
      simp [show o < l.length by omega]
    · rw [set', ho]
      exact e
  · right
    rw [NdArray.set', set', ho]
    exact ⟨rfl, rfl⟩

theorem sets_shows (E : Elem T) (k : Cont) (pre post extra : Bytes) (S : List Nat) (attrs : List String) (n : Nat)
    (ws : List (List Nat × T)) : ∀ (m : Mem) (l : List T), Shows E m k pre l post extra → l.length = card S →
    (∃ l' m', l'.length = l.length ∧ memSets ⟨0, 0, S, NdArray.updateStrides S, attrs, n⟩ [l] ws = .ok [l'] ∧
      sets E k ⟨0, 0, S, NdArray.updateStrides S, attrs, n⟩ m ws = .ok m' ∧ Shows E m' k pre l' post extra ∧ m'.mode = m.mode ∧
        (m.mode = .priv → m'.disk = m.disk)) ∨
      (memSets ⟨0, 0, S, NdArray.updateStrides S, attrs, n⟩ [l] ws = .throw .outOfRange ∧
        sets E k ⟨0, 0, S, NdArray.updateStrides S, attrs, n⟩ m ws = .throw (.nd .outOfRange)) := by
  induction ws with
  | nil => intro m l h _; exact .inl ⟨l, m, rfl, rfl, rfl, h, rfl, fun _ => rfl⟩
  | cons w ws ih =>
    obtain ⟨c, x⟩ := w
    intro m l h hl
    rw [memSets, sets]
    rcases set_shows E h S attrs n hl c x with ⟨l1, m1, e1, e2, e3, s1, a1, d1⟩ | ⟨e1, e2⟩
    · rw [e2, e3]
      simp only [Outcome.bind_ok]
      rcases ih m1 l1 s1 (e1.trans hl) with ⟨l2, m2, f1, f2, f3, s2, a2, d2⟩ | hr
      · exact .inl ⟨l2, m2, f1.trans e1, f2, f3, s2, a2.trans a1, fun hp => (d2 (a1.trans hp)).trans (d1 hp)⟩
      · exact .inr hr
    · rw [e1, e2]
      exact .inr ⟨rfl, rfl⟩

/-- The file of an array that was just built. -/
theorem write_fresh (E : Elem T) (s : List Nat) (attrs : List String) (l : List T) (hne : s ≠ [])
    (hl : l.length = card (NdArray.appendAttrShape s attrs.length)) :
    writeNpy E [l] ⟨0, 0, NdArray.appendAttrShape s attrs.length, NdArray.updateStrides (NdArray.appendAttrShape s attrs.length), attrs,
      card (NdArray.appendAttrShape s attrs.length)⟩ =
      .ok (headerBytes E.dtype.str (attrs.map String.toList) s ++ l.flatMap E.enc) := by
  have hS : NdArray.appendAttrShape s attrs.length ≠ [] := by
    rw [NdArray.appendAttrShape]; split <;> simp [hne]
  have hit : NdArray.iterate [l] ⟨0, 0, NdArray.appendAttrShape s attrs.length,
      NdArray.updateStrides (NdArray.appendAttrShape s attrs.length), attrs, card (NdArray.appendAttrShape s attrs.length)⟩ = .ok l := by
    rw [NdArray.iterate_unit (NdArray.updateStrides_compat _) hS]
    rw [← NdArray.collect_ok l]
    congr 1
    simp only [← hl]
    apply List.ext_getElem (by simp)
    intro i h1 h2
    simp at h1
    simp [NdArray.atOffset, h1]
  have hw := writeHeader_ok E.dtype.str s (attrs.map String.toList)
  rw [List.length_map] at hw
  rw [writeNpy]
  simp only
  rw [hw, hit]
  rfl

theorem mkAttrs_spec {s : List Nat} {attrs : List String} {l : List T} {h : NdArray.Heap T} {a : NdArray.Nd}
    (hmk : NdArray.mkAttrs [] s attrs l = .ok (h, a)) :
    NdArray.accU32 (NdArray.appendAttrShape s attrs.length) = l.length ∧ h = [l] ∧
      a = ⟨0, 0, NdArray.appendAttrShape s attrs.length, NdArray.updateStrides (NdArray.appendAttrShape s attrs.length), attrs,
        NdArray.accU32 (NdArray.appendAttrShape s attrs.length)⟩ := by
  unfold NdArray.mkAttrs at hmk
  cases hd : NdArray.mkData [] (NdArray.appendAttrShape s attrs.length) l with
  | throw e => rw [hd] at hmk; cases hmk
  | ub => rw [hd] at hmk; cases hmk
  | ok r =>
    obtain ⟨h1, a1⟩ := r
    rw [hd] at hmk
    simp only [Outcome.bind_ok, Outcome.pure_eq, Outcome.ok.injEq, Prod.mk.injEq] at hmk
    obtain ⟨rfl, rfl⟩ := hmk
    obtain ⟨hsz, rfl, rfl⟩ := NdArray.mkData_spec hd
    exact ⟨hsz, rfl, rfl⟩

/-- **C113**: a mapped file behaves like the array it was written from.  Open the file of an array (possibly followed by other bytes)
for reading and writing or privately, with a maximum size that is not below the size of the data.  The mapped array has the same
shape and names, and gives the same element or the same error at all coordinates, also after any sequence of assignments to both.
With the shared mode the file is, after the assignments, the file of the changed array; with the private mode it is unchanged. -/
theorem C113_mapped_partial (E : Elem T) (s : List Nat) (attrs : List String) (l : List T) (h : NdArray.Heap T) (a : NdArray.Nd)
    (b extra : Bytes) (mode : Mode) (maxSize : Nat) (hmk : NdArray.mkAttrs [] s attrs l = .ok (h, a)) (hw : writeNpy E h a = .ok b)
    (hsafe : ∀ n ∈ attrs, SafeName n.toList) (hne : s ≠ []) (hb : ∀ n ∈ s, n < 2 ^ 64) (hsmall : card a.shape < 2 ^ 31)
    (hlen : (dict E.dtype.str (attrs.map String.toList) s).length + 65 < 2 ^ 32) (hmode : mode ≠ .readonly)
    (hmax : maxSize = 0 ∨ b.length ≤ maxSize) :
    ∃ m k, mmapNpy E (b ++ extra) mode maxSize = .ok (m, k, a) ∧ m.disk = b ++ extra ∧
      (∀ c, at' E m k a c = ofNd (NdArray.at' h a c)) ∧
      ∀ ws, (∃ h' m', memSets a h ws = .ok h' ∧ sets E k a m ws = .ok m' ∧
          (∀ c, at' E m' k a c = ofNd (NdArray.at' h' a c)) ∧
          (mode = .readwrite → ∃ b', writeNpy E h' a = .ok b' ∧ m'.disk = b' ++ extra) ∧
          (mode = .priv → m'.disk = b ++ extra)) ∨
        (∃ e, memSets a h ws = .throw e ∧ sets E k a m ws = .throw (.nd e)) := by
  obtain ⟨hsz, rfl, rfl⟩ := mkAttrs_spec hmk
  simp only at hsmall
  have hA : NdArray.accU32 (NdArray.appendAttrShape s attrs.length) = card (NdArray.appendAttrShape s attrs.length) := by
    rw [NdArray.accU32_eq, Nat.mod_eq_of_lt (by omega)]
  rw [hA] at hsz hw ⊢
  rw [write_fresh E s attrs l hne hsz.symm] at hw
  cases hw
  have ho := open_written E s attrs l extra mode maxSize hsafe hne hb hsmall hlen hmode hmax _ rfl
  refine ⟨_, _, ho, rfl, ?_⟩
  have hsh := shows_open E (headerBytes E.dtype.str (attrs.map String.toList) s) l extra mode
    (if maxSize ≠ 0 then maxSize else (headerBytes E.dtype.str (attrs.map String.toList) s ++ l.flatMap E.enc ++ extra).length)
    ⟨(headerBytes E.dtype.str (attrs.map String.toList) s).length, card (NdArray.appendAttrShape s attrs.length),
        if maxSize ≠ 0 then maxSize else (headerBytes E.dtype.str (attrs.map String.toList) s ++ l.flatMap E.enc ++ extra).length,
        attrs.map String.toList⟩ hmode rfl (by
      by_cases h0 : maxSize = 0
      · rw [if_neg (by simpa using h0)]; simp only [List.length_append]; omega
      · rw [if_pos h0]
        rcases hmax with h | h
        · exact absurd h h0
        · exact h)
  refine ⟨at_shows E hsh _ attrs _ hsz.symm, ?_⟩
  intro ws
  rcases sets_shows E _ _ _ _ _ attrs (card (NdArray.appendAttrShape s attrs.length)) ws _ l hsh hsz.symm with
    ⟨l', m', e1, e2, e3, sh, hm, hd⟩ | ⟨e1, e2⟩
  · refine .inl ⟨_, _, e2, e3, at_shows E sh _ attrs _ (e1.trans hsz.symm), ?_, fun hp => hd hp⟩
    intro hrw
    refine ⟨_, write_fresh E s attrs l' hne (e1.trans hsz.symm), ?_⟩
    rw [sh.disk (hm.trans hrw), List.append_nil]
  · exact .inr ⟨_, e1, e2⟩

/-! ### Files of other origin -/

theorem bind_inv {α β : Type} {x : Res α} {f : α → Res β} {b : β} (h : (x >>= f) = .ok b) : ∃ a, x = .ok a ∧ f a = .ok b := by
  cases x with
  | ok a => exact ⟨a, rfl, h⟩
  | throw e => cases h
  | ub => cases h

theorem readExact_ok {n : Nat} {input a b : Bytes} (h : readExact n input = .ok (a, b)) : a = input.take n ∧ b = input.drop n := by
  unfold readExact at h
  split at h
  · cases h
  · simp only [Outcome.ok.injEq, Prod.mk.injEq] at h
    exact ⟨h.1.symm, h.2.symm⟩

/-- The data begin where the header ends. -/
theorem readHeader_rest {input rest : Bytes} {hd : Header} (h : readHeader input = .ok (hd, rest)) : rest = input.drop (headerEnd input) := by
  unfold readHeader at h
  obtain ⟨⟨a, i1⟩, h1, h⟩ := bind_inv h
  obtain ⟨rfl, rfl⟩ := readExact_ok h1
  simp only at h
  split at h
  · cases h
  obtain ⟨⟨v, i2⟩, h2, h⟩ := bind_inv h
  obtain ⟨rfl, rfl⟩ := readExact_ok h2
  simp only at h
  split at h
  · cases h
  have hv : ((input.drop 6).take 2).take 1 = (input.drop 6).take 1 := by rw [List.take_take]; rfl
  rw [hv] at h
  have fin : ∀ (lb i3 : Bytes), (do
      let hd ← parseDict (readZero (leVal lb) i3).1
      if hd.fortran = true then Outcome.throw Err.elements
        else if endianUnset (readZero (leVal lb) i3).1 hd then Outcome.ub
        else if hd.big = true then Outcome.throw Err.elements else pure (hd, (readZero (leVal lb) i3).2)) = Outcome.ok (hd, rest) →
      rest = i3.drop (leVal lb) := by
    intro lb i3 h
    obtain ⟨hd', _, h⟩ := bind_inv h
    split at h
    · cases h
    · split at h
      · cases h
      · split at h
        · cases h
        · simp only [Outcome.pure_eq, Outcome.ok.injEq, Prod.mk.injEq, readZero] at h
          exact h.2.symm
  rw [headerEnd]
  split at h
  · rename_i hv1
    obtain ⟨⟨lb, i3⟩, h3, h⟩ := bind_inv h
    obtain ⟨rfl, rfl⟩ := readExact_ok h3
    rw [if_pos hv1, fin _ _ h]
    simp only [List.drop_drop]
  · rename_i hv1
    obtain ⟨⟨lb, i3⟩, h3, h⟩ := bind_inv h
    obtain ⟨rfl, rfl⟩ := readExact_ok h3
    rw [if_neg hv1, fin _ _ h]
    simp only [List.drop_drop]

theorem decodeAll_length (E : Elem T) : ∀ (n : Nat) (x : Bytes), (decodeAll E n x).length = n := by
  intro n
  induction n with
  | zero => intro x; rfl
  | succ n ih => intro x; simp [decodeAll, ih]

theorem decodeAll_get (E : Elem T) : ∀ (n : Nat) (x : Bytes) (o : Nat), o < n →
    (decodeAll E n x)[o]? = some (E.dec ((x.drop (o * E.dtype.size)).take E.dtype.size)) := by
  intro n
  induction n with
  | zero => intro x o h; omega
  | succ n ih =>
    intro x o h
    cases o with
    | zero => simp [decodeAll]
    | succ o =>
      rw [decodeAll, List.getElem?_cons_succ, ih _ o (by omega), List.drop_drop]
      congr 5
      rw [Nat.succ_mul, Nat.add_comm]

theorem sees_open (disk : Bytes) (mode : Mode) (len : Nat) (hmode : mode ≠ .readonly) (hlen : disk.length ≤ len) : Sees ⟨disk, mode, len, []⟩ disk := by
  refine ⟨hmode, fun _ => rfl, ?_⟩
  intro i c hi
  have hlt : i < disk.length := (List.getElem?_eq_some_iff.mp hi).1
  unfold Mem.get
  simp only
  rw [if_neg hmode, if_neg (by omega), hi]
  rfl

/-- Whatever file `readNpy` understands (of any version, written by any program, without missing data) can be mapped, as an array of the same shape and names with
the same elements. -/
theorem C113_same_partial (E : Elem T) (disk : Bytes) (mode : Mode) (maxSize : Nat) (g : NdArray.Heap T) (a : NdArray.Nd)
    (hr : readNpy E [] disk = .ok (g, a)) (hsmall : card a.shape < 2 ^ 32) (hmode : mode ≠ .readonly) (hmax : maxSize = 0 ∨ disk.length ≤ maxSize)
    (hfull : headerEnd disk + E.dtype.size * card a.shape ≤ disk.length) :
    ∃ m k, mmapNpy E disk mode maxSize = .ok (m, k, a) ∧ ∀ c, at' E m k a c = ofNd (NdArray.at' g a c) := by
  unfold readNpy at hr
  obtain ⟨⟨hd, rest⟩, hh, hr⟩ := bind_inv hr
  simp only at hr
  by_cases ht : hd.dtype ≠ E.dtype.str
  · rw [if_pos ht] at hr; cases hr
  rw [if_neg ht] at hr
  generalize hn : (if hd.attrs ≠ [] then (hd.nElements * hd.attrs.length) % 2 ^ 64 else hd.nElements) = n at hr
  by_cases h0 : n = 0
  · rw [if_pos h0] at hr; cases hr
  rw [if_neg h0] at hr
  cases hmk : NdArray.mkAttrs [] hd.shape (hd.attrs.map String.ofList) (decodeAll E n (readZero (E.dtype.size * n) rest).1) with
  | throw e => rw [hmk] at hr; cases hr
  | ub => rw [hmk] at hr; cases hr
  | ok r =>
    obtain ⟨g', a'⟩ := r
    rw [hmk] at hr
    simp only [ofNd, Outcome.ok.injEq, Prod.mk.injEq] at hr
    obtain ⟨rfl, rfl⟩ := hr
    obtain ⟨hsz, rfl, rfl⟩ := mkAttrs_spec hmk
    rw [List.length_map, decodeAll_length] at hsz
    simp only [List.length_map] at hsmall hfull ⊢
    have hA : NdArray.accU32 (NdArray.appendAttrShape hd.shape hd.attrs.length) = card (NdArray.appendAttrShape hd.shape hd.attrs.length) := by
      rw [NdArray.accU32_eq, Nat.mod_eq_of_lt hsmall]
    have hcn : card (NdArray.appendAttrShape hd.shape hd.attrs.length) = n := hA.symm.trans hsz
    have hrest := readHeader_rest hh
    have hlenD : disk.length ≤ (if maxSize ≠ 0 then maxSize else disk.length) := by
      split
      · rename_i h; exact hmax.resolve_left h
      · exact Nat.le_refl _
    have hne : disk ≠ [] := by
      rintro rfl
      cases hh
    have hstream : (⟨disk, mode, if maxSize ≠ 0 then maxSize else disk.length, []⟩ : Mem).stream = disk := by
      unfold Mem.stream
      simp only
      rw [if_neg hmode, List.take_of_length_le hlenD]
    have hdrop : disk.length - rest.length = headerEnd disk := by
      rw [hrest, List.length_drop]; omega
    refine ⟨⟨disk, mode, if maxSize ≠ 0 then maxSize else disk.length, []⟩,
      ⟨headerEnd disk, n, if maxSize ≠ 0 then maxSize else disk.length, hd.attrs⟩, ?_, ?_⟩
    · unfold mmapNpy
      simp only
      rw [if_neg hne, hstream, hh, Outcome.bind_ok]
      simp only
      rw [if_neg ht, if_neg (by omega), hn, if_neg (by simp [hsz]), hdrop]
      rfl
    · intro c
      rcases getOffset_fresh (NdArray.appendAttrShape hd.shape hd.attrs.length) (NdArray.accU32 (NdArray.appendAttrShape hd.shape hd.attrs.length))
        (hd.attrs.map String.ofList) c with ⟨o, ho, hlt⟩ | ho
      · rw [at', NdArray.at', ho]
        simp only [ofNd, Outcome.bind_ok]
        rw [hcn] at hlt hfull
        have hmul : (o + 1) * E.dtype.size ≤ n * E.dtype.size := Nat.mul_le_mul_right _ hlt
        rw [Nat.succ_mul] at hmul
        rw [Nat.mul_comm E.dtype.size n] at hfull
        rw [getElem, gets_sees E.dtype.size (sees_open disk mode _ hmode hlenD) (by show headerEnd disk + _ + _ ≤ _; omega), NdArray.atOffset]
        simp only [List.getElem?_cons_zero, Outcome.bind_ok]
        rw [decodeAll_get E n _ o hlt]
        simp only [Outcome.pure_eq, readZero, hrest]
        congr 2
        rw [List.drop_append_of_le_length (by rw [List.length_take, List.length_drop, Nat.mul_comm E.dtype.size n]; omega),
          List.take_append_of_le_length (by rw [List.length_drop, List.length_take, List.length_drop, Nat.mul_comm E.dtype.size n]; omega),
          List.drop_take, List.take_take, List.drop_drop, Nat.min_eq_left (by rw [Nat.mul_comm E.dtype.size n]; omega)]
      · rw [at', NdArray.at', ho]
        rfl

/-- A file that can be mapped can be read: nothing else is taken for an array. -/
theorem C113_only_arrays (E : Elem T) (disk : Bytes) (mode : Mode) (maxSize : Nat) (hmax : maxSize = 0 ∨ disk.length ≤ maxSize) (m : Mem) (k : Cont)
    (a : NdArray.Nd) (h : mmapNpy E disk mode maxSize = .ok (m, k, a)) (ha : a.size ≠ 0) : ∃ g, readNpy E [] disk = .ok (g, a) := by
  unfold mmapNpy at h
  simp only at h
  split at h
  · cases h
  obtain ⟨⟨hd, rest⟩, hh, h⟩ := bind_inv h
  have hlenD : disk.length ≤ (if maxSize ≠ 0 then maxSize else disk.length) := by
    split
    · rename_i h; exact hmax.resolve_left h
    · exact Nat.le_refl _
  have hmode : mode ≠ .readonly := by
    rintro rfl
    cases hh
  have hstream : (⟨disk, mode, if maxSize ≠ 0 then maxSize else disk.length, []⟩ : Mem).stream = disk := by
    unfold Mem.stream
    simp only
    rw [if_neg hmode, List.take_of_length_le hlenD]
  rw [hstream] at hh
  simp only at h
  by_cases ht : hd.dtype ≠ E.dtype.str
  · rw [if_pos ht] at h; cases h
  rw [if_neg ht, hstream] at h
  by_cases hu : disk.length < headerEnd disk
  · rw [if_pos hu] at h; cases h
  rw [if_neg hu] at h
  generalize hn : (if hd.attrs ≠ [] then (hd.nElements * hd.attrs.length) % 2 ^ 64 else hd.nElements) = n at h
  by_cases hsz : NdArray.accU32 (NdArray.appendAttrShape hd.shape hd.attrs.length) ≠ n
  · rw [if_pos hsz] at h; cases h
  rw [if_neg hsz] at h
  simp only [ne_eq, Decidable.not_not] at hsz
  simp only [Outcome.pure_eq, Outcome.ok.injEq, Prod.mk.injEq] at h
  obtain ⟨_, _, rfl⟩ := h
  simp only at ha
  refine ⟨[decodeAll E n (readZero (E.dtype.size * n) rest).1], ?_⟩
  unfold readNpy
  rw [hh, Outcome.bind_ok]
  simp only
  rw [if_neg ht, hn, if_neg (by omega)]
  unfold NdArray.mkAttrs NdArray.mkData
  rw [List.length_map, decodeAll_length, if_neg (by simp [hsz])]
  rfl

/-- An empty file cannot be mapped, and a file of another element type is refused. -/
theorem C113_refused (E : Elem T) (mode : Mode) (maxSize : Nat) :
    mmapNpy E [] mode maxSize = .throw .elements ∧
    ∀ (disk : Bytes) (hd : Header) (rest : Bytes), mode ≠ .readonly → maxSize = 0 ∨ disk.length ≤ maxSize → disk ≠ [] →
      readHeader disk = .ok (hd, rest) → hd.dtype ≠ E.dtype.str → mmapNpy E disk mode maxSize = .throw .elements := by
  refine ⟨rfl, fun disk hd rest hmode hmax hne hh ht => ?_⟩
  have hlenD : disk.length ≤ (if maxSize ≠ 0 then maxSize else disk.length) := by
    split
    · rename_i h; exact hmax.resolve_left h
    · exact Nat.le_refl _
  have hstream : (⟨disk, mode, if maxSize ≠ 0 then maxSize else disk.length, []⟩ : Mem).stream = disk := by
    unfold Mem.stream
    simp only
    rw [if_neg hmode, List.take_of_length_le hlenD]
  unfold mmapNpy
  simp only
  rw [if_neg hne, hstream, hh, Outcome.bind_ok]
  simp only
  rw [if_pos ht]

/-- A file of version 1 as numpy writes it. -/
example : ∃ g a m k, readNpy byteElem [] (['\x93', 'N', 'U', 'M', 'P', 'Y', '\x01', '\x00', '\x36', '\x00'] ++
      "{'descr': '|B', 'fortran_order': False, 'shape': (2,)}".toList ++ ['a', 'b']) = .ok (g, a) ∧
    mmapNpy byteElem (['\x93', 'N', 'U', 'M', 'P', 'Y', '\x01', '\x00', '\x36', '\x00'] ++
      "{'descr': '|B', 'fortran_order': False, 'shape': (2,)}".toList ++ ['a', 'b']) .readwrite 0 = .ok (m, k, a) ∧ k.dataOffset = 64 ∧
    at' byteElem m k a [1] = .ok 98 :=
  ⟨[[97, 98]], ⟨0, 0, [2], [1], [], 2⟩, ⟨['\x93', 'N', 'U', 'M', 'P', 'Y', '\x01', '\x00', '\x36', '\x00'] ++
      "{'descr': '|B', 'fortran_order': False, 'shape': (2,)}".toList ++ ['a', 'b'], .readwrite, 66, []⟩, ⟨64, 2, 66, []⟩,
    by decide +kernel, by decide +kernel, rfl, by decide +kernel⟩

/-- A header for one row of two bytes, followed by the bytes. -/
def sample : Bytes := headerBytes Dtype.u8.str [] [2] ++ ['a', 'b']

example : ∃ h a, NdArray.mkAttrs [] [2] [] [(97 : Fin 256), 98] = .ok (h, a) ∧ writeNpy byteElem h a = .ok sample ∧
    ∃ m k m', mmapNpy byteElem (sample ++ ['z']) .readwrite 0 = .ok (m, k, a) ∧ sets byteElem k a m [([1], 99)] = .ok m' ∧
      m'.disk = headerBytes Dtype.u8.str [] [2] ++ ['a', 'c', 'z'] ∧ at' byteElem m' k a [1] = .ok 99 ∧
        at' byteElem m' k a [2] = .throw (.nd .outOfRange) :=
  ⟨_, _, rfl, by decide +kernel, ⟨sample ++ ['z'], .readwrite, 131, []⟩, ⟨128, 2, 131, []⟩,
    ⟨headerBytes Dtype.u8.str [] [2] ++ ['a', 'c', 'z'], .readwrite, 131, []⟩, by decide +kernel, by decide +kernel, rfl,
    by decide +kernel, by decide +kernel⟩

/-- Without the restrictions on the mode, the maximum size and the length of the file: whatever `readNpy` reads can be mapped, and has
the same elements. -/
def C113_full : Prop := ∀ (disk : Bytes) (mode : Mode) (maxSize : Nat) (g : NdArray.Heap (Fin 256)) (a : NdArray.Nd),
  readNpy byteElem [] disk = .ok (g, a) →
    ∃ m k, mmapNpy byteElem disk mode maxSize = .ok (m, k, a) ∧ ∀ c, at' byteElem m k a c = ofNd (NdArray.at' g a c)

/-- The array of the sample file. -/
def sampleNd : NdArray.Nd := ⟨0, 0, [2], [1], [], 2⟩

theorem sample_reads : readNpy byteElem [] sample = .ok ([[97, 98]], sampleNd) := by decide +kernel

/-- The documentation mentions the read-only mode, but then the pointers are null, and the header is read from an empty stream. -/
theorem C113_readonly_violated (E : Elem T) (disk : Bytes) (maxSize : Nat) (hd : disk ≠ []) : mmapNpy E disk .readonly maxSize = .ub := by
  rw [mmapNpy, if_neg hd]
  rfl

/-- With a maximum size between the end of the header and the end of the data, the file is opened and its last elements are outside of
the mapping. -/
theorem C113_max_size_violated : readNpy byteElem [] sample = .ok ([[97, 98]], sampleNd) ∧
    mmapNpy byteElem sample .readwrite 129 = .ok (⟨sample, .readwrite, 129, []⟩, ⟨128, 2, 129, []⟩, sampleNd) ∧
      at' byteElem ⟨sample, .readwrite, 129, []⟩ ⟨128, 2, 129, []⟩ sampleNd [0] = .ok 97 ∧
      at' byteElem ⟨sample, .readwrite, 129, []⟩ ⟨128, 2, 129, []⟩ sampleNd [1] = .ub :=
  ⟨sample_reads, by decide +kernel, by decide +kernel, by decide +kernel⟩

/-- A file that ends too early is opened, although elements are missing. -/
theorem C113_truncated_violated : ∃ m k,
    mmapNpy byteElem (sample.take 129) .readwrite 0 = .ok (m, k, sampleNd) ∧ at' byteElem m k sampleNd [1] = .ub :=
  ⟨⟨sample.take 129, .readwrite, 129, []⟩, ⟨128, 2, 129, []⟩, by decide +kernel, by decide +kernel⟩

theorem C113_violated : ¬ C113_full := by
  intro hf
  obtain ⟨m, k, h, _⟩ := hf sample .readonly 0 _ _ sample_reads
  rw [C113_readonly_violated _ _ _ (by decide +kernel)] at h
  cases h

/-- Also without the read-only mode. -/
theorem C113_full_writable_violated : ¬ ∀ (disk : Bytes) (mode : Mode) (maxSize : Nat) (g : NdArray.Heap (Fin 256)) (a : NdArray.Nd),
    mode ≠ .readonly → readNpy byteElem [] disk = .ok (g, a) →
    ∃ m k, mmapNpy byteElem disk mode maxSize = .ok (m, k, a) ∧ ∀ c, at' byteElem m k a c = ofNd (NdArray.at' g a c) := by
  intro hf
  obtain ⟨h1, h2, _, h4⟩ := C113_max_size_violated
  obtain ⟨m, k, h, hc⟩ := hf sample .readwrite 129 _ _ (by decide) h1
  rw [h2] at h
  cases h
  have := hc [1]
  rw [h4] at this
  cases this

/-- **C113**, resizing: through a shared mapping that covers the maximum size, `resize` does to the file and to the container what
`C78` describes. -/
theorem C113_resize (d : Dtype) (m : Mem) (k : Cont) (shape : List Nat) (hm : m.mode = .readwrite) (ho : m.overlay = [])
    (hl : m.length = k.maxSize) :
    resize d m k shape =
      ((⟨((⟨m.disk, k.dataOffset, k.nElements, k.maxSize, k.attrs⟩ : Mapped).resize d shape).1.file, m.mode, m.length, []⟩,
        { k with nElements := ((⟨m.disk, k.dataOffset, k.nElements, k.maxSize, k.attrs⟩ : Mapped).resize d shape).1.nElements }),
        ((⟨m.disk, k.dataOffset, k.nElements, k.maxSize, k.attrs⟩ : Mapped).resize d shape).2) := by
  obtain ⟨disk, mode, len, ov⟩ := m
  obtain ⟨off, n, mx, attrs⟩ := k
  simp only at hm ho hl
  subst hm ho hl
  unfold resize Mapped.resize
  cases hw : writeHeader d.str shape attrs with
  | throw e => rfl
  | ub => rfl
  | ok header =>
    simp only
    by_cases h1 : header.length ≠ off
    · rw [if_pos h1, if_pos h1]
    · rw [if_neg h1, if_neg h1]
      by_cases h2 : header.length + d.size * NdArray.accU32 shape > len
      · rw [if_pos h2, if_pos h2]
      · rw [if_neg h2, if_neg h2]
        have hrl : (resizeFile disk (header.length + d.size * NdArray.accU32 shape)).length =
            header.length + d.size * NdArray.accU32 shape := by
          rw [resizeFile]; simp only [List.length_append, List.length_take, List.length_replicate]; omega
        have hs : Sees ⟨resizeFile disk (header.length + d.size * NdArray.accU32 shape), .readwrite, len, []⟩
            (resizeFile disk (header.length + d.size * NdArray.accU32 shape)) := by
          refine ⟨by simp, fun _ => rfl, ?_⟩
          intro i c hi
          have := (List.getElem?_eq_some_iff.mp hi).1
          unfold Mem.get
          simp only
          rw [if_neg (by simp), if_neg (by omega), hi]
          rfl
        generalize hR : resizeFile disk (header.length + d.size * NdArray.accU32 shape) = R at hrl hs
        obtain ⟨m', e, s, a, b, c⟩ := puts_sees header hs (i := 0) (by omega)
        simp only [hR]
        rw [e]
        have hsp : splice R 0 header = header ++ R.drop header.length := by
          have := splice_mid header [] (R.take header.length) (R.drop header.length) (by rw [List.length_take]; omega)
          simpa using this
        rw [if_pos rfl, hsp] at c
        obtain ⟨disk', mode', len', ov'⟩ := m'
        simp only at a b c
        subst a b c
        have := s.shared rfl
        simp only at this
        subst this
        rfl

example : resize .u8 ⟨sample, .readwrite, 200, []⟩ ⟨128, 2, 200, []⟩ [3] =
    ((⟨headerBytes Dtype.u8.str [] [3] ++ ['a', 'b', '\x00'], .readwrite, 200, []⟩, ⟨128, 3, 200, []⟩), .ok ()) := by decide +kernel

/-- "The changes will not persist" in the private mode: not so for the size of the file (`concatenate` calls `resize`). -/
def C113_private_full : Prop := ∀ (d : Dtype) (m m' : Mem) (k k' : Cont) (shape : List Nat), m.mode = .priv →
  resize d m k shape = ((m', k'), .ok ()) → m'.disk = m.disk

theorem pair_eq {A B C : Type} (r : (A × B) × C) {b : B} {c : C} (h1 : r.1.2 = b) (h2 : r.2 = c) : r = ((r.1.1, b), c) := by
  subst h1 h2; rfl

/-- The file grows, and still has the old header; the new one is only in the private memory. -/
theorem C113_private_resize_violated : ∃ m', resize .u8 ⟨sample, .priv, 200, []⟩ ⟨128, 2, 200, []⟩ [3] = ((m', ⟨128, 3, 200, []⟩), .ok ()) ∧
    m'.disk = sample ++ ['\x00'] ∧ m'.gets 0 128 = .ok (headerBytes Dtype.u8.str [] [3]) := by
  let r := resize .u8 ⟨sample, .priv, 200, []⟩ ⟨128, 2, 200, []⟩ [3]
  have h1 : r.2 = .ok () := by decide +kernel
  have h2 : r.1.2 = ⟨128, 3, 200, []⟩ := by decide +kernel
  exact ⟨r.1.1, pair_eq r h2 h1, by decide +kernel, by decide +kernel⟩

theorem C113_private_violated : ¬ C113_private_full := by
  intro hf
  obtain ⟨m', h, hd, _⟩ := C113_private_resize_violated
  have := congrArg List.length (hf .u8 _ m' _ _ [3] rfl h)
  rw [hd, List.length_append] at this
  revert this
  generalize sample.length = n
  simp

/-- A private assignment never changes the file. -/
theorem C113_private_puts (m m' : Mem) (i : Nat) (cs : Bytes) (hm : m.mode = .priv) (h : m.puts i cs = .ok m') : m'.disk = m.disk := by
  induction cs generalizing m i with
  | nil => cases h; rfl
  | cons c cs ih =>
    rw [Mem.puts] at h
    unfold Mem.put at h
    by_cases h1 : m.length ≤ i
    · rw [if_pos h1] at h; cases h
    · rw [if_neg h1] at h
      by_cases h2 : m.disk.length ≤ i
      · rw [if_pos h2] at h; cases h
      · rw [if_neg h2, hm] at h
        exact ih { m with mode := .priv, overlay := (i, c) :: m.overlay } (i + 1) rfl h

example : (⟨sample, .priv, 130, []⟩ : Mem).puts 128 ['x', 'y'] = .ok ⟨sample, .priv, 130, [(129, 'y'), (128, 'x')]⟩ := by decide +kernel

/-- `copy` is expected to be deep (`NdArray.h` 498): assignments to the copy leave the original and its file alone. -/
def C113_copy_full : Prop := ∀ (m m' : Mem) (k : Cont) (a : NdArray.Nd) (c : List Nat) (x : Fin 256),
  set' byteElem m (copy k a).1 (copy k a).2 c x = .ok m' → (∀ c', at' byteElem m' k a c' = at' byteElem m k a c') ∧ m'.disk = m.disk

/-- The copy of a mapped array is the same memory: an assignment to the copy changes the original and the file. -/
theorem C113_copy_shared_violated : ∃ m m' k, mmapNpy byteElem sample .readwrite 0 = .ok (m, k, sampleNd) ∧
    set' byteElem m (copy k sampleNd).1 (copy k sampleNd).2 [0] 120 = .ok m' ∧ at' byteElem m k sampleNd [0] = .ok 97 ∧
      at' byteElem m' k sampleNd [0] = .ok 120 ∧ m'.disk = headerBytes Dtype.u8.str [] [2] ++ ['x', 'b'] :=
  ⟨⟨sample, .readwrite, 130, []⟩, ⟨headerBytes Dtype.u8.str [] [2] ++ ['x', 'b'], .readwrite, 130, []⟩, ⟨128, 2, 130, []⟩,
    by decide +kernel, by decide +kernel, by decide +kernel, by decide +kernel, by decide +kernel⟩

theorem C113_copy_violated : ¬ C113_copy_full := by
  intro hf
  obtain ⟨m, m', k, _, h, h1, h2, _⟩ := C113_copy_shared_violated
  have := (hf m m' k sampleNd [0] 120 h).1 [0]
  rw [h1, h2] at this
  exact absurd this (by decide)

/-- The copy of a slice shows other elements: those at the beginning of the file, one after the other. -/
theorem C113_copy_slice_violated : ∃ m k,
    mmapNpy byteElem (headerBytes Dtype.u8.str [] [2, 2] ++ ['a', 'b', 'c', 'd']) .readwrite 0 = .ok (m, k, ⟨0, 0, [2, 2], [2, 1], [], 4⟩) ∧
    (at' byteElem m k ⟨0, 1, [2], [2], [], 2⟩ [0], at' byteElem m k ⟨0, 1, [2], [2], [], 2⟩ [1]) = (.ok 98, .ok 100) ∧
    (at' byteElem m (copy k ⟨0, 1, [2], [2], [], 2⟩).1 (copy k ⟨0, 1, [2], [2], [], 2⟩).2 [0],
      at' byteElem m (copy k ⟨0, 1, [2], [2], [], 2⟩).1 (copy k ⟨0, 1, [2], [2], [], 2⟩).2 [1]) = (.ok 97, .ok 98) :=
  ⟨⟨headerBytes Dtype.u8.str [] [2, 2] ++ ['a', 'b', 'c', 'd'], .readwrite, 132, []⟩, ⟨128, 4, 132, []⟩, by decide +kernel, by decide +kernel, by decide +kernel⟩

end Alexandria.Npy.Mmap
