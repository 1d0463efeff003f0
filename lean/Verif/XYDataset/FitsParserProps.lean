import Verif.XYDataset.FitsParserModel
import Verif.XYDataset.Props3
import Verif.Table.FitsFileProps

/-!
# Properties of the FITS parser of datasets (C109)
-/

namespace Alexandria.XYDataset.FitsIO

open Alexandria.Str Alexandria.Table Alexandria.Table.Fits Alexandria.Table.Fits.Spec

variable {F D T : Type}

namespace Spec

/-- The columns of a dataset: two of doubles, with any names, units and descriptions. -/
structure PairInfo (info : Info) : Prop where
  two : ∃ a b : Desc, info = [a, b] ∧ a.type = .scalar .f64 ∧ b.type = .scalar .f64 ∧ a.name ≠ b.name
  names : ∀ d ∈ info, d.name ≠ [] ∧ OneLine d.name

/-- The table of some points. -/
def pointTable (info : Info) (points : List (D × D)) : TableT F D := ⟨points.map fun p => ⟨[.scalar .f64 p.1, .scalar .f64 p.2], info⟩, info⟩

end Spec

open FitsIO.Spec

theorem pairs_ok (info : Info) (points : List (D × D)) :
    pairs ((points.map fun p => ([.scalar .f64 p.1, .scalar .f64 p.2] : List (Cell F D))).map fun r => (⟨r, info⟩ : RowT F D)) = .ok points := by
  induction points with
  | nil => rfl
  | cons p ps ih =>
    rw [List.map_cons, List.map_cons, pairs, ih]
    rfl

theorem allRows_points (info : Info) (chunks : List (List (D × D))) :
    allRows (chunks.map (pointTable (F := F) info)) = chunks.flatten.map fun p => [.scalar .f64 p.1, .scalar .f64 p.2] := by
  induction chunks with
  | nil => rfl
  | cons c cs ih =>
    rw [List.map_cons, allRows, List.flatMap_cons, List.flatten_cons, List.map_append]
    rw [allRows] at ih
    rw [ih]
    congr 1
    simp [pointTable, Function.comp_def]

theorem point_proper (info : Info) (hi : PairInfo info) (points : List (D × D)) (hp : points ≠ []) : Proper (pointTable (F := F) info points) := by
  obtain ⟨⟨a, b, rfl, ha, hb, hab⟩, hn⟩ := hi
  refine ⟨by simpa [pointTable] using hp, ⟨by simp [pointTable], by simp [pointTable, hab]⟩, hn, ?_⟩
  intro r hr
  simp only [pointTable, List.mem_map] at hr
  obtain ⟨p, _, rfl⟩ := hr
  refine ⟨.cons (by rw [ha]; rfl) (.cons (by rw [hb]; rfl) .nil), ?_⟩
  intro s hs
  simp at hs

theorem bind_some {α β : Type} {x : Table.Res α} {g : α → Table.Res β} {b : β} (h : (x >>= g) = .ok b) : ∃ a, x = .ok a ∧ g a = .ok b := by
  match x, h with
  | .ok a, h => exact ⟨a, rfl, h⟩

theorem asDouble_ok {c : Cell F D} {x : D} (h : asDouble c = .ok x) : c = .scalar .f64 x := by
  unfold asDouble at h
  split at h
  · cases h
    rfl
  · cases h

/-- **C109**: points that were written to a FITS file with a table writer, in any number of chunks, come back as the dataset of all the points in their order, whatever is added to the file later
and whatever keywords it has. -/
theorem C109_dataset (lib : Lib F D) (fmt : Fmt F D) (w : Fits.Writer) (hw : Fresh w) (f : File F D T) (hb : Table.Fits.base w f = []) (info : Info) (hi : PairInfo info) (hk : Kept lib info)
    (hkn : lib.text w.hduName = w.hduName) (first : List (D × D)) (chunks : List (List (D × D))) (hne : ∀ c ∈ first :: chunks, c ≠ []) :
    ∃ w' tab, w.addAll lib fmt ((first :: chunks).map (pointTable info)) f = (w', [.table tab], .ok ()) ∧
      ∀ (later : File F D T) (keys : Bytes → Option Bytes), getDataset lib (.fits keys (.table tab :: later)) = .ok (some (first :: chunks).flatten) ∧
        isDatasetFile (.fits keys (.table tab :: later)) = .ok true := by
  have hsc : ∀ (j : Nat) (d : Desc), info[j]? = some d → d.type = .scalar .f64 := by
    obtain ⟨a, b, rfl, ha, hb', _⟩ := hi.two
    intro j d hd
    match j, hd with
    | 0, hd => cases hd; exact ha
    | 1, hd => cases hd; exact hb'
    | j + 2, hd => simp at hd
  obtain ⟨w', tab, h1, _, _, _, h2⟩ := C106_chunks_partial lib fmt w hw f (pointTable info first) (chunks.map (pointTable info)) (point_proper info hi first (hne _ (by simp)))
    (by
      intro j d hd
      rw [hsc j d hd]
      trivial) hk hkn (by
      intro t ht
      obtain ⟨c, hc, rfl⟩ := List.mem_map.1 ht
      refine ⟨point_proper info hi c (hne c (by simp [hc])), rfl, ?_⟩
      intro j d hd
      rw [hsc j d hd]
      trivial) (by rw [hb]; intro e he; cases he)
  rw [hb] at h1 h2
  refine ⟨w', tab, h1, fun later keys => ⟨?_, rfl⟩⟩
  obtain ⟨hd, h3, _, _, _, h4⟩ := h2 later
  rw [List.nil_append, show ([] : File F D T).length + 1 = 1 from rfl] at h3
  have hrows := allRows_points (F := F) info (first :: chunks)
  rw [List.map_cons] at hrows
  rw [getDataset]
  rw [h3, Outcome.bind_ok, h4, hrows, Outcome.bind_ok]
  simp only
  rw [show (pointTable (F := F) info first).info = info from rfl, pairs_ok, Outcome.bind_ok]
  rfl

/-- **C109**: only the first two columns matter. If they are of doubles in every row that the table reader gives, the dataset has these pairs in the order of the rows; if a row is
different, no dataset is made. -/
theorem C109_columns (lib : Lib F D) (keys : Bytes → Option Bytes) (f : File F D T) (h : Hdu F D) (hopen : openIndex lib f 1 = .ok h) (t : TableT F D) (hread : readTable h = .ok t) :
    (∀ points : List (D × D), List.Forall₂ (fun (r : RowT F D) p => ∃ more, r.values = .scalar .f64 p.1 :: .scalar .f64 p.2 :: more) t.rows points →
      getDataset lib (.fits keys f) = .ok (some points)) ∧
    (∀ d, getDataset lib (.fits keys f) = .ok d → ∃ points : List (D × D), d = some points ∧
      List.Forall₂ (fun (r : RowT F D) p => ∃ more, r.values = .scalar .f64 p.1 :: .scalar .f64 p.2 :: more) t.rows points) := by
  have hfw : ∀ (rows : List (RowT F D)) (points : List (D × D)), List.Forall₂ (fun (r : RowT F D) p => ∃ more, r.values = .scalar .f64 p.1 :: .scalar .f64 p.2 :: more) rows points →
      pairs rows = .ok points := by
    intro rows points hf
    induction hf with
    | nil => rfl
    | cons hr _ ih =>
      obtain ⟨more, hm⟩ := hr
      rw [pairs, ih, RowT.get, RowT.get, hm]
      rfl
  have hbw : ∀ (rows : List (RowT F D)) (points : List (D × D)), pairs rows = .ok points →
      List.Forall₂ (fun (r : RowT F D) p => ∃ more, r.values = .scalar .f64 p.1 :: .scalar .f64 p.2 :: more) rows points := by
    intro rows
    induction rows with
    | nil =>
      intro points hp
      cases hp
      exact .nil
    | cons r rs ih =>
      intro points hp
      rw [pairs, RowT.get, RowT.get] at hp
      match hv : r.values with
      | [] =>
        rw [hv] at hp
        cases hp
      | [c] =>
        rw [hv] at hp
        simp only [List.getElem?_cons_zero, Outcome.bind_ok] at hp
        obtain ⟨x, _, hp⟩ := bind_some hp
        cases hp
      | c1 :: c2 :: more =>
        rw [hv] at hp
        simp only [List.getElem?_cons_zero, List.getElem?_cons_succ, Outcome.bind_ok] at hp
        obtain ⟨x, hx, hp⟩ := bind_some hp
        obtain ⟨y, hy, hp⟩ := bind_some hp
        obtain ⟨rest, hr, hp⟩ := bind_some hp
        cases hp
        refine .cons ⟨more, ?_⟩ (ih _ hr)
        rw [hv, asDouble_ok hx, asDouble_ok hy]
  constructor
  · intro points hp
    rw [getDataset, hopen, Outcome.bind_ok, hread, Outcome.bind_ok, hfw _ _ hp, Outcome.bind_ok]
    rfl
  · intro d hd
    rw [getDataset, hopen, Outcome.bind_ok, hread, Outcome.bind_ok] at hd
    match hp : pairs t.rows with
    | .ok points =>
      rw [hp] at hd
      cases hd
      exact ⟨points, rfl, hbw _ _ hp⟩
    | .throw e =>
      rw [hp] at hd
      cases e <;> cases hd
    | .ub =>
      rw [hp] at hd
      cases hd

/-- **C109**: without a file there is no dataset and no exception; a file without a readable first extension gives an exception, never a dataset. -/
theorem C109_no_dataset (lib : Lib F D) :
    getDataset lib (OnDisk.missing : OnDisk F D T) = .ok none ∧ getDataset lib (OnDisk.other : OnDisk F D T) = .throw .library ∧
    ∀ keys (f : File F D T) e, openIndex lib f 1 = .throw e → getDataset lib (.fits keys f) = .throw (if e = .library then .elements else e) := by
  refine ⟨rfl, rfl, ?_⟩
  intro keys f e he
  rw [getDataset, he]
  cases e <;> rfl

/-- **C109**: the name of a dataset is the value of the keyword in the first extension, or the name of the file without its directory and its extension if there is no such keyword or if it is
empty. -/
theorem C109_name (keyword : Bytes) (keys : Bytes → Option Bytes) (f : File F D T) (hf : f ≠ []) (file : Bytes) :
    (∀ name, keys keyword = some name → name ≠ [] → getName keyword file (.fits keys f) = .ok name) ∧
    (keys keyword = none ∨ keys keyword = some [] → ∀ dir name ext, file = dir ++ '/' :: name ++ '.' :: ext → '/' ∉ name → '/' ∉ ext → '.' ∉ ext →
      getName keyword file (.fits keys f) = .ok name) ∧
    (keys keyword = none ∨ keys keyword = some [] → ∀ name ext, file = name ++ '.' :: ext → '/' ∉ name → '/' ∉ ext → '.' ∉ ext → getName keyword file (.fits keys f) = .ok name) ∧
    getName keyword file (OnDisk.missing : OnDisk F D T) = .throw .elements := by
  obtain ⟨e, f, rfl⟩ := List.exists_cons_of_ne_nil hf
  have key : (keys keyword = none ∨ keys keyword = some []) → getName keyword file (.fits keys (e :: f)) = .ok (removeExtension (removeAllBeforeLastSlash file)) := by
    intro h
    rw [getName, getParameter, Outcome.bind_ok, if_pos (by rcases h with h | h <;> rw [h] <;> rfl)]
    rfl
  refine ⟨?_, ?_, ?_, rfl⟩
  · intro name h hn
    rw [getName, getParameter, Outcome.bind_ok, h, if_neg (by simpa using hn)]
    rfl
  · intro h dir name ext hfile h1 h2 h3
    rw [key h, hfile]
    have : '/' ∉ name ++ '.' :: ext := by simp [h1, h2]
    rw [List.append_assoc, List.cons_append, removeAllBeforeLastSlash, beforeLast_eq '/' dir _ this]
    simp only
    rw [show dir ++ '/' :: (name ++ '.' :: ext) = (dir ++ ['/']) ++ (name ++ '.' :: ext) by simp, show dir.length + 1 = (dir ++ ['/']).length by simp, List.drop_left, removeExtension,
      beforeLast_eq '.' name ext h3]
    rfl
  · intro h name ext hfile h1 h2 h3
    rw [key h, hfile]
    have : '/' ∉ name ++ '.' :: ext := by simp [h1, h2]
    rw [removeAllBeforeLastSlash, beforeLast_none '/' _ this, removeExtension, beforeLast_eq '.' name ext h3]
    rfl

/-- The statement that files are recognised: the answer is always given, and it is yes for files whose first extension is a table. -/
def C109_full : Prop := ∀ disk : OnDisk Unit Unit Unit, ∃ b, isDatasetFile disk = .ok b ∧ (b = true ↔ ∃ keys tab rest, disk = .fits keys (.table tab :: rest))

/-- **C109** (partial: not for files whose first extension is an image). -/
theorem C109_is_dataset_partial (disk : OnDisk F D T) (h : ∀ keys n v sh px rest, disk ≠ .fits keys (.image n v sh px :: rest)) :
    ∃ b, isDatasetFile disk = .ok b ∧ (b = true ↔ ∃ keys tab rest, disk = .fits keys (.table tab :: rest)) := by
  match disk with
  | .missing => exact ⟨false, rfl, by simp⟩
  | .other => exact ⟨false, rfl, by simp⟩
  | .fits _ [] => exact ⟨false, rfl, by simp⟩
  | .fits keys (.table tab :: rest) => exact ⟨true, rfl, by simp⟩
  | .fits keys (.image n v sh px :: rest) => exact absurd rfl (h keys n v sh px rest)

/-- A file whose first extension is an image: the exception of the cast is not caught. -/
theorem C109_image_violated : ¬ C109_full := by
  intro h
  obtain ⟨b, hb, _⟩ := h (.fits (fun _ => none) [.image [] 1 [] []])
  cases hb

/-- **C109 (which files).** The exception of the cast is what every file whose first extension is an image gives, and no other file; undefined behaviour is not reached. -/
theorem C109_image_iff (disk : OnDisk F D T) :
    (isDatasetFile disk = .throw .badCast ↔ ∃ keys n v sh px rest, disk = .fits keys (.image n v sh px :: rest)) ∧ isDatasetFile disk ≠ .ub := by
  by_cases h : ∃ keys n v sh px rest, disk = .fits keys (.image n v sh px :: rest)
  · obtain ⟨keys, n, v, sh, px, rest, rfl⟩ := h
    exact ⟨⟨fun _ => ⟨_, _, _, _, _, _, rfl⟩, fun _ => rfl⟩, fun h => by cases h⟩
  · obtain ⟨b, hb, _⟩ := C109_is_dataset_partial disk fun keys n v sh px rest e => h ⟨keys, n, v, sh, px, rest, e⟩
    rw [hb]
    exact ⟨⟨fun e => (by cases e), fun e => absurd e h⟩, fun e => (by cases e)⟩

example : isDatasetFile (.fits (fun _ => none) [.image [] 1 [2] [(3 : Nat), 4]] : OnDisk Unit Unit Nat) = .throw .badCast := (C109_image_iff _).1.2 ⟨_, _, _, _, _, _, rfl⟩

theorem pairs_def : ∀ rows : List (RowT F D), (∃ l, pairs rows = .ok l) ∨ pairs rows = .throw .elements ∨ pairs rows = .throw .badGet
  | [] => .inl ⟨[], rfl⟩
  | r :: rs => by
    have get : ∀ i, (∃ c, r.get i = .ok c) ∨ r.get i = .throw .elements := by
      intro i
      unfold RowT.get
      cases r.values[i]? with
      | none => exact .inr rfl
      | some c => exact .inl ⟨c, rfl⟩
    have num : ∀ c : Cell F D, (∃ x, asDouble c = .ok x) ∨ asDouble c = .throw .badGet := by
      intro c
      unfold asDouble
      split
      · exact .inl ⟨_, rfl⟩
      · exact .inr rfl
    rw [pairs]
    rcases get 0 with ⟨c, h⟩ | h
    · rw [h, Outcome.bind_ok]
      rcases num c with ⟨x, h⟩ | h
      · rw [h, Outcome.bind_ok]
        rcases get 1 with ⟨c', h⟩ | h
        · rw [h, Outcome.bind_ok]
          rcases num c' with ⟨y, h⟩ | h
          · rw [h, Outcome.bind_ok]
            rcases pairs_def rs with ⟨l, h⟩ | h | h
            · rw [h]; exact .inl ⟨_, rfl⟩
            · rw [h]; exact .inr (.inl rfl)
            · rw [h]; exact .inr (.inr rfl)
          · rw [h]; exact .inr (.inr rfl)
        · rw [h]; exact .inr (.inl rfl)
      · rw [h]; exact .inr (.inr rfl)
    · rw [h]; exact .inr (.inl rfl)

/-- **C109 (other tables).** A table that has a row without two leading doubles is refused with an exception of the library Elements or of `boost::get`, whatever its columns are; nothing is undefined. -/
theorem C109_refused (lib : Lib F D) (keys : Bytes → Option Bytes) (f : File F D T) (h : Hdu F D) (hopen : openIndex lib f 1 = .ok h) (t : TableT F D) (hread : readTable h = .ok t)
    (r : RowT F D) (hr : r ∈ t.rows) (hbad : ∀ x y more, r.values ≠ .scalar .f64 x :: .scalar .f64 y :: more) :
    getDataset lib (.fits keys f) = .throw .elements ∨ getDataset lib (.fits keys f) = .throw .badGet := by
  have e : getDataset lib (.fits keys f) = caught (do let l ← pairs t.rows; return some l) := by
    rw [getDataset, hopen, Outcome.bind_ok, hread, Outcome.bind_ok]
  rcases pairs_def t.rows with ⟨l, hl⟩ | hl | hl
  · exfalso
    rw [hl] at e
    obtain ⟨points, _, hf⟩ := (C109_columns lib keys f h hopen t hread).2 _ e
    obtain ⟨i, hi, rfl⟩ := List.getElem_of_mem hr
    obtain ⟨more, hm⟩ := hf.get hi (by rw [← hf.length_eq]; exact hi)
    exact hbad _ _ _ hm
  · rw [e, hl]; exact .inl rfl
  · rw [e, hl]; exact .inr rfl

/-- **C109 (parameters).** `getParameter` gives the value of the keyword, or nothing without it; it throws exactly if there is no file, no FITS file or no extension. -/
theorem C109_parameter (disk : OnDisk F D T) (key : Bytes) :
    (∀ v, getParameter disk key = .ok v ↔ ∃ keys h rest, disk = .fits keys (h :: rest) ∧ (keys key = some v ∨ keys key = none ∧ v = [])) ∧
    ((∀ keys h rest, disk ≠ .fits keys (h :: rest)) → getParameter disk key = .throw (match disk with | .missing => .elements | _ => .library)) := by
  match disk with
  | .missing => exact ⟨by simp [getParameter], fun _ => rfl⟩
  | .other => exact ⟨by simp [getParameter], fun _ => rfl⟩
  | .fits keys [] => exact ⟨by simp [getParameter], fun _ => rfl⟩
  | .fits keys (h :: rest) =>
    refine ⟨fun v => ?_, fun hn => absurd rfl (hn keys h rest)⟩
    rw [getParameter]
    constructor
    · intro hv
      cases hv
      refine ⟨keys, h, rest, rfl, ?_⟩
      cases keys key with
      | none => exact .inr ⟨rfl, rfl⟩
      | some v => exact .inl rfl
    · rintro ⟨_, _, _, e, hk⟩
      cases e
      rcases hk with hk | ⟨hk, rfl⟩
      · rw [hk]; rfl
      · rw [hk]; rfl

/-! ## Examples -/

def exInfo : Info := [⟨"wavelength".toList, .scalar .f64, [], []⟩, ⟨"flux".toList, .scalar .f64, [], []⟩]

theorem exInfo_pairs : PairInfo exInfo := by
  refine ⟨⟨_, _, rfl, rfl, rfl, by decide⟩, ?_⟩
  intro d hd
  simp only [exInfo, List.mem_cons, List.not_mem_nil, or_false] at hd
  rcases hd with rfl | rfl
  · exact ⟨by decide, (hasVertical_iff _).1 (by decide)⟩
  · exact ⟨by decide, (hasVertical_iff _).1 (by decide)⟩

def intLib : Lib Unit Int :=
  ⟨id, fun _ => .text [], fun _ _ => .throw .library, fun _ _ => .throw .library, fun s => match s with | .bool => false | .i32 => 0 | .i64 => 0 | .f32 => () | .f64 => (0 : Int)⟩

example (fmt : Fmt Unit Int) (later : File Unit Int Unit) : ∃ w' tab,
    Fits.Writer.addAll intLib fmt [pointTable exInfo [(3, 4), (1, 2)], pointTable exInfo [(5, 6)]] { override := true, hduName := "SED".toList } ([.image [] 1 [] []] : File Unit Int Unit) = (w', [.table tab], .ok ()) ∧
      getDataset intLib (.fits (fun _ => none) (.table tab :: later)) = .ok (some [(3, 4), (1, 2), (5, 6)]) := by
  obtain ⟨w', tab, h1, h2⟩ := C109_dataset intLib fmt { override := true, hduName := "SED".toList } ⟨rfl, rfl⟩ ([.image [] 1 [] []] : File Unit Int Unit) rfl exInfo exInfo_pairs
    (fun d _ => ⟨rfl, rfl, rfl⟩) rfl [(3, 4), (1, 2)] [[(5, 6)]] (by simp)
  exact ⟨w', tab, h1, (h2 later _).1⟩

example : getName (F := Unit) (D := Unit) (T := Unit) "NAME".toList "/data/my.sed.fits".toList (.fits (fun _ => none) [.image [] 1 [] []]) = .ok "my.sed".toList :=
  (C109_name "NAME".toList (fun _ => none) [.image [] 1 [] []] (by simp) _).2.1 (Or.inl rfl) "/data".toList "my.sed".toList "fits".toList (by decide) (by decide) (by decide) (by decide)

example : ∃ b, isDatasetFile (.other : OnDisk Unit Unit Unit) = .ok b ∧ (b = true ↔ ∃ keys tab rest, (.other : OnDisk Unit Unit Unit) = .fits keys (.table tab :: rest)) :=
  C109_is_dataset_partial _ (by intros; simp)

example (lib : Lib Unit Int) (keys : Bytes → Option Bytes) (f : File Unit Int Unit) (h : Hdu Unit Int) (hopen : openIndex lib f 1 = .ok h) (info : Info)
    (hread : readTable h = .ok ⟨[⟨[.scalar .f64 (1 : Int), .scalar .f64 (2 : Int), .str []], info⟩], info⟩) : getDataset lib (.fits keys f) = .ok (some [(1, 2)]) :=
  (C109_columns lib keys f h hopen _ hread).1 [(1, 2)] (.cons ⟨_, rfl⟩ .nil)

example : getDataset intLib (.fits (fun _ => none) ([] : File Unit Int Unit)) = .throw .elements := (C109_no_dataset intLib).2.2 _ _ .library rfl

example (lib : Lib Unit Int) (keys : Bytes → Option Bytes) (f : File Unit Int Unit) (h : Hdu Unit Int) (hopen : openIndex lib f 1 = .ok h) (info : Info)
    (hread : readTable h = .ok ⟨[⟨[.scalar .f64 (1 : Int), .str []], info⟩], info⟩) : getDataset lib (.fits keys f) = .throw .elements ∨ getDataset lib (.fits keys f) = .throw .badGet :=
  C109_refused lib keys f h hopen _ hread _ List.mem_cons_self (by intros; simp)

example : getParameter (.other : OnDisk Unit Unit Unit) "NAME".toList = .throw .library := (C109_parameter _ _).2 (by simp)

end Alexandria.XYDataset.FitsIO
