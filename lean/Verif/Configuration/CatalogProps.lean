import Verif.Catalog.CatProps
import Verif.Catalog.PhotProps
import Verif.Configuration.CatalogModel
import Verif.Configuration.Props3
import Verif.Table.ReaderProps

/-!
# C102–C104: catalogues read by a configured program
-/

namespace Alexandria.CatConfig

open Alexandria.Str
open Alexandria.Table (Info RowT TableT Fmt Conv Hdu Cell findColumn)
open Alexandria.Catalog (Dbl Lib Photometry Settings Cat FromTable Source)
open Alexandria.Configuration (CState CatalogArgs Mapping Band)

variable {F K V : Type} [Field K] [LinearOrder K]

/-! ## Specification -/

/-- The file an option stands for: relative paths begin at the base directory. -/
inductive Resolved (w : World F (Dbl K)) (base p : Bytes) (text : Bytes) : Bytes → Prop
  | absolute : p.head? = some '/' → w.entry p = some (.file text) → Resolved w base p text p
  | noBase : p.head? ≠ some '/' → base = [] → w.entry p = some (.file text) → Resolved w base p text p
  | relative (dir : Bytes) : p ≠ [] → p.head? ≠ some '/' → base ≠ [] → (base = dir ++ ['/'] ∨ (base = dir ∧ ¬ ['/'] <:+ base)) →
      w.entry (dir ++ '/' :: p) = some (.file text) → Resolved w base p text (dir ++ '/' :: p)
  | itself : p = [] → base ≠ [] → w.entry base = some (.file text) → Resolved w base p text base

/-- The bands that are used: those of the file without the excluded ones. -/
def kept (bands : List (Band (Dbl K))) (exclude : List Bytes) : List (Band (Dbl K)) := bands.filter fun b => b.filter ∉ exclude

/-- The attribute of a source made by a dependent configuration. -/
inductive AttrOf (conv : Conv F (Dbl K)) (lib : Lib K) (info : Info) (bands : List (Band (Dbl K))) (row : RowT F (Dbl K)) : Dependent K V → Option (Attr K V) → Prop
  /-- The photometry has a value for each band in its order, made of the numbers in the columns of the band with the threshold and the kind of the band. -/
  | photometry (a : PhotArgs K) (ph : Photometry K) : ph.names = bands.map Band.filter →
      (∀ b ∈ bands, ∃ i j fe v, findColumn info b.flux = some i ∧ findColumn info b.error = some j ∧
        Catalog.Measured conv lib (settings a) row ⟨(i, j), b.threshold, b.convert⟩ fe ∧ Catalog.Judged lib (settings a) b.threshold fe.1 fe.2 v ∧ Catalog.Conventions v ∧
        ph.find b.filter = .ok (some v)) →
      (∀ name, name ∉ bands.map Band.filter → ph.find name = .ok none) →
      AttrOf conv lib info bands row (.photometry a) (some (.photometry ph))
  /-- The redshift and its error are taken from the columns of the options. -/
  | redshift (a : SpecArgs) (z e : Dbl K) (n : Bytes) (i : Nat) (c : Cell F (Dbl K)) : Configuration.Spec.Column (info.map Table.Desc.name) a.name a.index n →
      findColumn info n = some i → row.values[i]? = some c → Table.castScalar conv .f64 c = .ok z →
      ((a.ename = none ∧ a.eindex = none ∧ e = .num 0) ∨
        ∃ n' j d, Configuration.Spec.Column (info.map Table.Desc.name) a.ename a.eindex n' ∧ findColumn info n' = some j ∧ row.values[j]? = some d ∧ Table.castScalar conv .f64 d = .ok e) →
      AttrOf conv lib info bands row (.redshift a) (some (.redshift z e))
  /-- Each density has its knots and the numbers in its column. -/
  | pdfs (p : PdfCfg V) (l : List (Bytes × List V × List (Dbl K))) :
      (∀ name knots, (name, knots) ∈ p.keys → ∃ (data : List (Dbl K)) (col : Bytes) (c : Cell F (Dbl K)), Catalog.getPdf l name = .ok (knots, data) ∧ data.length = knots.length ∧
        p.columns.lookup name = some col ∧ row.getByName col = .ok c ∧ Table.castVec conv .f64 c = .ok data) →
      AttrOf conv lib info bands row (.pdfs p) (some (.pdfs l))

/-- The options of a dependent configuration are in the range of their types, and names of densities are different. -/
def Dependent.Fine : Dependent K V → Prop
  | .photometry _ => True
  | .redshift a => ∀ i, a.index = some i ∨ a.eindex = some i → i < 2 ^ 31
  | .pdfs p => (p.keys.map Prod.fst).Nodup

/-! ## Lemmas -/

theorem bind_ok_iff {α β : Type} {x : Res α} {f : α → Res β} {b : β} : (x >>= f) = .ok b ↔ ∃ a, x = .ok a ∧ f a = .ok b := by
  cases x with
  | ok a => simp
  | throw e => simp
  | ub => simp

theorem ofConfig_ok {α : Type} {x : Configuration.Res α} {a : α} : ofConfig x = .ok a ↔ x = .ok a := by
  cases x <;> simp [ofConfig]

theorem ofTable_ok {α : Type} {x : Table.Res α} {a : α} : ofTable x = .ok a ↔ x = .ok a := by
  cases x <;> simp [ofTable]

theorem file_resolved (w : World F (Dbl K)) (base p path text : Bytes) (h : fileFromOptions w base p = .ok (path, text)) : Resolved w base p text path := by
  unfold fileFromOptions at h
  by_cases hr : p.head? = some '/'
  · have hrel : isRelative p = false := by simp [isRelative, hr]
    simp only [hrel, Bool.false_eq_true, if_false] at h
    cases he : w.entry p with
    | none => rw [he] at h; cases h
    | some e =>
      rw [he] at h
      cases e with
      | directory => cases h
      | file c => cases h; exact .absolute hr he
  · have hrel : isRelative p = true := by simp [isRelative, hr]
    simp only [hrel, if_true] at h
    have key : ∀ q, (match w.entry q with | none => (.throw (.config .elements) : Res (Bytes × Bytes)) | some .directory => .throw (.config .elements) | some (.file c) => .ok (q, c)) = .ok (path, text) →
        w.entry q = some (.file text) ∧ path = q := by
      intro q hq
      cases he : w.entry q with
      | none => rw [he] at hq; cases hq
      | some e =>
        rw [he] at hq
        cases e with
        | directory => cases hq
        | file c => cases hq; exact ⟨rfl, rfl⟩
    obtain ⟨he, rfl⟩ := key _ h
    unfold join at he ⊢
    by_cases h1 : p = []
    · rw [if_pos h1] at he ⊢
      by_cases h2 : base = []
      · have : base = p := h2.trans h1.symm
        rw [this] at he ⊢
        exact .noBase hr (h2 ▸ h1) he
      · exact .itself h1 h2 he
    · rw [if_neg h1] at he ⊢
      by_cases h2 : base = []
      · rw [if_pos h2] at he ⊢
        exact .noBase hr h2 he
      · rw [if_neg h2] at he ⊢
        by_cases h3 : base.getLast? = some '/'
        · rw [if_pos h3] at he ⊢
          obtain ⟨dir, hd⟩ := List.getLast?_eq_some_iff.1 h3
          have : base ++ p = dir ++ '/' :: p := by rw [hd]; simp
          rw [this] at he ⊢
          exact .relative dir h1 hr h2 (.inl hd) he
        · rw [if_neg h3] at he ⊢
          refine .relative base h1 hr h2 (.inr ⟨rfl, ?_⟩) he
          rintro ⟨t, ht⟩
          exact h3 (List.getLast?_eq_some_iff.2 ⟨t, ht.symm⟩)

/-- The maker that a dependent configuration adds. -/
def MakerOf (conv : Conv F (Dbl K)) (lib : Lib K) (info : Info) (m : Mapping (Dbl K)) : Dependent K V → Maker F K V → Prop
  | .photometry a, h => ∃ p, Catalog.mkFromRow info m.mapping (settings a) m.thresholds m.converts = .ok p ∧ h = photMaker conv lib p
  | .redshift a, h => ∃ z e p, Configuration.specZColumns (info.map Table.Desc.name) a.name a.index a.ename a.eindex = .ok (z, e) ∧ Catalog.mkSpec info z e = .ok p ∧ h = specMaker conv p
  | .pdfs p, h => h = pdfMaker conv p

theorem addHandler_eq (h : Maker F K V) (c : CatCfg F K V) (hs : c.state = .initialized) : addHandler h c = ({ c with handlers := c.handlers ++ [h] }, .ok ()) := by
  rw [addHandler, if_neg (by rw [hs]; decide)]

theorem init_ok (conv : Conv F (Dbl K)) (lib : Lib K) (info : Info) (m : Mapping (Dbl K)) (d : Dependent K V) (c c' : CatCfg F K V) (hs : c.state = .initialized) (hi : c.info = some info)
    (h : d.init conv lib m c = (c', .ok ())) : ∃ h, MakerOf conv lib info m d h ∧ c' = { c with handlers := c.handlers ++ [h] } := by
  have hg : getColumnInfo c = .ok (some info) := by rw [getColumnInfo, if_neg (by rw [hs]; decide), hi]
  cases d with
  | photometry a =>
    simp only [Dependent.init, initPhotometry, hg] at h
    cases hm : Catalog.mkFromRow info m.mapping (settings a) m.thresholds m.converts with
    | throw e => rw [hm] at h; cases h
    | ub => rw [hm] at h; cases h
    | ok p =>
      rw [hm] at h
      simp only [addHandler_eq _ c hs] at h
      cases h
      exact ⟨_, ⟨p, hm, rfl⟩, rfl⟩
  | redshift a =>
    simp only [Dependent.init, initSpecZ, hg] at h
    cases hm : Configuration.specZColumns (info.map Table.Desc.name) a.name a.index a.ename a.eindex with
    | throw e => rw [hm] at h; cases h
    | ub => rw [hm] at h; cases h
    | ok ze =>
      obtain ⟨z, e⟩ := ze
      rw [hm] at h
      simp only at h
      cases hp : Catalog.mkSpec info z e with
      | throw e => rw [hp] at h; cases h
      | ub => rw [hp] at h; cases h
      | ok p =>
        rw [hp] at h
        simp only [addHandler_eq _ c hs] at h
        cases h
        exact ⟨_, ⟨z, e, p, hm, hp, rfl⟩, rfl⟩
  | pdfs p =>
    simp only [Dependent.init, initPdf, addHandler_eq _ c hs] at h
    cases h
    exact ⟨_, rfl, rfl⟩

theorem initDependents_ok (conv : Conv F (Dbl K)) (lib : Lib K) (info : Info) (m : Mapping (Dbl K)) : ∀ (ds : List (Dependent K V)) (c c' : CatCfg F K V), c.state = .initialized →
    c.info = some info → initDependents conv lib m ds c = (c', .ok ()) →
    ∃ hs, List.Forall₂ (MakerOf conv lib info m) ds hs ∧ c' = { c with handlers := c.handlers ++ hs } := by
  intro ds
  induction ds with
  | nil =>
    intro c c' _ _ h
    cases h
    exact ⟨[], .nil, by simp⟩
  | cons d ds ih =>
    intro c c' hs hi h
    rw [initDependents] at h
    cases hd : d.init conv lib m c with
    | mk c1 r =>
      rw [hd] at h
      cases r with
      | throw e => cases h
      | ub => cases h
      | ok u =>
        simp only at h
        obtain ⟨x, hx, rfl⟩ := init_ok conv lib info m d c c1 hs hi hd
        obtain ⟨xs, hxs, rfl⟩ := ih _ c' (by exact hs) (by exact hi) h
        exact ⟨x :: xs, .cons hx hxs, by simp⟩

theorem initCatalog_ok (w : World F (Dbl K)) (file : Bytes) (a : CatalogArgs) (c c' : CatCfg F K V) (h : initCatalog w file a c = (c', .ok ())) :
    ∃ path content fits info n, fileFromOptions w c.base file = .ok (path, content) ∧ formatFromOptions a content = .ok fits ∧ readInfo w fits content = .ok info ∧
      Configuration.idColumn (info.map Table.Desc.name) a = .ok n ∧ c' = { c with filename := path, fits := fits, info := some info, idColumn := n } := by
  unfold initCatalog at h
  cases h1 : fileFromOptions w c.base file with
  | throw e => rw [h1] at h; cases h
  | ub => rw [h1] at h; cases h
  | ok pc =>
    obtain ⟨path, content⟩ := pc
    rw [h1] at h
    simp only at h
    cases h2 : formatFromOptions a content with
    | throw e => rw [h2] at h; cases h
    | ub => rw [h2] at h; cases h
    | ok fits =>
      rw [h2] at h
      simp only at h
      cases h3 : readInfo w fits content with
      | throw e => rw [h3] at h; cases h
      | ub => rw [h3] at h; cases h
      | ok info =>
        rw [h3] at h
        simp only at h
        cases h4 : Configuration.idColumn (info.map Table.Desc.name) a with
        | throw e => rw [h4] at h; cases h
        | ub => rw [h4] at h; cases h
        | ok n =>
          rw [h4] at h
          cases h
          exact ⟨path, content, fits, info, n, rfl, h2, h3, h4, rfl⟩

theorem readAsCatalog_ok (w : World F (Dbl K)) (c : CatCfg F K V) (hs : c.state = .final) (cat : Cat (Attr K V)) (h : readAsCatalog w c = .ok cat) :
    ∃ content t info f, w.entry c.filename = some (.file content) ∧ readTable w c.fits content = .ok t ∧ c.info = some info ∧ Catalog.mkFromTable info c.idColumn c.handlers = .ok f ∧
      f.create t = .ok cat := by
  have hr : ¬ c.state.rank < 3 := by rw [hs]; decide
  rw [readAsCatalog, if_neg hr, bind_ok_iff] at h
  obtain ⟨t, h1, h⟩ := h
  rw [bind_ok_iff] at h
  obtain ⟨f, h2, h3⟩ := h
  rw [readAsTable, if_neg hr, bind_ok_iff] at h1
  obtain ⟨r, h4, h5⟩ := h1
  rw [getTableReader, if_neg hr] at h4
  rw [getConverter, if_neg hr] at h2
  cases he : w.entry c.filename with
  | none => rw [he] at h4; cases h4
  | some e =>
    rw [he] at h4
    cases e with
    | directory => cases h4
    | file content =>
      cases h4
      cases hi : c.info with
      | none => rw [hi] at h2; cases h2
      | some info =>
        rw [hi] at h2
        exact ⟨content, t, info, f, rfl, h5, rfl, ofTable_ok.1 h2, ofTable_ok.1 h3⟩

theorem forall₂_trans {α β γ : Type} {R : α → β → Prop} {S : β → γ → Prop} {T : α → γ → Prop} (ht : ∀ a b c, R a b → S b c → T a c) :
    ∀ (l : List α) (m : List β) (n : List γ), List.Forall₂ R l m → List.Forall₂ S m n → List.Forall₂ T l n := by
  intro l m n h1
  induction h1 generalizing n with
  | nil => intro h2; cases h2; exact .nil
  | cons hr _ ih => intro h2; cases h2 with | cons hs h2 => exact .cons (ht _ _ _ hr hs) (ih _ h2)

theorem forall₂_right {α β : Type} {R : α → β → Prop} {l : List α} {m : List β} (h : List.Forall₂ R l m) : ∀ b ∈ m, ∃ a, R a b := by
  induction h with
  | nil => intro b hb; cases hb
  | cons hr _ ih =>
    intro b hb
    rcases List.mem_cons.1 hb with rfl | hb
    · exact ⟨_, hr⟩
    · exact ih b hb

/-- The mapping has the bands that are kept, in all three lists. -/
theorem mapping_kept (bands : List (Band (Dbl K))) (exclude : List Bytes) (hn : (bands.map Band.filter).Nodup) :
    (Configuration.initMapping bands exclude {}).1 = ⟨(kept bands exclude).map (fun b => (b.filter, b.flux, b.error)), (kept bands exclude).map (fun b => (b.filter, b.threshold)),
      (kept bands exclude).map fun b => (b.filter, b.convert)⟩ := by
  simp [Configuration.initMapping, Configuration.mappingLoop_kept bands exclude hn, kept]

/-- No error in the row is NaN. -/
def NoNan (conv : Conv F (Dbl K)) (lib : Lib K) (info : Info) (bands : List (Band (Dbl K))) (row : RowT F (Dbl K)) : Dependent K V → Prop
  | .photometry a => ∀ b ∈ bands, ∀ i j fe, findColumn info b.flux = some i → findColumn info b.error = some j →
      Catalog.Measured conv lib (settings a) row ⟨(i, j), b.threshold, b.convert⟩ fe → fe.2 ≠ .nan
  | _ => True

theorem same_band {bands : List (Band (Dbl K))} (hn : (bands.map Band.filter).Nodup) {b b' : Band (Dbl K)} (hb : b ∈ bands) (hb' : b' ∈ bands) (h : b.filter = b'.filter) : b = b' :=
  List.inj_on_of_nodup_map hn hb hb' h

theorem maker_attr [IsStrictOrderedRing K] (conv : Conv F (Dbl K)) (lib : Lib K) (info : Info) (hlen : info.length < 2 ^ 64) (bands : List (Band (Dbl K))) (hn : (bands.map Band.filter).Nodup)
    (hthr : ∀ b ∈ bands, ∃ t, b.threshold = .num t) (m : Mapping (Dbl K))
    (hm : m = ⟨bands.map (fun b => (b.filter, b.flux, b.error)), bands.map (fun b => (b.filter, b.threshold)), bands.map fun b => (b.filter, b.convert)⟩)
    (d : Dependent K V) (hd : d.pre = .ok ()) (hf : d.Fine) (h : Maker F K V) (hh : MakerOf conv lib info m d h) (row : RowT F (Dbl K)) (hrow : NoNan conv lib info bands row d)
    (a : Option (Attr K V)) (ha : h row = .ok a) : AttrOf conv lib info bands row d a := by
  subst hm
  cases d with
  | photometry o =>
    obtain ⟨p, hp, rfl⟩ := hh
    simp only [photMaker, Table.bind_eq_ok'] at ha
    obtain ⟨ph, h1, h2⟩ := ha
    cases h2
    have hmf : (bands.map fun b => (b.filter, b.flux, b.error)).map Prod.fst = bands.map Band.filter := by rw [List.map_map]; rfl
    have key := (Catalog.C51_photometry_partial conv lib info _ (settings o) _ _ p hp (by rw [hmf]; exact hn) (by rw [hmf, List.map_map]; rfl) (by rw [hmf, List.map_map]; rfl)
      (by
        intro x hx
        obtain ⟨b, hb, rfl⟩ := List.mem_map.1 hx
        exact hthr b hb) row (by
        intro name f e thr c i j fe m1 m2 m3 hi hj hme
        obtain ⟨b, hb, e1⟩ := List.mem_map.1 m1
        obtain ⟨b2, hb2, e2⟩ := List.mem_map.1 m2
        obtain ⟨b3, hb3, e3⟩ := List.mem_map.1 m3
        cases e1
        simp only [Prod.mk.injEq] at e2 e3
        have := same_band hn hb2 hb e2.1
        subst this
        have := same_band hn hb3 hb2 e3.1
        subst this
        rw [← e2.2, ← e3.2] at hme
        exact hrow b3 hb3 i j fe hi hj hme)).1 ph h1
    rw [hmf] at key
    refine .photometry o ph key.1 ?_ ?_
    · intro b hb
      obtain ⟨i, j, fe, v, k1, k2, k3, k4, k5, k6⟩ := key.2 b.filter b.flux b.error b.threshold b.convert (List.mem_map.2 ⟨b, hb, rfl⟩) (List.mem_map.2 ⟨b, hb, rfl⟩) (List.mem_map.2 ⟨b, hb, rfl⟩)
      exact ⟨i, j, fe, v, k1, k2, k3, k4, k6, k5⟩
    · intro name hname
      rw [Catalog.FromRow.create, Table.bind_eq_ok'] at h1
      obtain ⟨vs, _, h3⟩ := h1
      have hpn : p.names = bands.map Band.filter := by
        rw [Catalog.mkFromRow, Table.bind_eq_ok'] at hp
        obtain ⟨_, _, hp⟩ := hp
        cases hp
        exact hmf
      exact (Catalog.C53_find p.names vs ph h3 name).2 (by rw [hpn]; exact hname)
  | redshift o =>
    obtain ⟨z, e, p, h1, h2, rfl⟩ := hh
    simp only [specMaker, Table.bind_eq_ok'] at ha
    obtain ⟨⟨x, y⟩, h3, h4⟩ := ha
    cases h4
    have hc := (Configuration.C89_specz (info.map Table.Desc.name) (by simpa using hlen) o.name o.ename o.index o.eindex (ofConfig_ok.1 hd) hf z e).1 h1
    obtain ⟨i, c, k1, k2, k3, k4⟩ := (Catalog.C101_redshift conv info z e p h2 row x y).1 h3
    refine .redshift o x y z i c hc.1 k1 k2 k3 ?_
    rcases hc.2 with ⟨n1, n2, rfl⟩ | ⟨e', rfl, n1⟩
    · exact .inl ⟨n1, n2, k4⟩
    · obtain ⟨j, dd, k5, k6, k7⟩ := k4
      exact .inr ⟨e', j, dd, n1, k5, k6, k7⟩
  | pdfs p =>
    cases hh
    simp only [pdfMaker, Table.bind_eq_ok'] at ha
    obtain ⟨l, h1, h2⟩ := ha
    cases h2
    exact .pdfs p l (Catalog.C101_pdf conv p.columns row p.keys hf l h1)

theorem preAll_ok : ∀ (ds : List (Dependent K V)), preAll ds = .ok () → ∀ d ∈ ds, d.pre = .ok () := by
  intro ds
  induction ds with
  | nil => intro _ d hd; cases hd
  | cons d ds ih =>
    intro h x hx
    rw [preAll, bind_ok_iff] at h
    obtain ⟨u, h1, h2⟩ := h
    rcases List.mem_cons.1 hx with rfl | hx
    · exact h1
    · exact ih h2 x hx

/-! ## C102 -/

/-- What a program that reads a catalogue returns: the sources of the rows of the file in their order, with identifications that are all different, and with an attribute for each dependent
configuration. The photometries have exactly the bands of the mapping file that are not excluded, each with its own columns, threshold and kind. -/
theorem C102_catalog_partial [IsStrictOrderedRing K] (conv : Conv F (Dbl K)) (lib : Lib K) (three : Dbl K) (stof : Bytes → Option (Dbl K)) (stoi : Bytes → Option Bool)
    (w : World F (Dbl K)) (o : Options K V) (hfine : ∀ d ∈ o.dependents, d.Fine) (cat : Cat (Attr K V)) (h : run conv lib three stof stoi w o = .ok cat) :
    ∃ mtext mpath bands ctext cpath fits info table idName idIndex,
      Resolved w o.base o.mappingFile mtext mpath ∧ Configuration.Spec.Parsed three stof stoi (Configuration.getLines mtext) bands ∧ (∀ n ∈ o.exclude, ∃ b ∈ bands, b.filter = n) ∧
      Resolved w o.base o.catalogFile ctext cpath ∧ formatFromOptions o.catalog ctext = .ok fits ∧ readInfo w fits ctext = .ok info ∧ readTable w fits ctext = .ok table ∧
      Configuration.idColumn (info.map Table.Desc.name) o.catalog = .ok idName ∧ findColumn info idName = some idIndex ∧
      (cat.sources.map Source.id).Nodup ∧
      ((bands.map Band.filter).Nodup → info.length < 2 ^ 64 → (∀ b ∈ bands, ∃ t, b.threshold = .num t) →
        (∀ row ∈ table.rows, ∀ d ∈ o.dependents, NoNan conv lib info (kept bands o.exclude) row d) →
        List.Forall₂ (fun row s => (∃ c, row.values[idIndex]? = some c ∧ Catalog.IdOf c s.id) ∧
          List.Forall₂ (AttrOf conv lib info (kept bands o.exclude) row) o.dependents s.attributes) table.rows cat.sources) := by
  rw [run] at h
  simp only [bind_ok_iff] at h
  obtain ⟨_, _, _, hpre, ⟨mpath, mtext⟩, hm, bands, hb, _, hex, _, hcat, _, hdep, hread⟩ := h
  rw [ofConfig_ok] at hb hex
  have hcat' : initCatalog w o.catalogFile o.catalog { (setBaseDir o.base ({} : CatCfg F K V)).1 with state := .preInitialized } =
      ((initCatalog w o.catalogFile o.catalog { (setBaseDir o.base ({} : CatCfg F K V)).1 with state := .preInitialized }).1, .ok ()) := Prod.ext rfl hcat
  obtain ⟨cpath, ctext, fits, info, n, h1, h2, h3, h4, h5⟩ := initCatalog_ok w _ _ _ _ hcat'
  generalize hm1 : (Configuration.initMapping bands o.exclude {}).1 = m at hdep hread
  rw [h5] at hdep hread
  generalize hg : initDependents conv lib m o.dependents _ = g at hdep hread
  obtain ⟨g1, g2⟩ := g
  obtain rfl : g2 = .ok () := hdep
  obtain ⟨hs, hF, he⟩ := initDependents_ok conv lib info m o.dependents _ _ (by rfl) (by rfl) hg
  rw [he] at hread
  obtain ⟨content, t, info', f, r1, r2, r3, r4, r5⟩ := readAsCatalog_ok w _ (by rfl) cat hread
  cases r3
  have hres := file_resolved w _ _ _ _ h1
  have hcontent : content = ctext := by
    have : w.entry cpath = some (.file ctext) := by cases hres <;> assumption
    have r1' : w.entry cpath = some (.file content) := r1
    rw [this] at r1'
    cases r1'
    rfl
  subst hcontent
  obtain ⟨i, i1, i2, i3⟩ := (Catalog.C99_create info n hs f (by exact r4) t cat.sources).1 ⟨cat, r5, rfl⟩
  refine ⟨mtext, mpath, bands, content, cpath, fits, info, t, n, i, file_resolved w _ _ _ _ hm, (Configuration.C26_parse three stof stoi _ _).1 hb,
    (Configuration.C26_throws bands o.exclude {}).2.1 hex, hres, h2, h3, r2, h4, i1, i3, ?_⟩
  intro hnd hlen hthr hnan
  have hsub : (kept bands o.exclude).Sublist bands := List.filter_sublist
  have hkn : ((kept bands o.exclude).map Band.filter).Nodup := hnd.sublist (hsub.map _)
  have hmem : ∀ {rows : List (RowT F (Dbl K))} {ss}, List.Forall₂ (Catalog.SourceOf i hs) rows ss → (∀ row ∈ rows, ∀ d ∈ o.dependents, NoNan conv lib info (kept bands o.exclude) row d) →
      List.Forall₂ (fun row s => (∃ c, row.values[i]? = some c ∧ Catalog.IdOf c s.id) ∧
          List.Forall₂ (AttrOf conv lib info (kept bands o.exclude) row) o.dependents s.attributes) rows ss := by
    intro rows ss h
    induction h with
    | nil => intro _; exact .nil
    | @cons row s rows ss hr _ ih =>
      intro hno
      refine .cons ⟨hr.1, ?_⟩ (ih fun r hr => hno r (List.mem_cons_of_mem _ hr))
      have hF' : List.Forall₂ (fun d h => d ∈ o.dependents ∧ MakerOf conv lib info m d h) o.dependents hs := by
        have : ∀ (ds : List (Dependent K V)) (hs : List (Maker F K V)), List.Forall₂ (MakerOf conv lib info m) ds hs → (∀ d ∈ ds, d ∈ o.dependents) →
            List.Forall₂ (fun d h => d ∈ o.dependents ∧ MakerOf conv lib info m d h) ds hs := by
          intro ds hs h
          induction h with
          | nil => intro _; exact .nil
          | cons h _ ih => intro hd; exact .cons ⟨hd _ List.mem_cons_self, h⟩ (ih fun d hd' => hd d (List.mem_cons_of_mem _ hd'))
        exact this _ _ hF fun _ hd => hd
      exact forall₂_trans (fun d x a hx ha => maker_attr conv lib info hlen (kept bands o.exclude) hkn (fun b hb => hthr b (hsub.subset hb)) m
        (by rw [← hm1]; exact mapping_kept bands o.exclude hnd) d (preAll_ok _ hpre d hx.1) (hfine d hx.1) x hx.2 row (hno row List.mem_cons_self d hx.1) a ha) _ _ _ hF' hr.2
  exact hmem i2 hnan

/-- What the options of the photometry mean. -/
theorem C102_settings (a : PhotArgs K) :
    ((settings a).missingEnabled = true ↔ ∃ x, a.missing = some x) ∧ (∀ x, a.missing = some x → (settings a).missingFlag = x) ∧
    ((settings a).upperEnabled = true ↔ a.upper = some ['Y', 'E', 'S']) ∧ (settings a).upperFlag = (match a.upperFlag with | some x => x | none => .num (-99)) := by
  refine ⟨?_, ?_, ?_, ?_⟩
  · cases h : a.missing <;> simp [settings, h]
  · intro x h; simp [settings, h]
  · simp only [settings, beq_iff_eq]; exact Iff.rfl
  · cases h : a.upperFlag <;> simp [settings, h]

/-! ### Undefined behaviour -/

theorem bind_ub_iff {α β : Type} {x : Res α} {f : α → Res β} : (x >>= f) = .ub ↔ x = .ub ∨ ∃ a, x = .ok a ∧ f a = .ub := by
  cases x with
  | ok a => simp
  | throw e => simp
  | ub => simp

theorem tbind_ub_iff {α β : Type} {x : Table.Res α} {f : α → Table.Res β} : (x >>= f) = .ub ↔ x = .ub ∨ ∃ a, x = .ok a ∧ f a = .ub := by
  cases x with
  | ok a => simp
  | throw e => simp
  | ub => simp

theorem cbind_ub_iff {α β : Type} {x : Configuration.Res α} {f : α → Configuration.Res β} : (x >>= f) = .ub ↔ x = .ub ∨ ∃ a, x = .ok a ∧ f a = .ub := by
  cases x with
  | ok a => simp
  | throw e => simp
  | ub => simp

theorem ofConfig_ub {α : Type} {x : Configuration.Res α} : ofConfig x = .ub ↔ x = .ub := by
  cases x <;> simp [ofConfig]

theorem ofTable_ub {α : Type} {x : Table.Res α} : ofTable x = .ub ↔ x = .ub := by
  cases x <;> simp [ofTable]

theorem optional_noub {α : Type} (conv : Bytes → Option α) (d : α) (o : Option Bytes) : Configuration.optional conv d o ≠ .ub := by
  unfold Configuration.optional
  repeat' split
  all_goals simp

theorem parseLines_noub (three : Dbl K) (stof : Bytes → Option (Dbl K)) (stoi : Bytes → Option Bool) : ∀ ls, Configuration.parseLines three stof stoi ls ≠ .ub := by
  intro ls
  induction ls with
  | nil => simp [Configuration.parseLines]
  | cons l ls ih =>
    intro h
    rw [Configuration.parseLines] at h
    split at h
    · exact ih h
    · split at h
      · cases h
      · simp only [cbind_ub_iff] at h
        rcases h with h | ⟨_, _, h | ⟨_, _, h | ⟨_, _, h⟩⟩⟩
        · exact optional_noub _ _ _ h
        · exact optional_noub _ _ _ h
        · exact ih h
        · cases h

theorem columnByIndex_noub (cs : List Bytes) (i : Int) : Configuration.columnByIndex cs i ≠ .ub := by
  unfold Configuration.columnByIndex
  simp only
  repeat' split
  all_goals simp

theorem idColumn_noub (cs : List Bytes) (a : CatalogArgs) : Configuration.idColumn cs a ≠ .ub := by
  intro h
  have hx : ∀ n, (match a.idIndex with | some i => Configuration.columnByIndex cs i | none => .ok n) ≠ .ub := by
    intro n h
    cases hi : a.idIndex with
    | none => rw [hi] at h; cases h
    | some i => rw [hi] at h; exact columnByIndex_noub _ _ h
  unfold Configuration.idColumn at h
  cases hn : a.idName with
  | none => rw [hn] at h; exact hx _ h
  | some n =>
    rw [hn] at h
    simp only at h
    split at h
    · exact hx _ h
    · cases h

theorem specZColumn_noub (cs : List Bytes) (n : Option Bytes) (i : Option Int) : Configuration.specZColumn cs n i ≠ .ub := by
  intro h
  unfold Configuration.specZColumn at h
  cases n with
  | some n => simp only at h; split at h <;> cases h
  | none =>
    cases i with
    | none => cases h
    | some i => exact columnByIndex_noub _ _ h

theorem specZColumns_noub (cs : List Bytes) (n : Option Bytes) (i : Option Int) (en : Option Bytes) (ei : Option Int) : Configuration.specZColumns cs n i en ei ≠ .ub := by
  intro h
  rw [Configuration.specZColumns, cbind_ub_iff] at h
  rcases h with h | ⟨_, _, h⟩
  · exact specZColumn_noub _ _ _ h
  · split at h
    · cases h
    · rw [cbind_ub_iff] at h
      rcases h with h | ⟨_, _, h⟩
      · exact specZColumn_noub _ _ _ h
      · cases h

theorem preAll_noub : ∀ (ds : List (Dependent K V)), preAll ds ≠ .ub := by
  intro ds
  induction ds with
  | nil => simp [preAll]
  | cons d ds ih =>
    intro h
    rw [preAll, bind_ub_iff] at h
    rcases h with h | ⟨_, _, h⟩
    · cases d with
      | redshift a =>
        simp only [Dependent.pre, ofConfig_ub, Configuration.preInitSpecZ] at h
        revert h
        repeat' split
        all_goals simp
      | photometry a => cases h
      | pdfs p => cases h
    · exact ih h

theorem mkFromRow_noub (info : Info) (m : List (Bytes × Bytes × Bytes)) (s : Settings K) (n : List (Bytes × Dbl K)) (c : List (Bytes × Bool)) : Catalog.mkFromRow info m s n c ≠ .ub := by
  have hi : ∀ m, Catalog.indexLoop info m ≠ .ub := by
    intro m
    induction m with
    | nil => simp [Catalog.indexLoop]
    | cons x m ih =>
      obtain ⟨a, f, e⟩ := x
      intro h
      rw [Catalog.indexLoop] at h
      split at h
      · rw [tbind_ub_iff] at h
        rcases h with h | ⟨_, _, h⟩
        · exact ih h
        · cases h
      · cases h
  intro h
  rw [Catalog.mkFromRow, tbind_ub_iff] at h
  rcases h with h | ⟨_, _, h⟩
  · exact hi m h
  · cases h

theorem mkSpec_noub (info : Info) (z : Bytes) (e : Option Bytes) : Catalog.mkSpec info z e ≠ .ub := by
  unfold Catalog.mkSpec
  repeat' split
  all_goals simp

theorem initDependents_noub (conv : Conv F (Dbl K)) (lib : Lib K) (info : Info) (m : Mapping (Dbl K)) : ∀ (ds : List (Dependent K V)) (c : CatCfg F K V), c.state = .initialized →
    c.info = some info → (initDependents conv lib m ds c).2 ≠ .ub := by
  intro ds
  induction ds with
  | nil => intro c _ _ h; cases h
  | cons d ds ih =>
    intro c hs hi h
    have hg : getColumnInfo c = .ok (some info) := by rw [getColumnInfo, if_neg (by rw [hs]; decide), hi]
    rw [initDependents] at h
    cases hd : d.init conv lib m c with
    | mk c1 r =>
      rw [hd] at h
      cases r with
      | throw e => cases h
      | ok u =>
        obtain ⟨x, hx, rfl⟩ := init_ok conv lib info m d c c1 hs hi hd
        exact ih _ (by exact hs) (by exact hi) h
      | ub =>
        cases d with
        | photometry a =>
          simp only [Dependent.init, initPhotometry, hg] at hd
          cases hm : Catalog.mkFromRow info m.mapping (settings a) m.thresholds m.converts with
          | throw e => rw [hm] at hd; cases hd
          | ub => exact mkFromRow_noub _ _ _ _ _ hm
          | ok p => rw [hm] at hd; simp only [addHandler_eq _ c hs] at hd; cases hd
        | redshift a =>
          simp only [Dependent.init, initSpecZ, hg] at hd
          cases hm : Configuration.specZColumns (info.map Table.Desc.name) a.name a.index a.ename a.eindex with
          | throw e => rw [hm] at hd; cases hd
          | ub => exact specZColumns_noub _ _ _ _ _ hm
          | ok ze =>
            obtain ⟨z, e⟩ := ze
            rw [hm] at hd
            simp only at hd
            cases hp : Catalog.mkSpec info z e with
            | throw e => rw [hp] at hd; cases hd
            | ub => exact mkSpec_noub _ _ _ hp
            | ok p => rw [hp] at hd; simp only [addHandler_eq _ c hs] at hd; cases hd
        | pdfs p => simp only [Dependent.init, initPdf, addHandler_eq _ c hs] at hd; cases hd

theorem castVec_noub (conv : Conv F (Dbl K)) (c : Cell F (Dbl K)) : Table.castVec conv .f64 c ≠ .ub := by
  have hl : ∀ l : List (Cell F (Dbl K)), Table.castLoop conv .f64 l ≠ .ub := by
    intro l
    induction l with
    | nil => simp [Table.castLoop]
    | cons c l ih =>
      intro h
      rw [Table.castLoop, tbind_ub_iff] at h
      rcases h with h | ⟨_, _, h⟩
      · exact Catalog.castScalar_no_ub conv c h
      · rw [tbind_ub_iff] at h
        rcases h with h | ⟨_, _, h⟩
        · exact ih h
        · cases h
  intro h
  unfold Table.castVec at h
  split at h
  · split at h
    · cases h
    · exact hl _ h
  · exact hl _ h
  · rw [tbind_ub_iff] at h
    rcases h with h | ⟨_, _, h⟩
    · exact Catalog.castScalar_no_ub conv _ h
    · cases h

theorem get_noub (row : RowT F (Dbl K)) (i : Nat) : row.get i ≠ .ub := by
  unfold Table.RowT.get
  split <;> simp

theorem mkPhotometry_noub (ns : List Bytes) (vs : List (Catalog.FluxError K)) : Catalog.mkPhotometry (some ns) vs ≠ .ub := by
  unfold Catalog.mkPhotometry
  simp only
  split <;> simp

theorem findColumn_lt (info : Info) (n : Bytes) (i : Nat) (h : findColumn info n = some i) : i < info.length := by
  unfold findColumn at h
  exact (List.findIdx?_eq_some_iff_getElem.1 h).1

theorem maker_noub [IsStrictOrderedRing K] (conv : Conv F (Dbl K)) (lib : Lib K) (info : Info) (m : Mapping (Dbl K)) (h1 : m.thresholds.length = m.mapping.length) (h2 : m.converts.length = m.mapping.length)
    (d : Dependent K V) (h : Maker F K V) (hh : MakerOf conv lib info m d h) (row : RowT F (Dbl K)) (hrow : row.values.length = row.info.length) : h row ≠ .ub := by
  intro ha
  cases d with
  | photometry o =>
    obtain ⟨p, hp, rfl⟩ := hh
    simp only [photMaker, tbind_ub_iff] at ha
    rcases ha with ha | ⟨_, _, ha⟩
    · rw [Catalog.mkFromRow, Table.bind_eq_ok'] at hp
      obtain ⟨ix, hx, hp⟩ := hp
      cases hp
      have hl := ((Catalog.indexLoop_iff info _ _).1 hx).length_eq
      rw [Catalog.FromRow.create, tbind_ub_iff] at ha
      rcases ha with ha | ⟨vs, hvs, ha⟩
      · refine Catalog.createLoop_no_ub conv lib _ row _ _ _ ?_ ?_ ha
        · exact h1.trans hl
        · simp only
          split
          · rw [List.length_map]; exact h1.trans hl
          · exact h2.trans hl
      · exact mkPhotometry_noub _ _ ha
    · cases ha
  | redshift o =>
    obtain ⟨z, e, p, _, _, rfl⟩ := hh
    simp only [specMaker, tbind_ub_iff] at ha
    rcases ha with ha | ⟨_, _, ha⟩
    · rw [Catalog.SpecFromRow.create] at ha
      simp only [tbind_ub_iff] at ha
      rcases ha with ha | ⟨_, _, ha | ⟨_, _, ha⟩⟩
      · exact get_noub _ _ ha
      · exact Catalog.castScalar_no_ub conv _ ha
      · split at ha
        · cases ha
        · simp only [tbind_ub_iff] at ha
          rcases ha with ha | ⟨_, _, ha | ⟨_, _, ha⟩⟩
          · exact get_noub _ _ ha
          · exact Catalog.castScalar_no_ub conv _ ha
          · cases ha
    · cases ha
  | pdfs p =>
    cases hh
    have hl : ∀ ks : List (Bytes × List V), Catalog.pdfLoop conv p.columns row ks ≠ .ub := by
      intro ks
      induction ks with
      | nil => simp [Catalog.pdfLoop]
      | cons k ks ih =>
        obtain ⟨n, k⟩ := k
        intro h
        rw [Catalog.pdfLoop] at h
        split at h
        · cases h
        · simp only [tbind_ub_iff] at h
          rcases h with h | ⟨_, _, h | ⟨_, _, h⟩⟩
          · unfold Table.RowT.getByName at h
            split at h
            · cases h
            · rename_i i hi
              have : i < row.values.length := by
                rw [hrow]
                exact findColumn_lt _ _ _ hi
              rw [List.getElem?_eq_getElem this] at h
              cases h
          · exact castVec_noub conv _ h
          · split at h
            · cases h
            · rw [tbind_ub_iff] at h
              rcases h with h | ⟨_, _, h⟩
              · exact ih h
              · cases h
    simp only [pdfMaker, tbind_ub_iff] at ha
    rcases ha with ha | ⟨_, _, ha⟩
    · exact hl _ ha
    · cases ha

theorem mkRow_length (vs : List (Cell F (Dbl K))) (info : Info) (r : RowT F (Dbl K)) (h : Table.mkRow vs (some info) = .ok r) : r.values.length = r.info.length := by
  unfold Table.mkRow at h
  simp only at h
  split at h
  · cases h
  · rename_i hl
    simp only [Table.bind_eq_ok'] at h
    obtain ⟨_, _, _, _, h⟩ := h
    cases h
    exact not_not.1 hl

theorem mkTable_rows (rows : List (RowT F (Dbl K))) (t : TableT F (Dbl K)) (h : Table.mkTable rows = .ok t) : t.rows = rows := by
  unfold Table.mkTable at h
  split at h
  · cases h
  · simp only [Table.bind_eq_ok'] at h
    obtain ⟨_, _, h⟩ := h
    cases h
    rfl

theorem whileLines_inv {σ : Type} (text : Bytes) (go : σ → Bool) (body : σ → Bytes → Table.Res σ) (P : σ → Prop) (hb : ∀ a line a', P a → body a line = .ok a' → P a') :
    ∀ (fuel : Nat) (s : Table.Stream) (a b : σ), P a → (Table.whileLines text go body fuel s a).2 = .ok b → P b := by
  intro fuel
  induction fuel with
  | zero => intro s a b ha h; cases h; exact ha
  | succ fuel ih =>
    intro s a b ha h
    rw [Table.whileLines] at h
    split at h
    · cases h; exact ha
    · split at h
      · split at h
        · rename_i a' h'
          exact ih _ _ _ (hb _ _ _ ha h') h
        · cases h
        · cases h
      · cases h; exact ha

/-- The rows of a table that was read have a value for each column. -/
theorem readTable_rows (w : World F (Dbl K)) (fits : Bool) (content : Bytes) (t : TableT F (Dbl K)) (h : readTable w fits content = .ok t) :
    ∀ row ∈ t.rows, row.values.length = row.info.length := by
  unfold readTable at h
  split at h
  · rw [bind_ok_iff] at h
    obtain ⟨hdu, _, h⟩ := h
    rw [ofTable_ok] at h
    have hloop : ∀ (data : List (List (Cell F (Dbl K)))) (k i : Nat) (rows : List (RowT F (Dbl K))), Table.rowsLoop hdu.info data k i = .ok rows → ∀ row ∈ rows, row.values.length = row.info.length := by
      intro data k
      induction k with
      | zero => intro i rows h; cases h; intro _ h; cases h
      | succ k ih =>
        intro i rows h
        rw [Table.rowsLoop] at h
        simp only [Table.bind_eq_ok'] at h
        obtain ⟨cells, _, r, hr, l, hl, h⟩ := h
        cases h
        intro row hrow
        rcases List.mem_cons.1 hrow with rfl | hrow
        · exact mkRow_length _ _ _ hr
        · exact ih _ _ hl row hrow
    unfold Table.FitsReader.read at h
    split at h
    · cases h
    · simp only at h
      repeat' split at h
      all_goals first
        | cases h
        | (simp only [Table.bind_eq_ok'] at h
           obtain ⟨l, hl, h⟩ := h
           rw [mkTable_rows _ _ h]
           exact hloop _ _ _ _ hl)
  · rw [ofTable_ok] at h
    unfold Table.Reader.read at h
    split at h
    · cases h
    · cases h
    · simp only [Table.bind_eq_ok'] at h
      obtain ⟨a, ha, h⟩ := h
      split at h
      · cases h
      · rw [mkTable_rows _ _ h]
        refine whileLines_inv content _ _ (fun a => ∀ row ∈ a.2, row.values.length = row.info.length) ?_ _ _ _ _ ?_ ha
        · intro a line a' hP hbody
          unfold Table.readBody at hbody
          split at hbody
          · cases hbody; exact hP
          · rw [Table.bind_eq_ok'] at hbody
            obtain ⟨r, hr, hbody⟩ := hbody
            cases hbody
            rw [Table.parseRow, Table.bind_eq_ok'] at hr
            obtain ⟨vs, _, hr⟩ := hr
            intro row hrow
            rcases List.mem_append.1 hrow with hrow | hrow
            · exact hP row hrow
            · rw [List.mem_singleton.1 hrow]
              exact mkRow_length _ _ _ hr
        · intro _ h; cases h

theorem create_noub (f : FromTable F (Dbl K) (Attr K V)) (t : TableT F (Dbl K)) (hm : ∀ row ∈ t.rows, ∀ m ∈ f.makers, m row ≠ .ub) : f.create t ≠ .ub := by
  have ha : ∀ row : RowT F (Dbl K), ∀ ms : List (Maker F K V), (∀ m ∈ ms, m row ≠ .ub) → Catalog.attributesLoop row ms ≠ .ub := by
    intro row ms
    induction ms with
    | nil => intro _ h; cases h
    | cons m ms ih =>
      intro hm h
      rw [Catalog.attributesLoop, tbind_ub_iff] at h
      rcases h with h | ⟨_, _, h⟩
      · exact hm m List.mem_cons_self h
      · rw [tbind_ub_iff] at h
        rcases h with h | ⟨_, _, h⟩
        · exact ih (fun m hm' => hm m (List.mem_cons_of_mem _ hm')) h
        · cases h
  have hs : ∀ rows : List (RowT F (Dbl K)), (∀ row ∈ rows, ∀ m ∈ f.makers, m row ≠ .ub) → Catalog.sourcesLoop f rows ≠ .ub := by
    intro rows
    induction rows with
    | nil => intro _ h; cases h
    | cons row rows ih =>
      intro hm h
      rw [Catalog.sourcesLoop] at h
      simp only [tbind_ub_iff] at h
      rcases h with h | ⟨_, _, h | ⟨_, _, h | ⟨_, _, h | ⟨_, _, h⟩⟩⟩⟩
      · exact get_noub _ _ h
      · unfold Catalog.castId at h
        split at h <;> cases h
      · exact ha row _ (hm row List.mem_cons_self) h
      · exact ih (fun r hr => hm r (List.mem_cons_of_mem _ hr)) h
      · cases h
  have hi : ∀ (l : List (Source (Attr K V))) i m, Catalog.indexSources l i m ≠ .ub := by
    intro l
    induction l with
    | nil => intro i m h; cases h
    | cons s l ih =>
      intro i m h
      rw [Catalog.indexSources] at h
      by_cases hc : (Catalog.emplace m s.id i).2 = true
      · rw [if_pos hc] at h; exact ih _ _ h
      · rw [if_neg hc] at h; cases h
  intro h
  rw [Catalog.FromTable.create, tbind_ub_iff] at h
  rcases h with h | ⟨_, _, h⟩
  · exact hs _ hm h
  · rw [Catalog.mkCat, tbind_ub_iff] at h
    rcases h with h | ⟨_, _, h⟩
    · exact hi _ _ _ h
    · cases h

/-- The reading of files is without undefined behaviour: what the libraries do, and the readers for texts of a size they can handle (C42, C47). -/
def World.Sane (w : World F (Dbl K)) : Prop := ∀ path content, w.entry path = some (.file content) → ∀ fits, readInfo w fits content ≠ .ub ∧ readTable w fits content ≠ .ub

/-- A program with a format that is given, and with a mapping file where each filter is once, has no undefined behaviour. -/
theorem C102_defined_partial [IsStrictOrderedRing K] (conv : Conv F (Dbl K)) (lib : Lib K) (three : Dbl K) (stof : Bytes → Option (Dbl K)) (stoi : Bytes → Option Bool)
    (w : World F (Dbl K)) (hw : w.Sane) (o : Options K V) (hfmt : o.catalog.format ≠ some "AUTO".toList)
    (hmap : ∀ text path bands, Resolved w o.base o.mappingFile text path → Configuration.Spec.Parsed three stof stoi (Configuration.getLines text) bands → (bands.map Band.filter).Nodup) :
    run conv lib three stof stoi w o ≠ .ub := by
  have hfile : ∀ base p, fileFromOptions w base p ≠ .ub := by
    intro base p h
    unfold fileFromOptions at h
    simp only at h
    repeat' split at h
    all_goals cases h
  have hres : ∀ {base p path text}, fileFromOptions w base p = .ok (path, text) → w.entry path = some (.file text) := by
    intro base p path text h
    cases file_resolved w _ _ _ _ h <;> assumption
  intro h
  rw [run] at h
  simp only [bind_ub_iff] at h
  rcases h with h | ⟨_, _, h | ⟨_, hpre, h | ⟨⟨mpath, mtext⟩, hm, h | ⟨bands, hb, h | ⟨_, hex, h | ⟨_, hcat, h | ⟨_, hdep, h⟩⟩⟩⟩⟩⟩⟩
  · rw [ofConfig_ub] at h
    unfold Configuration.preInitCatalog at h
    repeat' split at h
    all_goals cases h
  · exact preAll_noub _ h
  · exact hfile _ _ h
  · exact parseLines_noub _ _ _ _ (ofConfig_ub.1 h)
  · rw [ofConfig_ub] at h
    unfold Configuration.initMapping at h
    simp only at h
    split at h <;> cases h
  · unfold initCatalog at h
    split at h
    · cases h
    · rename_i hf; exact hfile _ _ hf
    · rename_i path content hf
      split at h
      · cases h
      · rename_i hf'
        unfold formatFromOptions at hf'
        split at hf'
        · cases hf'
        · rename_i f hfo
          rw [if_neg (fun e => hfmt (by rw [hfo, e]))] at hf'
          split at hf' <;> cases hf'
      · split at h
        · cases h
        · rename_i hri; exact (hw _ _ (hres hf) _).1 hri
        · split at h
          · cases h
          · rename_i hid; exact idColumn_noub _ _ (ofConfig_ub.1 hid)
          · cases h
  · have hcat' : initCatalog w o.catalogFile o.catalog { (setBaseDir o.base ({} : CatCfg F K V)).1 with state := .preInitialized } =
      ((initCatalog w o.catalogFile o.catalog { (setBaseDir o.base ({} : CatCfg F K V)).1 with state := .preInitialized }).1, .ok ()) := Prod.ext rfl hcat
    obtain ⟨cpath, ctext, fits, info, n, h1, h2, h3, h4, h5⟩ := initCatalog_ok w _ _ _ _ hcat'
    rw [h5] at h
    exact initDependents_noub conv lib info _ o.dependents _ (by rfl) (by rfl) h
  · have hcat' : initCatalog w o.catalogFile o.catalog { (setBaseDir o.base ({} : CatCfg F K V)).1 with state := .preInitialized } =
      ((initCatalog w o.catalogFile o.catalog { (setBaseDir o.base ({} : CatCfg F K V)).1 with state := .preInitialized }).1, .ok ()) := Prod.ext rfl hcat
    obtain ⟨cpath, ctext, fits, info, n, h1, h2, h3, h4, h5⟩ := initCatalog_ok w _ _ _ _ hcat'
    rw [ofConfig_ok] at hb
    have hnd := hmap _ _ _ (file_resolved w _ _ _ _ hm) ((Configuration.C26_parse three stof stoi _ _).1 hb)
    generalize hm1 : (Configuration.initMapping bands o.exclude {}).1 = m at hdep h
    have hmk : m = _ := hm1.symm.trans (mapping_kept bands o.exclude hnd)
    rw [h5] at hdep h
    generalize hg : initDependents conv lib m o.dependents _ = g at hdep h
    obtain ⟨g1, g2⟩ := g
    obtain rfl : g2 = .ok () := hdep
    obtain ⟨hs, hF, he⟩ := initDependents_ok conv lib info m o.dependents _ _ (by rfl) (by rfl) hg
    rw [he] at h
    have hr : ¬ CState.final.rank < 3 := by decide
    have hent := hres h1
    rw [readAsCatalog, if_neg hr] at h
    simp only [bind_ub_iff] at h
    rcases h with h | ⟨t, ht, h | ⟨f, hf, h⟩⟩
    · rw [readAsTable, if_neg hr, bind_ub_iff] at h
      rcases h with h | ⟨r, _, h⟩
      · rw [getTableReader, if_neg hr] at h
        split at h <;> cases h
      · rename_i hr'
        rw [getTableReader, if_neg hr] at hr'
        split at hr'
        · rename_i content hc
          cases hr'
          exact (hw _ _ hc _).2 h
        · cases hr'
    · rw [getConverter, if_neg hr] at h
      simp only [ofTable_ub] at h
      unfold Catalog.mkFromTable at h
      split at h <;> cases h
    · rw [getConverter, if_neg hr] at hf
      simp only [ofTable_ok] at hf
      unfold Catalog.mkFromTable at hf
      split at hf
      · cases hf
      · cases hf
        rw [readAsTable, if_neg hr, bind_ok_iff] at ht
        obtain ⟨r, _, ht⟩ := ht
        refine create_noub _ t ?_ (ofTable_ub.1 h)
        intro row hrow x hx
        have hx' : x ∈ hs := hx
        obtain ⟨d, hd⟩ := forall₂_right hF x hx'
        exact maker_noub conv lib info m (by rw [hmk]; simp) (by rw [hmk]; simp) d x hd row (readTable_rows w _ _ _ ht row hrow)

/-- The claim for all programs and files. -/
def C102_full : Prop := ∀ (conv : Conv Unit (Dbl ℚ)) (lib : Lib ℚ) (three : Dbl ℚ) (stof : Bytes → Option (Dbl ℚ)) (stoi : Bytes → Option Bool) (w : World Unit (Dbl ℚ)) (o : Options ℚ ℚ),
  w.Sane → run conv lib three stof stoi w o ≠ .ub

/-! ### Examples -/

def exInfo : Info := [⟨"ID".toList, .scalar .i64, [], []⟩, ⟨"fg".toList, .scalar .f64, [], []⟩, ⟨"eg".toList, .scalar .f64, [], []⟩, ⟨"fr".toList, .scalar .f64, [], []⟩,
  ⟨"er".toList, .scalar .f64, [], []⟩, ⟨"z".toList, .scalar .f64, [], []⟩]

/-- A table with two sources. -/
def exHdu : Hdu Unit (Dbl ℚ) := ⟨exInfo, [[.scalar .i64 7, .scalar .i64 9], [.scalar .f64 (.num 10), .scalar .f64 (.num 20)], [.scalar .f64 (.num 1), .scalar .f64 (.num 2)],
  [.scalar .f64 (.num 30), .scalar .f64 (.num (-99))], [.scalar .f64 (.num 3), .scalar .f64 (.num 4)], [.scalar .f64 (.num (1 / 2)), .scalar .f64 (.num 2)]], 2⟩

/-- A file system with the mapping given, and the catalogue. -/
def exWorld (mapping : Bytes) : World Unit (Dbl ℚ) :=
  ⟨fun p => if p = "/d/map".toList then some (.file mapping) else if p = "/d/cat".toList then some (.file []) else if p = "/d".toList then some .directory else none,
    ⟨⟨fun _ => [], fun _ => none⟩, ⟨fun _ => [], fun _ => none⟩⟩, fun _ => .ok exHdu, fun _ => false⟩

def exOptions (exclude : List Bytes) : Options ℚ ℚ :=
  { base := "/d".toList, catalogFile := "cat".toList, catalog := { idName := none, idIndex := none, format := some "FITS".toList }, mappingFile := "/d/map".toList, exclude := exclude,
    dependents := [.redshift { name := some "z".toList }, .photometry { missing := some (.num (-99)) }] }

/-- A catalogue as numbers. -/
def exShow (r : Res (Cat (Attr ℚ ℚ))) : List (Catalog.Id × List (Bytes × Dbl ℚ × Dbl ℚ)) :=
  match r with
  | .ok c => c.sources.map fun s => (s.id, s.attributes.flatMap fun a => match a with
    | some (.photometry p) => (p.names.zip p.values).map fun x => (x.1, x.2.flux, x.2.error)
    | some (.redshift z e) => [([], z, e)]
    | _ => [])
  | _ => []

def exUb {α : Type} : Res α → Bool
  | .ub => true
  | _ => false

def exRun (mapping : String) (exclude : List Bytes) : Res (Cat (Attr ℚ ℚ)) :=
  run Catalog.exConv Catalog.exLib (.num 3) (fun _ => none) (fun _ => none) (exWorld mapping.toList) (exOptions exclude)

example : exShow (exRun "# bands\ng fg eg\nr fr er\n" []) =
    [(.num 7, [([], .num (1 / 2), .num 0), ("g".toList, .num 10, .num 1), ("r".toList, .num 30, .num 3)]),
      (.num 9, [([], .num 2, .num 0), ("g".toList, .num 20, .num 2), ("r".toList, .num (-99), .num 0)])] := by decide +kernel

example : exShow (exRun "g fg eg\nr fr er\n" ["g".toList]) =
    [(.num 7, [([], .num (1 / 2), .num 0), ("r".toList, .num 30, .num 3)]), (.num 9, [([], .num 2, .num 0), ("r".toList, .num (-99), .num 0)])] := by decide +kernel

example : exRun "g fg eg\nr fr er\n" ["i".toList] = .throw (.config .elements) := by
  have : (match exRun "g fg eg\nr fr er\n" ["i".toList] with | .throw e => decide (e = .config .elements) | _ => false) = true := by decide +kernel
  revert this
  cases exRun "g fg eg\nr fr er\n" ["i".toList] <;> simp

theorem exWorld_sane (m : Bytes) (hm : ∀ fits, readInfo (exWorld m) fits m ≠ .ub ∧ readTable (exWorld m) fits m ≠ .ub)
    (h0 : ∀ fits, readInfo (exWorld m) fits [] ≠ .ub ∧ readTable (exWorld m) fits [] ≠ .ub) : (exWorld m).Sane := by
  intro path content h
  simp only [exWorld] at h
  split at h
  · cases h; exact hm
  · split at h
    · cases h; exact h0
    · split at h <;> cases h

theorem exUb_iff {α : Type} (x : Res α) : exUb x = true ↔ x = .ub := by cases x <;> simp [exUb]

theorem exWorld_ok (m : Bytes) (h : exUb (readInfo (exWorld m) true m) = false ∧ exUb (readTable (exWorld m) true m) = false ∧ exUb (readInfo (exWorld m) false m) = false ∧
    exUb (readTable (exWorld m) false m) = false ∧ exUb (readInfo (exWorld m) true []) = false ∧ exUb (readTable (exWorld m) true []) = false ∧ exUb (readInfo (exWorld m) false []) = false ∧
    exUb (readTable (exWorld m) false []) = false) : (exWorld m).Sane := by
  have hh : ∀ {α : Type} (x : Res α), exUb x = false → x ≠ .ub := by intro α x hx he; rw [(exUb_iff x).2 he] at hx; cases hx
  obtain ⟨h1, h2, h3, h4, h5, h6, h7, h8⟩ := h
  refine exWorld_sane m ?_ ?_
  · intro fits
    cases fits
    · exact ⟨hh _ h3, hh _ h4⟩
    · exact ⟨hh _ h1, hh _ h2⟩
  · intro fits
    cases fits
    · exact ⟨hh _ h7, hh _ h8⟩
    · exact ⟨hh _ h5, hh _ h6⟩

/-- A filter that is twice in the file and excluded makes the iterators go past the end of the maps. -/
theorem C102_violated : ¬ C102_full := by
  intro h
  refine h Catalog.exConv Catalog.exLib (.num 3) (fun _ => none) (fun _ => none) (exWorld "g fg eg\ng fr er\n".toList) (exOptions ["g".toList]) ?_ ?_
  · exact exWorld_ok _ (by decide +kernel)
  · rw [← exUb_iff]
    decide +kernel

/-! ## C103: the life of a `CatalogConfig` -/

section
variable (w : World F (Dbl K))

/-- The calls of the class that are allowed in a state. -/
theorem C103_guards (c : CatCfg F K V) :
    ((∃ d, (setBaseDir d c).2 = .ok ()) ↔ c.state = .constructed ∨ c.state = .preInitialized) ∧
    ((∃ h, (addHandler h c).2 = .ok ()) ↔ c.state ≠ .final) ∧
    ((∃ i, getColumnInfo c = .ok i) ↔ c.state = .initialized ∨ c.state = .final) ∧
    ((∃ f, getFilename c = .ok f) ↔ c.state = .initialized ∨ c.state = .final) ∧
    (c.state ≠ .final → getTableReader w c = .throw (.config .elements) ∧ exUb (getConverter c) = false ∧ (∀ f, getConverter c ≠ .ok f) ∧ readAsTable w c = .throw (.config .elements) ∧
      readAsCatalog w c = .throw (.config .elements)) := by
  obtain ⟨st, b, f, fi, i, hs, inf⟩ := c
  cases st <;>
    simp [setBaseDir, addHandler, getColumnInfo, getFilename, getTableReader, getConverter, readAsTable, readAsCatalog, CState.rank, exUb]

end

/-- The base directory of calls. -/
def bases (l : List (Call F K V)) : List Bytes := l.filterMap fun k => match k with | .setBaseDir d => some d | _ => none

/-- The handlers of calls. -/
def added (l : List (Call F K V)) : List (Maker F K V) := l.filterMap fun k => match k with | .addHandler h => some h | _ => none

theorem calls_early : ∀ (l : List (Call F K V)) (c : CatCfg F K V), c.state.rank < 2 →
    (calls l c).1 = { c with base := (bases l).getLast?.getD c.base, handlers := c.handlers ++ added l } ∧ (calls l c).2 = l.map fun _ => .ok () := by
  intro l
  induction l with
  | nil => intro c _; simp [calls, bases, added]
  | cons k l ih =>
    intro c hc
    cases k with
    | setBaseDir d =>
      have e : (Call.setBaseDir d : Call F K V).run c = ({ c with base := d }, .ok ()) := by rw [Call.run, setBaseDir, if_neg (by omega)]
      obtain ⟨h1, h2⟩ := ih { c with base := d } hc
      rw [calls, e]
      refine ⟨?_, by simp [h2]⟩
      simp only [h1, bases, added, List.filterMap_cons, List.getLast?_cons]
      simp
    | addHandler h =>
      have e : (Call.addHandler h : Call F K V).run c = ({ c with handlers := c.handlers ++ [h] }, .ok ()) := by rw [Call.run, addHandler, if_neg (by omega)]
      obtain ⟨h1, h2⟩ := ih { c with handlers := c.handlers ++ [h] } hc
      rw [calls, e]
      refine ⟨?_, by simp [h2]⟩
      simp only [h1, bases, added, List.filterMap_cons]
      simp

theorem calls_init : ∀ (l : List (Call F K V)) (c : CatCfg F K V), c.state = .initialized →
    (calls l c).1 = { c with handlers := c.handlers ++ added l } ∧
      (calls l c).2 = l.map fun k => match k with | .setBaseDir _ => .throw (.config .elements) | .addHandler _ => .ok () := by
  intro l
  induction l with
  | nil => intro c _; simp [calls, added]
  | cons k l ih =>
    intro c hc
    cases k with
    | setBaseDir d =>
      have e : (Call.setBaseDir d : Call F K V).run c = (c, .throw (.config .elements)) := by rw [Call.run, setBaseDir, if_pos (by rw [hc]; decide)]
      obtain ⟨h1, h2⟩ := ih c hc
      rw [calls, e]
      exact ⟨by simp only [h1, added, List.filterMap_cons], by simp [h2]⟩
    | addHandler h =>
      have e : (Call.addHandler h : Call F K V).run c = ({ c with handlers := c.handlers ++ [h] }, .ok ()) := by rw [Call.run, addHandler, if_neg (by rw [hc]; decide)]
      obtain ⟨h1, h2⟩ := ih { c with handlers := c.handlers ++ [h] } hc
      rw [calls, e]
      refine ⟨?_, by simp [h2]⟩
      simp only [h1, added, List.filterMap_cons]
      simp

theorem calls_final : ∀ (l : List (Call F K V)) (c : CatCfg F K V), c.state = .final → (calls l c).1 = c ∧ (calls l c).2 = l.map fun _ => .throw (.config .elements) := by
  intro l
  induction l with
  | nil => intro c _; simp [calls]
  | cons k l ih =>
    intro c hc
    have e : k.run c = (c, .throw (.config .elements)) := by
      cases k with
      | setBaseDir d => rw [Call.run, setBaseDir, if_pos (by rw [hc]; decide)]
      | addHandler h => rw [Call.run, addHandler, if_pos (by rw [hc]; decide)]
    obtain ⟨h1, h2⟩ := ih c hc
    rw [calls, e]
    exact ⟨h1, by simp [h2]⟩

/-- At the end of its life an object has the last base directory set before it was initialised and the file found from there, and the handlers added before it was final, in the order of the calls.
Later calls throw and change nothing. -/
theorem C103_lifetime (w : World F (Dbl K)) (file : Bytes) (a : CatalogArgs) (k0 k1 k2 k3 : List (Call F K V)) (c : CatCfg F K V) (answers : List (Res Unit))
    (h : lifetime w file a k0 k1 k2 k3 = .ok (c, answers)) :
    c.state = .final ∧ (∀ d, (bases (k0 ++ k1)).getLast? = some d → c.base = d) ∧ (bases (k0 ++ k1) = [] → c.base = []) ∧ c.handlers = added (k0 ++ k1 ++ k2) ∧
    (∃ text info, Resolved w c.base file text c.filename ∧ formatFromOptions a text = .ok c.fits ∧ readInfo w c.fits text = .ok info ∧ c.info = some info ∧
      Configuration.idColumn (info.map Table.Desc.name) a = .ok c.idColumn) ∧
    answers = ((k0 ++ k1).map fun _ => .ok ()) ++ (k2.map fun k => match k with | .setBaseDir _ => .throw (.config .elements) | .addHandler _ => .ok ()) ++ k3.map fun _ => .throw (.config .elements) := by
  unfold lifetime at h
  simp only at h
  obtain ⟨a0, b0⟩ := calls_early k0 ({} : CatCfg F K V) (by show CState.rank .constructed < 2; decide)
  generalize calls k0 ({} : CatCfg F K V) = r0 at *
  obtain ⟨c0, l0⟩ := r0
  obtain ⟨a1, b1⟩ := calls_early k1 (c0.at .preInitialized) (by show CState.rank .preInitialized < 2; decide)
  generalize calls k1 (c0.at .preInitialized) = r1 at *
  obtain ⟨c1, l1⟩ := r1
  simp only at a0 b0 a1 b1 h
  cases hi : initCatalog w file a c1 with
  | mk ci ri =>
    rw [hi] at h
    cases ri with
    | throw e => cases h
    | ub => cases h
    | ok u =>
      obtain ⟨path, text, fits, info, n, h1, h2, h3, h4, h5⟩ := initCatalog_ok w _ _ _ _ hi
      obtain ⟨a2, b2⟩ := calls_init k2 (ci.at .initialized) rfl
      generalize calls k2 (ci.at .initialized) = r2 at *
      obtain ⟨c2, l2⟩ := r2
      obtain ⟨a3, b3⟩ := calls_final k3 (c2.at .final) rfl
      generalize calls k3 (c2.at .final) = r3 at *
      obtain ⟨c3, l3⟩ := r3
      simp only at a2 b2 a3 b3 h
      cases h
      subst b0 b1 b2 b3 a3 a2 h5
      have hbase : c1.base = (bases (k0 ++ k1)).getLast?.getD [] := by
        rw [a1, a0]
        simp only [CatCfg.at, bases, List.filterMap_append, List.getLast?_append]
        cases (List.filterMap (fun k : Call F K V => match k with | .setBaseDir d => some d | _ => none) k1).getLast? <;> simp
      have hh : c1.handlers = added (k0 ++ k1) := by
        rw [a1, a0]
        simp [CatCfg.at, added]
      refine ⟨rfl, ?_, ?_, ?_, ⟨text, info, file_resolved w _ _ _ _ h1, h2, h3, rfl, h4⟩, by simp⟩
      · intro d hd
        exact hbase.trans (by rw [hd]; rfl)
      · intro hd
        exact hbase.trans (by rw [hd]; rfl)
      · show c1.handlers ++ added k2 = _
        rw [hh]
        simp [added]

/-- What the getters return at the end of a life: the path of the file, the columns read from it and the column of the ids chosen among them by the options. Before the initialisation the column of the ids has
no name, and asking for it does not throw. -/
theorem C103_getters (w : World F (Dbl K)) (file : Bytes) (a : CatalogArgs) (k0 k1 k2 k3 : List (Call F K V)) (c : CatCfg F K V) (answers : List (Res Unit))
    (h : lifetime w file a k0 k1 k2 k3 = .ok (c, answers)) :
    getIdColumn (calls k0 ({} : CatCfg F K V)).1 = [] ∧
    ∃ text path fits info, Resolved w ((bases (k0 ++ k1)).getLast?.getD []) file text path ∧ formatFromOptions a text = .ok fits ∧ readInfo w fits text = .ok info ∧
      getFilename c = .ok path ∧ getColumnInfo c = .ok (some info) ∧ Configuration.idColumn (info.map Table.Desc.name) a = .ok (getIdColumn c) := by
  obtain ⟨h1, h2, h3, _, ⟨text, info, r1, r2, r3, r4, r5⟩, _⟩ := C103_lifetime w file a k0 k1 k2 k3 c answers h
  constructor
  · rw [getIdColumn, (calls_early k0 ({} : CatCfg F K V) (by show CState.rank .constructed < 2; decide)).1]
  · have hb : c.base = (bases (k0 ++ k1)).getLast?.getD [] := by
      cases hl : (bases (k0 ++ k1)).getLast? with
      | none => exact h3 (List.getLast?_eq_none_iff.1 hl)
      | some d => exact h2 d hl
    refine ⟨text, c.filename, c.fits, info, hb ▸ r1, r2, r3, ?_, ?_, r5⟩
    · rw [getFilename, h1]; rfl
    · rw [getColumnInfo, h1, r4]; rfl

/-- What the header says about `getFilename` (`CatalogConfig.h` 229-242): it throws if the object is not final. -/
def C103_full : Prop := ∀ c : CatCfg Unit ℚ ℚ, c.state ≠ .final → ∃ e, getFilename c = .throw e

theorem C103_violated : ¬ C103_full := by
  intro h
  obtain ⟨e, he⟩ := h { state := .initialized } (by decide)
  cases he

def exMaker : Maker Unit ℚ ℚ := fun _ => .ok none

/-- Calls in all states. -/
def exLife : Res (CatCfg Unit ℚ ℚ × List (Res Unit)) :=
  lifetime (exWorld []) "cat".toList { idName := none, idIndex := none, format := some "FITS".toList } [.setBaseDir "/e".toList, .addHandler exMaker] [.setBaseDir "/d".toList]
    [.setBaseDir "/f".toList, .addHandler exMaker] [.addHandler exMaker]

example : (match exLife with
    | .ok (c, l) => decide (c.base = "/d".toList ∧ c.filename = "/d/cat".toList ∧ c.handlers.length = 2 ∧ c.idColumn = "ID".toList ∧
        l = [.ok (), .ok (), .ok (), .throw (.config .elements), .ok (), .throw (.config .elements)])
    | _ => false) = true := by decide +kernel

/-! ## C104: columns of densities -/

/-- Additions of columns, going on after exceptions. -/
def addAll : List (Bytes × Bytes × List V) → PdfCfg V → PdfCfg V × List (Res Unit)
  | [], p => (p, [])
  | (n, c, ks) :: l, p =>
    let r := addPdfColumn n c ks p
    let rs := addAll l r.1
    (rs.1, r.2 :: rs.2)

theorem emplace_lookup {α : Type} (m : List (Bytes × α)) (k : Bytes) (v : α) (n : Bytes) :
    (emplace m k v).lookup n = match m.lookup n with | some x => some x | none => if n = k then some v else none := by
  unfold emplace
  by_cases h : (m.lookup k).isSome = true
  · rw [if_pos h]
    cases hn : m.lookup n with
    | some x => rfl
    | none =>
      simp only
      rw [if_neg]
      rintro rfl
      rw [hn] at h
      cases h
  · rw [if_neg h, List.lookup_append]
    cases hn : m.lookup n with
    | some x => rfl
    | none =>
      by_cases hk : n = k
      · subst hk; simp [List.lookup]
      · have : (n == k) = false := by simp [hk]
        simp [List.lookup, this, hk]

theorem lookup_isSome {α : Type} (m : List (Bytes × α)) (k : Bytes) : (m.lookup k).isSome = true ↔ k ∈ m.map Prod.fst := by
  induction m with
  | nil => simp
  | cons x m ih =>
    obtain ⟨a, v⟩ := x
    by_cases h : k = a
    · subst h; simp [List.lookup]
    · have : (k == a) = false := by simp [h]
      simp [List.lookup, this, ih, h]

theorem emplace_nodup {α : Type} (m : List (Bytes × α)) (k : Bytes) (v : α) (h : (m.map Prod.fst).Nodup) : ((emplace m k v).map Prod.fst).Nodup := by
  unfold emplace
  by_cases hs : (m.lookup k).isSome = true
  · rw [if_pos hs]; exact h
  · rw [if_neg hs, List.map_append]
    refine List.nodup_append.2 ⟨h, by simp, ?_⟩
    intro a ha b hb hab
    simp only [List.map_cons, List.map_nil, List.mem_singleton] at hb
    exact hs ((lookup_isSome m k).2 (by rw [← hb, ← hab]; exact ha))

/-- The columns of densities before the object is initialised: the names are different, and each has the column and the knots of its first addition, later ones are ignored without an exception. When it is
initialised all additions throw and change nothing. -/
theorem C104_columns (l : List (Bytes × Bytes × List V)) :
    (∀ p : PdfCfg V, 2 ≤ p.state.rank → (addAll l p).1 = p ∧ (addAll l p).2 = l.map fun _ => .throw (.config .elements)) ∧
    (addAll l {}).2 = (l.map fun _ => .ok ()) ∧ ((addAll l {}).1.keys.map Prod.fst).Nodup ∧
    (∀ name, match l.find? (fun x => x.1 = name) with
      | some x => (addAll l {}).1.keys.lookup name = some x.2.2 ∧ (addAll l {}).1.columns.lookup name = some x.2.1
      | none => (addAll l {}).1.keys.lookup name = none ∧ (addAll l {}).1.columns.lookup name = none) := by
  refine ⟨?_, ?_⟩
  · intro p hp
    induction l with
    | nil => exact ⟨rfl, rfl⟩
    | cons x l ih =>
      obtain ⟨n, c, ks⟩ := x
      have e : addPdfColumn n c ks p = (p, .throw (.config .elements)) := by rw [addPdfColumn, if_pos hp]
      rw [addAll, e]
      exact ⟨ih.1, by simp [ih.2]⟩
  · have key : ∀ (l : List (Bytes × Bytes × List V)) (p : PdfCfg V), p.state = .constructed → (p.keys.map Prod.fst).Nodup →
        (addAll l p).2 = (l.map fun _ => .ok ()) ∧ ((addAll l p).1.keys.map Prod.fst).Nodup ∧
        (∀ name, (addAll l p).1.keys.lookup name = (match p.keys.lookup name with | some x => some x | none => (l.find? (fun x => x.1 = name)).map fun x => x.2.2) ∧
          (addAll l p).1.columns.lookup name = (match p.columns.lookup name with | some x => some x | none => (l.find? (fun x => x.1 = name)).map fun x => x.2.1)) := by
      intro l
      induction l with
      | nil =>
        intro p _ hn
        refine ⟨rfl, hn, fun name => ⟨?_, ?_⟩⟩
        · cases h : p.keys.lookup name <;> simp [addAll, h]
        · cases h : p.columns.lookup name <;> simp [addAll, h]
      | cons x l ih =>
        obtain ⟨n, c, ks⟩ := x
        intro p hp hn
        have e : addPdfColumn n c ks p = ({ p with keys := emplace p.keys n ks, columns := emplace p.columns n c }, .ok ()) := by rw [addPdfColumn, if_neg (by rw [hp]; decide)]
        obtain ⟨h1, h2, h3⟩ := ih { p with keys := emplace p.keys n ks, columns := emplace p.columns n c } hp (emplace_nodup _ _ _ hn)
        rw [addAll, e]
        refine ⟨by simp [h1], h2, fun name => ?_⟩
        obtain ⟨h4, h5⟩ := h3 name
        simp only [h4, h5, emplace_lookup]
        by_cases hx : name = n
        · subst hx
          refine ⟨?_, ?_⟩
          · cases p.keys.lookup name <;> simp
          · cases p.columns.lookup name <;> simp
        · refine ⟨?_, ?_⟩
          · cases p.keys.lookup name <;> simp [hx, Ne.symm hx]
          · cases p.columns.lookup name <;> simp [hx, Ne.symm hx]
    obtain ⟨h1, h2, h3⟩ := key l {} rfl (by simp)
    refine ⟨h1, h2, fun name => ?_⟩
    obtain ⟨h4, h5⟩ := h3 name
    cases h : l.find? (fun x => x.1 = name) with
    | none => rw [h] at h4 h5; exact ⟨h4, h5⟩
    | some x => rw [h] at h4 h5; exact ⟨h4, h5⟩

/-- The densities of a source: for each name that was added the knots and the values of its column. -/
theorem C104_densities (conv : Conv F (Dbl K)) (l : List (Bytes × Bytes × List V)) (row : RowT F (Dbl K)) (a : Option (Attr K V)) (h : pdfMaker conv (addAll l {}).1 row = .ok a) :
    ∃ d, a = some (.pdfs d) ∧ ∀ name x, l.find? (fun x => x.1 = name) = some x →
      ∃ (data : List (Dbl K)) (c : Cell F (Dbl K)), Catalog.getPdf d name = .ok (x.2.2, data) ∧ data.length = x.2.2.length ∧ row.getByName x.2.1 = .ok c ∧ Table.castVec conv .f64 c = .ok data := by
  simp only [pdfMaker, Table.bind_eq_ok'] at h
  obtain ⟨d, h1, h2⟩ := h
  cases h2
  obtain ⟨_, _, hn, hf⟩ := C104_columns l
  refine ⟨d, rfl, ?_⟩
  intro name x hx
  have := hf name
  rw [hx] at this
  obtain ⟨hk, hc⟩ := this
  have hmem : (name, x.2.2) ∈ (addAll l {}).1.keys := by
    have : ∀ (m : List (Bytes × List V)), m.lookup name = some x.2.2 → (name, x.2.2) ∈ m := by
      intro m
      induction m with
      | nil => intro h; cases h
      | cons y m ih =>
        obtain ⟨b, v⟩ := y
        intro h
        by_cases hb : name = b
        · subst hb
          simp only [List.lookup, BEq.rfl] at h
          cases h
          exact List.mem_cons_self
        · have hbf : (name == b) = false := by simp [hb]
          simp only [List.lookup, hbf] at h
          exact List.mem_cons_of_mem _ (ih h)
    exact this _ hk
  obtain ⟨data, col, c, g1, g2, g3, g4, g5⟩ := Catalog.C101_pdf conv _ row _ hn d h1 name x.2.2 hmem
  rw [hc] at g3
  cases g3
  exact ⟨data, c, g1, g2, g4, g5⟩

example : ((addAll [("a".toList, "x".toList, [1, 2]), ("b".toList, "y".toList, [3]), ("a".toList, "z".toList, [4])] ({} : PdfCfg Nat)).1.columns) =
    [("a".toList, "x".toList), ("b".toList, "y".toList)] := by decide

end Alexandria.CatConfig
