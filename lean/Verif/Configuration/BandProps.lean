import Verif.Configuration.BandModel
import Verif.Configuration.CatalogProps
import Verif.Configuration.DetectProps

/-!
# C162: what a band mapping and the flags of the photometry are after any calls
-/

namespace Alexandria.BandConfig

open Alexandria.Str
open Alexandria.Catalog (Dbl)
open Alexandria.Configuration (CState Mapping Band)
open Alexandria.CatConfig (World Res PhotArgs fileFromOptions ofConfig Resolved)

variable {F K : Type} [Field K] [LinearOrder K]

/-! ## Specification -/

/-- The lines of the file an option stands for. -/
def Spec.Reads (n : Numbers K) (w : World F (Dbl K)) (base file : Bytes) (bands : List (Band (Dbl K))) : Prop :=
  ∃ path text, Resolved w base file text path ∧ Configuration.Spec.Parsed n.three n.stof n.stoi (Configuration.getLines text) bands

/-- The history of an object: its state, its base directory, and the files read so far with the filters that were excluded from them, in the order they were read. -/
inductive Spec.History (n : Numbers K) : List (Act F K) → CState → Bytes → List (List (Band (Dbl K)) × List Bytes) → Prop
  | start : History n [] .constructed [] []
  | base {l s b rs d} : History n l s b rs → (s = .constructed ∨ s = .preInitialized) → History n (l ++ [.setBaseDir d]) s d rs
  | baseLate {l s b rs d} : History n l s b rs → (s = .initialized ∨ s = .final) → History n (l ++ [.setBaseDir d]) s b rs
  | pre {l s b rs} : History n l s b rs → History n (l ++ [.pre]) .preInitialized b rs
  | post {l s b rs} : History n l s b rs → History n (l ++ [.post]) .final b rs
  | already {l s b rs w file ex} : History n l s b rs → (s = .initialized ∨ s = .final) → History n (l ++ [.init w file ex]) s b rs
  | unreadable {l s b rs w file ex} : History n l s b rs → (s = .constructed ∨ s = .preInitialized) → (∀ bands, ¬ Spec.Reads n w b file bands) → History n (l ++ [.init w file ex]) s b rs
  | refused {l s b rs w file ex bands} : History n l s b rs → (s = .constructed ∨ s = .preInitialized) → Spec.Reads n w b file bands →
      (∃ f ∈ ex, ∀ x ∈ bands, x.filter ≠ f) → History n (l ++ [.init w file ex]) s b (rs ++ [(bands, ex)])
  | done {l s b rs w file ex bands} : History n l s b rs → (s = .constructed ∨ s = .preInitialized) → Spec.Reads n w b file bands →
      (∀ f ∈ ex, ∃ x ∈ bands, x.filter = f) → History n (l ++ [.init w file ex]) .initialized b (rs ++ [(bands, ex)])

/-- The lines whose filters are not excluded. -/
def Spec.kept (r : List (Band (Dbl K)) × List Bytes) : List (Band (Dbl K)) := r.1.filter fun b => b.filter ∉ r.2

/-- The lines that stay in the mapping (C26): those whose filters are not excluded or were met before. -/
def Spec.Columns (r : List (Band (Dbl K)) × List Bytes) (m : List (Bytes × Bytes × Bytes)) : Prop :=
  ∃ idx : List Nat, idx.Pairwise (· < ·) ∧ (∀ i, i ∈ idx ↔ Configuration.Spec.Stays r.1 r.2 i) ∧ m = idx.filterMap fun i => r.1[i]?.map fun b => (b.filter, b.flux, b.error)

/-! ## Lemmas -/

theorem resolved_file (w : World F (Dbl K)) (base p path text : Bytes) (h : Resolved w base p text path) : fileFromOptions w base p = .ok (path, text) := by
  cases h with
  | absolute h1 h2 =>
    have hrel : CatConfig.isRelative p = false := by simp [CatConfig.isRelative, h1]
    simp [fileFromOptions, hrel, h2]
  | noBase h1 h2 h3 =>
    have hrel : CatConfig.isRelative p = true := by simp [CatConfig.isRelative, h1]
    have hj : CatConfig.join base p = p := by
      rw [CatConfig.join]
      by_cases hp : p = []
      · rw [if_pos hp, h2, hp]
      · rw [if_neg hp, if_pos h2]
    simp [fileFromOptions, hrel, hj, h3]
  | relative dir h1 h2 h3 h4 h5 =>
    have hrel : CatConfig.isRelative p = true := by simp [CatConfig.isRelative, h2]
    have hj : CatConfig.join base p = dir ++ '/' :: p := by
      rw [CatConfig.join, if_neg h1, if_neg h3]
      rcases h4 with h4 | ⟨rfl, h4⟩
      · rw [h4, if_pos (by simp)]
        simp
      · rw [if_neg]
        intro hl
        apply h4
        obtain ⟨l, hl⟩ := List.getLast?_eq_some_iff.mp hl
        exact ⟨l, hl.symm⟩
    simp [fileFromOptions, hrel, hj, h5]
  | itself h1 h2 h3 =>
    have hrel : CatConfig.isRelative p = true := by simp [CatConfig.isRelative, h1]
    have hj : CatConfig.join base p = base := by rw [CatConfig.join, if_pos h1]
    simp [fileFromOptions, hrel, hj, h3]

theorem parse_not_ub (n : Numbers K) (ls : List Bytes) : Configuration.parseLines n.three n.stof n.stoi ls ≠ .ub := by
  induction ls with
  | nil => simp [Configuration.parseLines]
  | cons l ls ih =>
    rw [Configuration.parseLines]
    by_cases hc : (trim l).head? = some '#'
    · rw [if_pos hc]; exact ih
    · rw [if_neg hc]
      cases Configuration.matchLine (trim l) with
      | none => simp
      | some r =>
        obtain ⟨a, b, c, t, k⟩ := r
        dsimp only
        have opt : ∀ {G : Type} (conv : Bytes → Option G) (d : G) (o : Option Bytes), Configuration.optional conv d o ≠ .ub := by
          intro G conv d o
          cases o with
          | none => simp [Configuration.optional]
          | some x => cases hx : conv x <;> simp [Configuration.optional, hx]
        cases h1 : Configuration.optional n.stof n.three t with
        | ub => exact absurd h1 (opt _ _ _)
        | throw e => simp [Bind.bind, Outcome.bind]
        | ok t' =>
          cases h2 : Configuration.optional n.stoi false k with
          | ub => exact absurd h2 (opt _ _ _)
          | throw e => simp [Bind.bind, Outcome.bind]
          | ok k' =>
            cases h3 : Configuration.parseLines n.three n.stof n.stoi ls with
            | ub => exact absurd h3 ih
            | throw e => simp [Bind.bind, Outcome.bind]
            | ok r => simp [Bind.bind, Outcome.bind, Pure.pure]

/-- What `initialize` does, in terms of the specification. -/
theorem initBands_cases (n : Numbers K) (w : World F (Dbl K)) (file : Bytes) (ex : List Bytes) (c : BandCfg K) :
    ((∀ bands, ¬ Spec.Reads n w c.base file bands) ∧ ∃ e, initBands n w file ex c = (c, .throw e)) ∨
    ∃ bands, Spec.Reads n w c.base file bands ∧
      initBands n w file ex c = ({ c with maps := (Configuration.initMapping bands ex c.maps).1 }, ofConfig (Configuration.initMapping bands ex c.maps).2) := by
  unfold initBands
  cases hf : fileFromOptions w c.base file with
  | throw e =>
    left
    refine ⟨?_, e, rfl⟩
    rintro bands ⟨path, text, h1, _⟩
    rw [resolved_file w _ _ _ _ h1] at hf
    cases hf
  | ub =>
    exfalso
    unfold fileFromOptions at hf
    dsimp only at hf
    generalize w.entry _ = x at hf
    cases x with
    | none => cases hf
    | some y => cases y <;> cases hf
  | ok f =>
    obtain ⟨path, text⟩ := f
    have hr := CatConfig.file_resolved w _ _ _ _ hf
    have ht : ∀ path' text', Resolved w c.base file text' path' → text' = text := by
      intro path' text' h
      rw [resolved_file w _ _ _ _ h] at hf
      cases hf
      rfl
    dsimp only
    cases hp : Configuration.parseLines n.three n.stof n.stoi (Configuration.getLines text) with
    | ub => exact absurd hp (parse_not_ub n _)
    | throw e =>
      left
      refine ⟨?_, .config e, rfl⟩
      rintro bands ⟨path', text', h1, h2⟩
      rw [ht _ _ h1] at h2
      rw [(Configuration.C26_parse _ _ _ _ _).2 h2] at hp
      cases hp
    | ok bands => exact .inr ⟨bands, ⟨path, text, hr, (Configuration.C26_parse _ _ _ _ _).1 hp⟩, rfl⟩

theorem after_snoc (n : Numbers K) (l : List (Act F K)) (a : Act F K) : after n (l ++ [a]) = (a.run n (after n l)).1 := by simp [after]

theorem early_or_late (s : CState) : (s.rank < 2 ∧ (s = .constructed ∨ s = .preInitialized)) ∨ (2 ≤ s.rank ∧ (s = .initialized ∨ s = .final)) := by
  cases s <;> simp [CState.rank]

/-! ## Theorems -/

/-- **C162 (states).** The base directory can be set before the object is initialised, the three lists can be taken afterwards; other calls throw. -/
theorem C162_guards (c : BandCfg K) (d : Bytes) :
    ((c.state = .constructed ∨ c.state = .preInitialized) → setBaseDir d c = ({ c with base := d }, .ok ()) ∧ getMapping c = .throw (.config .elements) ∧
      getThresholds c = .throw (.config .elements) ∧ getConverts c = .throw (.config .elements)) ∧
    ((c.state = .initialized ∨ c.state = .final) → setBaseDir d c = (c, .throw (.config .elements)) ∧ getMapping c = .ok c.maps.mapping ∧ getThresholds c = .ok c.maps.thresholds ∧
      getConverts c = .ok c.maps.converts) := by
  obtain ⟨s, b, m⟩ := c
  cases s <;> simp [setBaseDir, getMapping, getThresholds, getConverts, CState.rank]

/-- **C162 (any history).** After any calls by the program and by the manager the object has the lines of ALL the files that were read, one after the other: also of those that were refused because of a
wrong excluded filter, and of those read when the manager was initialised before. -/
theorem C162_history (n : Numbers K) (l : List (Act F K)) :
    ∃ rs ms, Spec.History n l (after n l).state (after n l).base rs ∧ List.Forall₂ Spec.Columns rs ms ∧ (after n l).maps.mapping = ms.flatten ∧
      (after n l).maps.thresholds = (rs.flatMap Spec.kept).map (fun b => (b.filter, b.threshold)) ∧
      (after n l).maps.converts = (rs.flatMap Spec.kept).map fun b => (b.filter, b.convert) := by
  induction l using List.reverseRecOn with
  | nil => exact ⟨[], [], .start, .nil, rfl, rfl, rfl⟩
  | append_singleton l a ih =>
    obtain ⟨rs, ms, h1, h2, h3, h4, h5⟩ := ih
    rw [after_snoc]
    generalize after n l = c at *
    obtain ⟨s, b, m⟩ := c
    dsimp only at h1 h3 h4 h5
    cases a with
    | setBaseDir d =>
      rcases early_or_late s with ⟨hr, hs⟩ | ⟨hr, hs⟩
      · have e : (Act.setBaseDir d : Act F K).run n ⟨s, b, m⟩ = (⟨s, d, m⟩, .ok ()) := by rw [Act.run, setBaseDir, if_neg (by simpa using hr)]
        rw [e]
        exact ⟨rs, ms, .base h1 hs, h2, h3, h4, h5⟩
      · have e : (Act.setBaseDir d : Act F K).run n ⟨s, b, m⟩ = (⟨s, b, m⟩, .throw (.config .elements)) := by rw [Act.run, setBaseDir, if_pos (by simpa using hr)]
        rw [e]
        exact ⟨rs, ms, .baseLate h1 hs, h2, h3, h4, h5⟩
    | pre => exact ⟨rs, ms, .pre h1, h2, h3, h4, h5⟩
    | post => exact ⟨rs, ms, .post h1, h2, h3, h4, h5⟩
    | init w file ex =>
      rcases early_or_late s with ⟨hr, hs⟩ | ⟨hr, hs⟩
      · rw [Act.run, if_neg (by simpa using hr)]
        rcases initBands_cases n w file ex ⟨s, b, m⟩ with ⟨hn, e, he⟩ | ⟨bands, hb, he⟩
        · rw [he]
          exact ⟨rs, ms, .unreadable h1 hs hn, h2, h3, h4, h5⟩
        · rw [he]
          dsimp only
          obtain ⟨idx, i1, i2, i3⟩ := Configuration.mappingLoop_any bands ex
          have hcol : List.Forall₂ Spec.Columns (rs ++ [(bands, ex)]) (ms ++ [(Configuration.mappingLoop bands ex).1]) :=
            List.rel_append h2 (.cons ⟨idx, i1, i2, i3⟩ .nil)
          have hmap : (Configuration.initMapping bands ex m).1.mapping = (ms ++ [(Configuration.mappingLoop bands ex).1]).flatten := by simp [Configuration.initMapping, h3]
          have hthr : (Configuration.initMapping bands ex m).1.thresholds = ((rs ++ [(bands, ex)]).flatMap Spec.kept).map (fun b => (b.filter, b.threshold)) := by
            simp [Configuration.initMapping, h4, Spec.kept]
          have hcon : (Configuration.initMapping bands ex m).1.converts = ((rs ++ [(bands, ex)]).flatMap Spec.kept).map (fun b => (b.filter, b.convert)) := by
            simp [Configuration.initMapping, h5, Spec.kept]
          have ht := Configuration.C26_throws bands ex m
          by_cases hex : ∀ f ∈ ex, ∃ x ∈ bands, x.filter = f
          · rw [ht.2.2 hex]
            exact ⟨_, _, .done h1 hs hb hex, hcol, hmap, hthr, hcon⟩
          · have hex' : ∃ f ∈ ex, ∀ x ∈ bands, x.filter ≠ f := by
              push Not at hex
              exact hex
            rw [ht.1.2 hex']
            exact ⟨_, _, .refused h1 hs hb hex', hcol, hmap, hthr, hcon⟩
      · rw [Act.run, if_pos (by simpa using hr)]
        exact ⟨rs, ms, .already h1 hs, h2, h3, h4, h5⟩

/-- **C162 (when it is initialised).** `ConfigManager` initialises the object without an exception if and only if it is initialised already, or the file can be read and has all the filters to exclude;
otherwise the state stays what it was. -/
theorem C162_initialised_iff (n : Numbers K) (c : BandCfg K) (w : World F (Dbl K)) (file : Bytes) (ex : List Bytes) :
    (((Act.init w file ex).run n c).2 = .ok () ↔ (c.state = .initialized ∨ c.state = .final) ∨ ∃ bands, Spec.Reads n w c.base file bands ∧ ∀ f ∈ ex, ∃ x ∈ bands, x.filter = f) ∧
    (((Act.init w file ex).run n c).2 ≠ .ok () → (∃ e, ((Act.init w file ex).run n c).2 = .throw e) ∧ ((Act.init w file ex).run n c).1.state = c.state) := by
  rcases early_or_late c.state with ⟨hr, hs⟩ | ⟨hr, hs⟩
  · have hns : ¬ (c.state = .initialized ∨ c.state = .final) := by rcases hs with h | h <;> simp [h]
    rw [Act.run, if_neg (by simpa using hr)]
    rcases initBands_cases n w file ex c with ⟨hn, e, he⟩ | ⟨bands, hb, he⟩
    · rw [he]
      refine ⟨⟨fun h => (by cases h), ?_⟩, fun _ => ⟨⟨e, rfl⟩, rfl⟩⟩
      rintro (h | ⟨bands, hb, _⟩)
      · exact absurd h hns
      · exact absurd hb (hn bands)
    · rw [he]
      have huniq : ∀ bands', Spec.Reads n w c.base file bands' → bands' = bands := by
        rintro bands' ⟨p', t', r1, r2⟩
        obtain ⟨p, t, s1, s2⟩ := hb
        have q1 := resolved_file w _ _ _ _ r1
        rw [resolved_file w _ _ _ _ s1] at q1
        cases q1
        have q2 := (Configuration.C26_parse _ _ _ _ _).2 r2
        rw [(Configuration.C26_parse _ _ _ _ _).2 s2] at q2
        cases q2
        rfl
      have ht := Configuration.C26_throws bands ex c.maps
      by_cases hex : ∀ f ∈ ex, ∃ x ∈ bands, x.filter = f
      · dsimp only
        rw [ht.2.2 hex]
        exact ⟨⟨fun _ => .inr ⟨bands, hb, hex⟩, fun _ => rfl⟩, fun h => absurd rfl h⟩
      · have hex' : ∃ f ∈ ex, ∀ x ∈ bands, x.filter ≠ f := by
          push Not at hex
          exact hex
        dsimp only
        rw [ht.1.2 hex']
        refine ⟨⟨fun h => (by cases h), ?_⟩, fun _ => ⟨⟨_, rfl⟩, rfl⟩⟩
        rintro (h | ⟨bands', hb', h'⟩)
        · exact absurd h hns
        · rw [huniq _ hb'] at h'
          exact absurd h' hex
  · rw [Act.run, if_pos (by simpa using hr)]
    exact ⟨⟨fun _ => .inl hs, fun _ => rfl⟩, fun h => absurd rfl h⟩

/-- **C162 (exactly when the lists are those of the file).** When an object is initialised from a file, the thresholds are those of the lines that are not excluded if and only if the object had none before. -/
theorem C162_exact (n : Numbers K) (c : BandCfg K) (w : World F (Dbl K)) (file : Bytes) (ex : List Bytes) (hs : c.state = .constructed ∨ c.state = .preInitialized)
    (bands : List (Band (Dbl K))) (hb : Spec.Reads n w c.base file bands) (hex : ∀ f ∈ ex, ∃ x ∈ bands, x.filter = f) :
    getThresholds ((Act.init w file ex).run n c).1 = .ok (c.maps.thresholds ++ (Spec.kept (bands, ex)).map fun b => (b.filter, b.threshold)) ∧
    getConverts ((Act.init w file ex).run n c).1 = .ok (c.maps.converts ++ (Spec.kept (bands, ex)).map fun b => (b.filter, b.convert)) ∧
    (∃ m, Spec.Columns (bands, ex) m ∧ getMapping ((Act.init w file ex).run n c).1 = .ok (c.maps.mapping ++ m)) ∧
    (getThresholds ((Act.init w file ex).run n c).1 = .ok ((Spec.kept (bands, ex)).map fun b => (b.filter, b.threshold)) ↔ c.maps.thresholds = []) := by
  have hr : ¬ c.state.rank ≥ 2 := by rcases hs with h | h <;> simp [h, CState.rank]
  rw [Act.run, if_neg hr]
  rcases initBands_cases n w file ex c with ⟨hn, e, he⟩ | ⟨bands', hb', he⟩
  · exact absurd hb (hn bands)
  · have heq : bands' = bands := by
      obtain ⟨p', t', r1, r2⟩ := hb'
      obtain ⟨p, t, s1, s2⟩ := hb
      have q1 := resolved_file w _ _ _ _ r1
      rw [resolved_file w _ _ _ _ s1] at q1
      cases q1
      have q2 := (Configuration.C26_parse _ _ _ _ _).2 r2
      rw [(Configuration.C26_parse _ _ _ _ _).2 s2] at q2
      cases q2
      rfl
    subst heq
    rw [he]
    dsimp only
    rw [(Configuration.C26_throws bands' ex c.maps).2.2 hex]
    obtain ⟨idx, i1, i2, i3⟩ := Configuration.mappingLoop_any bands' ex
    have ht : getThresholds ({ c with state := .initialized, maps := (Configuration.initMapping bands' ex c.maps).1 } : BandCfg K) =
        .ok (c.maps.thresholds ++ (Spec.kept (bands', ex)).map fun b => (b.filter, b.threshold)) := rfl
    refine ⟨ht, rfl, ⟨(Configuration.mappingLoop bands' ex).1, ⟨idx, i1, i2, i3⟩, rfl⟩, ?_⟩
    show getThresholds ({ c with state := .initialized, maps := (Configuration.initMapping bands' ex c.maps).1 } : BandCfg K) = _ ↔ _
    rw [ht]
    simp

/-- Calls that do not read a file change no list. -/
theorem after_maps (n : Numbers K) (l l' : List (Act F K)) (hl : ∀ a ∈ l', ∀ w file ex, a ≠ .init w file ex) : (after n (l ++ l')).maps = (after n l).maps := by
  induction l' using List.reverseRecOn with
  | nil => simp
  | append_singleton l' a ih =>
    rw [← List.append_assoc, after_snoc, ← ih fun b hb => hl b (by simp [hb])]
    cases a with
    | init w file ex => exact absurd rfl (hl _ (by simp) w file ex)
    | setBaseDir d =>
      rw [Act.run, setBaseDir]
      by_cases h : (after n (l ++ l')).state.rank ≥ 2
      · rw [if_pos h]
      · rw [if_neg h]
    | pre => rfl
    | post => rfl

/-- **C162 (initialised once).** If the manager initialises the object only once and that returns, the lists are from then on those of the file found from the base directory of that time. -/
theorem C162_once_partial (n : Numbers K) (l l' : List (Act F K)) (w : World F (Dbl K)) (file : Bytes) (ex : List Bytes)
    (hl : ∀ a ∈ l, ∀ w file ex, a ≠ .init w file ex) (hl' : ∀ a ∈ l', ∀ w file ex, a ≠ .init w file ex) (hs : (after n l).state = .constructed ∨ (after n l).state = .preInitialized)
    (hok : ((Act.init w file ex).run n (after n l)).2 = .ok ()) :
    ∃ bands, Spec.Reads n w (after n l).base file bands ∧ (∀ f ∈ ex, ∃ x ∈ bands, x.filter = f) ∧
      (after n (l ++ [.init w file ex] ++ l')).maps.thresholds = (Spec.kept (bands, ex)).map (fun b => (b.filter, b.threshold)) ∧
      (after n (l ++ [.init w file ex] ++ l')).maps.converts = (Spec.kept (bands, ex)).map (fun b => (b.filter, b.convert)) ∧
      Spec.Columns (bands, ex) (after n (l ++ [.init w file ex] ++ l')).maps.mapping ∧
      ((bands.map Band.filter).Nodup → (after n (l ++ [.init w file ex] ++ l')).maps.mapping = (Spec.kept (bands, ex)).map fun b => (b.filter, b.flux, b.error)) := by
  rcases ((C162_initialised_iff n _ w file ex).1.1 hok) with h | ⟨bands, hb, hex⟩
  · rcases hs with hs | hs <;> simp [hs] at h
  · refine ⟨bands, hb, hex, ?_⟩
    have h0 : (after n l).maps = {} := after_maps n [] l hl
    rw [after_maps n _ l' hl', after_snoc]
    have hr : ¬ (after n l).state.rank ≥ 2 := by rcases hs with h | h <;> simp [h, CState.rank]
    obtain ⟨e1, e2, ⟨m, hm, e3⟩, _⟩ := C162_exact n (after n l) w file ex hs bands hb hex
    have hst : ((Act.init w file ex).run n (after n l)).1.state = .initialized := by
      by_contra hne
      generalize hc : ((Act.init w file ex).run n (after n l)).1 = c at *
      have : ¬ (c.state = .constructed ∨ c.state = .preInitialized) := by
        intro h
        have := ((C162_guards c []).1 h).2.2.1
        rw [this] at e1
        cases e1
      have : c.state = .final := by cases h : c.state <;> simp_all
      rw [Act.run, if_neg hr] at hc hok
      generalize initBands n w file ex (after n l) = r at hc hok
      obtain ⟨r1, r2⟩ := r
      cases r2 <;> dsimp only at hc hok
      · subst hc; cases this
      · cases hok
      · cases hok
    obtain ⟨g1, g2, g3⟩ := ((C162_guards ((Act.init w file ex).run n (after n l)).1 []).2 (.inl hst)).2
    rw [g2, h0] at e1
    rw [g3, h0] at e2
    rw [g1, h0] at e3
    have e1 := Outcome.ok.inj e1
    have e2 := Outcome.ok.inj e2
    have e3 := Outcome.ok.inj e3
    simp only [List.nil_append] at e1 e2 e3
    refine ⟨e1, e2, e3 ▸ hm, fun hnd => ?_⟩
    have hrun : ((Act.init w file ex).run n (after n l)).1.maps = (Configuration.initMapping bands ex {}).1 := by
      rw [Act.run, if_neg hr]
      rcases initBands_cases n w file ex (after n l) with ⟨hn, e, he⟩ | ⟨bands', hb', he⟩
      · exact absurd hb (hn bands)
      · have heq : bands' = bands := by
          obtain ⟨p', t', r1, r2⟩ := hb'
          obtain ⟨p, t, s1, s2⟩ := hb
          have q1 := resolved_file w _ _ _ _ r1
          rw [resolved_file w _ _ _ _ s1] at q1
          cases q1
          have q2 := (Configuration.C26_parse _ _ _ _ _).2 r2
          rw [(Configuration.C26_parse _ _ _ _ _).2 s2] at q2
          cases q2
          rfl
        subst heq
        rw [he]
        dsimp only
        rw [(Configuration.C26_throws bands' ex (after n l).maps).2.2 hex, h0]
        rfl
    rw [hrun]
    show [] ++ (Configuration.mappingLoop bands ex).1 = _
    rw [List.nil_append, Configuration.mappingLoop_kept bands ex hnd]
    rfl

/-- The full statement: when an object is initialised from a file, its thresholds are those of the lines of this file that are not excluded. -/
def C162_full : Prop := ∀ (n : Numbers ℚ) (l : List (Act Unit ℚ)) (w : World Unit (Dbl ℚ)) (file : Bytes) (ex : List Bytes) (bands : List (Band (Dbl ℚ))),
  ((after n l).state = .constructed ∨ (after n l).state = .preInitialized) → ((Act.init w file ex).run n (after n l)).2 = .ok () → Spec.Reads n w (after n l).base file bands →
    getThresholds (after n (l ++ [.init w file ex])) = .ok ((Spec.kept (bands, ex)).map fun b => (b.filter, b.threshold))

def exNumbers : Numbers ℚ := ⟨.num 3, fun s => if s = "5".toList then some (.num 5) else none, fun s => some (s != "0".toList)⟩

def exBands : World Unit (Dbl ℚ) := CatConfig.exWorld "g fg eg\nr fr er 5\n".toList

/-- A wrong filter to exclude, and the right one the second time. -/
def exRetry : List (Act Unit ℚ) := [.setBaseDir "/d".toList, .pre, .init exBands "map".toList ["x".toList], .pre]

/-- **C162 (violated).** The name of a filter to exclude is wrong, the exception is caught and the manager is initialised again with the right name: every other filter is in the lists twice, the
excluded one still once. Initialising the manager a second time, which it does not refuse (C88), doubles them as well. -/
theorem C162_retry_violated :
    getThresholds (after exNumbers (exRetry ++ [.init exBands "map".toList ["g".toList], .post])) = .ok [("g".toList, .num 3), ("r".toList, .num 5), ("r".toList, .num 5)] ∧
    getMapping (after exNumbers (exRetry ++ [.init exBands "map".toList ["g".toList], .post])) =
      .ok [("g".toList, "fg".toList, "eg".toList), ("r".toList, "fr".toList, "er".toList), ("r".toList, "fr".toList, "er".toList)] ∧
    getThresholds (after exNumbers [.setBaseDir "/d".toList, .pre, .init exBands "map".toList ["g".toList], .post, .pre, .init exBands "map".toList ["g".toList], .post]) =
      .ok [("r".toList, .num 5), ("r".toList, .num 5)] := by
  refine ⟨by decide +kernel, by decide +kernel, by decide +kernel⟩

theorem C162_violated : ¬ C162_full := by
  intro h
  have hr : Spec.Reads exNumbers exBands (after exNumbers exRetry).base "map".toList
      [⟨"g".toList, "fg".toList, "eg".toList, .num 3, false⟩, ⟨"r".toList, "fr".toList, "er".toList, .num 5, false⟩] :=
    ⟨"/d/map".toList, "g fg eg\nr fr er 5\n".toList, CatConfig.file_resolved _ _ _ _ _ (by decide +kernel), (Configuration.C26_parse _ _ _ _ _).1 (by decide +kernel)⟩
  have := h exNumbers exRetry exBands "map".toList ["g".toList] _ (.inr (by decide +kernel)) (by decide +kernel) hr
  revert this
  decide +kernel

example : getThresholds (after exNumbers ([.setBaseDir "/e".toList, .pre, .setBaseDir "/d".toList] ++ [.init exBands "map".toList ["g".toList]] ++ [.setBaseDir "/f".toList, .post])) = .ok [("r".toList, .num 5)] ∧
    (after exNumbers [.setBaseDir "/e".toList, .pre, (.setBaseDir "/d".toList : Act Unit ℚ)]).base = "/d".toList ∧
    ((Act.init exBands "map".toList ["g".toList]).run exNumbers (after exNumbers [.setBaseDir "/e".toList, .pre, (.setBaseDir "/d".toList : Act Unit ℚ)])).2 = .ok () ∧
    getThresholds (after exNumbers [.setBaseDir "/d".toList, .pre, (.init exBands "map".toList ["x".toList] : Act Unit ℚ)]) = .throw (.config .elements) := by decide +kernel

/-! ## The flags -/

/-- The history of the flags: the state, and the options the object was initialised with, the latest last. -/
inductive Spec.Flags : List (PhotAct K) → CState → List (PhotArgs K) → Prop
  | start : Flags [] .constructed []
  | pre {l s rs} : Flags l s rs → Flags (l ++ [.pre]) .preInitialized rs
  | post {l s rs} : Flags l s rs → Flags (l ++ [.post]) .final rs
  | already {l s rs a ok} : Flags l s rs → (s = .initialized ∨ s = .final) → Flags (l ++ [.init a ok]) s rs
  | failed {l s rs a} : Flags l s rs → (s = .constructed ∨ s = .preInitialized) → Flags (l ++ [.init a false]) s (rs ++ [a])
  | done {l s rs a} : Flags l s rs → (s = .constructed ∨ s = .preInitialized) → Flags (l ++ [.init a true]) .initialized (rs ++ [a])

/-- **C162 (flags).** The flags can be taken once the object is initialised. Upper limits are enabled if the last options say `YES`; missing photometry is enabled if any options so far had a flag for it. -/
theorem C162_flags (l : List (PhotAct K)) :
    ∃ rs, Spec.Flags l (photAfter l).state rs ∧
      ((photAfter l).upper = true ↔ ∃ a, rs.getLast? = some a ∧ a.upper = some "YES".toList) ∧ ((photAfter l).missing = true ↔ ∃ a ∈ rs, ∃ d, a.missing = some d) ∧
      ((photAfter l).state = .constructed ∨ (photAfter l).state = .preInitialized →
        isUpperEnabled (photAfter l) = .throw (.config .elements) ∧ isMissingEnabled (photAfter l) = .throw (.config .elements)) ∧
      ((photAfter l).state = .initialized ∨ (photAfter l).state = .final → isUpperEnabled (photAfter l) = .ok (photAfter l).upper ∧ isMissingEnabled (photAfter l) = .ok (photAfter l).missing) := by
  suffices h : ∃ rs, Spec.Flags l (photAfter l).state rs ∧
      ((photAfter l).upper = true ↔ ∃ a, rs.getLast? = some a ∧ a.upper = some "YES".toList) ∧ ((photAfter l).missing = true ↔ ∃ a ∈ rs, ∃ d, a.missing = some d) by
    obtain ⟨rs, h1, h2, h3⟩ := h
    refine ⟨rs, h1, h2, h3, ?_, ?_⟩
    · rintro (h | h) <;> simp [isUpperEnabled, isMissingEnabled, h, CState.rank]
    · rintro (h | h) <;> simp [isUpperEnabled, isMissingEnabled, h, CState.rank]
  induction l using List.reverseRecOn with
  | nil => exact ⟨[], .start, by simp [photAfter], by simp [photAfter]⟩
  | append_singleton l a ih =>
    obtain ⟨rs, h1, h2, h3⟩ := ih
    have e : photAfter (l ++ [a]) = a.run (photAfter l) := by simp [photAfter]
    rw [e]
    generalize photAfter l = c at *
    obtain ⟨s, m, u⟩ := c
    dsimp only at h1 h2 h3
    cases a with
    | pre => exact ⟨rs, .pre h1, h2, h3⟩
    | post => exact ⟨rs, .post h1, h2, h3⟩
    | init a ok =>
      rcases early_or_late s with ⟨hr, hs⟩ | ⟨hr, hs⟩
      · rw [PhotAct.run, if_neg (by simpa using hr)]
        have hu : (initFlags a ⟨s, m, u⟩).upper = true ↔ ∃ a', (rs ++ [a]).getLast? = some a' ∧ a'.upper = some "YES".toList := by
          simp [initFlags]
        have hm : (initFlags a ⟨s, m, u⟩).missing = true ↔ ∃ a' ∈ rs ++ [a], ∃ d, a'.missing = some d := by
          cases ha : a.missing with
          | none =>
            simp only [initFlags, ha, Option.isSome_none, Bool.false_eq_true, if_false, h3, List.mem_append, List.mem_singleton]
            constructor
            · rintro ⟨x, hx, d, hd⟩
              exact ⟨x, .inl hx, d, hd⟩
            · rintro ⟨x, hx | rfl, d, hd⟩
              · exact ⟨x, hx, d, hd⟩
              · rw [ha] at hd; cases hd
          | some d =>
            simp only [initFlags, ha, Option.isSome_some, if_true, true_iff]
            exact ⟨a, by simp, d, ha⟩
        cases ok with
        | true => exact ⟨rs ++ [a], .done h1 hs, hu, hm⟩
        | false => exact ⟨rs ++ [a], .failed h1 hs, hu, hm⟩
      · rw [PhotAct.run, if_pos (by simpa using hr)]
        exact ⟨rs, .already h1 hs, h2, h3⟩

/-- **C162 (a flag that stays).** Missing photometry stays enabled when the manager is initialised again without a flag for it. -/
theorem C162_flag_violated : ∃ a b : PhotArgs ℚ, b.missing = none ∧ isMissingEnabled (photAfter [.pre, .init a true, .post, .pre, .init b true, .post]) = .ok true :=
  ⟨{ missing := some (.num (-99)) }, {}, rfl, by decide +kernel⟩

end Alexandria.BandConfig
