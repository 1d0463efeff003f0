import Verif.Configuration.DetectModel
import Verif.Configuration.Props3

/-! # What the memory around the buffer does to the detection of formats, and mappings with repeated filters (C26, C90) -/

namespace Alexandria.Configuration

open Alexandria.Str

/-! ## C90 -/

/-- A string that ends at the first null byte begins with `SIMPLE  =` exactly if the memory does. -/
theorem cstring_simple (m : Bytes) : (m.takeWhile (· ≠ Char.ofNat 0)).take 9 = simpleCard ↔ simpleCard <+: m := by
  have hlen : simpleCard.length = 9 := by decide
  have hfree : Char.ofNat 0 ∉ simpleCard := by decide
  constructor
  · intro e
    rw [← e]
    exact (List.take_prefix _ _).trans (List.takeWhile_prefix _)
  · rintro ⟨r, rfl⟩
    rw [List.takeWhile_append_of_pos (by
      intro c hc
      have : c ≠ Char.ofNat 0 := fun e => hfree (e ▸ hc)
      simpa using this)]
    rw [List.take_append, hlen, List.take_of_length_le (by omega)]
    simp

/-- **C90 (exactly when undefined).** The function uses only bytes of the file if and only if one of the first eighty is null. -/
theorem C90_undefined_iff (content : Bytes) : autoDetect content = .ub ↔ Char.ofNat 0 ∉ content.take 80 := by
  unfold autoDetect
  simp only
  by_cases h : Char.ofNat 0 ∈ content.take 80
  · simp [h]
  · simp [h]

/-- **C90 (whatever the memory contains).** Let the memory behind the buffer contain a null byte.  The answer is right for every file of at least nine bytes; for a
shorter file it depends on what the buffer contained before: it is FITS exactly if the bytes of the file followed by the old content begin with `SIMPLE  =`. -/
theorem C90_any_memory (stack content : Bytes) (h : Char.ofNat 0 ∈ stack.drop 80) :
    ∃ b, autoDetectIn stack content = .ok b ∧ (9 ≤ content.length → (b = true ↔ simpleCard <+: content)) ∧
      (content.length < 9 → (b = true ↔ simpleCard <+: content ++ stack.drop content.length)) := by
  have hlen : simpleCard.length = 9 := by decide
  have hmem : Char.ofNat 0 ∈ content.take 80 ++ stack.drop (content.take 80).length := by
    apply List.mem_append_right
    have hle : (content.take 80).length ≤ 80 := by rw [List.length_take]; omega
    rw [← Nat.add_sub_cancel' hle, ← List.drop_drop] at h
    exact List.mem_of_mem_drop h
  unfold autoDetectIn
  simp only
  rw [if_pos hmem]
  refine ⟨_, rfl, ?_, ?_⟩
  · intro h9
    rw [decide_eq_true_iff, cstring_simple]
    rw [List.prefix_iff_eq_take, List.prefix_iff_eq_take, hlen, List.take_append_of_le_length (by rw [List.length_take]; omega), List.take_take]
    rfl
  · intro h9
    rw [decide_eq_true_iff, cstring_simple, List.take_of_length_le (by omega)]

/-- What does not depend on the memory in the one model is the same in the other. -/
theorem C90_models_agree (stack content : Bytes) (b : Bool) (h : autoDetect content = .ok b) : autoDetectIn stack content = .ok b := by
  unfold autoDetect at h
  simp only at h
  by_cases hz : Char.ofNat 0 ∈ content.take 80
  · rw [if_pos hz] at h
    unfold autoDetectIn
    simp only
    rw [if_pos (List.mem_append_left _ hz), ← h]
    congr 2
    have hc : ∀ (l r : Bytes), Char.ofNat 0 ∈ l → (l ++ r).takeWhile (· ≠ Char.ofNat 0) = l.takeWhile (· ≠ Char.ofNat 0) := by
      intro l r hl
      induction l with
      | nil => cases hl
      | cons c l ih =>
        by_cases he : c = Char.ofNat 0
        · subst he; simp
        · rw [List.cons_append, List.takeWhile_cons_of_pos (by simpa using he), List.takeWhile_cons_of_pos (by simpa using he), ih]
          rcases List.mem_cons.mp hl with h1 | h1
          · exact absurd h1.symm he
          · exact h1
    rw [hc _ _ hz]
  · rw [if_neg hz] at h
    cases h

/-- **C90 (violated on a machine).** An empty file is taken for FITS if the memory still has the beginning of a FITS file, such as that of the catalogue before. -/
theorem C90_stale_memory_violated : ∃ stack, Char.ofNat 0 ∈ stack.drop 80 ∧ autoDetectIn stack [] = .ok true :=
  ⟨"SIMPLE  =                    T".toList ++ List.replicate 50 ' ' ++ [Char.ofNat 0], by decide +kernel, by decide +kernel⟩

/-- A FITS file without null bytes, and a text file, in a memory with the rest of another file. -/
example : autoDetectIn (List.replicate 80 'x' ++ ['y', Char.ofNat 0]) (simpleCard ++ List.replicate 90 ' ') = .ok true ∧
    autoDetectIn (List.replicate 80 'x' ++ ['y', Char.ofNat 0]) "# ID RA DEC".toList = .ok false ∧ autoDetect "# ID RA DEC".toList = .ub := by
  refine ⟨by decide +kernel, by decide +kernel, by decide +kernel⟩

/-! ## C26 -/

/-- Line `i` of the mapping file stays in the mapping: its filter is not excluded, or an earlier line has the same filter. -/
def Spec.Stays {F : Type} (bands : List (Band F)) (exclude : List Bytes) (i : Nat) : Prop :=
  ∃ b, bands[i]? = some b ∧ (b.filter ∉ exclude ∨ ∃ (j : Nat) (b' : Band F), j < i ∧ bands[j]? = some b' ∧ b'.filter = b.filter)

theorem mappingLoop_any {F : Type} (bs : List (Band F)) (ex : List Bytes) :
    ∃ idx : List Nat, idx.Pairwise (· < ·) ∧ (∀ i, i ∈ idx ↔ Spec.Stays bs ex i) ∧
      (mappingLoop bs ex).1 = idx.filterMap fun i => bs[i]?.map fun b => (b.filter, b.flux, b.error) := by
  induction bs generalizing ex with
  | nil => exact ⟨[], List.Pairwise.nil, by simp [Spec.Stays], rfl⟩
  | cons b bs ih =>
    have hshift : ∀ (idx : List Nat), (idx.map (· + 1)).filterMap (fun i => ((b :: bs)[i]?).map fun b => (b.filter, b.flux, b.error)) =
        idx.filterMap fun i => bs[i]?.map fun b => (b.filter, b.flux, b.error) := by
      intro idx
      rw [List.filterMap_map]
      apply List.filterMap_congr
      intro i _
      simp
    rw [mappingLoop]
    by_cases h : b.filter ∈ ex
    · rw [if_pos h]
      obtain ⟨idx, hp, hm, he⟩ := ih (ex.filter (· ≠ b.filter))
      refine ⟨idx.map (· + 1), List.pairwise_map.mpr (hp.imp fun h => by omega), ?_, by rw [hshift, he]⟩
      intro i
      cases i with
      | zero =>
        simp only [List.mem_map, Nat.add_eq_zero_iff, Nat.one_ne_zero, and_false, exists_false, false_iff]
        rintro ⟨b', hb', h1 | ⟨j, _, hj, _⟩⟩
        · cases hb'; exact h1 h
        · omega
      | succ i =>
        rw [show i + 1 ∈ idx.map (· + 1) ↔ i ∈ idx by simp, hm]
        constructor
        · rintro ⟨c, hc, h1 | ⟨j, c', hj, hc', hf⟩⟩
          · refine ⟨c, by simpa using hc, ?_⟩
            by_cases hcb : b.filter = c.filter
            · exact .inr ⟨0, b, by omega, rfl, hcb⟩
            · left
              intro hce
              exact h1 (List.mem_filter.mpr ⟨hce, by simpa using Ne.symm hcb⟩)
          · exact ⟨c, by simpa using hc, .inr ⟨j + 1, c', by omega, by simpa using hc', hf⟩⟩
        · rintro ⟨c, hc, h1 | ⟨j, c', hj, hc', hf⟩⟩
          · exact ⟨c, by simpa using hc, .inl fun hce => h1 (List.mem_of_mem_filter hce)⟩
          · refine ⟨c, by simpa using hc, ?_⟩
            cases j with
            | zero =>
              cases hc'
              left
              intro hce
              have := (List.mem_filter.mp hce).2
              simp [hf] at this
            | succ j => exact .inr ⟨j, c', by omega, by simpa using hc', hf⟩
    · rw [if_neg h]
      obtain ⟨idx, hp, hm, he⟩ := ih ex
      refine ⟨0 :: idx.map (· + 1), ?_, ?_, ?_⟩
      · refine List.pairwise_cons.mpr ⟨?_, List.pairwise_map.mpr (hp.imp fun h => by omega)⟩
        intro i hi
        obtain ⟨j, _, rfl⟩ := List.mem_map.mp hi
        omega
      · intro i
        cases i with
        | zero => exact ⟨fun _ => ⟨b, rfl, .inl h⟩, fun _ => by simp⟩
        | succ i =>
          rw [show i + 1 ∈ 0 :: idx.map (· + 1) ↔ i ∈ idx by simp, hm]
          constructor
          · rintro ⟨c, hc, h1 | ⟨j, c', hj, hc', hf⟩⟩
            · exact ⟨c, by simpa using hc, .inl h1⟩
            · exact ⟨c, by simpa using hc, .inr ⟨j + 1, c', by omega, by simpa using hc', hf⟩⟩
          · rintro ⟨c, hc, h1 | ⟨j, c', hj, hc', hf⟩⟩
            · exact ⟨c, by simpa using hc, .inl h1⟩
            · refine ⟨c, by simpa using hc, ?_⟩
              cases j with
              | zero =>
                cases hc'
                exact .inl (hf ▸ h)
              | succ j => exact .inr ⟨j, c', by omega, by simpa using hc', hf⟩
      · rw [List.filterMap_cons, hshift, ← he]
        rfl

/-- **C26 (the mapping of every file).** The mapping has the lines of the file that stay, in their order: of an excluded filter only the first line vanishes. -/
theorem C26_mapping_any {F : Type} (bands : List (Band F)) (exclude : List Bytes) :
    ∃ idx : List Nat, idx.Pairwise (· < ·) ∧ (∀ i, i ∈ idx ↔ Spec.Stays bands exclude i) ∧
      (initMapping bands exclude {}).1.mapping = idx.filterMap fun i => bands[i]?.map fun b => (b.filter, b.flux, b.error) := by
  obtain ⟨idx, h1, h2, h3⟩ := mappingLoop_any bands exclude
  exact ⟨idx, h1, h2, by simp [initMapping, h3]⟩

/-- The mapping with the lines that are not excluded, when no excluded filter is repeated. -/
theorem mappingLoop_once {F : Type} (bs : List (Band F)) (ex : List Bytes) (hn : ∀ n ∈ ex, bs.countP (fun b => b.filter = n) ≤ 1) :
    (mappingLoop bs ex).1 = (bs.filter fun b => b.filter ∉ ex).map fun b => (b.filter, b.flux, b.error) := by
  induction bs generalizing ex with
  | nil => simp [mappingLoop]
  | cons b bs ih =>
    rw [mappingLoop]
    have hn' : ∀ n ∈ ex, bs.countP (fun b => b.filter = n) ≤ 1 := by
      intro n hne
      have := hn n hne
      rw [List.countP_cons] at this
      omega
    by_cases h : b.filter ∈ ex
    · rw [if_pos h, ih _ (fun n hne => hn' n (List.mem_of_mem_filter hne)), List.filter_cons_of_neg (by simpa using h)]
      congr 1
      apply List.filter_congr
      intro c hc
      have h1 := hn b.filter h
      rw [List.countP_cons_of_pos (by simp)] at h1
      have h0 : bs.countP (fun c => c.filter = b.filter) = 0 := by omega
      have : c.filter ≠ b.filter := by simpa using List.countP_eq_zero.mp h0 c hc
      simp [this]
    · rw [if_neg h, List.filter_cons_of_pos (by simpa using h)]
      simp only [List.map_cons, ih _ hn']

/-- **C26 (exactly when the lists correspond).** The mapping and the thresholds name the same filters in the same order if and only if no excluded filter has more
than one line in the file. -/
theorem C26_agree_iff {F : Type} (bands : List (Band F)) (exclude : List Bytes) :
    (initMapping bands exclude {}).1.mapping.map (·.1) = (initMapping bands exclude {}).1.thresholds.map (·.1) ↔
      ∀ n ∈ exclude, bands.countP (fun b => b.filter = n) ≤ 1 := by
  constructor
  · intro h n hn
    by_contra hc
    have hth : n ∉ (initMapping bands exclude {}).1.thresholds.map (·.1) := by
      simp only [initMapping, List.nil_append, List.map_map, List.mem_map, List.mem_filter, Function.comp, decide_eq_true_eq, not_exists, not_and]
      rintro b ⟨_, hb⟩ rfl
      exact hb hn
    apply hth
    rw [← h]
    obtain ⟨idx, _, h2, h3⟩ := C26_mapping_any bands exclude
    rw [h3]
    obtain ⟨i, j, bi, bj, hij, hi, hj, hfi, hfj⟩ : ∃ (i j : Nat) (bi bj : Band F), i < j ∧ bands[i]? = some bi ∧ bands[j]? = some bj ∧ bi.filter = n ∧ bj.filter = n := by
      clear h hth h2 h3
      induction bands with
      | nil => simp at hc
      | cons b bs ih =>
        rw [List.countP_cons] at hc
        by_cases hb : b.filter = n
        · simp only [hb, decide_true, if_true] at hc
          have : 0 < bs.countP (fun b => b.filter = n) := by omega
          obtain ⟨c, hcm, hcf⟩ := List.countP_pos_iff.mp this
          obtain ⟨j, hj⟩ := List.getElem?_of_mem hcm
          exact ⟨0, j + 1, b, c, by omega, rfl, by simpa using hj, hb, by simpa using hcf⟩
        · simp only [hb, decide_false, Bool.false_eq_true, if_false] at hc
          obtain ⟨i, j, bi, bj, h1, h2, h3, h4, h5⟩ := ih (by simpa using hc)
          exact ⟨i + 1, j + 1, bi, bj, by omega, by simpa using h2, by simpa using h3, h4, h5⟩
    have hmem : j ∈ idx := (h2 j).mpr ⟨bj, hj, .inr ⟨i, bi, hij, hi, by rw [hfi, hfj]⟩⟩
    rw [List.mem_map]
    refine ⟨(bj.filter, bj.flux, bj.error), List.mem_filterMap.mpr ⟨j, hmem, by rw [hj]; rfl⟩, hfj⟩
  · intro h
    simp [initMapping, mappingLoop_once bands exclude h]

/-- The first `g` is excluded, the second stays; `r`, which is not excluded, may be repeated. -/
example : ((initMapping [⟨['g'], ['1'], ['e'], 3, false⟩, ⟨['r'], ['2'], ['e'], 5, true⟩, ⟨['g'], ['3'], ['e'], 3, false⟩, ⟨['r'], ['4'], ['e'], 5, true⟩] [['g']] ({} : Mapping Nat)).1.mapping) =
    [(['r'], ['2'], ['e']), (['g'], ['3'], ['e']), (['r'], ['4'], ['e'])] := by decide

end Alexandria.Configuration
