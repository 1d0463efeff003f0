import Mathlib.Data.List.Lex
import Mathlib.Data.Char
import Mathlib.Data.List.Basic
import Mathlib.Tactic.ByContra
import Verif.Catalog.Model
import Verif.Table.CastProps

/-!
# Catalogs and sources: C50, C52, C53, C99, C100, C101
-/

namespace Alexandria.Catalog

open Alexandria.Str Alexandria.Table

variable {K F D A : Type}

/-! ## C50: the catalog -/

theorem int64_antisymm (a b : Int64) (h1 : ¬ a < b) (h2 : ¬ b < a) : a = b := by
  apply Int64.toInt_inj.1
  rw [Int64.lt_iff_toInt_lt] at h1 h2
  omega

theorem id_equiv (a b : Id) : a.equiv b = true ↔ a = b := by
  unfold Id.equiv
  cases a with
  | num a =>
    cases b with
    | num b =>
      simp only [Id.less, Bool.and_eq_true, Bool.not_eq_true', decide_eq_false_iff_not, Id.num.injEq]
      constructor
      · rintro ⟨h1, h2⟩; exact int64_antisymm a b h1 h2
      · rintro rfl
        exact ⟨fun h => by rw [Int64.lt_iff_toInt_lt] at h; omega, fun h => by rw [Int64.lt_iff_toInt_lt] at h; omega⟩
    | str b => simp [Id.less]
  | str a =>
    cases b with
    | num b => simp [Id.less]
    | str b =>
      simp only [Id.less, Bool.and_eq_true, Bool.not_eq_true', decide_eq_false_iff_not, Id.str.injEq]
      constructor
      · rintro ⟨h1, h2⟩
        exact le_antisymm (not_lt.1 h2) (not_lt.1 h1)
      · rintro rfl
        exact ⟨lt_irrefl _, lt_irrefl _⟩

theorem mapFind_cons (m : List (Id × Nat)) (a id : Id) (i : Nat) : mapFind ((a, i) :: m) id = if a = id then some i else mapFind m id := by
  unfold mapFind
  by_cases h : a = id
  · rw [if_pos h, List.find?_cons_of_pos (by exact (id_equiv a id).2 h)]; rfl
  · rw [if_neg h, List.find?_cons_of_neg (by intro hc; exact h ((id_equiv a id).1 hc))]

/-- The map knows the positions of the sources seen. -/
def Known (pre : List (Source A)) (m : List (Id × Nat)) : Prop :=
  (pre.map Source.id).Nodup ∧ ∀ id i, mapFind m id = some i ↔ ∃ s, pre[i]? = some s ∧ s.id = id

theorem index_spec : ∀ (l pre : List (Source A)) (m : List (Id × Nat)), Known pre m →
    (((pre ++ l).map Source.id).Nodup → ∃ m', indexSources l pre.length m = .ok m' ∧ Known (pre ++ l) m') ∧
    (¬ ((pre ++ l).map Source.id).Nodup → indexSources l pre.length m = .throw .elements) := by
  intro l
  induction l with
  | nil =>
    intro pre m h
    rw [List.append_nil]
    exact ⟨fun _ => ⟨m, rfl, h⟩, fun hn => absurd h.1 hn⟩
  | cons s l ih =>
    intro pre m h
    rw [indexSources]
    cases hf : mapFind m s.id with
    | some i =>
      have he : emplace m s.id pre.length = (m, false) := by unfold emplace; rw [hf]
      rw [he]
      obtain ⟨s', h1, h2⟩ := (h.2 s.id i).1 hf
      refine ⟨fun hn => ?_, fun _ => rfl⟩
      rw [List.map_append, List.map_cons, List.nodup_append] at hn
      exact absurd h2 (hn.2.2 s'.id (List.mem_map_of_mem (List.mem_of_getElem? h1)) s.id (by simp))
    | none =>
      have he : emplace m s.id pre.length = ((s.id, pre.length) :: m, true) := by unfold emplace; rw [hf]
      rw [he]
      simp only [if_true]
      have hnew : ∀ t ∈ pre, t.id ≠ s.id := by
        intro t ht hc
        obtain ⟨i, hi⟩ := List.mem_iff_getElem?.1 ht
        rw [(h.2 s.id i).2 ⟨t, hi, hc⟩] at hf
        cases hf
      have hk : Known (pre ++ [s]) ((s.id, pre.length) :: m) := by
        constructor
        · rw [List.map_append, List.nodup_append]
          refine ⟨h.1, by simp, ?_⟩
          intro a ha b hb
          obtain ⟨t, ht, rfl⟩ := List.mem_map.1 ha
          simp at hb
          subst hb
          exact hnew t ht
        · intro id i
          rw [mapFind_cons]
          by_cases hid : s.id = id
          · rw [if_pos hid]
            constructor
            · intro hi
              cases hi
              exact ⟨s, by simp, hid⟩
            · rintro ⟨t, ht, htid⟩
              by_cases hlt : i < pre.length
              · rw [List.getElem?_append_left hlt] at ht
                exact absurd (htid.trans hid.symm) (hnew t (List.mem_of_getElem? ht))
              · have hl := (List.getElem?_eq_some_iff.1 ht).1
                simp at hl
                have : i = pre.length := by omega
                rw [this]
          · rw [if_neg hid, h.2]
            constructor
            · rintro ⟨t, ht, htid⟩
              exact ⟨t, by rw [List.getElem?_append_left (List.getElem?_eq_some_iff.1 ht).1]; exact ht, htid⟩
            · rintro ⟨t, ht, htid⟩
              by_cases hlt : i < pre.length
              · rw [List.getElem?_append_left hlt] at ht
                exact ⟨t, ht, htid⟩
              · have hl := (List.getElem?_eq_some_iff.1 ht).1
                simp at hl
                have : i = pre.length := by omega
                subst this
                simp at ht
                subst ht
                exact absurd htid hid
      have := ih (pre ++ [s]) _ hk
      rw [List.append_assoc] at this
      simpa using this

/-- A catalog cannot be made of sources with the same identification. -/
theorem C50_throws (l : List (Source A)) (h : ¬ (l.map Source.id).Nodup) : mkCat l = .throw .elements := by
  have := (index_spec l [] [] ⟨List.nodup_nil, by simp [mapFind]⟩).2 (by simpa using h)
  rw [mkCat]
  simp only [List.length_nil] at this
  rw [this]
  rfl

/-- A catalog contains the sources it was made of, in their order, and finds them and only them. -/
theorem C50_find (l : List (Source A)) (h : (l.map Source.id).Nodup) : ∃ c, mkCat l = .ok c ∧ c.sources = l ∧ c.size = l.length ∧
    (∀ s ∈ l, c.find s.id = .ok (some s)) ∧ (∀ id, (∀ s ∈ l, s.id ≠ id) → c.find id = .ok none) := by
  obtain ⟨m, h1, h2⟩ := (index_spec l [] [] ⟨List.nodup_nil, by simp [mapFind]⟩).1 (by simpa using h)
  simp only [List.length_nil, List.nil_append] at h1 h2
  refine ⟨⟨l, m⟩, by rw [mkCat, h1]; rfl, rfl, rfl, ?_, ?_⟩
  · intro s hs
    obtain ⟨i, hi⟩ := List.mem_iff_getElem?.1 hs
    unfold Cat.find
    simp only [(h2.2 s.id i).2 ⟨s, hi, rfl⟩, hi]
  · intro id hid
    unfold Cat.find
    cases hf : mapFind m id with
    | none => rfl
    | some i =>
      obtain ⟨s, hs, hsid⟩ := (h2.2 id i).1 hf
      exact absurd hsid (hid s (List.mem_of_getElem? hs))

example : ((([⟨.num 3, [some 1]⟩, ⟨.str "a".toList, []⟩] : List (Source Nat))).map Source.id).Nodup := by decide

example : ¬ ((([⟨.num 3, [some 1]⟩, ⟨.num 3, []⟩] : List (Source Nat))).map Source.id).Nodup := by decide

/-! ## C100: attributes of a source -/

/-- The attribute of a type is the first one that has the type. -/
theorem C100_attribute {T : Type} (cast : A → Option T) (l : List (Option A)) :
    (∀ t, getAttribute cast l = some t ↔ ∃ pre a post, l = pre ++ some a :: post ∧ cast a = some t ∧ ∀ b, some b ∈ pre → cast b = none) ∧
    (getAttribute cast l = none ↔ ∀ a, some a ∈ l → cast a = none) := by
  induction l with
  | nil => exact ⟨fun t => by simp [getAttribute], by simp [getAttribute]⟩
  | cons x l ih =>
    rw [getAttribute]
    cases hx : x.bind cast with
    | some u =>
      obtain ⟨a, rfl, ha⟩ := Option.bind_eq_some_iff.1 hx
      simp only
      constructor
      · intro t
        constructor
        · intro h
          cases h
          exact ⟨[], a, l, rfl, ha, by simp⟩
        · rintro ⟨pre, b, post, h1, h2, h3⟩
          cases pre with
          | nil =>
            simp at h1
            rw [← h1.1, ha] at h2
            exact h2
          | cons y pre =>
            simp at h1
            have := h3 a (by rw [← h1.1]; simp)
            rw [ha] at this
            cases this
      · simp only [reduceCtorEq, false_iff, not_forall]
        exact ⟨a, by simp, by rw [ha]; simp⟩
    | none =>
      simp only
      have hxn : ∀ b, x = some b → cast b = none := by
        rintro b rfl
        simpa using hx
      constructor
      · intro t
        rw [ih.1]
        constructor
        · rintro ⟨pre, a, post, rfl, h2, h3⟩
          refine ⟨x :: pre, a, post, rfl, h2, ?_⟩
          intro b hb
          rcases List.mem_cons.1 hb with hb | hb
          · exact hxn b hb.symm
          · exact h3 b hb
        · rintro ⟨pre, a, post, h1, h2, h3⟩
          cases pre with
          | nil =>
            simp at h1
            rw [hxn a h1.1] at h2
            cases h2
          | cons y pre =>
            simp at h1
            exact ⟨pre, a, post, h1.2, h2, fun b hb => h3 b (List.mem_cons_of_mem _ hb)⟩
      · rw [ih.2]
        constructor
        · intro h a ha
          rcases List.mem_cons.1 ha with ha | ha
          · exact hxn a ha.symm
          · exact h a ha
        · intro h a ha
          exact h a (List.mem_cons_of_mem _ ha)

example : getAttribute (fun n => if n > 5 then some (n * 2) else none) [none, some 3, some 7, some 8] = some 14 := by decide

/-! ## C52: equality of photometric values -/

section
variable [Field K] [LinearOrder K]

theorem eq_comm' (a b : Dbl K) : a.eq b = b.eq a := by
  cases a <;> cases b <;> simp [Dbl.eq, eq_comm, Bool.beq_comm]

theorem eq_iff (a b : Dbl K) : a.eq b = true ↔ a = b ∧ a ≠ .nan := by
  cases a <;> cases b <;> simp [Dbl.eq]

/-- The equality is symmetric. -/
theorem C52_symmetric (a b : FluxError K) : a.same b = b.same a := by
  unfold FluxError.same
  rw [eq_comm' a.flux, eq_comm' a.error, Bool.and_comm a.missing, Bool.beq_comm (a := a.upper)]

/-- The equality is reflexive on pairs that are missing or contain no NaN. -/
theorem C52_reflexive_partial (a : FluxError K) : a.same a = true ↔ a.missing = true ∨ (a.flux ≠ .nan ∧ a.error ≠ .nan) := by
  unfold FluxError.same
  simp [eq_iff]

/-- The equality is transitive except if the pair in the middle and exactly one of the others are missing. -/
theorem C52_transitive_partial (a b c : FluxError K) (h1 : a.same b = true) (h2 : b.same c = true) (h : b.missing = true → a.missing = c.missing) : a.same c = true := by
  unfold FluxError.same at *
  simp only [Bool.or_eq_true, Bool.and_eq_true, eq_iff, beq_iff_eq] at *
  rcases h1 with ⟨h1, h1'⟩ | ⟨⟨⟨h1, h1'⟩, h3, h3'⟩, h4⟩
  · exact Or.inl ⟨h1, by rw [← h h1']; exact h1⟩
  · rcases h2 with ⟨h2, h2'⟩ | ⟨⟨⟨h2, h2'⟩, h5, h5'⟩, h6⟩
    · exact Or.inl ⟨by rw [h h2]; exact h2', h2'⟩
    · exact Or.inr ⟨⟨⟨h1.trans h2, h1'⟩, h3.trans h5, h3'⟩, h4.trans h6⟩

/-- Exactly when the equality is not transitive: the pair in the middle and just one of the others are missing, and the two others differ in the flux, the error or the upper limit flag. -/
theorem C52_transitive_iff (a b c : FluxError K) (h1 : a.same b = true) (h2 : b.same c = true) :
    a.same c = false ↔ b.missing = true ∧ a.missing ≠ c.missing ∧ ¬ (a.flux = c.flux ∧ a.error = c.error ∧ a.upper = c.upper) := by
  constructor
  · intro h
    refine ⟨?_, ?_, ?_⟩
    · by_contra hb
      rw [C52_transitive_partial a b c h1 h2 (fun e => absurd e hb)] at h
      cases h
    · intro hac
      rw [C52_transitive_partial a b c h1 h2 (fun _ => hac)] at h
      cases h
    · rintro ⟨e1, e2, e3⟩
      have hm : a.missing = false ∨ c.missing = false := by
        unfold FluxError.same at h
        cases ha : a.missing
        · exact Or.inl rfl
        · cases hc : c.missing
          · exact Or.inr rfl
          · rw [ha, hc] at h; simp at h
      have hnan : a.flux ≠ .nan ∧ a.error ≠ .nan := by
        rcases hm with hm | hm
        · unfold FluxError.same at h1
          simp only [hm, Bool.false_and, Bool.false_or, Bool.and_eq_true, eq_iff, beq_iff_eq] at h1
          exact ⟨h1.1.1.2, h1.1.2.2⟩
        · unfold FluxError.same at h2
          simp only [hm, Bool.and_false, Bool.false_or, Bool.and_eq_true, eq_iff, beq_iff_eq] at h2
          rw [e1, e2]
          exact ⟨h2.1.1.1 ▸ h2.1.1.2, h2.1.2.1 ▸ h2.1.2.2⟩
      have : a.same c = true := by
        unfold FluxError.same
        simp only [Bool.or_eq_true, Bool.and_eq_true, eq_iff, beq_iff_eq]
        exact Or.inr ⟨⟨⟨e1, hnan.1⟩, e2, hnan.2⟩, e3⟩
      rw [this] at h
      cases h
  · rintro ⟨-, hm, hv⟩
    rw [← Bool.not_eq_true]
    intro h
    unfold FluxError.same at h
    simp only [Bool.or_eq_true, Bool.and_eq_true, eq_iff, beq_iff_eq] at h
    rcases h with ⟨h3, h4⟩ | ⟨⟨⟨h3, -⟩, h4, -⟩, h5⟩
    · exact hm (h3.trans h4.symm)
    · exact hv ⟨h3, h4, h5⟩

/-- Equal ordinary values agree in everything that is compared. -/
theorem C52_equal (a b : FluxError K) (h : a.missing = false) : a.same b = true → a.flux = b.flux ∧ a.error = b.error ∧ a.upper = b.upper := by
  unfold FluxError.same
  simp only [h, Bool.false_and, Bool.false_or, Bool.and_eq_true, eq_iff, beq_iff_eq]
  rintro ⟨⟨⟨h1, _⟩, h3, _⟩, h4⟩
  exact ⟨h1, h3, h4⟩

end

/-- The claim. -/
def C52_full : Prop := (∀ a : FluxError ℚ, a.same a = true) ∧ (∀ a b : FluxError ℚ, a.same b = b.same a) ∧
  ∀ a b c : FluxError ℚ, a.same b = true → b.same c = true → a.same c = true

/-- The equality is not transitive. -/
theorem C52_violated : ¬ C52_full := fun h =>
  absurd (h.2.2 ⟨.num 2, .num 2, true, false⟩ ⟨.num 1, .num 1, true, false⟩ ⟨.num 1, .num 1, false, false⟩ (by decide +kernel) (by decide +kernel)) (by decide +kernel)

/-- The equality is not reflexive. -/
theorem C52_violated_nan : ¬ C52_full := fun h => absurd (h.1 ⟨.nan, .num 1, false, false⟩) (by decide +kernel)

example : (⟨.num 2, .num 2, true, false⟩ : FluxError ℚ).same ⟨.num 1, .num 1, true, false⟩ = true := by decide +kernel

/-! ## C53: photometry -/

/-- A photometry has as many values as names. -/
theorem C53_construct (names : List Bytes) (vs : List (FluxError K)) :
    (names.length = vs.length → mkPhotometry (some names) vs = .ok ⟨names, vs⟩) ∧ (names.length ≠ vs.length → mkPhotometry (some names) vs = .throw .elements) ∧
      mkPhotometry none vs = .throw .elements := by
  refine ⟨fun h => ?_, fun h => ?_, rfl⟩
  · rw [mkPhotometry, if_neg (by simpa using h)]
  · rw [mkPhotometry, if_pos h]

theorem findLoop_spec (name : Bytes) : ∀ (ns : List Bytes) (vs : List (FluxError K)), ns.length = vs.length →
    (∀ i : Nat, ns[i]? = some name → (∀ j < i, ns[j]? ≠ some name) → findLoop name ns vs = .ok vs[i]?) ∧ (name ∉ ns → findLoop name ns vs = .ok none) := by
  intro ns
  induction ns with
  | nil => intro vs _; exact ⟨fun i h => by simp at h, fun _ => rfl⟩
  | cons n ns ih =>
    intro vs h
    cases vs with
    | nil => simp at h
    | cons v vs =>
      obtain ⟨h1, h2⟩ := ih vs (by simpa using h)
      rw [findLoop]
      constructor
      · intro i hi hj
        cases i with
        | zero =>
          simp at hi
          rw [if_pos hi]
          rfl
        | succ i =>
          have hn : n ≠ name := fun hc => hj 0 (by omega) (by simp [hc])
          rw [if_neg hn]
          simp only [List.getElem?_cons_succ] at hi ⊢
          exact h1 i hi fun j hlt => by simpa using hj (j + 1) (by omega)
      · intro hm
        rw [if_neg (fun hc => hm (by simp [hc]))]
        exact h2 fun hc => hm (List.mem_cons_of_mem _ hc)

/-- The value found for a name is the one at the first position of the name. -/
theorem C53_find (names : List Bytes) (vs : List (FluxError K)) (p : Photometry K) (hp : mkPhotometry (some names) vs = .ok p) (name : Bytes) :
    (∀ i : Nat, names[i]? = some name → (∀ j < i, names[j]? ≠ some name) → ∃ v, vs[i]? = some v ∧ p.find name = .ok (some v)) ∧ (name ∉ names → p.find name = .ok none) := by
  by_cases h : names.length = vs.length
  · rw [(C53_construct names vs).1 h] at hp
    cases hp
    obtain ⟨h1, h2⟩ := findLoop_spec name names vs h
    refine ⟨fun i hi hj => ?_, h2⟩
    have hlt := (List.getElem?_eq_some_iff.1 hi).1
    refine ⟨vs[i], List.getElem?_eq_getElem (by omega), ?_⟩
    rw [Photometry.find, h1 i hi hj, List.getElem?_eq_getElem (by omega)]
  · rw [(C53_construct names vs).2.1 h] at hp
    cases hp

theorem iterate_spec (p : Photometry K) (h : p.names.length = p.values.length) : ∀ (k i : Nat), i + k = p.names.length →
    p.iterate k ⟨i, i⟩ = .ok ((p.names.zip p.values).drop i) := by
  intro k
  induction k with
  | zero =>
    intro i hi
    rw [Photometry.iterate, if_neg (by simp [PIter.differs, Photometry.end']; omega), List.drop_eq_nil_of_le (by simp; omega)]
  | succ k ih =>
    intro i hi
    rw [Photometry.iterate, if_pos (by simp [PIter.differs, Photometry.end']; omega), Photometry.deref]
    simp only
    rw [List.getElem?_eq_getElem (by omega : i < p.names.length), List.getElem?_eq_getElem (by omega : i < p.values.length)]
    simp only [Outcome.bind_ok]
    rw [Photometry.next, if_pos (by simp only; omega), Outcome.bind_ok, ih (i + 1) (by omega), Outcome.bind_ok,
      List.drop_eq_getElem_cons (by simp; omega : i < (p.names.zip p.values).length)]
    simp

/-- The iteration gives each name with the value at the same position. -/
theorem C53_iterate (names : List Bytes) (vs : List (FluxError K)) (p : Photometry K) (hp : mkPhotometry (some names) vs = .ok p) :
    p.size = names.length ∧ p.iterate p.size p.begin' = .ok (names.zip vs) := by
  by_cases h : names.length = vs.length
  · rw [(C53_construct names vs).1 h] at hp
    cases hp
    exact ⟨rfl, by simpa [Photometry.size, Photometry.begin'] using iterate_spec (⟨names, vs⟩ : Photometry K) h names.length 0 (by simp)⟩
  · rw [(C53_construct names vs).2.1 h] at hp
    cases hp

/-- A value assigned through an iterator is found under the name at its position, the values of all other names are kept. -/
theorem C53_assign (names : List Bytes) (vs : List (FluxError K)) (p q : Photometry K) (hp : mkPhotometry (some names) vs = .ok p) (hn : names.Nodup)
    (i : Nat) (n : Bytes) (hi : names[i]? = some n) (v : FluxError K) (hq : p.assign ⟨i, i⟩ v = .ok q) :
    q.find n = .ok (some v) ∧ ∀ m ≠ n, q.find m = p.find m := by
  by_cases h : names.length = vs.length
  · have hp' := hp
    rw [(C53_construct names vs).1 h] at hp
    cases hp
    rw [Photometry.assign] at hq
    split at hq
    · rename_i hlt
      cases hq
      have hq' := (C53_construct names (vs.set i v)).1 (by simpa using h)
      have huniq : ∀ (m : Bytes) (k : Nat), names[k]? = some m → ∀ j < k, names[j]? ≠ some m := by
        intro m k hk j hj hc
        have hkl := (List.getElem?_eq_some_iff.1 hk).1
        have := (List.Nodup.getElem_inj_iff hn (hi := by omega) (hj := hkl)).1 ((List.getElem?_eq_some_iff.1 hc).2.trans (List.getElem?_eq_some_iff.1 hk).2.symm)
        omega
      constructor
      · obtain ⟨w, hw, hf⟩ := (C53_find names _ _ hq' n).1 i hi (huniq n i hi)
        rw [List.getElem?_set_self (by simpa using hlt)] at hw
        cases hw
        exact hf
      · intro m hm
        by_cases hmem : m ∈ names
        · obtain ⟨k, hk⟩ := List.mem_iff_getElem?.1 hmem
          obtain ⟨w, hw, hf⟩ := (C53_find names _ _ hq' m).1 k hk (huniq m k hk)
          obtain ⟨w', hw', hf'⟩ := (C53_find names _ _ hp' m).1 k hk (huniq m k hk)
          have hne : i ≠ k := by
            rintro rfl
            rw [hi] at hk
            exact hm (Option.some.inj hk).symm
          rw [List.getElem?_set_ne hne, hw'] at hw
          cases hw
          exact hf.trans hf'.symm
        · exact ((C53_find names _ _ hq' m).2 hmem).trans ((C53_find names _ _ hp' m).2 hmem).symm
    · cases hq
  · rw [(C53_construct names vs).2.1 h] at hp
    cases hp

example : (mkPhotometry (some ["a".toList, "b".toList]) [(⟨.num 2, .num 2, true, false⟩ : FluxError ℚ), ⟨.num 1, .num 1, true, false⟩]) = .ok
    ⟨["a".toList, "b".toList], [⟨.num 2, .num 2, true, false⟩, ⟨.num 1, .num 1, true, false⟩]⟩ := by rfl

/-! ## C99: a catalog from a table -/

/-- The identification in a cell: a text or an integer. -/
inductive IdOf : Cell F D → Id → Prop
  | str (s : Bytes) : IdOf (.str s) (.str s)
  | i32 (v : Int32) (n : Int64) : Int64.toInt n = Int32.toInt v → IdOf (.scalar .i32 v) (.num n)
  | i64 (n : Int64) : IdOf (.scalar .i64 n) (.num n)

theorem castId_iff (c : Cell F D) (id : Id) : castId c = .ok id ↔ IdOf c id := by
  constructor
  · intro h
    unfold castId at h
    split at h
    · cases h; exact .str _
    · cases h; exact .i32 _ _ (Int32.toInt_toInt64 _)
    · cases h; exact .i64 _
    · cases h
  · intro h
    cases h with
    | str s => rfl
    | i32 v n h => rw [castId]; congr 2; exact Int64.toInt_inj.1 (by rw [Int32.toInt_toInt64]; exact h.symm)
    | i64 n => rfl

theorem castId_throw (c : Cell F D) (h : ∀ id, ¬ IdOf c id) : castId c = .throw .elements := by
  cases hc : castId c with
  | ok id => exact absurd ((castId_iff c id).1 hc) (h id)
  | throw e => unfold castId at hc; split at hc <;> cases hc; rfl
  | ub => unfold castId at hc; split at hc <;> cases hc

theorem attributes_iff (row : RowT F D) : ∀ (ms : List (RowT F D → Res (Option A))) (l : List (Option A)),
    attributesLoop row ms = .ok l ↔ List.Forall₂ (fun m a => m row = .ok a) ms l := by
  intro ms
  induction ms with
  | nil => intro l; simp [attributesLoop, eq_comm]
  | cons m ms ih =>
    intro l
    rw [attributesLoop, bind_eq_ok']
    simp only [bind_eq_ok', ih, List.forall₂_cons_left_iff]
    constructor
    · rintro ⟨a, h1, l', h2, h3⟩
      cases h3
      exact ⟨a, l', h1, h2, rfl⟩
    · rintro ⟨a, l', h1, h2, rfl⟩
      exact ⟨a, h1, l', h2, rfl⟩

/-- The source of a row. -/
def SourceOf (idIndex : Nat) (makers : List (RowT F D → Res (Option A))) (row : RowT F D) (s : Source A) : Prop :=
  (∃ c, row.values[idIndex]? = some c ∧ IdOf c s.id) ∧ List.Forall₂ (fun m a => m row = .ok a) makers s.attributes

theorem get_iff (row : RowT F D) (i : Nat) (c : Cell F D) : row.get i = .ok c ↔ row.values[i]? = some c := by
  unfold RowT.get
  cases row.values[i]? <;> simp

theorem sources_iff (f : FromTable F D A) : ∀ (rows : List (RowT F D)) (ss : List (Source A)),
    sourcesLoop f rows = .ok ss ↔ List.Forall₂ (SourceOf f.idIndex f.makers) rows ss := by
  intro rows
  induction rows with
  | nil => intro l; simp [sourcesLoop, eq_comm]
  | cons row rows ih =>
    intro ss
    rw [sourcesLoop, bind_eq_ok']
    simp only [bind_eq_ok', ih, List.forall₂_cons_left_iff, get_iff, castId_iff, attributes_iff, SourceOf]
    constructor
    · rintro ⟨c, h1, id, h2, l, h3, ss', h4, h5⟩
      cases h5
      exact ⟨⟨id, l⟩, ss', ⟨⟨c, h1, h2⟩, h3⟩, h4, rfl⟩
    · rintro ⟨⟨id, l⟩, ss', ⟨⟨c, h1, h2⟩, h3⟩, h4, rfl⟩
      exact ⟨c, h1, id, h2, l, h3, ss', h4, rfl⟩

/-- A catalog is made of a table exactly if every row has an integer or a text in the column of the identifications, these are different and all attributes can be made.
The catalog then consists of the sources of the rows, in their order. -/
theorem C99_create (info : Info) (idColumn : Bytes) (makers : List (RowT F D → Res (Option A))) (f : FromTable F D A) (hf : mkFromTable info idColumn makers = .ok f)
    (t : TableT F D) (l : List (Source A)) :
    (∃ c, f.create t = .ok c ∧ c.sources = l) ↔
      ∃ i, findColumn info idColumn = some i ∧ List.Forall₂ (SourceOf i makers) t.rows l ∧ (l.map Source.id).Nodup := by
  unfold mkFromTable at hf
  cases hi : findColumn info idColumn with
  | none => rw [hi] at hf; cases hf
  | some i =>
    rw [hi] at hf
    cases hf
    simp only [FromTable.create, bind_eq_ok', sources_iff]
    constructor
    · rintro ⟨c, ⟨ss, h1, h2⟩, h3⟩
      by_cases hn : (ss.map Source.id).Nodup
      · obtain ⟨c', h4, h5, _⟩ := C50_find ss hn
        rw [h4] at h2
        cases h2
        rw [h5] at h3
        subst h3
        exact ⟨i, rfl, h1, hn⟩
      · rw [C50_throws ss hn] at h2
        cases h2
    · rintro ⟨j, h1, h2, h3⟩
      cases h1
      obtain ⟨c', h4, h5, _⟩ := C50_find l h3
      exact ⟨c', ⟨l, h2, h4⟩, h5⟩

/-- The maker of catalogs cannot be made without the column. -/
theorem C99_column (info : Info) (idColumn : Bytes) (makers : List (RowT F D → Res (Option A))) :
    (∃ f, mkFromTable info idColumn makers = .ok f) ↔ idColumn ∈ info.map Desc.name := by
  unfold mkFromTable
  cases hi : findColumn info idColumn with
  | none =>
    simp only [reduceCtorEq, exists_false, false_iff]
    intro hc
    obtain ⟨d, hd, hn⟩ := List.mem_map.1 hc
    rw [findColumn, List.findIdx?_eq_none_iff] at hi
    simpa [hn] using hi d hd
  | some i =>
    simp only [Outcome.ok.injEq, exists_eq', true_iff]
    rw [findColumn, List.findIdx?_eq_some_iff_getElem] at hi
    obtain ⟨h, h1, _⟩ := hi
    exact List.mem_map.2 ⟨info[i], List.getElem_mem h, by simpa using h1⟩

/-- A catalog of two rows. -/
example : (do
    let f ← mkFromTable (F := Unit) (D := Unit) (A := Nat) [⟨"x".toList, .str, [], []⟩, ⟨"id".toList, .scalar .i64, [], []⟩] "id".toList [fun row => .ok (some row.values.length)]
    let c ← f.create ⟨[⟨[.str "a".toList, .scalar .i64 7], []⟩, ⟨[.str "b".toList, .scalar .i64 8], []⟩], []⟩
    let s ← c.find (.num 8)
    return (c.size, s.map fun s => (s.id, s.attributes))) = (.ok (2, some (.num 8, [some 2])) : Res (Nat × Option (Id × List (Option Nat)))) := by rfl

/-- Two rows with identifications of the two integer types are the same source. -/
example : castId (.scalar .i32 7 : Cell Unit Unit) = castId (.scalar .i64 7 : Cell Unit Unit) := by rfl

/-- A table with a boolean column of identifications is rejected. -/
example : castId (.scalar .bool true : Cell Unit Unit) = .throw .elements := by rfl

/-! ## C101: densities and redshifts from a row -/

theorem pdf_iff {V : Type} (conv : Conv F D) (columns : List (Bytes × Bytes)) (row : RowT F D) : ∀ (keys : List (Bytes × List V)) (r : List (Bytes × List V × List D)),
    pdfLoop conv columns row keys = .ok r ↔ List.Forall₂ (fun k p => p.1 = k.1 ∧ p.2.1 = k.2 ∧ p.2.2.length = k.2.length ∧
      ∃ col c, columns.lookup k.1 = some col ∧ row.getByName col = .ok c ∧ castVec conv .f64 c = .ok p.2.2) keys r := by
  intro keys
  induction keys with
  | nil => intro r; simp [pdfLoop, eq_comm]
  | cons k keys ih =>
    obtain ⟨name, knots⟩ := k
    intro r
    rw [pdfLoop, List.forall₂_cons_left_iff]
    cases hl : columns.lookup name with
    | none =>
      simp only [reduceCtorEq, false_iff]
      rintro ⟨b, l, ⟨_, _, _, col, c, h, _⟩, _⟩
      simp [hl] at h
    | some col =>
      simp only [bind_eq_ok']
      constructor
      · rintro ⟨c, h1, data, h2, h3⟩
        by_cases hn : data.length ≠ knots.length
        · rw [if_pos hn] at h3; cases h3
        · rw [if_neg hn, bind_eq_ok'] at h3
          obtain ⟨r', h4, h5⟩ := h3
          cases h5
          exact ⟨(name, knots, data), r', ⟨rfl, rfl, by simpa using hn, col, c, by simp [hl], h1, h2⟩, (ih r').1 h4, rfl⟩
      · rintro ⟨⟨n', k', data⟩, r', ⟨e1, e2, e3, col', c, h1, h2, h3⟩, h4, rfl⟩
        simp only at e1 e2 e3 h1 h3
        subst e1 e2
        first | rw [hl] at h1 | skip
        cases h1
        refine ⟨c, h2, data, h3, ?_⟩
        rw [if_neg (by simpa using e3), (ih r').2 h4]
        rfl

theorem forall₂_lookup {α β : Type} {R : Bytes × α → Bytes × β → Prop} (hR : ∀ x y, R x y → y.1 = x.1) : ∀ (l : List (Bytes × α)) (r : List (Bytes × β)), List.Forall₂ R l r →
    (l.map Prod.fst).Nodup → ∀ k ∈ l, ∃ v, r.lookup k.1 = some v ∧ R k (k.1, v) := by
  intro l r h
  induction h with
  | nil => intro _ k hk; cases hk
  | @cons x y l r hxy h ih =>
    intro hn k hk
    obtain ⟨y1, y2⟩ := y
    have hy : y1 = x.1 := hR _ _ hxy
    subst hy
    simp only [List.map_cons, List.nodup_cons] at hn
    rcases List.mem_cons.1 hk with rfl | hk
    · exact ⟨y2, by simp, hxy⟩
    · obtain ⟨v, h1, h2⟩ := ih hn.2 k hk
      refine ⟨v, ?_, h2⟩
      have hne : (k.1 == x.1) = false := by
        simp only [beq_eq_false_iff_ne]
        intro hc
        exact hn.1 (by rw [← hc]; exact List.mem_map_of_mem hk)
      rw [List.lookup_cons, hne]
      exact h1

/-- The density of each name has the knots given for the name and the values of its column, as many as knots. -/
theorem C101_pdf {V : Type} (conv : Conv F D) (columns : List (Bytes × Bytes)) (row : RowT F D) (keys : List (Bytes × List V)) (hk : (keys.map Prod.fst).Nodup)
    (r : List (Bytes × List V × List D)) (h : pdfLoop conv columns row keys = .ok r) :
    ∀ name knots, (name, knots) ∈ keys → ∃ (data : List D) (col : Bytes) (c : Cell F D), getPdf r name = .ok (knots, data) ∧ data.length = knots.length ∧
      columns.lookup name = some col ∧ row.getByName col = .ok c ∧ castVec conv .f64 c = .ok data := by
  intro name knots hm
  obtain ⟨v, h1, h2⟩ := forall₂_lookup (fun x y h => h.1) keys r ((pdf_iff conv columns row keys r).1 h) hk _ hm
  obtain ⟨_, h3, h4, col, c, h5, h6, h7⟩ := h2
  simp only at h1 h3 h4 h5 h7
  refine ⟨v.2, col, c, ?_, h4, h5, h6, h7⟩
  unfold getPdf
  rw [h1, ← h3]

/-- Names without knots have no density: asking for one throws. -/
theorem C101_no_pdf {V : Type} (conv : Conv F D) (columns : List (Bytes × Bytes)) (row : RowT F D) (keys : List (Bytes × List V))
    (r : List (Bytes × List V × List D)) (h : pdfLoop conv columns row keys = .ok r) (name : Bytes) (hn : name ∉ keys.map Prod.fst) :
    getPdf r name = .throw .outOfRange := by
  have h' := (pdf_iff conv columns row keys r).1 h
  have hl : r.lookup name = none := by
    clear h
    induction h' with
    | nil => rfl
    | @cons x y l r hxy h' ih =>
      obtain ⟨y1, y2⟩ := y
      have hy : x.1 = y1 := hxy.1.symm
      subst hy
      simp only [List.map_cons, List.mem_cons, not_or] at hn
      rw [List.lookup_cons, beq_eq_false_iff_ne.mpr hn.1]
      exact ih hn.2
  unfold getPdf
  rw [hl]

/-- The attribute can be made exactly if each name has a column with as many numbers as knots. -/
theorem C101_exists {V : Type} (conv : Conv F D) (columns : List (Bytes × Bytes)) (row : RowT F D) (keys : List (Bytes × List V)) :
    (∃ r, pdfLoop conv columns row keys = .ok r) ↔ ∀ k ∈ keys, ∃ (data : List D) (col : Bytes) (c : Cell F D), data.length = k.2.length ∧
      columns.lookup k.1 = some col ∧ row.getByName col = .ok c ∧ castVec conv .f64 c = .ok data := by
  simp only [pdf_iff]
  constructor
  · rintro ⟨r, h⟩ k hk
    induction h with
    | nil => cases hk
    | @cons x y l r hxy h ih =>
      rcases List.mem_cons.1 hk with rfl | hk
      · obtain ⟨_, _, h1, col, c, h2, h3, h4⟩ := hxy
        exact ⟨_, col, c, h1, h2, h3, h4⟩
      · exact ih hk
  · intro h
    induction keys with
    | nil => exact ⟨[], .nil⟩
    | cons k keys ih =>
      obtain ⟨r, hr⟩ := ih fun k' hk' => h k' (List.mem_cons_of_mem _ hk')
      obtain ⟨data, col, c, h1, h2, h3, h4⟩ := h k (by simp)
      exact ⟨(k.1, k.2, data) :: r, .cons ⟨rfl, rfl, h1, col, c, h2, h3, h4⟩ hr⟩

/-- A density with two knots. -/
example (conv : Conv Unit Nat) : (do
    let r ← pdfLoop conv [("p".toList, "col".toList)] ⟨[.vec .f64 [4, 5]], [⟨"col".toList, .vec .f64, [], []⟩]⟩ [("p".toList, [true, false])]
    getPdf r "p".toList) = .ok ([true, false], [4, 5]) := by rfl

example (conv : Conv Unit Nat) := C101_no_pdf conv [("p".toList, "col".toList)] ⟨[.vec .f64 [4, 5]], [⟨"col".toList, .vec .f64, [], []⟩]⟩ [("p".toList, [true, false])] _ rfl
  "q".toList (by decide)

/-- The redshift and its error are the numbers in their columns, the error is zero without a column. -/
theorem C101_redshift [Field K] [LinearOrder K] (conv : Conv F (Dbl K)) (info : Info) (value : Bytes) (error : Option Bytes) (p : SpecFromRow) (hp : mkSpec info value error = .ok p)
    (row : RowT F (Dbl K)) (z e : Dbl K) :
    p.create conv row = .ok (z, e) ↔ ∃ i c, findColumn info value = some i ∧ row.values[i]? = some c ∧ castScalar conv .f64 c = .ok z ∧
      match error with
      | none => e = .num 0
      | some n => ∃ j d, findColumn info n = some j ∧ row.values[j]? = some d ∧ castScalar conv .f64 d = .ok e := by
  unfold mkSpec at hp
  cases hi : findColumn info value with
  | none => rw [hi] at hp; cases hp
  | some i =>
    rw [hi] at hp
    cases error with
    | none =>
      cases hp
      simp only [SpecFromRow.create, bind_eq_ok', get_iff]
      constructor
      · rintro ⟨c, h1, z', h2, h3⟩
        cases h3
        exact ⟨i, c, rfl, h1, h2, rfl⟩
      · rintro ⟨j, c, h1, h2, h3, rfl⟩
        cases h1
        exact ⟨c, h2, z, h3, rfl⟩
    | some n =>
      simp only at hp
      cases hj : findColumn info n with
      | none => rw [hj] at hp; cases hp
      | some j =>
        rw [hj] at hp
        cases hp
        simp only [SpecFromRow.create, bind_eq_ok', get_iff]
        constructor
        · rintro ⟨c, h1, z', h2, d, h3, e', h4, h5⟩
          cases h5
          exact ⟨i, c, rfl, h1, h2, j, d, hj, h3, h4⟩
        · rintro ⟨i', c, h1, h2, h3, j', d, h4, h5, h6⟩
          cases h1
          rw [hj] at h4
          cases h4
          exact ⟨c, h2, z, h3, d, h5, e, h6, rfl⟩

end Alexandria.Catalog
