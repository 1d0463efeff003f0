import Verif.XYDataset.Lemmas

/-! # Properties of qualified names and providers (C28-C30) -/

namespace Alexandria.XYDataset

open Str

/-! ## C28: qualified names -/

/-- The constructor accepts exactly the lists of parts, and the text of the name is the parts separated by slashes. -/
theorem C28_accepts (gs : List Bytes) (n : Bytes) :
    ((∃ q, mkName gs n = .ok q) ↔ (∀ g ∈ gs, Spec.Part g) ∧ Spec.Part n) ∧
    ∀ q, mkName gs n = .ok q → q.groups = gs ∧ q.name = n ∧ q.qname = Spec.text gs n := by
  refine ⟨⟨?_, ?_⟩, ?_⟩
  · rintro ⟨q, hq⟩
    by_contra h
    rw [mkName_bad h] at hq
    cases hq
  · rintro ⟨h1, h2⟩
    exact ⟨_, mkName_ok h1 h2⟩
  · intro q hq
    obtain ⟨hv, h1, h2⟩ := mkName_valid (h := fun _ => 0) hq
    exact ⟨h1, h2, by rw [hv.qname, h1, h2]⟩

/-- Parsing the text of a name gives the name again. -/
theorem C28_parse_text (gs : List Bytes) (n : Bytes) (q : QName) (hq : mkName gs n = .ok q) : parseName q.qname = .ok q := by
  obtain ⟨hv, h1, h2⟩ := mkName_valid (h := fun _ => 0) hq
  have hs := split_text hv.groups hv.name
  rw [← hv.qname] at hs
  unfold parseName getGroups getName
  rw [hs]
  have : (q.groups ++ [q.name]).getLastD [] = q.name := by
    rw [List.getLastD_eq_getLast?]; simp
  rw [List.dropLast_concat, this, h1, h2, hq]

/-- A string that is accepted is the text of the resulting name; so texts and names correspond one to one. -/
theorem C28_text_parse (s : Bytes) (q : QName) (hq : parseName s = .ok q) : q.qname = s := by
  obtain ⟨hv, h1, h2⟩ := mkName_valid (h := fun _ => 0) hq
  rw [hv.qname, h1, h2]
  unfold Spec.text getGroups getName
  have hne := splitChar_ne_nil '/' s
  have : (splitChar '/' s).dropLast ++ [(splitChar '/' s).getLastD []] = splitChar '/' s := by
    rw [List.getLastD_eq_getLast?, List.getLast?_eq_some_getLast hne]
    exact List.dropLast_append_getLast hne
  rw [this, splitChar_join]

/-- Two names are equal exactly when their groups and data set names are, whatever the hash function and whether or not the hashes
were computed before. -/
theorem C28_eq (h : Bytes → Nat) (a b : QName) (ha : a.Valid h) (hb : b.Valid h) :
    a.eq h b = true ↔ a.groups = b.groups ∧ a.name = b.name := by
  unfold QName.eq
  rw [ha.hash_eq, hb.hash_eq]
  constructor
  · intro he
    split at he
    · cases he
    · rw [decide_eq_true_eq, ha.qname, hb.qname] at he
      exact text_inj ha.groups ha.name hb.groups hb.name he
  · rintro ⟨h1, h2⟩
    have : a.qname = b.qname := by rw [ha.qname, hb.qname, h1, h2]
    rw [this]
    simp

/-- Computing the hash changes neither the name nor its validity. -/
theorem C28_hashed (h : Bytes → Nat) (a : QName) (ha : a.Valid h) : (a.hashed h).Valid h ∧ (a.hashed h).eq h a = true := by
  have hv : (a.hashed h).Valid h := ⟨ha.groups, ha.name, ha.qname, Or.inr ha.hash_eq⟩
  exact ⟨hv, (C28_eq h _ _ hv ha).mpr ⟨rfl, rfl⟩⟩

/-- The order of the maps is a strict total order, and names that it does not order are equal. -/
theorem C28_order (h : Bytes → Nat) (a b c : QName) (ha : a.Valid h) (hb : b.Valid h) (hc : c.Valid h) :
    a.lt h a = false ∧ (a.lt h b = true → b.lt h c = true → a.lt h c = true) ∧
    (a.lt h b = true ∨ a.eq h b = true ∨ b.lt h a = true) ∧ (a.lt h b = true → b.lt h a = false ∧ a.eq h b = false) := by
  have key : ∀ x y : QName, x.Valid h → y.Valid h → (x.lt h y = true ↔ h x.qname < h y.qname ∨ (h x.qname = h y.qname ∧ x.qname < y.qname)) := by
    intro x y hx hy
    unfold QName.lt
    rw [hx.hash_eq, hy.hash_eq]
    by_cases he : h x.qname = h y.qname
    · rw [if_neg (by simpa using he)]; simp [he]
    · rw [if_pos he]; simp [he]
  have keq : ∀ x y : QName, x.Valid h → y.Valid h → (x.eq h y = true ↔ x.qname = y.qname) := by
    intro x y hx hy
    unfold QName.eq
    rw [hx.hash_eq, hy.hash_eq]
    by_cases he : x.qname = y.qname
    · simp [he]
    · split <;> simp [he]
  refine ⟨?_, ?_, ?_, ?_⟩
  · rw [Bool.eq_false_iff, ne_eq, key a a ha ha]
    simp
  · rw [key a b ha hb, key b c hb hc, key a c ha hc]
    rintro (h1 | ⟨h1, h1'⟩) (h2 | ⟨h2, h2'⟩)
    · left; omega
    · left; omega
    · left; omega
    · right; exact ⟨by omega, lt_trans h1' h2'⟩
  · rw [key a b ha hb, key b a hb ha, keq a b ha hb]
    rcases Nat.lt_trichotomy (h a.qname) (h b.qname) with h1 | h1 | h1
    · left; left; exact h1
    · rcases lt_trichotomy a.qname b.qname with h2 | h2 | h2
      · left; right; exact ⟨h1, h2⟩
      · right; left; exact h2
      · right; right; right; exact ⟨h1.symm, h2⟩
    · right; right; left; exact h1
  · intro hab
    rw [Bool.eq_false_iff, ne_eq, key b a hb ha, Bool.eq_false_iff, ne_eq, keq a b ha hb]
    rw [key a b ha hb] at hab
    constructor
    · rintro (h2 | ⟨h2, h2'⟩)
      · rcases hab with h1 | ⟨h1, _⟩ <;> omega
      · rcases hab with h1 | ⟨_, h1'⟩
        · omega
        · exact lt_asymm h1' h2'
    · intro e
      rw [e] at hab
      rcases hab with h1 | ⟨_, h1⟩
      · omega
      · exact lt_irrefl _ h1

/-- `belongsInGroup`: the groups begin with the groups and the name of the argument; equivalently the text begins with the text of the
argument and a slash. It never throws. -/
theorem C28_belongs (h : Bytes → Nat) (q g : QName) (hq : q.Valid h) (hg : g.Valid h) :
    ∃ b, q.belongsInGroup g = .ok b ∧ (b = true ↔ g.groups ++ [g.name] <+: q.groups) ∧ (b = true ↔ g.qname ++ ['/'] <+: q.qname) := by
  have htext : g.qname ++ ['/'] <+: q.qname ↔ g.groups ++ [g.name] <+: q.groups := by
    have e : g.qname ++ ['/'] = enc (g.groups ++ [g.name]) := by
      rw [enc_append, hg.qname, text_eq]; simp [enc]
    rw [e, hq.qname, text_eq]
    apply enc_prefix
    · intro a ha
      rcases List.mem_append.mp ha with ha | ha
      · exact (hg.groups a ha).2
      · rw [List.mem_singleton] at ha; subst ha; exact hg.name.2
    · exact fun x hx => (hq.groups x hx).2
    · exact hq.name.2
  have hmain : ∃ b, q.belongsInGroup g = .ok b ∧ (b = true ↔ g.groups ++ [g.name] <+: q.groups) := by
    unfold QName.belongsInGroup
    by_cases hl : g.groups.length + 1 > q.groups.length
    · rw [if_pos hl]
      refine ⟨false, rfl, by simp, ?_⟩
      intro hp
      have := hp.length_le
      simp at this; omega
    · rw [if_neg hl]
      have hlt : g.groups.length < q.groups.length := by omega
      by_cases ht : g.groups = q.groups.take g.groups.length
      · rw [if_pos ht, List.getElem?_eq_getElem hlt]
        refine ⟨_, rfl, ?_⟩
        rw [decide_eq_true_eq]
        constructor
        · intro hn
          have e : g.groups ++ [g.name] = q.groups.take (g.groups.length + 1) := by
            rw [List.take_succ_eq_append_getElem hlt, ← ht, hn]
          rw [e]
          exact List.take_prefix _ _
        · rintro ⟨t, htt⟩
          have : q.groups[g.groups.length]? = some g.name := by rw [← htt]; simp
          rw [List.getElem?_eq_getElem hlt, Option.some.injEq] at this
          exact this.symm
      · rw [if_neg ht]
        refine ⟨false, rfl, by simp, ?_⟩
        rintro ⟨t, htt⟩
        apply absurd _ ht
        rw [← htt]; simp
  obtain ⟨b, h1, h2⟩ := hmain
  exact ⟨b, h1, h2, h2.trans htext.symm⟩

example : mkName ["a".toList, "bc".toList] "d".toList = .ok ⟨["a".toList, "bc".toList], "d".toList, "a/bc/d".toList, 0⟩ ∧
    parseName "a/bc/d".toList = .ok ⟨["a".toList, "bc".toList], "d".toList, "a/bc/d".toList, 0⟩ ∧
    parseName "a//d".toList = .throw .elements ∧ parseName "".toList = .throw .elements := by decide

/-! ## C29: the caching provider -/

/-- The answer that the provider itself would give. -/
def Provider.direct {D : Type} (p : Provider D) : Request → Answer D
  | .list g => .ofList (p.list g)
  | .get n => .ofData (p.get n)

/-- The cache holds answers of the provider. -/
structure Cache.Sound {D : Type} (p : Provider D) (c : Cache D) : Prop where
  lists : ∀ g l, assoc g c.lists = some l → p.list g = .ok l
  data : ∀ n d, assoc n c.data = some d → p.get n = .ok d

theorem Cache.request_sound {D : Type} {p : Provider D} {c : Cache D} (hc : c.Sound p) (r : Request) :
    (c.request p r).1.Sound p ∧ (c.request p r).2 = p.direct r := by
  cases r with
  | list g =>
    simp only [Cache.request]
    cases hl : assoc g c.lists with
    | some l => simp only; exact ⟨hc, by rw [Provider.direct, hc.lists g l hl]; rfl⟩
    | none =>
      simp only
      cases hp : p.list g with
      | ok l =>
        simp only
        refine ⟨⟨?_, hc.data⟩, by rw [Provider.direct, hp]; rfl⟩
        intro g' l' h
        simp only at h
        rw [assoc] at h
        split at h
        · rename_i he; subst he; rw [hp]; simpa using h
        · exact hc.lists g' l' h
      | throw e => exact ⟨⟨hc.lists, hc.data⟩, by simp only [Provider.direct, hp]⟩
      | ub => exact ⟨⟨hc.lists, hc.data⟩, by simp only [Provider.direct, hp]⟩
  | get n =>
    simp only [Cache.request]
    cases hl : assoc n c.data with
    | some l => simp only; exact ⟨hc, by rw [Provider.direct, hc.data n l hl]; rfl⟩
    | none =>
      simp only
      cases hp : p.get n with
      | ok l =>
        simp only
        refine ⟨⟨hc.lists, ?_⟩, by rw [Provider.direct, hp]; rfl⟩
        intro g' l' h
        simp only at h
        rw [assoc] at h
        split at h
        · rename_i he; subst he; rw [hp]; simpa using h
        · exact hc.data g' l' h
      | throw e => exact ⟨⟨hc.lists, hc.data⟩, by simp only [Provider.direct, hp]⟩
      | ub => exact ⟨⟨hc.lists, hc.data⟩, by simp only [Provider.direct, hp]⟩

/-- In every history of requests to a constant provider every answer, also an exception and a missing data set, is the one the
provider itself gives. -/
theorem C29_transparent {D : Type} (p : Provider D) (rs : List Request) :
    ((({} : Cache D).run (rs.map fun r => (p, r))).2) = rs.map p.direct := by
  have gen : ∀ (rs : List Request) (c : Cache D), c.Sound p → (c.run (rs.map fun r => (p, r))).2 = rs.map p.direct := by
    intro rs
    induction rs with
    | nil => intro c _; rfl
    | cons r rs ih =>
      intro c hc
      obtain ⟨h1, h2⟩ := c.request_sound hc r
      simp only [List.map_cons, Cache.run]
      rw [h2, ih _ h1]
  exact gen rs {} ⟨by intro g l h; simp [assoc] at h, by intro n d h; simp [assoc] at h⟩

/-- The calls passed on for a key. -/
def Cache.count {D : Type} (c : Cache D) (k : Sum Bytes Bytes) : Nat := (c.calls.filter fun x => decide (x = k)).length

/-- The call that a request would be passed on as. -/
def Request.key : Request → Sum Bytes Bytes
  | .list g => .inl g
  | .get n => .inr n

/-- The key is cached. -/
def Cache.Has {D : Type} (c : Cache D) : Sum Bytes Bytes → Prop
  | .inl g => (assoc g c.lists).isSome
  | .inr n => (assoc n c.data).isSome

theorem Cache.request_count {D : Type} (p : Provider D) (hl : ∀ g, ∃ l, p.list g = .ok l) (hd : ∀ n, ∃ d, p.get n = .ok d) (c : Cache D)
    (r : Request) (k : Sum Bytes Bytes) (h : c.count k ≤ 1 ∧ (1 ≤ c.count k → c.Has k)) :
    (c.request p r).1.count k ≤ 1 ∧ (1 ≤ (c.request p r).1.count k → (c.request p r).1.Has k) := by
  cases r with
  | list g =>
    simp only [Cache.request]
    cases hg : assoc g c.lists with
    | some l => exact h
    | none =>
      obtain ⟨l, hpl⟩ := hl g
      simp only [hpl]
      unfold Cache.count at h ⊢
      simp only [List.filter_append, List.length_append, List.filter_singleton]
      by_cases hk : (Sum.inl g : Sum Bytes Bytes) = k
      · subst hk
        have h0 : (c.calls.filter fun x => decide (x = Sum.inl g)).length = 0 := by
          by_contra hne
          have := h.2 (by omega)
          simp [Cache.Has, hg] at this
        rw [h0]
        simp [Cache.Has, assoc]
      · simp only [hk, decide_false, Bool.cond_false, List.length_nil, Nat.add_zero] at h ⊢
        refine ⟨by omega, fun h1 => ?_⟩
        have h2 := h.2 (by omega)
        cases k with
        | inl g' =>
          simp only [Cache.Has] at h2 ⊢
          rw [assoc]
          split
          · rfl
          · exact h2
        | inr n => exact h2
  | get n =>
    simp only [Cache.request]
    cases hg : assoc n c.data with
    | some l => exact h
    | none =>
      obtain ⟨l, hpl⟩ := hd n
      simp only [hpl]
      unfold Cache.count at h ⊢
      simp only [List.filter_append, List.length_append, List.filter_singleton]
      by_cases hk : (Sum.inr n : Sum Bytes Bytes) = k
      · subst hk
        have h0 : (c.calls.filter fun x => decide (x = Sum.inr n)).length = 0 := by
          by_contra hne
          have := h.2 (by omega)
          simp [Cache.Has, hg] at this
        rw [h0]
        simp [Cache.Has, assoc]
      · simp only [hk, decide_false, Bool.cond_false, List.length_nil, Nat.add_zero] at h ⊢
        refine ⟨by omega, fun h1 => ?_⟩
        have h2 := h.2 (by omega)
        cases k with
        | inr g' =>
          simp only [Cache.Has] at h2 ⊢
          rw [assoc]
          split
          · rfl
          · exact h2
        | inl n => exact h2

/-- A provider that does not throw is asked at most once for each group and each name, in every history. -/
theorem C29_once {D : Type} (p : Provider D) (hl : ∀ g, ∃ l, p.list g = .ok l) (hd : ∀ n, ∃ d, p.get n = .ok d) (rs : List Request)
    (k : Sum Bytes Bytes) : ((({} : Cache D).run (rs.map fun r => (p, r))).1).count k ≤ 1 := by
  have gen : ∀ (rs : List Request) (c : Cache D), (c.count k ≤ 1 ∧ (1 ≤ c.count k → c.Has k)) →
      (c.run (rs.map fun r => (p, r))).1.count k ≤ 1 := by
    intro rs
    induction rs with
    | nil => intro c h; exact h.1
    | cons r rs ih =>
      intro c h
      simp only [List.map_cons, Cache.run]
      exact ih _ (c.request_count p hl hd r k h)
  exact gen rs {} ⟨by simp [Cache.count], by simp [Cache.count]⟩

/-- With a provider that changes, an answer once given is repeated: after a request that succeeded, the same request gives the same
answer whatever the provider would say, and whatever was asked in between. -/
theorem C29_sticky {D : Type} (c : Cache D) (p : Provider D) (r : Request) (between : List (Provider D × Request)) (p' : Provider D)
    (h : ∀ e, (c.request p r).2 ≠ .failed e) (h' : (c.request p r).2 ≠ .ub) :
    ((((c.request p r).1.run between).1).request p' r).2 = (c.request p r).2 := by
  have stay : ∀ (between : List (Provider D × Request)) (c : Cache D),
      (∀ g l, assoc g c.lists = some l → assoc g (c.run between).1.lists = some l) ∧
      (∀ n d, assoc n c.data = some d → assoc n (c.run between).1.data = some d) := by
    intro between
    induction between with
    | nil => intro c; exact ⟨fun _ _ h => h, fun _ _ h => h⟩
    | cons b bs ih =>
      obtain ⟨p, r⟩ := b
      intro c
      have step : (∀ g l, assoc g c.lists = some l → assoc g (c.request p r).1.lists = some l) ∧
          (∀ n d, assoc n c.data = some d → assoc n (c.request p r).1.data = some d) := by
        cases r with
        | list g =>
          simp only [Cache.request]
          cases hg : assoc g c.lists with
          | some l => exact ⟨fun _ _ h => h, fun _ _ h => h⟩
          | none =>
            simp only
            cases p.list g with
            | ok l =>
              refine ⟨fun g' l' h => ?_, fun _ _ h => h⟩
              simp only
              rw [assoc]
              split
              · rename_i he; subst he; rw [hg] at h; cases h
              · exact h
            | throw e => exact ⟨fun _ _ h => h, fun _ _ h => h⟩
            | ub => exact ⟨fun _ _ h => h, fun _ _ h => h⟩
        | get g =>
          simp only [Cache.request]
          cases hg : assoc g c.data with
          | some l => exact ⟨fun _ _ h => h, fun _ _ h => h⟩
          | none =>
            simp only
            cases p.get g with
            | ok l =>
              refine ⟨fun _ _ h => h, fun g' l' h => ?_⟩
              simp only
              rw [assoc]
              split
              · rename_i he; subst he; rw [hg] at h; cases h
              · exact h
            | throw e => exact ⟨fun _ _ h => h, fun _ _ h => h⟩
            | ub => exact ⟨fun _ _ h => h, fun _ _ h => h⟩
      simp only [Cache.run]
      obtain ⟨i1, i2⟩ := ih (c.request p r).1
      exact ⟨fun g l h => i1 g l (step.1 g l h), fun n d h => i2 n d (step.2 n d h)⟩
  cases r with
  | list g =>
    have : ∃ l, (c.request p (.list g)).2 = .list l ∧ assoc g (c.request p (.list g)).1.lists = some l := by
      revert h h'
      simp only [Cache.request]
      cases hg : assoc g c.lists with
      | some l => intro _ _; exact ⟨l, rfl, hg⟩
      | none =>
        simp only
        cases p.list g with
        | ok l => intro _ _; exact ⟨l, rfl, by simp only; rw [assoc, if_pos rfl]⟩
        | throw e => intro h; exact absurd rfl (h e)
        | ub => intro _ h; exact absurd rfl h
    obtain ⟨l, h1, h2⟩ := this
    have h3 := (stay between _).1 g l h2
    rw [h1]
    simp only [Cache.request] at h3 ⊢
    rw [h3]
  | get g =>
    have : ∃ l, (c.request p (.get g)).2 = .data l ∧ assoc g (c.request p (.get g)).1.data = some l := by
      revert h h'
      simp only [Cache.request]
      cases hg : assoc g c.data with
      | some l => intro _ _; exact ⟨l, rfl, hg⟩
      | none =>
        simp only
        cases p.get g with
        | ok l => intro _ _; exact ⟨l, rfl, by simp only; rw [assoc, if_pos rfl]⟩
        | throw e => intro h; exact absurd rfl (h e)
        | ub => intro _ h; exact absurd rfl h
    obtain ⟨l, h1, h2⟩ := this
    have h3 := (stay between _).2 g l h2
    rw [h1]
    simp only [Cache.request] at h3 ⊢
    rw [h3]

example : (({} : Cache Nat).run (([.list [], .get ['a'], .get ['b'], .get ['a'], .list []] : List Request).map
    fun r => ((⟨fun _ => .ok [['a']], fun n => .ok (if n = ['a'] then some 1 else none)⟩ : Provider Nat), r))).2 =
    [.list [['a']], .data (some 1), .data none, .data (some 1), .list [['a']]] := by decide

end Alexandria.XYDataset
