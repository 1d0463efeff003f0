import Verif.MathUtils.PiecewiseProps

/-! # Products of functions (C33) -/

namespace Alexandria.MathUtils

section
variable {K : Type} [Field K] [LinearOrder K]

/-! ## Lemmas -/

theorem mem_setInsert {x y : K} {l : List K} : y ∈ setInsert x l ↔ y = x ∨ y ∈ l := by
  induction l with
  | nil => simp [setInsert]
  | cons a l ih =>
    rw [setInsert]
    by_cases h : x < a
    · rw [if_pos h]; simp
    · rw [if_neg h]
      by_cases h' : a < x
      · rw [if_pos h', List.mem_cons, ih, List.mem_cons]; tauto
      · rw [if_neg h']
        have : x = a := le_antisymm (not_lt.mp h') (not_lt.mp h)
        subst this
        simp

theorem sorted_setInsert {x : K} {l : List K} (h : l.Pairwise (· < ·)) : (setInsert x l).Pairwise (· < ·) := by
  induction l with
  | nil => simp [setInsert]
  | cons a l ih =>
    obtain ⟨ha, hl⟩ := List.pairwise_cons.mp h
    rw [setInsert]
    by_cases h1 : x < a
    · rw [if_pos h1]
      exact List.pairwise_cons.mpr ⟨fun y hy => by
        rcases List.mem_cons.mp hy with rfl | hy
        · exact h1
        · exact h1.trans (ha y hy), h⟩
    · rw [if_neg h1]
      by_cases h2 : a < x
      · rw [if_pos h2]
        exact List.pairwise_cons.mpr ⟨fun y hy => by
          rcases mem_setInsert.mp hy with rfl | hy
          · exact h2
          · exact ha y hy, ih hl⟩
      · rw [if_neg h2]; exact h

/-- The largest element. -/
def IsLast (l : List K) (e : K) : Prop := e ∈ l ∧ ∀ k ∈ l, k ≤ e

theorem overlap_started (n : Nat) : ∀ (l1 l2 s : List K) (e1 e2 : K), l1.length + l2.length ≤ n → l1.Pairwise (· ≤ ·) → l2.Pairwise (· ≤ ·) →
    IsLast l1 e1 → IsLast l2 e2 → s.Pairwise (· < ·) →
    ∃ r, overlapLoop n l1 l2 true s = some (.ok r) ∧ r.Pairwise (· < ·) ∧ ∀ k, k ∈ r ↔ k ∈ s ∨ ((k ∈ l1 ∨ k ∈ l2) ∧ k ≤ e1 ∧ k ≤ e2) := by
  induction n with
  | zero =>
    intro l1 l2 s e1 e2 hn _ _ h1 _ _
    have := List.length_pos_of_mem h1.1
    omega
  | succ n ih =>
    intro l1 l2 s e1 e2 hn s1 s2 h1 h2 hs
    match l1, l2, s1, s2, h1, h2 with
    | [], _, _, _, h1, _ => cases h1.1
    | _ :: _, [], _, _, _, h2 => cases h2.1
    | a :: as, b :: bs, s1, s2, h1, h2 =>
      obtain ⟨sa, sa'⟩ := List.pairwise_cons.mp s1
      obtain ⟨sb, sb'⟩ := List.pairwise_cons.mp s2
      simp only [List.length_cons] at hn
      rw [overlapLoop]
      by_cases hab : a < b
      · rw [if_pos hab]
        by_cases has : as = []
        · subst has
          refine ⟨setInsert a s, by cases n <;> rfl, sorted_setInsert hs, ?_⟩
          have he : e1 = a := by simpa using h1.1
          intro k
          rw [mem_setInsert]
          constructor
          · rintro (rfl | h)
            · exact Or.inr ⟨Or.inl List.mem_cons_self, he.ge, hab.le.trans (h2.2 b List.mem_cons_self)⟩
            · exact Or.inl h
          · rintro (h | ⟨h | h, h3, _⟩)
            · exact Or.inr h
            · left; simpa using h
            · exfalso
              have : b ≤ k := by
                rcases List.mem_cons.mp h with rfl | h
                · exact le_refl _
                · exact sb k h
              exact absurd (lt_of_lt_of_le hab this) (not_lt.mpr (he ▸ h3))
        · have h1' : IsLast as e1 := by
            refine ⟨?_, fun k hk => h1.2 k (List.mem_cons_of_mem _ hk)⟩
            obtain ⟨c, hc⟩ := List.exists_mem_of_ne_nil as has
            rcases List.mem_cons.mp h1.1 with rfl | h
            · have : c = e1 := le_antisymm (h1.2 c (List.mem_cons_of_mem _ hc)) (sa c hc)
              exact this ▸ hc
            · exact h
          obtain ⟨r, hr, hrs, hm⟩ := ih as (b :: bs) (setInsert a s) e1 e2 (by simp only [List.length_cons]; omega) sa' s2 h1' h2 (sorted_setInsert hs)
          refine ⟨r, hr, hrs, fun k => ?_⟩
          rw [hm, mem_setInsert, List.mem_cons (a := k) (b := a)]
          have ha1 := h1.2 a List.mem_cons_self
          have ha2 := hab.le.trans (h2.2 b List.mem_cons_self)
          constructor
          · rintro ((rfl | h) | ⟨h | h, h3⟩)
            · exact Or.inr ⟨Or.inl (Or.inl rfl), ha1, ha2⟩
            · exact Or.inl h
            · exact Or.inr ⟨Or.inl (Or.inr h), h3⟩
            · exact Or.inr ⟨Or.inr h, h3⟩
          · rintro (h | ⟨(rfl | h) | h, h3⟩)
            · exact Or.inl (Or.inr h)
            · exact Or.inl (Or.inl rfl)
            · exact Or.inr ⟨Or.inl h, h3⟩
            · exact Or.inr ⟨Or.inr h, h3⟩
      · rw [if_neg hab]
        have hba := not_lt.mp hab
        have hb1 := hba.trans (h1.2 a List.mem_cons_self)
        have hb2 := h2.2 b List.mem_cons_self
        by_cases hbs : bs = []
        · subst hbs
          refine ⟨setInsert b s, by cases n <;> rfl, sorted_setInsert hs, ?_⟩
          have he : e2 = b := by simpa using h2.1
          intro k
          rw [mem_setInsert]
          constructor
          · rintro (rfl | h)
            · exact Or.inr ⟨Or.inr List.mem_cons_self, hb1, hb2⟩
            · exact Or.inl h
          · rintro (h | ⟨h | h, _, h3⟩)
            · exact Or.inr h
            · left
              have : a ≤ k := by
                rcases List.mem_cons.mp h with rfl | h
                · exact le_refl _
                · exact sa k h
              exact le_antisymm (he ▸ h3) (hba.trans this)
            · left; simpa using h
        · have h2' : IsLast bs e2 := by
            refine ⟨?_, fun k hk => h2.2 k (List.mem_cons_of_mem _ hk)⟩
            obtain ⟨c, hc⟩ := List.exists_mem_of_ne_nil bs hbs
            rcases List.mem_cons.mp h2.1 with rfl | h
            · have : c = e2 := le_antisymm (h2.2 c (List.mem_cons_of_mem _ hc)) (sb c hc)
              exact this ▸ hc
            · exact h
          obtain ⟨r, hr, hrs, hm⟩ := ih (a :: as) bs (setInsert b s) e1 e2 (by simp only [List.length_cons]; omega) s1 sb' h1 h2' (sorted_setInsert hs)
          refine ⟨r, hr, hrs, fun k => ?_⟩
          rw [hm, mem_setInsert, List.mem_cons (a := k) (b := b)]
          constructor
          · rintro ((rfl | h) | ⟨h | h, h3⟩)
            · exact Or.inr ⟨Or.inr (Or.inl rfl), hb1, hb2⟩
            · exact Or.inl h
            · exact Or.inr ⟨Or.inl h, h3⟩
            · exact Or.inr ⟨Or.inr (Or.inr h), h3⟩
          · rintro (h | ⟨h | (rfl | h), h3⟩)
            · exact Or.inl (Or.inr h)
            · exact Or.inr ⟨Or.inl h, h3⟩
            · exact Or.inl (Or.inl rfl)
            · exact Or.inr ⟨Or.inr h, h3⟩

theorem IsLast.tail {a e c : K} {l : List K} (h : IsLast (a :: l) e) (hc : a < c) (hce : c ≤ e) : IsLast l e ∧ l ≠ [] := by
  have : e ∈ l := by
    rcases List.mem_cons.mp h.1 with rfl | h
    · exact absurd (lt_of_lt_of_le hc hce) (lt_irrefl _)
    · exact h
  exact ⟨⟨this, fun k hk => h.2 k (List.mem_cons_of_mem _ hk)⟩, List.ne_nil_of_mem this⟩

theorem overlap_waiting (n : Nat) : ∀ (a : K) (as : List K) (b : K) (bs s : List K) (e1 e2 : K), as.length + bs.length + 2 ≤ n →
    (a :: as).Pairwise (· ≤ ·) → (b :: bs).Pairwise (· ≤ ·) → IsLast (a :: as) e1 → IsLast (b :: bs) e2 → max a b < min e1 e2 → s.Pairwise (· < ·) →
    ∃ r, overlapLoop n (a :: as) (b :: bs) false s = some (.ok r) ∧ r.Pairwise (· < ·) ∧
      ∀ k, k ∈ r ↔ k ∈ s ∨ ((k ∈ a :: as ∨ k ∈ b :: bs) ∧ max a b ≤ k ∧ k ≤ min e1 e2) := by
  induction n with
  | zero => intro a as b bs s e1 e2 hn; omega
  | succ n ih =>
    intro a as b bs s e1 e2 hn s1 s2 h1 h2 hov hs
    obtain ⟨sa, sa'⟩ := List.pairwise_cons.mp s1
    obtain ⟨sb, sb'⟩ := List.pairwise_cons.mp s2
    obtain ⟨⟨ha1, ha2⟩, hb1, hb2⟩ : (a < e1 ∧ a < e2) ∧ (b < e1 ∧ b < e2) := by
      rw [max_lt_iff, lt_min_iff, lt_min_iff] at hov; exact hov
    by_cases hab : a < b
    · obtain ⟨h1', hne⟩ := h1.tail hab hb1.le
      match as, hne, sa, sa', h1', hn with
      | a' :: as', _, sa, sa', h1', hn =>
        simp only [List.length_cons] at hn
        rw [overlapLoop.eq_def]
        simp only
        rw [if_pos hab]
        by_cases hs' : a' > b
        · rw [decide_eq_true hs']
          obtain ⟨r, hr, hrs, hm⟩ := overlap_started n (a' :: as') (b :: bs) s e1 e2 (by simp only [List.length_cons]; omega) sa' s2 h1' h2 hs
          refine ⟨r, hr, hrs, fun k => ?_⟩
          rw [hm, max_eq_right hab.le, le_min_iff]
          constructor
          · rintro (h | ⟨h | h, h3⟩)
            · exact Or.inl h
            · refine Or.inr ⟨Or.inl (List.mem_cons_of_mem _ h), ?_, h3⟩
              rcases List.mem_cons.mp h with rfl | h
              · exact le_of_lt hs'
              · exact (le_of_lt hs').trans ((List.pairwise_cons.mp sa').1 k h)
            · refine Or.inr ⟨Or.inr h, ?_, h3⟩
              rcases List.mem_cons.mp h with rfl | h
              · exact le_refl _
              · exact sb k h
          · rintro (h | ⟨h | h, h3, h4⟩)
            · exact Or.inl h
            · rcases List.mem_cons.mp h with rfl | h
              · exact absurd hab (not_lt.mpr h3)
              · exact Or.inr ⟨Or.inl h, h4⟩
            · exact Or.inr ⟨Or.inr h, h4⟩
        · rw [decide_eq_false hs']
          have hle : a' ≤ b := not_lt.mp hs'
          obtain ⟨r, hr, hrs, hm⟩ := ih a' as' b bs s e1 e2 (by omega) sa' s2 h1' h2 (by rw [max_eq_right hle]; exact lt_min hb1 hb2) hs
          refine ⟨r, hr, hrs, fun k => ?_⟩
          rw [hm, max_eq_right hle, max_eq_right hab.le]
          constructor
          · rintro (h | ⟨h | h, h3⟩)
            · exact Or.inl h
            · exact Or.inr ⟨Or.inl (List.mem_cons_of_mem _ h), h3⟩
            · exact Or.inr ⟨Or.inr h, h3⟩
          · rintro (h | ⟨h | h, h3, h4⟩)
            · exact Or.inl h
            · rcases List.mem_cons.mp h with rfl | h
              · exact absurd hab (not_lt.mpr h3)
              · exact Or.inr ⟨Or.inl h, h3, h4⟩
            · exact Or.inr ⟨Or.inr h, h3, h4⟩
    · have hba := not_lt.mp hab
      have h2t : IsLast bs e2 ∧ bs ≠ [] := by
        have : e2 ∈ bs := by
          rcases List.mem_cons.mp h2.1 with h | h
          · exact absurd (h ▸ ha2) (not_lt.mpr hba)
          · exact h
        exact ⟨⟨this, fun k hk => h2.2 k (List.mem_cons_of_mem _ hk)⟩, List.ne_nil_of_mem this⟩
      obtain ⟨h2', hne⟩ := h2t
      match bs, hne, sb, sb', h2', hn with
      | b' :: bs', _, sb, sb', h2', hn =>
        simp only [List.length_cons] at hn
        rw [overlapLoop.eq_def]
        simp only
        rw [if_neg hab]
        by_cases hs' : a < b'
        · rw [decide_eq_true hs']
          obtain ⟨r, hr, hrs, hm⟩ := overlap_started n (a :: as) (b' :: bs') s e1 e2 (by simp only [List.length_cons]; omega) s1 sb' h1 h2' hs
          refine ⟨r, hr, hrs, fun k => ?_⟩
          rw [hm, max_eq_left hba, le_min_iff]
          constructor
          · rintro (h | ⟨h | h, h3⟩)
            · exact Or.inl h
            · refine Or.inr ⟨Or.inl h, ?_, h3⟩
              rcases List.mem_cons.mp h with rfl | h
              · exact le_refl _
              · exact sa k h
            · refine Or.inr ⟨Or.inr (List.mem_cons_of_mem _ h), ?_, h3⟩
              rcases List.mem_cons.mp h with rfl | h
              · exact le_of_lt hs'
              · exact (le_of_lt hs').trans ((List.pairwise_cons.mp sb').1 k h)
          · rintro (h | ⟨h | h, h3, h4⟩)
            · exact Or.inl h
            · exact Or.inr ⟨Or.inl h, h4⟩
            · rcases List.mem_cons.mp h with rfl | h
              · have : k = a := le_antisymm hba h3
                subst this
                exact Or.inr ⟨Or.inl List.mem_cons_self, h4⟩
              · exact Or.inr ⟨Or.inr h, h4⟩
        · rw [decide_eq_false hs']
          have hle : b' ≤ a := not_lt.mp hs'
          obtain ⟨r, hr, hrs, hm⟩ := ih a as b' bs' s e1 e2 (by omega) s1 sb' h1 h2' (by rw [max_eq_left hle]; exact lt_min ha1 ha2) hs
          refine ⟨r, hr, hrs, fun k => ?_⟩
          rw [hm, max_eq_left hle, max_eq_left hba]
          constructor
          · rintro (h | ⟨h | h, h3⟩)
            · exact Or.inl h
            · exact Or.inr ⟨Or.inl h, h3⟩
            · exact Or.inr ⟨Or.inr (List.mem_cons_of_mem _ h), h3⟩
          · rintro (h | ⟨h | h, h3, h4⟩)
            · exact Or.inl h
            · exact Or.inr ⟨Or.inl h, h3, h4⟩
            · rcases List.mem_cons.mp h with rfl | h
              · have : k = a := le_antisymm hba h3
                subst this
                exact Or.inr ⟨Or.inl List.mem_cons_self, h3, h4⟩
              · exact Or.inr ⟨Or.inr h, h3, h4⟩

/-- The common range of two lists of knots: from the larger of the first ones to the smaller of the last ones. -/
structure Spec.Overlap (k1 k2 : List K) (lo hi : K) : Prop where
  lo : ∃ a b, k1.head? = some a ∧ k2.head? = some b ∧ lo = max a b
  hi : ∃ a b, k1.getLast? = some a ∧ k2.getLast? = some b ∧ hi = min a b

theorem getLast_isLast {l : List K} (hs : l.Pairwise (· ≤ ·)) {e : K} (h : l.getLast? = some e) : IsLast l e := by
  have hm := List.mem_of_getLast? h
  refine ⟨hm, fun k hk => ?_⟩
  have hne : l ≠ [] := List.ne_nil_of_mem hm
  rw [List.getLast?_eq_some_getLast hne] at h
  cases h
  rw [List.getLast_eq_getElem]
  obtain ⟨j, hj, rfl⟩ := List.mem_iff_getElem.mp hk
  exact sorted_get hs (by omega : j ≤ l.length - 1) (List.getElem?_eq_getElem hj) (List.getElem?_eq_getElem (by omega))

/-- `overlappingKnots` returns the knots of both lists in the common range, in increasing order and without repetition, if it has a
positive length. -/
theorem C33_knots_partial (k1 k2 : List K) (s1 : k1.Pairwise (· ≤ ·)) (s2 : k2.Pairwise (· ≤ ·)) (lo hi : K) (h : Spec.Overlap k1 k2 lo hi)
    (hlt : lo < hi) :
    ∃ r, overlapKnots k1 k2 = some (.ok r) ∧ r.Pairwise (· < ·) ∧ ∀ k, k ∈ r ↔ (k ∈ k1 ∨ k ∈ k2) ∧ lo ≤ k ∧ k ≤ hi := by
  obtain ⟨⟨a, b, ha, hb, rfl⟩, e1, e2, he1, he2, rfl⟩ := h
  match k1, k2, ha, hb with
  | a' :: as, b' :: bs, ha, hb =>
    simp only [List.head?_cons, Option.some.injEq] at ha hb
    subst ha hb
    obtain ⟨r, h1, h2, h3⟩ := overlap_waiting ((a' :: as).length + (b' :: bs).length) a' as b' bs [] e1 e2 (by simp only [List.length_cons]; omega) s1 s2 (getLast_isLast s1 he1) (getLast_isLast s2 he2) hlt List.Pairwise.nil
    exact ⟨r, h1, h2, fun k => by rw [h3]; simp⟩

/-! ## The pieces of the product -/

/-- The function with index `j` is the one to the right of `k`. -/
def RightPiece (ks : List K) (j : Nat) (k : K) : Prop := ∃ a b, ks[j]? = some a ∧ ks[j + 1]? = some b ∧ a ≤ k ∧ k < b

theorem advance_eq {ks : List K} {i : Nat} {k a e : K} (ha : ks[i]? = some a) (hak : a ≤ k) (he : e ∈ ks) (hke : k < e)
    (hs : ks.Pairwise (· ≤ ·)) : ∃ j, advance ks i k = .ok j ∧ RightPiece ks j k := by
  obtain ⟨t1, t2, t3⟩ := takeWhile_length_spec (fun c => decide (c ≤ k)) (ks.drop (i + 1))
  unfold advance
  generalize hd : ((ks.drop (i + 1)).takeWhile fun c => decide (c ≤ k)).length = d at t1 t2 t3
  rw [List.length_drop] at t3
  have hi := (List.getElem?_eq_some_iff.mp ha).1
  have hlt : i + d + 1 < ks.length := by
    by_contra hc
    obtain ⟨j, hj, rfl⟩ := List.mem_iff_getElem.mp he
    rcases Nat.lt_or_ge i j with hij | hij
    · have := t1 (j - (i + 1)) ks[j] (by omega) (by
        rw [List.getElem?_drop, show i + 1 + (j - (i + 1)) = j by omega]
        exact List.getElem?_eq_getElem hj)
      simp only [decide_eq_true_eq] at this
      exact absurd hke (not_lt.mpr this)
    · have := sorted_get hs hij (List.getElem?_eq_getElem hj) ha
      exact absurd (lt_of_lt_of_le hke this) (not_lt.mpr hak)
  simp only [if_pos hlt]
  refine ⟨i + d, rfl, ks[i + d], ks[i + d + 1], List.getElem?_eq_getElem (by omega), List.getElem?_eq_getElem hlt, ?_, ?_⟩
  · by_cases h0 : d = 0
    · subst h0
      obtain ⟨_, rfl⟩ := List.getElem?_eq_some_iff.mp ha
      exact hak
    · have := t1 (d - 1) ks[i + d] (by omega) (by
        rw [List.getElem?_drop, show i + 1 + (d - 1) = i + d by omega]
        exact List.getElem?_eq_getElem (by omega))
      simpa using this
  · have := t2 ks[i + d + 1] (by
      rw [List.getElem?_drop, show i + 1 + d = i + d + 1 by omega]
      exact List.getElem?_eq_getElem hlt)
    simpa using this

/-- Every result of the loop is the product of the pieces to the right of the knot. -/
theorem mulPieces_eq (mul : Fn K → Fn K → Option (Res (Fn K))) (k1 : List K) (f1 : List (Fn K)) (k2 : List K) (f2 : List (Fn K))
    (l1 : k1.length = f1.length + 1) (l2 : k2.length = f2.length + 1) (s1 : k1.Pairwise (· ≤ ·)) (s2 : k2.Pairwise (· ≤ ·)) (back : K)
    (hb1 : ∃ e ∈ k1, back ≤ e) (hb2 : ∃ e ∈ k2, back ≤ e) (ks : List K) : ∀ (i1 i2 : Nat), ks.Pairwise (· < ·) → ks.getLast? = some back →
    (∀ k ∈ ks, (∃ a, k1[i1]? = some a ∧ a ≤ k) ∧ ∃ a, k2[i2]? = some a ∧ a ≤ k) →
    (∀ rs, mulPieces mul k1 f1 k2 f2 back ks i1 i2 = some (.ok rs) → ks.length = rs.length + 1 ∧
      ∀ (m : Nat) r k, rs[m]? = some r → ks[m]? = some k → ∃ (j1 j2 : Nat) (g1 g2 : Fn K), RightPiece k1 j1 k ∧ RightPiece k2 j2 k ∧ f1[j1]? = some g1 ∧ f2[j2]? = some g2 ∧
        mul g1 g2 = some (.ok r)) ∧
    ((∀ g1 ∈ f1, ∀ g2 ∈ f2, ∃ r, mul g1 g2 = some (.ok r)) → ∃ rs, mulPieces mul k1 f1 k2 f2 back ks i1 i2 = some (.ok rs)) := by
  induction ks with
  | nil => intro i1 i2 _ h; cases h
  | cons k ks ih =>
    intro i1 i2 hs hl hstart
    obtain ⟨hk, hs'⟩ := List.pairwise_cons.mp hs
    rw [mulPieces]
    by_cases hkb : k = back
    · rw [if_pos hkb]
      have hnil : ks = [] := by
        by_contra hne
        have hmem : back ∈ ks := by
          rw [List.getLast?_cons, Option.some.injEq] at hl
          cases hg : ks.getLast? with
          | none => exact absurd (List.getLast?_eq_none_iff.mp hg) hne
          | some z => rw [hg] at hl; simp at hl; rw [← hl]; exact List.mem_of_getLast? hg
        exact absurd (hk back hmem) (by rw [hkb]; exact lt_irrefl _)
      subst hnil
      refine ⟨?_, fun _ => ⟨[], rfl⟩⟩
      intro rs h
      cases h
      exact ⟨rfl, by intro m r k h; simp at h⟩
    · rw [if_neg hkb]
      have hne : ks ≠ [] := by
        intro h
        subst h
        simp at hl
        exact hkb hl
      have hl' : ks.getLast? = some back := by
        rw [List.getLast?_cons] at hl
        cases hg : ks.getLast? with
        | none => exact absurd (List.getLast?_eq_none_iff.mp hg) hne
        | some z => rw [hg] at hl; simpa using hl
      have hkback : k < back := hk back (List.mem_of_getLast? hl')
      obtain ⟨⟨a1, ha1, hak1⟩, a2, ha2, hak2⟩ := hstart k List.mem_cons_self
      obtain ⟨e1, he1, hbe1⟩ := hb1
      obtain ⟨e2, he2, hbe2⟩ := hb2
      obtain ⟨j1, hj1, hr1⟩ := advance_eq ha1 hak1 he1 (lt_of_lt_of_le hkback hbe1) s1
      obtain ⟨j2, hj2, hr2⟩ := advance_eq ha2 hak2 he2 (lt_of_lt_of_le hkback hbe2) s2
      simp only [Calc.bind, hj1, hj2]
      have hlt1 : j1 < f1.length := by
        obtain ⟨_, _, _, h, _⟩ := hr1
        have := (List.getElem?_eq_some_iff.mp h).1
        omega
      have hlt2 : j2 < f2.length := by
        obtain ⟨_, _, _, h, _⟩ := hr2
        have := (List.getElem?_eq_some_iff.mp h).1
        omega
      rw [List.getElem?_eq_getElem hlt1, List.getElem?_eq_getElem hlt2]
      simp only
      have hstart' : ∀ k' ∈ ks, (∃ a, k1[j1]? = some a ∧ a ≤ k') ∧ ∃ a, k2[j2]? = some a ∧ a ≤ k' := by
        intro k' hk'
        obtain ⟨c1, _, hc1, _, hck1, _⟩ := hr1
        obtain ⟨c2, _, hc2, _, hck2, _⟩ := hr2
        exact ⟨⟨c1, hc1, hck1.trans (hk k' hk').le⟩, c2, hc2, hck2.trans (hk k' hk').le⟩
      obtain ⟨IH1, IH2⟩ := ih j1 j2 hs' hl' hstart'
      constructor
      · intro rs h
        cases hm : mul f1[j1] f2[j2] with
        | none => rw [hm] at h; cases h
        | some o =>
          cases o with
          | throw e => rw [hm] at h; cases h
          | ub => rw [hm] at h; cases h
          | ok r0 =>
            rw [hm] at h
            simp only at h
            cases hrec : mulPieces mul k1 f1 k2 f2 back ks j1 j2 with
            | none => rw [hrec] at h; cases h
            | some o =>
              cases o with
              | throw e => rw [hrec] at h; cases h
              | ub => rw [hrec] at h; cases h
              | ok rs' =>
                rw [hrec] at h
                cases h
                obtain ⟨g1, g2⟩ := IH1 rs' hrec
                refine ⟨by simp [g1], ?_⟩
                intro m r k' hr hk'
                cases m with
                | zero =>
                  simp only [List.getElem?_cons_zero, Option.some.injEq] at hr hk'
                  subst hr hk'
                  exact ⟨j1, j2, _, _, hr1, hr2, List.getElem?_eq_getElem hlt1, List.getElem?_eq_getElem hlt2, hm⟩
                | succ m => exact g2 m r k' (by simpa using hr) (by simpa using hk')
      · intro hall
        obtain ⟨r0, hr0⟩ := hall f1[j1] (List.getElem_mem _) f2[j2] (List.getElem_mem _)
        obtain ⟨rs, hrs⟩ := IH2 hall
        exact ⟨r0 :: rs, by rw [hr0]; simp only; rw [hrs]⟩

/-- `mul f g`, if it returns, has the right value at `x`. -/
def Spec.Right (mul : Fn K → Fn K → Option (Res (Fn K))) (f g : Fn K) (x : K) : Prop :=
  ∀ r, mul f g = some (.ok r) → ∀ u v, eval f x = .ok u → eval g x = .ok v → eval r x = .ok (u * v)

/-- `lo` is not a knot other than the first one. -/
def Spec.NotInner (ks : List K) (lo : K) : Prop := ∀ i : Nat, 0 < i → ks[i]? ≠ some lo

theorem sorted_lt_le {l : List K} (h : l.Pairwise (· < ·)) : l.Pairwise (· ≤ ·) := h.imp fun h => le_of_lt h

/-- The product of two piecewise functions with overlapping ranges, if their pieces are multiplied correctly: it is right everywhere,
except possibly where the overlap begins if one of the functions has an inner knot there. -/
theorem mulPiecewises_right (mul : Fn K → Fn K → Option (Res (Fn K))) (k1 : List K) (f1 : List (Fn K)) (k2 : List K) (f2 : List (Fn K))
    (F G R : Fn K) (h1 : mkPiecewise k1 f1 = .ok F) (h2 : mkPiecewise k2 f2 = .ok G) (lo hi : K) (hov : Spec.Overlap k1 k2 lo hi) (hlt : lo < hi)
    (x : K) (hx : x = lo → Spec.NotInner k1 lo ∧ Spec.NotInner k2 lo) (hR : ∀ g1 ∈ f1, ∀ g2 ∈ f2, Spec.Right mul g1 g2 x)
    (h : mulPiecewises mul k1 f1 k2 f2 = some (.ok R)) (u v : K) (hu : eval F x = .ok u) (hv : eval G x = .ok v) : eval R x = .ok (u * v) := by
  obtain ⟨rfl, len1, s1⟩ := mkPiecewise_ok h1
  obtain ⟨rfl, len2, s2⟩ := mkPiecewise_ok h2
  obtain ⟨r, hr, hrs, hm⟩ := C33_knots_partial k1 k2 s1 s2 lo hi hov hlt
  obtain ⟨⟨a, b, ha, hb, hlo⟩, e1, e2, he1, he2, hhi⟩ := hov
  have L1 := getLast_isLast s1 he1
  have L2 := getLast_isLast s2 he2
  have ha' : k1[0]? = some a := by rw [← List.head?_eq_getElem?]; exact ha
  have hb' : k2[0]? = some b := by rw [← List.head?_eq_getElem?]; exact hb
  have ham : a ∈ k1 := List.mem_of_getElem? ha'
  have hbm : b ∈ k2 := List.mem_of_getElem? hb'
  have hlom : lo ∈ r := by
    rw [hm]
    refine ⟨?_, le_refl _, hlt.le⟩
    rw [hlo]
    rcases max_cases a b with ⟨h, _⟩ | ⟨h, _⟩
    · rw [h]; exact Or.inl ham
    · rw [h]; exact Or.inr hbm
  have hhim : hi ∈ r := by
    rw [hm]
    refine ⟨?_, hlt.le, le_refl _⟩
    rw [hhi]
    rcases min_cases e1 e2 with ⟨h, _⟩ | ⟨h, _⟩
    · rw [h]; exact Or.inl L1.1
    · rw [h]; exact Or.inr L2.1
  have hne : r ≠ [] := List.ne_nil_of_mem hlom
  rw [mulPiecewises, hr] at h
  simp only [Calc.bind] at h
  cases hback : r.getLast? with
  | none => exact absurd (List.getLast?_eq_none_iff.mp hback) hne
  | some back =>
    rw [hback] at h
    simp only at h
    have Lr := getLast_isLast (sorted_lt_le hrs) hback
    have hbk : back = hi := le_antisymm ((hm back).mp Lr.1).2.2 (Lr.2 hi hhim)
    subst hbk
    cases hp : mulPieces mul k1 f1 k2 f2 back r 0 0 with
    | none => rw [hp] at h; cases h
    | some o =>
      cases o with
      | throw e => rw [hp] at h; cases h
      | ub => rw [hp] at h; cases h
      | ok rs =>
        rw [hp] at h
        simp only [Option.some.injEq] at h
        have hhe1 : back ≤ e1 := hhi ▸ min_le_left _ _
        have hhe2 : back ≤ e2 := hhi ▸ min_le_right _ _
        obtain ⟨P1, _⟩ := mulPieces_eq mul k1 f1 k2 f2 len1 len2 s1 s2 back ⟨e1, L1.1, hhe1⟩ ⟨e2, L2.1, hhe2⟩ r 0 0 hrs hback (by
          intro k hk
          have hk := ((hm k).mp hk).2.1
          rw [hlo] at hk
          exact ⟨⟨a, ha', (le_max_left _ _).trans hk⟩, b, hb', (le_max_right _ _).trans hk⟩)
        obtain ⟨plen, pget⟩ := P1 rs hp
        have hrsne : rs ≠ [] := by
          intro e
          subst e
          simp at plen
          obtain ⟨z, hz⟩ := List.length_eq_one_iff.mp plen
          rw [hz] at hlom hhim
          simp at hlom hhim
          exact absurd hlt (by rw [hlom, hhim]; exact lt_irrefl _)
        have hout : x < lo ∨ back < x → u * v = 0 := by
          rintro (hxl | hxl)
          · rw [hlo] at hxl
            rcases lt_max_iff.mp hxl with hxa | hxb
            · have : ∀ k ∈ k1, x < k := by
                intro k hk
                obtain ⟨j, hj, rfl⟩ := List.mem_iff_getElem.mp hk
                exact lt_of_lt_of_le hxa (sorted_get s1 (Nat.zero_le j) ha' (List.getElem?_eq_getElem hj))
              rw [(C32_eval _ _ _ h1 x).2 (Or.inl this)] at hu
              cases hu
              ring
            · have : ∀ k ∈ k2, x < k := by
                intro k hk
                obtain ⟨j, hj, rfl⟩ := List.mem_iff_getElem.mp hk
                exact lt_of_lt_of_le hxb (sorted_get s2 (Nat.zero_le j) hb' (List.getElem?_eq_getElem hj))
              rw [(C32_eval _ _ _ h2 x).2 (Or.inl this)] at hv
              cases hv
              ring
          · rw [hhi] at hxl
            rcases min_lt_iff.mp hxl with hxa | hxb
            · rw [(C32_eval _ _ _ h1 x).2 (Or.inr fun k hk => lt_of_le_of_lt (L1.2 k hk) hxa)] at hu
              cases hu
              ring
            · rw [(C32_eval _ _ _ h2 x).2 (Or.inr fun k hk => lt_of_le_of_lt (L2.2 k hk) hxb)] at hv
              cases hv
              ring
        rcases C32_cases _ _ _ h hrsne x with ⟨m, g, hg, hin⟩ | hxo
        · rw [(C32_eval _ _ _ h x).1 m g hg hin]
          obtain ⟨k, l, hk, hl, hxk⟩ := hin
          obtain ⟨j1, j2, g1, g2, R1, R2, hg1, hg2, hmul⟩ := pget m g k hg hk
          have hkr := (hm k).mp (List.mem_of_getElem? hk)
          have hlr := (hm l).mp (List.mem_of_getElem? hl)
          have hkl : k < l := by
            obtain ⟨p1, rfl⟩ := List.getElem?_eq_some_iff.mp hk
            obtain ⟨p2, rfl⟩ := List.getElem?_eq_some_iff.mp hl
            exact List.pairwise_iff_getElem.mp hrs m (m + 1) p1 p2 (Nat.lt_succ_self m)
          have hnext : ∀ c, (c ∈ k1 ∨ c ∈ k2) → k < c → l ≤ c := by
            intro c hc hkc
            by_cases hch : c ≤ back
            · have hcr : c ∈ r := (hm c).mpr ⟨hc, hkr.2.1.trans hkc.le, hch⟩
              obtain ⟨q, hq, rfl⟩ := List.mem_iff_getElem.mp hcr
              have hmq : m + 1 ≤ q := by
                by_contra hlt
                have := sorted_get (sorted_lt_le hrs) (by omega : q ≤ m) (List.getElem?_eq_getElem hq) hk
                exact absurd hkc (not_lt.mpr this)
              exact sorted_get (sorted_lt_le hrs) hmq hl (List.getElem?_eq_getElem hq)
            · exact hlr.2.2.trans (not_le.mp hch).le
          have loc : ∀ (ks : List K) (j : Nat), (∀ c ∈ ks, k < c → l ≤ c) → (∀ c, ks[0]? = some c → c ≤ lo) → (x = lo → Spec.NotInner ks lo) →
              RightPiece ks j k → Spec.InPiece ks j x := by
            rintro ks j hn hfirst hsafe ⟨c, d, hc, hd, hck, hkd⟩
            refine ⟨c, d, hc, hd, ?_⟩
            rcases hxk with ⟨q1, q2⟩ | ⟨rfl, rfl⟩
            · exact Or.inl ⟨lt_of_le_of_lt hck q1, q2.trans (hn d (List.mem_of_getElem? hd) hkd)⟩
            · have hxlo : x = lo := by
                apply le_antisymm _ hkr.2.1
                obtain ⟨q, hq, hq'⟩ := List.mem_iff_getElem.mp hlom
                exact sorted_get (sorted_lt_le hrs) (Nat.zero_le q) hk (by rw [← hq']; exact List.getElem?_eq_getElem hq)
              rcases lt_or_eq_of_le hck with hlt' | heq
              · exact Or.inl ⟨hlt', hkd.le⟩
              · rcases Nat.eq_zero_or_pos j with rfl | hj
                · exact Or.inr ⟨rfl, heq.symm⟩
                · exact absurd (by rw [hc, heq, hxlo]) (hsafe hxlo j hj)
          have I1 := loc k1 j1 (fun c hc => hnext c (Or.inl hc)) (by
            intro c hc
            rw [ha'] at hc
            cases hc
            rw [hlo]
            exact le_max_left _ _) (fun e => (hx e).1) R1
          have I2 := loc k2 j2 (fun c hc => hnext c (Or.inr hc)) (by
            intro c hc
            rw [hb'] at hc
            cases hc
            rw [hlo]
            exact le_max_right _ _) (fun e => (hx e).2) R2
          rw [(C32_eval _ _ _ h1 x).1 j1 g1 hg1 I1] at hu
          rw [(C32_eval _ _ _ h2 x).1 j2 g2 hg2 I2] at hv
          exact hR g1 (List.mem_of_getElem? hg1) g2 (List.mem_of_getElem? hg2) g hmul u v hu hv
        · rw [(C32_eval _ _ _ h x).2 hxo, hout]
          rcases hxo with hxo | hxo
          · exact Or.inl (hxo lo hlom)
          · exact Or.inr (hxo back hhim)

/-! ## C33 -/

/-- A function that is not piecewise, and if it is a polynomial has a coefficient. -/
def Spec.Simple : Fn K → Prop
  | .poly c => c ≠ []
  | .nan n => n ≠ 0
  | .piecewise _ _ => False
  | .generic _ => True
  | .product _ _ => True

/-- Functions that are not piecewise. -/
theorem C33_simple (n : Nat) (f g : Fn K) (hf : Spec.Simple f) (hg : Spec.Simple g) :
    ∃ r, multiply (n + 1) f g = some (.ok r) ∧ ∀ x u v, eval f x = .ok u → eval g x = .ok v → eval r x = .ok (u * v) := by
  have default : ∀ x u v, eval f x = .ok u → eval g x = .ok v → eval (.product f g) x = .ok (u * v) := by
    intro x u v hu hv
    rw [eval, hu, hv]
    rfl
  match f, g, hf, hg with
  | .poly c1, .poly c2, hf, hg =>
    have hf : c1 ≠ [] := hf
    obtain ⟨c, hc, _, hv⟩ := (C31_product c1 c2).1 (fun h => hf h.1)
    refine ⟨.poly c, by rw [multiply, hc], ?_⟩
    intro x u v hu hv'
    rw [eval] at hu hv' ⊢
    cases hu
    cases hv'
    rw [hv]
  | .nan n, .poly c, _, _ => exact ⟨_, by rw [multiply], fun x u v hu => by rw [eval] at hu; cases hu⟩
  | .poly c, .nan n, _, _ => exact ⟨_, by rw [multiply], fun x u v _ hv => by rw [eval] at hv; cases hv⟩
  | .nan n, .nan m, _, _ => exact ⟨_, by rw [multiply], fun x u v hu => by rw [eval] at hu; cases hu⟩
  | .generic h, .poly c, _, _ => exact ⟨_, rfl, default⟩
  | .generic h, .nan c, _, _ => exact ⟨_, rfl, default⟩
  | .generic h, .generic c, _, _ => exact ⟨_, rfl, default⟩
  | .generic h, .product c d, _, _ => exact ⟨_, rfl, default⟩
  | .product h k, .poly c, _, _ => exact ⟨_, rfl, default⟩
  | .product h k, .nan c, _, _ => exact ⟨_, rfl, default⟩
  | .product h k, .generic c, _, _ => exact ⟨_, rfl, default⟩
  | .product h k, .product c d, _, _ => exact ⟨_, rfl, default⟩
  | .poly c, .generic h, _, _ => exact ⟨_, rfl, default⟩
  | .poly c, .product h k, _, _ => exact ⟨_, rfl, default⟩
  | .nan c, .generic h, _, _ => exact ⟨_, rfl, default⟩
  | .nan c, .product h k, _, _ => exact ⟨_, rfl, default⟩

/-- A polynomial with a coefficient that is not finite, in either order: no value of the product is a number, unless the other polynomial has no coefficients and the product is 0. -/
theorem C33_not_finite (k n : Nat) (c : List K) : ∃ r, multiply (k + 1) (.nan n) (.poly c) = some (.ok r) ∧ multiply (k + 1) (.poly c) (.nan n) = some (.ok r) ∧
    (c ≠ [] → ∀ x, eval r x = .throw .notFinite) ∧ (c = [] → ∀ x, eval r x = .ok 0) := by
  refine ⟨mulNan n c.length, by rw [multiply], by rw [multiply], fun hc x => ?_, fun hc x => ?_⟩
  · rw [mulNan, if_neg (by simpa using hc), eval]
  · rw [mulNan, if_pos (by simpa using hc), eval]
    congr 1
    have h : ∀ (m : Nat) (q : K), polyLoop x (List.replicate m (0 : K)) 0 q = 0 := by
      intro m
      induction m with
      | zero => intro q; rfl
      | succ m ih =>
        intro q
        rw [List.replicate_succ, polyLoop, zero_mul, add_zero]
        exact ih _
    exact h _ _

example : ∃ r, multiply 1 (.nan 2) (.poly [(1 : ℚ), 2]) = some (.ok r) ∧ eval r 3 = .throw .notFinite := by
  obtain ⟨r, h1, -, h2, -⟩ := C33_not_finite 0 2 [(1 : ℚ), 2]
  exact ⟨r, h1, h2 (by simp) 3⟩

/-- A piecewise function times one that is not, in either order. -/
theorem C33_with_simple (n : Nat) (ks : List K) (fs : List (Fn K)) (F g : Fn K) (hF : mkPiecewise ks fs = .ok F) (hne : fs ≠ [])
    (hfs : ∀ f ∈ fs, Spec.Simple f) (hg : Spec.Simple g) :
    ∃ R, multiply (n + 2) F g = some (.ok R) ∧ multiply (n + 2) g F = some (.ok R) ∧
      ∀ x u v, eval F x = .ok u → eval g x = .ok v → eval R x = .ok (u * v) := by
  obtain ⟨rfl, hlen, hs⟩ := mkPiecewise_ok hF
  have each : ∀ fs : List (Fn K), (∀ f ∈ fs, Spec.Simple f) → ∃ rs, mulEach (multiply (n + 1)) g fs = some (.ok rs) ∧ rs.length = fs.length ∧
      ∀ (i : Nat) r f, rs[i]? = some r → fs[i]? = some f → ∀ x u v, eval f x = .ok u → eval g x = .ok v → eval r x = .ok (u * v) := by
    intro fs
    induction fs with
    | nil => intro _; exact ⟨[], rfl, rfl, by intro i r f h; simp at h⟩
    | cons f fs ih =>
      intro h
      obtain ⟨r, hr, hv⟩ := C33_simple n f g (h f List.mem_cons_self) hg
      obtain ⟨rs, hrs, hl, hvs⟩ := ih fun f hf => h f (List.mem_cons_of_mem _ hf)
      refine ⟨r :: rs, ?_, by simp [hl], ?_⟩
      · rw [mulEach, hr, hrs]; rfl
      · intro i r' f' hr' hf'
        cases i with
        | zero =>
          simp only [List.getElem?_cons_zero, Option.some.injEq] at hr' hf'
          subst hr' hf'
          exact hv
        | succ i => exact hvs i r' f' (by simpa using hr') (by simpa using hf')
  obtain ⟨rs, hrs, hl, hvs⟩ := each fs hfs
  have hmk : mkPiecewise ks rs = .ok (.piecewise ks rs) := (C32_constructor ks rs).1 ⟨by omega, hs⟩
  have hres : mulGeneric (multiply (n + 1)) ks fs g = some (.ok (.piecewise ks rs)) := by
    rw [mulGeneric, hrs]
    simp only [Calc.bind]
    rw [hmk]
  refine ⟨.piecewise ks rs, ?_, ?_, ?_⟩
  · rw [← hres]
    cases g with
    | piecewise => exact hg.elim
    | _ => rfl
  · rw [← hres]
    cases g with
    | piecewise => exact hg.elim
    | _ => rfl
  · intro x u v hu hv
    rcases C32_cases _ _ _ hF hne x with ⟨i, f, hf, hin⟩ | hout
    · have hi := (List.getElem?_eq_some_iff.mp hf).1
      have hr : rs[i]? = some (rs[i]'(by omega)) := List.getElem?_eq_getElem (by omega)
      rw [(C32_eval _ _ _ hF x).1 i f hf hin] at hu
      rw [(C32_eval _ _ _ hmk x).1 i _ hr hin]
      exact hvs i _ f hr hf x u v hu hv
    · rw [(C32_eval _ _ _ hF x).2 hout] at hu
      cases hu
      rw [(C32_eval _ _ _ hmk x).2 hout]
      congr 1
      ring

/-- Two piecewise functions whose ranges overlap, with pieces that are not piecewise: the product exists and is right at every argument,
except possibly where the overlap begins if one of the functions has an inner knot there. -/
theorem C33_piecewise_partial (n : Nat) (k1 : List K) (f1 : List (Fn K)) (k2 : List K) (f2 : List (Fn K))
    (F G : Fn K) (h1 : mkPiecewise k1 f1 = .ok F) (h2 : mkPiecewise k2 f2 = .ok G) (p1 : ∀ f ∈ f1, Spec.Simple f) (p2 : ∀ f ∈ f2, Spec.Simple f)
    (lo hi : K) (hov : Spec.Overlap k1 k2 lo hi) (hlt : lo < hi) :
    ∃ R, multiply (n + 2) F G = some (.ok R) ∧
      ∀ x u v, (x = lo → Spec.NotInner k1 lo ∧ Spec.NotInner k2 lo) → eval F x = .ok u → eval G x = .ok v → eval R x = .ok (u * v) := by
  obtain ⟨e1, len1, s1⟩ := mkPiecewise_ok h1
  obtain ⟨e2, len2, s2⟩ := mkPiecewise_ok h2
  have hall : ∀ g1 ∈ f1, ∀ g2 ∈ f2, ∃ r, multiply (n + 1) g1 g2 = some (.ok r) := by
    intro g1 hg1 g2 hg2
    obtain ⟨r, hr, _⟩ := C33_simple n g1 g2 (p1 g1 hg1) (p2 g2 hg2)
    exact ⟨r, hr⟩
  have hright : ∀ x, ∀ g1 ∈ f1, ∀ g2 ∈ f2, Spec.Right (multiply (n + 1)) g1 g2 x := by
    intro x g1 hg1 g2 hg2 r hr u v hu hv
    obtain ⟨r', hr', hval⟩ := C33_simple n g1 g2 (p1 g1 hg1) (p2 g2 hg2)
    rw [hr] at hr'
    cases hr'
    exact hval x u v hu hv
  have hret : ∃ R, mulPiecewises (multiply (n + 1)) k1 f1 k2 f2 = some (.ok R) := by
    obtain ⟨r, hr, hrs, hm⟩ := C33_knots_partial k1 k2 s1 s2 lo hi hov hlt
    obtain ⟨⟨a, b, ha, hb, hlo⟩, c1, c2, he1, he2, hhi⟩ := hov
    have L1 := getLast_isLast s1 he1
    have L2 := getLast_isLast s2 he2
    have ha' : k1[0]? = some a := by rw [← List.head?_eq_getElem?]; exact ha
    have hb' : k2[0]? = some b := by rw [← List.head?_eq_getElem?]; exact hb
    rw [mulPiecewises, hr]
    simp only [Calc.bind]
    cases hback : r.getLast? with
    | none => exact ⟨_, rfl⟩
    | some back =>
      simp only
      have hbm := (hm back).mp (List.mem_of_getLast? hback)
      have hb1 : back ≤ c1 := hbm.2.2.trans (hhi ▸ min_le_left _ _)
      have hb2 : back ≤ c2 := hbm.2.2.trans (hhi ▸ min_le_right _ _)
      obtain ⟨P1, P2⟩ := mulPieces_eq (multiply (n + 1)) k1 f1 k2 f2 len1 len2 s1 s2 back ⟨c1, L1.1, hb1⟩ ⟨c2, L2.1, hb2⟩ r 0 0 hrs hback (by
        intro k hk
        have hk := ((hm k).mp hk).2.1
        rw [hlo] at hk
        exact ⟨⟨a, ha', (le_max_left _ _).trans hk⟩, b, hb', (le_max_right _ _).trans hk⟩)
      obtain ⟨rs, hrs'⟩ := P2 hall
      rw [hrs']
      simp only
      rw [(C32_constructor r rs).1 ⟨(P1 rs hrs').1, sorted_lt_le hrs⟩]
      exact ⟨_, rfl⟩
  obtain ⟨R, hR⟩ := hret
  refine ⟨R, by rw [e1, e2, multiply]; exact hR, ?_⟩
  intro x u v hx hu hv
  exact mulPiecewises_right _ k1 f1 k2 f2 F G R h1 h2 lo hi hov hlt x hx (hright x) hR u v hu hv

end

/-- The full claim, for polynomials as pieces. -/
def C33_full : Prop := ∀ (k1 : List ℚ) (c1 : List (List ℚ)) (k2 : List ℚ) (c2 : List (List ℚ)) (F G : Fn ℚ),
  c1 ≠ [] → c2 ≠ [] → [] ∉ c1 → [] ∉ c2 → mkPiecewise k1 (c1.map .poly) = .ok F → mkPiecewise k2 (c2.map .poly) = .ok G →
  ∃ R, multiply 2 F G = some (.ok R) ∧ ∀ x u v, eval F x = .ok u → eval G x = .ok v → eval R x = .ok (u * v)

/-- Functions with disjoint ranges: the iterator is dereferenced at the end. -/
theorem C33_violated : ¬ C33_full := by
  intro h
  obtain ⟨R, hR, _⟩ := h [0, 1] [[1]] [2, 3] [[1]] _ _ (by simp) (by simp) (by simp) (by simp) rfl rfl
  have : multiply 2 (.piecewise [0, 1] [.poly [1]]) (.piecewise [2, 3] [.poly [1]] : Fn ℚ) = some .ub := rfl
  rw [List.map_cons, List.map_nil, this] at hR
  cases hR

/-- The value of a product, for examples. -/
def productAt (F G : Fn ℚ) (x : ℚ) : Option (Res ℚ) := Calc.bind (multiply 2 F G) fun R => some (eval R x)

/-- Where the overlap begins at a jump of one function: the factors are 1 and 1, the product is 2. -/
theorem C33_jump : eval (.piecewise [0, 1, 2] [.poly [1], .poly [2]] : Fn ℚ) 1 = .ok 1 ∧ eval (.piecewise [1, 2] [.poly [1]] : Fn ℚ) 1 = .ok 1 ∧
    productAt (.piecewise [0, 1, 2] [.poly [1], .poly [2]]) (.piecewise [1, 2] [.poly [1]]) 1 = some (.ok 2) := by
  decide +kernel

/-- Functions whose ranges touch: the product is undefined there, or has no value at all if they are exchanged. -/
theorem C33_touching : productAt (.piecewise [0, 1] [.poly [1]]) (.piecewise [1, 2] [.poly [1]]) 1 = some .ub ∧
    multiply 2 (.piecewise [1, 2] [.poly [1]]) (.piecewise [0, 1] [.poly [1]] : Fn ℚ) = some .ub := ⟨by decide +kernel, rfl⟩

/-- An example of the theorem: x on [0, 2] times 1 and 2 on [-1, 1] and (1, 3]. -/
example : productAt (.piecewise [0, 2] [.poly [0, 1]]) (.piecewise [-1, 1, 3] [.poly [1], .poly [2]]) (3 / 2) = some (.ok 3) ∧
    productAt (.piecewise [0, 2] [.poly [0, 1]]) (.piecewise [-1, 1, 3] [.poly [1], .poly [2]]) (1 / 2) = some (.ok (1 / 2)) ∧
    productAt (.piecewise [0, 2] [.poly [0, 1]]) (.piecewise [-1, 1, 3] [.poly [1], .poly [2]]) 3 = some (.ok 0) := by
  decide +kernel

example : Spec.Overlap [(0 : ℚ), 2] [-1, 1, 3] 0 2 := ⟨⟨0, -1, rfl, rfl, by decide +kernel⟩, 2, 3, rfl, rfl, by decide +kernel⟩

end Alexandria.MathUtils
