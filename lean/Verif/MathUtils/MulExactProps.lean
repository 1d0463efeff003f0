import Verif.MathUtils.MulProps

/-! # Exactly when two piecewise functions can be multiplied (C33)

`C33_piecewise_partial` says what the product is if the common range of the functions has a positive length. Here is what happens in all
the other cases, and what the product is where the overlap begins. -/

namespace Alexandria.MathUtils

section
variable {K : Type} [Field K] [LinearOrder K] [IsStrictOrderedRing K]

/-- The ranges of the knots meet in a way that the search for the overlap notices: the second one does not begin after the first one ends,
the first one begins before the second one ends, and if the second range is a single point then it is not a knot of the first one. -/
def Spec.Meet (k1 k2 : List K) : Prop := ∃ a b e1 e2, k1.head? = some a ∧ k2.head? = some b ∧ k1.getLast? = some e1 ∧ k2.getLast? = some e2 ∧
  b ≤ e1 ∧ a < e2 ∧ (b = e2 → b ∉ k1)

theorem IsLast.drop {a e : K} {l : List K} (h : IsLast (a :: l) e) (hs : (a :: l).Pairwise (· ≤ ·)) (hne : l ≠ []) : IsLast l e := by
  obtain ⟨sa, _⟩ := List.pairwise_cons.mp hs
  refine ⟨?_, fun k hk => h.2 k (List.mem_cons_of_mem _ hk)⟩
  obtain ⟨c, hc⟩ := List.exists_mem_of_ne_nil l hne
  rcases List.mem_cons.mp h.1 with rfl | h'
  · have : c = e := le_antisymm (h.2 c (List.mem_cons_of_mem _ hc)) (sa c hc)
    exact this ▸ hc
  · exact h'

theorem overlap_meet (n : Nat) : ∀ (a : K) (as : List K) (b : K) (bs s : List K) (e1 e2 : K), as.length + bs.length + 2 ≤ n →
    (a :: as).Pairwise (· ≤ ·) → (b :: bs).Pairwise (· ≤ ·) → IsLast (a :: as) e1 → IsLast (b :: bs) e2 → b ≤ e1 → a < e2 →
    (b = e2 → b ∉ a :: as) → s.Pairwise (· < ·) →
    ∃ r, overlapLoop n (a :: as) (b :: bs) false s = some (.ok r) ∧ r.Pairwise (· < ·) ∧
      ∀ k, k ∈ r ↔ k ∈ s ∨ ((k ∈ a :: as ∨ k ∈ b :: bs) ∧ max a b ≤ k ∧ k ≤ min e1 e2) := by
  induction n with
  | zero => intro a as b bs s e1 e2 hn; omega
  | succ n ih =>
    intro a as b bs s e1 e2 hn s1 s2 h1 h2 hb1 ha2 hpt hs
    obtain ⟨sa, sa'⟩ := List.pairwise_cons.mp s1
    obtain ⟨sb, sb'⟩ := List.pairwise_cons.mp s2
    by_cases hab : a < b
    · obtain ⟨h1', hne⟩ := h1.tail hab hb1
      match as, hne, sa, sa', h1', hn, hpt with
      | a' :: as', _, sa, sa', h1', hn, hpt =>
        simp only [List.length_cons] at hn
        rw [overlapLoop.eq_def]
        simp only
        rw [if_pos hab]
        by_cases hs' : a' > b
        · rw [decide_eq_true hs']
          obtain ⟨r, hr, hrs, hm⟩ := overlap_started n (a' :: as') (b :: bs) s e1 e2 (by simp only [List.length_cons]; omega) sa' s2 h1' h2 hs
          refine ⟨r, hr, hrs, fun k => ?_⟩
          rw [hm, max_eq_right hab.le, le_min_iff]
          constructor
          · rintro (h | ⟨h | h, h3⟩)
            · exact Or.inl h
            · refine Or.inr ⟨Or.inl (List.mem_cons_of_mem _ h), ?_, h3⟩
              rcases List.mem_cons.mp h with rfl | h
              · exact le_of_lt hs'
              · exact (le_of_lt hs').trans ((List.pairwise_cons.mp sa').1 k h)
            · refine Or.inr ⟨Or.inr h, ?_, h3⟩
              rcases List.mem_cons.mp h with rfl | h
              · exact le_refl _
              · exact sb k h
          · rintro (h | ⟨h | h, h3, h4⟩)
            · exact Or.inl h
            · rcases List.mem_cons.mp h with rfl | h
              · exact absurd hab (not_lt.mpr h3)
              · exact Or.inr ⟨Or.inl h, h4⟩
            · exact Or.inr ⟨Or.inr h, h4⟩
        · rw [decide_eq_false hs']
          have hle : a' ≤ b := not_lt.mp hs'
          have hbe : b ≤ e2 := h2.2 b List.mem_cons_self
          have ha' : a' < e2 := by
            rcases lt_or_eq_of_le hbe with h | h
            · exact lt_of_le_of_lt hle h
            · refine lt_of_le_of_ne (hle.trans hbe) fun e => hpt h ?_
              rw [h, ← e]
              exact List.mem_cons_of_mem _ List.mem_cons_self
          obtain ⟨r, hr, hrs, hm⟩ := ih a' as' b bs s e1 e2 (by omega) sa' s2 h1' h2 hb1 ha' (fun e h => hpt e (List.mem_cons_of_mem _ h)) hs
          refine ⟨r, hr, hrs, fun k => ?_⟩
          rw [hm, max_eq_right hle, max_eq_right hab.le]
          constructor
          · rintro (h | ⟨h | h, h3⟩)
            · exact Or.inl h
            · exact Or.inr ⟨Or.inl (List.mem_cons_of_mem _ h), h3⟩
            · exact Or.inr ⟨Or.inr h, h3⟩
          · rintro (h | ⟨h | h, h3, h4⟩)
            · exact Or.inl h
            · rcases List.mem_cons.mp h with rfl | h
              · exact absurd hab (not_lt.mpr h3)
              · exact Or.inr ⟨Or.inl h, h3, h4⟩
            · exact Or.inr ⟨Or.inr h, h3, h4⟩
    · have hba := not_lt.mp hab
      have h2t : IsLast bs e2 ∧ bs ≠ [] := by
        have : e2 ∈ bs := by
          rcases List.mem_cons.mp h2.1 with h | h
          · exact absurd (h ▸ ha2) (not_lt.mpr hba)
          · exact h
        exact ⟨⟨this, fun k hk => h2.2 k (List.mem_cons_of_mem _ hk)⟩, List.ne_nil_of_mem this⟩
      obtain ⟨h2', hne⟩ := h2t
      match bs, hne, sb, sb', h2', hn with
      | b' :: bs', _, sb, sb', h2', hn =>
        simp only [List.length_cons] at hn
        rw [overlapLoop.eq_def]
        simp only
        rw [if_neg hab]
        by_cases hs' : a < b'
        · rw [decide_eq_true hs']
          obtain ⟨r, hr, hrs, hm⟩ := overlap_started n (a :: as) (b' :: bs') s e1 e2 (by simp only [List.length_cons]; omega) s1 sb' h1 h2' hs
          refine ⟨r, hr, hrs, fun k => ?_⟩
          rw [hm, max_eq_left hba, le_min_iff]
          constructor
          · rintro (h | ⟨h | h, h3⟩)
            · exact Or.inl h
            · refine Or.inr ⟨Or.inl h, ?_, h3⟩
              rcases List.mem_cons.mp h with rfl | h
              · exact le_refl _
              · exact sa k h
            · refine Or.inr ⟨Or.inr (List.mem_cons_of_mem _ h), ?_, h3⟩
              rcases List.mem_cons.mp h with rfl | h
              · exact le_of_lt hs'
              · exact (le_of_lt hs').trans ((List.pairwise_cons.mp sb').1 k h)
          · rintro (h | ⟨h | h, h3, h4⟩)
            · exact Or.inl h
            · exact Or.inr ⟨Or.inl h, h4⟩
            · rcases List.mem_cons.mp h with rfl | h
              · have : k = a := le_antisymm hba h3
                subst this
                exact Or.inr ⟨Or.inl List.mem_cons_self, h4⟩
              · exact Or.inr ⟨Or.inr h, h4⟩
        · rw [decide_eq_false hs']
          have hle : b' ≤ a := not_lt.mp hs'
          obtain ⟨r, hr, hrs, hm⟩ := ih a as b' bs' s e1 e2 (by omega) s1 sb' h1 h2' (hle.trans (h1.2 a List.mem_cons_self)) ha2
            (fun e => absurd (lt_of_le_of_lt hle ha2) (by rw [e]; exact lt_irrefl _)) hs
          refine ⟨r, hr, hrs, fun k => ?_⟩
          rw [hm, max_eq_left hle, max_eq_left hba]
          constructor
          · rintro (h | ⟨h | h, h3⟩)
            · exact Or.inl h
            · exact Or.inr ⟨Or.inl h, h3⟩
            · exact Or.inr ⟨Or.inr (List.mem_cons_of_mem _ h), h3⟩
          · rintro (h | ⟨h | h, h3, h4⟩)
            · exact Or.inl h
            · exact Or.inr ⟨Or.inl h, h3, h4⟩
            · rcases List.mem_cons.mp h with rfl | h
              · have : k = a := le_antisymm hba h3
                subst this
                exact Or.inr ⟨Or.inl List.mem_cons_self, h3, h4⟩
              · exact Or.inr ⟨Or.inr h, h3, h4⟩

theorem overlap_apart (n : Nat) : ∀ (a : K) (as : List K) (b : K) (bs s : List K) (e1 e2 : K), as.length + bs.length + 2 ≤ n →
    (a :: as).Pairwise (· ≤ ·) → (b :: bs).Pairwise (· ≤ ·) → IsLast (a :: as) e1 → IsLast (b :: bs) e2 →
    ¬ (b ≤ e1 ∧ a < e2 ∧ (b = e2 → b ∉ a :: as)) → overlapLoop n (a :: as) (b :: bs) false s = some .ub := by
  induction n with
  | zero => intro a as b bs s e1 e2 hn; omega
  | succ n ih =>
    intro a as b bs s e1 e2 hn s1 s2 h1 h2 hnot
    obtain ⟨sa, sa'⟩ := List.pairwise_cons.mp s1
    obtain ⟨sb, sb'⟩ := List.pairwise_cons.mp s2
    have hbe : b ≤ e2 := h2.2 b List.mem_cons_self
    have hae : a ≤ e1 := h1.2 a List.mem_cons_self
    rw [overlapLoop.eq_def]
    by_cases hab : a < b
    · simp only
      rw [if_pos hab]
      match as, s1, sa, sa', h1, hn, hnot with
      | [], _, _, _, _, _, _ => rfl
      | a' :: as', s1, sa, sa', h1, hn, hnot =>
        simp only [List.length_cons] at hn
        have h1' := h1.drop s1 (by simp)
        simp only
        by_cases hs' : a' > b
        · refine absurd ⟨?_, lt_of_lt_of_le hab hbe, ?_⟩ hnot
          · exact hs'.le.trans (h1'.2 a' List.mem_cons_self)
          · intro _ hm
            rcases List.mem_cons.mp hm with rfl | hm
            · exact lt_irrefl _ hab
            · rcases List.mem_cons.mp hm with rfl | hm
              · exact lt_irrefl _ hs'
              · exact absurd hs' (not_lt.mpr ((List.pairwise_cons.mp sa').1 b hm))
        · rw [decide_eq_false hs']
          refine ih a' as' b bs s e1 e2 (by omega) sa' s2 h1' h2 fun ⟨g1, _, g3⟩ => hnot ⟨g1, lt_of_lt_of_le hab hbe, ?_⟩
          intro e hm
          rcases List.mem_cons.mp hm with rfl | hm
          · exact lt_irrefl _ hab
          · exact g3 e hm
    · have hba := not_lt.mp hab
      simp only
      rw [if_neg hab]
      match bs, s2, sb, sb', h2, hn with
      | [], _, _, _, _, _ => rfl
      | b' :: bs', s2, sb, sb', h2, hn =>
        simp only [List.length_cons] at hn
        have h2' := h2.drop s2 (by simp)
        have hbb : b ≤ b' := sb b' List.mem_cons_self
        have hbe' : b' ≤ e2 := h2'.2 b' List.mem_cons_self
        simp only
        by_cases hs' : a < b'
        · refine absurd ⟨hba.trans hae, lt_of_lt_of_le hs' hbe', ?_⟩ hnot
          intro e _
          exact absurd (lt_of_lt_of_le hs' hbe') (not_lt.mpr (e ▸ hba))
        · rw [decide_eq_false hs']
          refine ih a as b' bs' s e1 e2 (by omega) s1 sb' h1 h2' fun ⟨_, g2, _⟩ => hnot ⟨hba.trans hae, g2, ?_⟩
          intro e _
          exact absurd g2 (not_lt.mpr (e ▸ hba))

/-- The search for the overlap of two increasing lists of knots, for all of them: it returns the knots of both lists in the common range
if they meet, and otherwise the iterator is dereferenced at the end. -/
theorem C33_knots_exact (k1 k2 : List K) (s1 : k1.Pairwise (· ≤ ·)) (s2 : k2.Pairwise (· ≤ ·)) (lo hi : K) (h : Spec.Overlap k1 k2 lo hi) :
    (Spec.Meet k1 k2 → ∃ r, overlapKnots k1 k2 = some (.ok r) ∧ r.Pairwise (· < ·) ∧ ∀ k, k ∈ r ↔ (k ∈ k1 ∨ k ∈ k2) ∧ lo ≤ k ∧ k ≤ hi) ∧
    (¬ Spec.Meet k1 k2 → overlapKnots k1 k2 = some .ub) := by
  obtain ⟨⟨a, b, ha, hb, rfl⟩, e1, e2, he1, he2, rfl⟩ := h
  match k1, k2, ha, hb with
  | a' :: as, b' :: bs, ha, hb =>
    simp only [List.head?_cons, Option.some.injEq] at ha hb
    subst ha hb
    have hlen : as.length + bs.length + 2 ≤ (a' :: as).length + (b' :: bs).length := by simp only [List.length_cons]; omega
    constructor
    · rintro ⟨a, b, d1, d2, ha, hb, hd1, hd2, g1, g2, g3⟩
      cases ha
      cases hb
      rw [he1] at hd1
      rw [he2] at hd2
      cases hd1
      cases hd2
      obtain ⟨r, h1, h2, h3⟩ := overlap_meet _ a' as b' bs [] e1 e2 hlen s1 s2 (getLast_isLast s1 he1) (getLast_isLast s2 he2) g1 g2 g3 List.Pairwise.nil
      exact ⟨r, h1, h2, fun k => by rw [h3]; simp⟩
    · intro hnot
      exact overlap_apart _ a' as b' bs [] e1 e2 hlen s1 s2 (getLast_isLast s1 he1) (getLast_isLast s2 he2)
        fun ⟨g1, g2, g3⟩ => hnot ⟨a', b', e1, e2, rfl, rfl, he1, he2, g1, g2, g3⟩

/-- A common range of positive length is noticed; if the ranges meet otherwise then in a single point. -/
theorem meet_of_lt {k1 k2 : List K} (s1 : k1.Pairwise (· ≤ ·)) (s2 : k2.Pairwise (· ≤ ·)) {lo hi : K} (h : Spec.Overlap k1 k2 lo hi) :
    (lo < hi → Spec.Meet k1 k2) ∧ (Spec.Meet k1 k2 → lo ≤ hi) := by
  obtain ⟨⟨a, b, ha, hb, rfl⟩, e1, e2, he1, he2, rfl⟩ := h
  constructor
  · intro hlt
    rw [max_lt_iff, lt_min_iff, lt_min_iff] at hlt
    exact ⟨a, b, e1, e2, ha, hb, he1, he2, hlt.2.1.le, hlt.1.2, fun e => absurd hlt.2.2 (by rw [e]; exact lt_irrefl _)⟩
  · rintro ⟨a', b', d1, d2, ha', hb', hd1, hd2, g1, g2, _⟩
    rw [ha] at ha'
    rw [hb] at hb'
    rw [he1] at hd1
    rw [he2] at hd2
    cases ha'
    cases hb'
    cases hd1
    cases hd2
    exact max_le (le_min ((getLast_isLast s1 he1).2 a (List.mem_of_head? ha)) g2.le) (le_min g1 ((getLast_isLast s2 he2).2 b (List.mem_of_head? hb)))

/-- Two piecewise functions whose common range has no positive length, whatever the pieces: multiplying them is undefined, unless they meet;
then the result is a function with a single knot, which is zero everywhere else and undefined there. -/
theorem C33_apart (n : Nat) (k1 : List K) (f1 : List (Fn K)) (k2 : List K) (f2 : List (Fn K)) (F G : Fn K) (h1 : mkPiecewise k1 f1 = .ok F)
    (h2 : mkPiecewise k2 f2 = .ok G) (lo hi : K) (hov : Spec.Overlap k1 k2 lo hi) (hge : hi ≤ lo) :
    (¬ Spec.Meet k1 k2 → multiply (n + 1) F G = some .ub) ∧
    (Spec.Meet k1 k2 → ∃ R, multiply (n + 1) F G = some (.ok R) ∧ eval R lo = .ub ∧ ∀ x, x ≠ lo → eval R x = .ok 0) := by
  obtain ⟨rfl, len1, s1⟩ := mkPiecewise_ok h1
  obtain ⟨rfl, len2, s2⟩ := mkPiecewise_ok h2
  obtain ⟨K1, K2⟩ := C33_knots_exact k1 k2 s1 s2 lo hi hov
  constructor
  · intro hnot
    rw [multiply, mulPiecewises, K2 hnot]
    rfl
  · intro hmeet
    obtain ⟨r, hr, hrs, hm⟩ := K1 hmeet
    have heq : lo = hi := le_antisymm ((meet_of_lt s1 s2 hov).2 hmeet) hge
    subst heq
    have hlo : lo ∈ r := by
      rw [hm]
      refine ⟨?_, le_refl _, le_refl _⟩
      obtain ⟨⟨a, b, ha, hb, hlo⟩, _⟩ := hov
      rcases max_cases a b with ⟨h, _⟩ | ⟨h, _⟩
      · rw [hlo, h]; exact Or.inl (List.mem_of_head? ha)
      · rw [hlo, h]; exact Or.inr (List.mem_of_head? hb)
    have hone : r = [lo] := by
      match r, hrs, hm, hlo with
      | [c], _, _, hlo => rw [List.mem_singleton.mp hlo]
      | c :: d :: r', hrs, hm, _ =>
        have hc := (hm c).mp List.mem_cons_self
        have hd := (hm d).mp (List.mem_cons_of_mem _ List.mem_cons_self)
        have := (List.pairwise_cons.mp hrs).1 d List.mem_cons_self
        exact absurd this (not_lt.mpr (hd.2.2.trans hc.2.1))
    subst hone
    refine ⟨.piecewise [lo] [], ?_, ?_, ?_⟩
    · rw [multiply, mulPiecewises, hr]
      simp only [Calc.bind, List.getLast?_singleton]
      rw [mulPieces, if_pos rfl]
      simp [mkPiecewise, knotsOk]
    · simp [eval, pieceIndex, evalNth]
    · intro x hx
      rw [eval, pieceIndex]
      by_cases hlt : x < lo
      · rw [if_pos hlt]
      · rw [if_neg hlt, if_neg hx]
        have : lo < x := lt_of_le_of_ne (not_lt.mp hlt) (Ne.symm hx)
        simp [this]

/-- Where the overlap begins the product is the one of the pieces to the right of this knot, whatever the functions are there. -/
theorem C33_at_begin (n : Nat) (k1 : List K) (f1 : List (Fn K)) (k2 : List K) (f2 : List (Fn K)) (F G : Fn K) (h1 : mkPiecewise k1 f1 = .ok F)
    (h2 : mkPiecewise k2 f2 = .ok G) (p1 : ∀ f ∈ f1, Spec.Simple f) (p2 : ∀ f ∈ f2, Spec.Simple f) (lo hi : K) (hov : Spec.Overlap k1 k2 lo hi)
    (hlt : lo < hi) (j1 j2 : Nat) (g1 g2 : Fn K) (r1 : RightPiece k1 j1 lo) (r2 : RightPiece k2 j2 lo) (hg1 : f1[j1]? = some g1)
    (hg2 : f2[j2]? = some g2) (u v : K) (hu : eval g1 lo = .ok u) (hv : eval g2 lo = .ok v) :
    ∃ R, multiply (n + 2) F G = some (.ok R) ∧ eval R lo = .ok (u * v) := by
  have uniq : ∀ (ks : List K) (i j : Nat) (k : K), ks.Pairwise (· ≤ ·) → RightPiece ks i k → RightPiece ks j k → i = j := by
    rintro ks i j k hs ⟨a, b, ha, hb, hak, hkb⟩ ⟨c, d, hc, hd, hck, hkd⟩
    rcases Nat.lt_trichotomy i j with h | h | h
    · exact absurd (lt_of_lt_of_le hkb (sorted_get hs h hb hc)) (not_lt.mpr hck)
    · exact h
    · exact absurd (lt_of_lt_of_le hkd (sorted_get hs h hd ha)) (not_lt.mpr hak)
  obtain ⟨R, hR, _⟩ := C33_piecewise_partial n k1 f1 k2 f2 F G h1 h2 p1 p2 lo hi hov hlt
  refine ⟨R, hR, ?_⟩
  obtain ⟨rfl, len1, s1⟩ := mkPiecewise_ok h1
  obtain ⟨rfl, len2, s2⟩ := mkPiecewise_ok h2
  obtain ⟨r, hr, hrs, hm⟩ := C33_knots_partial k1 k2 s1 s2 lo hi hov hlt
  obtain ⟨⟨a, b, ha, hb, hlo⟩, e1, e2, he1, he2, hhi⟩ := hov
  have L1 := getLast_isLast s1 he1
  have L2 := getLast_isLast s2 he2
  have ha' : k1[0]? = some a := by rw [← List.head?_eq_getElem?]; exact ha
  have hb' : k2[0]? = some b := by rw [← List.head?_eq_getElem?]; exact hb
  have hlom : lo ∈ r := by
    rw [hm]
    refine ⟨?_, le_refl _, hlt.le⟩
    rw [hlo]
    rcases max_cases a b with ⟨h, _⟩ | ⟨h, _⟩
    · rw [h]; exact Or.inl (List.mem_of_head? ha)
    · rw [h]; exact Or.inr (List.mem_of_head? hb)
  have hhim : hi ∈ r := by
    rw [hm]
    refine ⟨?_, hlt.le, le_refl _⟩
    rw [hhi]
    rcases min_cases e1 e2 with ⟨h, _⟩ | ⟨h, _⟩
    · rw [h]; exact Or.inl L1.1
    · rw [h]; exact Or.inr L2.1
  rw [multiply, mulPiecewises, hr] at hR
  simp only [Calc.bind] at hR
  cases hback : r.getLast? with
  | none => exact absurd (List.getLast?_eq_none_iff.mp hback) (List.ne_nil_of_mem hlom)
  | some back =>
    rw [hback] at hR
    simp only at hR
    have Lr := getLast_isLast (sorted_lt_le hrs) hback
    have hbk : back = hi := le_antisymm ((hm back).mp Lr.1).2.2 (Lr.2 hi hhim)
    subst hbk
    cases hp : mulPieces (multiply (n + 1)) k1 f1 k2 f2 back r 0 0 with
    | none => rw [hp] at hR; cases hR
    | some o =>
      cases o with
      | throw e => rw [hp] at hR; cases hR
      | ub => rw [hp] at hR; cases hR
      | ok rs =>
        rw [hp] at hR
        simp only [Option.some.injEq] at hR
        obtain ⟨P1, _⟩ := mulPieces_eq (multiply (n + 1)) k1 f1 k2 f2 len1 len2 s1 s2 back ⟨e1, L1.1, hhi ▸ min_le_left _ _⟩
          ⟨e2, L2.1, hhi ▸ min_le_right _ _⟩ r 0 0 hrs hback (by
          intro k hk
          have hk := ((hm k).mp hk).2.1
          rw [hlo] at hk
          exact ⟨⟨a, ha', (le_max_left _ _).trans hk⟩, b, hb', (le_max_right _ _).trans hk⟩)
        obtain ⟨plen, pget⟩ := P1 rs hp
        obtain ⟨rfl, _, _⟩ := mkPiecewise_ok hR
        match r, rs, plen, hrs, hm, hlom, hhim, pget with
        | [c], [], _, _, _, hlom, hhim, _ =>
          rw [List.mem_singleton] at hlom hhim
          exact absurd hlt (by rw [hlom, hhim]; exact lt_irrefl _)
        | c :: r', g :: rs', _, hrs, hm, hlom, _, pget =>
          have hc : c = lo := by
            refine le_antisymm ?_ ((hm c).mp List.mem_cons_self).2.1
            rcases List.mem_cons.mp hlom with rfl | h
            · exact le_refl _
            · exact ((List.pairwise_cons.mp hrs).1 lo h).le
          subst hc
          obtain ⟨i1, i2, q1, q2, R1, R2, hq1, hq2, hmul⟩ := pget 0 g c rfl rfl
          cases uniq k1 i1 j1 c s1 R1 r1
          cases uniq k2 i2 j2 c s2 R2 r2
          rw [hg1] at hq1
          rw [hg2] at hq2
          cases hq1
          cases hq2
          obtain ⟨R', hR', hval⟩ := C33_simple n g1 g2 (p1 g1 (List.mem_of_getElem? hg1)) (p2 g2 (List.mem_of_getElem? hg2))
          rw [hmul] at hR'
          cases hR'
          have : pieceIndex (c :: r') c = .ok (some 0) := by simp [pieceIndex]
          rw [eval, this]
          simp only [evalNth]
          exact hval c u v hu hv

end

/-- The knots 1, 1, 2 and 0, 1: they do not meet, in this order, but exchanged they do. -/
example : ¬ Spec.Meet [(1 : ℚ), 1, 2] [0, 1] ∧ Spec.Meet [(0 : ℚ), 1] [1, 1, 2] := by
  constructor
  · rintro ⟨a, b, e1, e2, ha, hb, he1, he2, h⟩
    cases ha
    cases hb
    cases he1
    cases he2
    exact absurd h.2.1 (lt_irrefl _)
  · exact ⟨0, 1, 1, 2, rfl, rfl, rfl, rfl, by decide +kernel, by decide +kernel, by decide +kernel⟩

example : Spec.Overlap [(0 : ℚ), 1] [1, 1, 2] 1 1 := ⟨⟨0, 1, rfl, rfl, by decide +kernel⟩, 1, 2, rfl, rfl, by decide +kernel⟩

/-- The functions of `C33_jump` where the overlap begins: to the right of the knot are the pieces 2 and 1. -/
example : RightPiece [(0 : ℚ), 1, 2] 1 1 ∧ RightPiece [(1 : ℚ), 2] 0 1 :=
  ⟨⟨1, 2, rfl, rfl, by decide +kernel, by decide +kernel⟩, 1, 2, rfl, rfl, by decide +kernel, by decide +kernel⟩

end Alexandria.MathUtils
