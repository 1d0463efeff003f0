import Verif.FilePool.Props
import Mathlib.Tactic.Common

/-! # C75: how many handlers of one path there can be -/

namespace Alexandria.FilePool

/-- Deleters that have run. -/
def Spec.deletes (as : List TableAction) : Nat := as.countP (fun a => match a with | .delete _ => true | _ => false)

/-- Is the handler of the table still owned by somebody? -/
def Spec.entryLive (s : TableState) : Nat := if s.entry.bind (fun h => s.hs[h]?) = some .live then 1 else 0

theorem count_handler (x : HandlerPC) : ∀ (l : List HandlerPC) (i : Nat) (a b : HandlerPC), l[i]? = some a →
    (l.set i b).count x + (if a = x then 1 else 0) = l.count x + (if b = x then 1 else 0)
  | [], i, a, b, e => by simp at e
  | c :: l, 0, a, b, e => by
    simp at e; subst e
    simp [List.count_cons]; omega
  | c :: l, i + 1, a, b, e => by
    simp at e
    have := count_handler x l i a b e
    simp [List.count_cons]; omega

theorem table_bound : ∀ (as : List TableAction) (s s' : TableState) (d : Nat), s.hs.count .live ≤ Spec.entryLive s + d → s.run as = some s' →
    s'.hs.count .live ≤ Spec.entryLive s' + d + Spec.deletes as
  | [], s, s', d, h, e => by cases e; simpa [Spec.deletes] using h
  | a :: as, s, s', d, h, e => by
    simp only [TableState.run] at e
    cases ha : s.step a with
    | none => rw [ha] at e; cases e
    | some t =>
      rw [ha] at e
      have goOn : ∀ d' : Nat, t.hs.count .live ≤ Spec.entryLive t + d' → d' + Spec.deletes as = d + Spec.deletes (a :: as) →
          s'.hs.count .live ≤ Spec.entryLive s' + d + Spec.deletes (a :: as) := by
        intro d' h1 h2
        have := table_bound as t s' d' h1 e
        omega
      cases a with
      | get =>
        refine goOn d ?_ (by simp [Spec.deletes])
        simp only [TableState.step] at ha
        by_cases hl : (s.entry.bind (fun h => s.hs[h]?)) = some .live
        · rw [if_pos hl] at ha; cases ha; exact h
        · rw [if_neg hl] at ha; cases ha
          simp only [Spec.entryLive, if_neg hl] at h
          simp [Spec.entryLive]
          omega
      | drop k =>
        refine goOn d ?_ (by simp [Spec.deletes])
        simp only [TableState.step] at ha
        by_cases hk : s.hs[k]? = some .live
        · rw [if_pos hk] at ha; cases ha
          have c := count_handler .live s.hs k .live .expired hk
          simp at c
          unfold Spec.entryLive at h ⊢
          simp only
          split at h
          · split <;> omega
          · omega
        · rw [if_neg hk] at ha; cases ha
      | delete k =>
        refine goOn (d + 1) ?_ (by simp [Spec.deletes]; omega)
        simp only [TableState.step] at ha
        by_cases hk : s.hs[k]? = some .expired
        · rw [if_pos hk] at ha; cases ha
          have c := count_handler .live s.hs k .expired .gone hk
          simp at c
          have : Spec.entryLive s ≤ 1 := by unfold Spec.entryLive; split <;> omega
          simp only
          omega
        · rw [if_neg hk] at ha; cases ha

/-- The owner of the newest handler drops it, a thread asks for the path before the deleter has run, and another after it. -/
def Spec.rounds : Nat → Nat → List TableAction
  | 0, _ => []
  | m + 1, k => .drop k :: .get :: .delete k :: .get :: Spec.rounds m (k + 2)

theorem deletes_rounds : ∀ m k, Spec.deletes (Spec.rounds m k) = m
  | 0, k => rfl
  | m + 1, k => by
    have := deletes_rounds m (k + 2)
    simp only [Spec.deletes, Spec.rounds, List.countP_cons] at this ⊢
    simp; omega

theorem run_rounds : ∀ (m : Nat) (l : List HandlerPC), ∃ s : TableState, TableState.run ⟨some l.length, l ++ [.live]⟩ (Spec.rounds m l.length) = some s ∧
    s.hs.count .live = l.count .live + 1 + m
  | 0, l => ⟨_, rfl, by simp⟩
  | m + 1, l => by
    obtain ⟨s, e, c⟩ := run_rounds m (l ++ [.gone, .live])
    refine ⟨s, ?_, by rw [c]; simp; omega⟩
    simp [List.append_assoc] at e
    simp [Spec.rounds, TableState.run, TableState.step, List.append_assoc, List.set_append_right, List.getElem?_append_right]
    exact e

/-- **C75 (partial)** There is never more than one handler of a path that somebody owns, plus one for every deleter that has run: handlers are doubled by deleters only. -/
theorem C75_bound_partial (as : List TableAction) (s : TableState) (h : TableState.new.run as = some s) : s.live ≤ 1 + Spec.deletes as := by
  have := table_bound as TableState.new s 0 (by simp [TableState.new]) h
  have e : Spec.entryLive s ≤ 1 := by unfold Spec.entryLive; split <;> omega
  unfold TableState.live
  omega

/-- **C75** And that bound is attained for every number of deleters: so there is no bound at all on the number of handlers of one file that are in use together. -/
theorem C75_unbounded_violated (d : Nat) : ∃ as s, TableState.new.run as = some s ∧ Spec.deletes as = d ∧ s.live = 1 + d := by
  obtain ⟨s, e, c⟩ := run_rounds d []
  refine ⟨.get :: Spec.rounds d 0, s, e, ?_, ?_⟩
  · have := deletes_rounds d 0
    simpa [Spec.deletes] using this
  · unfold TableState.live; rw [c]; simp

/-- Three handlers of one path after two deleters. -/
example : (TableState.new.run (.get :: Spec.rounds 2 0)).map (fun s => (s.live, s.hs)) = some (3, [.gone, .live, .gone, .live, .live]) := by decide

/-! ## Which handlers are doubled -/

/-- Somebody owns handler `h`, but the table has another one or none for the path: whoever asks next gets another handler. -/
def Spec.Orphan (s : TableState) (h : Nat) : Prop := s.hs[h]? = some .live ∧ s.entry ≠ some h

theorem orphan_step {s t : TableState} {a : TableAction} (ha : s.step a = some t) (h : Nat) :
    Spec.Orphan t h ↔ (Spec.Orphan s h ∧ a ≠ .drop h) ∨ ((∃ k, a = .delete k) ∧ s.entry = some h ∧ s.hs[h]? = some .live) := by
  unfold Spec.Orphan
  cases a with
  | get =>
    simp only [TableState.step] at ha
    by_cases hl : (s.entry.bind (fun h => s.hs[h]?)) = some .live
    · rw [if_pos hl] at ha; cases ha; simp
    · rw [if_neg hl] at ha; cases ha
      simp only [ne_eq, Option.some.injEq, reduceCtorEq, not_false_eq_true, and_true, exists_const, false_and, or_false]
      constructor
      · rintro ⟨h1, h2⟩
        by_cases hlt : h < s.hs.length
        · rw [List.getElem?_append_left hlt] at h1
          refine ⟨h1, fun he => hl ?_⟩
          rw [he]; exact h1
        · rw [List.getElem?_append_right (by omega)] at h1
          have : h - s.hs.length ≠ 0 := by omega
          cases hd : h - s.hs.length with
          | zero => omega
          | succ n => rw [hd] at h1; simp at h1
      · rintro ⟨h1, h2⟩
        obtain ⟨hlt, -⟩ := List.getElem?_eq_some_iff.mp h1
        exact ⟨by rw [List.getElem?_append_left hlt]; exact h1, by omega⟩
  | drop k =>
    simp only [TableState.step] at ha
    by_cases hk : s.hs[k]? = some .live
    · rw [if_pos hk] at ha; cases ha
      by_cases hkh : k = h
      · subst hkh
        obtain ⟨hlt, -⟩ := List.getElem?_eq_some_iff.mp hk
        simp [hlt]
      · simp [List.getElem?_set_ne hkh, hkh]
    · rw [if_neg hk] at ha; cases ha
  | delete k =>
    simp only [TableState.step] at ha
    by_cases hk : s.hs[k]? = some .expired
    · rw [if_pos hk] at ha; cases ha
      by_cases hkh : k = h
      · subst hkh
        obtain ⟨hlt, hv⟩ := List.getElem?_eq_some_iff.mp hk
        simp [hlt, hv]
      · simp only [List.getElem?_set_ne hkh]
        simp only [ne_eq, reduceCtorEq, not_false_eq_true, and_true, TableAction.delete.injEq, exists_eq', true_and]
        by_cases he : s.entry = some h <;> simp [he]
    · rw [if_neg hk] at ha; cases ha

theorem orphan_run : ∀ (as : List TableAction) (s s' : TableState), s.run as = some s' → ∀ h,
    (Spec.Orphan s' h ↔ (Spec.Orphan s h ∧ .drop h ∉ as) ∨
      ∃ before k after t, as = before ++ .delete k :: after ∧ s.run before = some t ∧ t.entry = some h ∧ t.hs[h]? = some .live ∧ .drop h ∉ after)
  | [], s, s', e, h => by cases e; simp
  | a :: as, s, s', e, h => by
    simp only [TableState.run] at e
    cases ha : s.step a with
    | none => rw [ha] at e; cases e
    | some t =>
      rw [ha] at e
      rw [orphan_run as t s' e h, orphan_step ha h]
      constructor
      · rintro (⟨⟨h1, h2⟩ | ⟨⟨k, rfl⟩, h2, h3⟩, h4⟩ | ⟨before, k, after, u, rfl, h2, h3, h4, h5⟩)
        · exact Or.inl ⟨h1, by simp [h4, Ne.symm h2]⟩
        · exact Or.inr ⟨[], k, as, s, rfl, rfl, h2, h3, h4⟩
        · exact Or.inr ⟨a :: before, k, after, u, rfl, by simp only [TableState.run, ha, Option.bind_some, h2], h3, h4, h5⟩
      · rintro (⟨h1, h2⟩ | ⟨before, k, after, u, h1, h2, h3, h4, h5⟩)
        · simp only [List.mem_cons, not_or] at h2
          exact Or.inl ⟨Or.inl ⟨h1, Ne.symm h2.1⟩, h2.2⟩
        · cases before with
          | nil =>
            simp only [List.nil_append, List.cons.injEq] at h1
            cases h2
            exact Or.inl ⟨Or.inr ⟨⟨k, h1.1⟩, h3, h4⟩, h1.2 ▸ h5⟩
          | cons b before =>
            simp only [List.cons_append, List.cons.injEq] at h1
            simp only [TableState.run] at h2
            rw [← h1.1, ha] at h2
            exact Or.inr ⟨before, k, after, u, h1.2, h2, h3, h4, h5⟩

theorem two_live : ∀ {l : List HandlerPC}, 2 ≤ l.count .live ↔ ∃ i j : Nat, i ≠ j ∧ l[i]? = some .live ∧ l[j]? = some .live := by
  intro l
  constructor
  · intro h
    have h1 : HandlerPC.live ∈ l := List.count_pos_iff.mp (by omega)
    obtain ⟨i, hi⟩ := List.mem_iff_getElem?.mp h1
    have c := count_handler .live l i .live .gone hi
    simp at c
    have h2 : HandlerPC.live ∈ l.set i .gone := List.count_pos_iff.mp (by omega)
    obtain ⟨j, hj⟩ := List.mem_iff_getElem?.mp h2
    by_cases hij : i = j
    · subst hij
      obtain ⟨hlt, -⟩ := List.getElem?_eq_some_iff.mp hi
      simp [hlt] at hj
    · exact ⟨i, j, hij, hi, by rw [List.getElem?_set_ne hij] at hj; exact hj⟩
  · rintro ⟨i, j, hij, hi, hj⟩
    have c := count_handler .live l i .live .gone hi
    simp at c
    have : HandlerPC.live ∈ l.set i .gone := List.mem_iff_getElem?.mpr ⟨j, by rw [List.getElem?_set_ne hij]; exact hj⟩
    have := List.count_pos_iff.mpr this
    omega

/-- **C75**, exactly: a handler that somebody owns is missing in the table if and only if it was in the table, and owned, when the deleter of another handler of the path ran, and has
not been dropped since. -/
theorem C75_missing_iff (as : List TableAction) (s : TableState) (e : TableState.new.run as = some s) (h : Nat) :
    (s.hs[h]? = some .live ∧ s.entry ≠ some h) ↔
      ∃ before k after t, as = before ++ .delete k :: after ∧ k ≠ h ∧ TableState.new.run before = some t ∧ t.entry = some h ∧ t.hs[h]? = some .live ∧ .drop h ∉ after := by
  have := orphan_run as _ s e h
  unfold Spec.Orphan at this
  rw [this]
  constructor
  · rintro (⟨⟨h1, -⟩, -⟩ | ⟨before, k, after, t, rfl, h2, h3, h4, h5⟩)
    · simp [TableState.new] at h1
    · refine ⟨before, k, after, t, rfl, ?_, h2, h3, h4, h5⟩
      rintro rfl
      have hrun : ∀ (bs : List TableAction) (u : TableState) , u.run bs = some t → ∀ cs, u.run (bs ++ cs) = t.run cs := by
        intro bs
        induction bs with
        | nil => intro u hu cs; cases hu; rfl
        | cons b bs ih =>
          intro u hu cs
          simp only [TableState.run, List.cons_append] at hu ⊢
          cases hb : u.step b with
          | none => rw [hb] at hu; cases hu
          | some v => rw [hb] at hu; exact ih v hu cs
      rw [hrun before _ h2] at e
      simp [TableState.run, TableState.step, h4] at e
  · rintro ⟨before, k, after, t, h1, -, h2, h3, h4, h5⟩
    exact Or.inr ⟨before, k, after, t, h1, h2, h3, h4, h5⟩

/-- **C75**, exactly: two handlers of one path are in use at the same time if and only if one that is in use was in the table when the deleter of another one ran and has not been dropped
since, and another one is in use, too. -/
theorem C75_two_iff (as : List TableAction) (s : TableState) (e : TableState.new.run as = some s) :
    2 ≤ s.live ↔ ∃ h j, h ≠ j ∧ s.hs[j]? = some .live ∧
      ∃ before k after t, as = before ++ .delete k :: after ∧ k ≠ h ∧ TableState.new.run before = some t ∧ t.entry = some h ∧ t.hs[h]? = some .live ∧ .drop h ∉ after := by
  unfold TableState.live
  rw [two_live]
  constructor
  · rintro ⟨i, j, hij, hi, hj⟩
    by_cases he : s.entry = some i
    · exact ⟨j, i, Ne.symm hij, hi, (C75_missing_iff as s e j).mp ⟨hj, by rw [he]; simpa using hij⟩⟩
    · exact ⟨i, j, hij, hj, (C75_missing_iff as s e i).mp ⟨hi, he⟩⟩
  · rintro ⟨h, j, hhj, hj, ho⟩
    exact ⟨h, j, hhj, ((C75_missing_iff as s e h).mpr ho).1, hj⟩

/-- The second handler is missing in the table after the deleter of the first, and a third one is made. -/
example : ∃ s, TableState.new.run [.get, .drop 0, .get, .delete 0, .get] = some s ∧ s.hs[1]? = some .live ∧ s.entry = some 2 ∧ s.live = 2 := ⟨_, rfl, rfl, rfl, rfl⟩

end Alexandria.FilePool
