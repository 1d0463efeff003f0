import Verif.FilePool.Conc
import Mathlib.Data.List.Count
import Mathlib.Tactic.Common

/-! # Lemmas on the interrupted calls -/

namespace Alexandria.FilePool

/-- The number of threads between the check and the registration. -/
def OpenState.pending (s : OpenState) : Nat := s.pcs.count .opening

theorem count_set_pc (x : OpenPC) : ∀ (l : List OpenPC) (i : Nat) (a b : OpenPC), l[i]? = some a →
    (l.set i b).count x + (if a = x then 1 else 0) = l.count x + (if b = x then 1 else 0)
  | [], i, a, b, e => by simp at e
  | c :: l, 0, a, b, e => by
    simp at e; subst e
    simp [List.count_cons]; omega
  | c :: l, i + 1, a, b, e => by
    simp at e
    have := count_set_pc x l i a b e
    simp [List.count_cons]; omega

structure OpenInv (limit n : Nat) (s : OpenState) : Prop where
  lim : s.mgr.limit = limit
  len : s.pcs.length = n
  bound : s.mgr.files.length + s.pending ≤ limit - 1 + n

theorem openInv_step {limit n : Nat} (hl : 1 ≤ limit) {s s' : OpenState} (h : OpenInv limit n s) {i : Nat} (hs : s.step i = some s') :
    OpenInv limit n s' := by
  unfold OpenState.step at hs
  split at hs
  · rename_i e
    split at hs
    · simp at hs; subst hs
      have := count_set_pc .opening s.pcs i .start .threw e
      have hb := h.bound
      simp only [OpenState.pending] at *
      refine ⟨h.lim, by simpa using h.len, ?_⟩
      simp only [OpenState.pending]
      simp at this
      omega
    · rename_i hlt
      simp at hs; subst hs
      refine ⟨h.lim, by simpa using h.len, ?_⟩
      have h1 : (s.pcs.set i .opening).count .opening ≤ (s.pcs.set i .opening).length := List.count_le_length
      have h2 := h.lim
      have h3 := h.len
      simp only [OpenState.pending]
      simp only [List.length_set] at h1
      omega
  · rename_i e
    simp at hs; subst hs
    have := count_set_pc .opening s.pcs i .opening .registered e
    have hb := h.bound
    refine ⟨h.lim, by simpa using h.len, ?_⟩
    simp only [OpenState.pending] at *
    simp at this ⊢
    omega
  · rename_i e
    simp at hs; subst hs
    have := count_set_pc .opening s.pcs i .registered .done e
    have hb := h.bound
    refine ⟨h.lim, by simpa using h.len, ?_⟩
    simp only [OpenState.pending, Lru.notifyOpened] at *
    simp at this
    omega
  · cases hs

theorem openInv_run {limit n : Nat} (hl : 1 ≤ limit) : ∀ (is : List Nat) {s s' : OpenState}, OpenInv limit n s → s.run is = some s' →
    OpenInv limit n s'
  | [], s, s', h, hr => by simp [OpenState.run] at hr; subst hr; exact h
  | i :: is, s, s', h, hr => by
    simp only [OpenState.run] at hr
    cases hs : s.step i with
    | none => rw [hs] at hr; cases hr
    | some s1 =>
      rw [hs] at hr
      exact openInv_run hl is (openInv_step hl h hs) hr

/-- The number of live handlers. -/
def TableState.live (s : TableState) : Nat := s.hs.count .live

/-- No handler waits for its deleter. -/
def TableState.quiet (s : TableState) : Prop := HandlerPC.expired ∉ s.hs

/-- At most one handler is alive, and the entry points to it. -/
structure TableInv (s : TableState) : Prop where
  entry : ∀ h : Nat, s.hs[h]? = some .live → s.entry = some h ∧ HandlerPC.expired ∉ s.hs
  one : ∀ h k : Nat, s.hs[h]? = some .expired → s.hs[k]? = some .expired → h = k

theorem tableInv_step {s s' : TableState} (h : TableInv s) {a : TableAction} (hq : a = .get → s.quiet) (hs : s.step a = some s') :
    TableInv s' := by
  cases a with
  | get =>
    simp only [TableState.step] at hs
    split at hs
    · simp at hs; subst hs; exact h
    · rename_i hne
      simp at hs; subst hs
      have hq' : HandlerPC.expired ∉ s.hs := hq rfl
      constructor
      · intro k hk
        simp only at hk
        by_cases hkl : k < s.hs.length
        · rw [List.getElem?_append_left hkl] at hk
          have := (h.entry k hk).1
          rw [this] at hne
          simp [hk] at hne
        · have : k = s.hs.length := by
            have := (List.getElem?_eq_some_iff.1 hk).1
            simp at this
            omega
          subst this
          exact ⟨rfl, by simpa using hq'⟩
      · intro j k hj hk
        exfalso
        have := List.mem_of_getElem? hj
        simp at this
        exact hq' this
  | drop d =>
    simp only [TableState.step] at hs
    split at hs
    · rename_i e
      simp at hs; subst hs
      have hE := h.entry d e
      have hl := (List.getElem?_eq_some_iff.1 e).1
      constructor
      · intro k hk
        exfalso
        simp only [List.getElem?_set] at hk
        split at hk
        · simp [hl] at hk
        · rename_i hne
          have := (h.entry k hk).1
          rw [hE.1] at this
          simp at this
          exact hne this
      · intro j k hj hk
        have aux : ∀ x, (s.hs.set d .expired)[x]? = some .expired → x = d := by
          intro x hx
          rw [List.getElem?_set] at hx
          split at hx
          · omega
          · exact absurd (List.mem_of_getElem? hx) hE.2
        rw [aux j hj, aux k hk]
    · cases hs
  | delete d =>
    simp only [TableState.step] at hs
    split at hs
    · rename_i e
      simp at hs; subst hs
      constructor
      · intro k hk
        exfalso
        simp only [List.getElem?_set] at hk
        split at hk
        · split at hk <;> simp at hk
        · exact (h.entry k hk).2 (List.mem_of_getElem? e)
      · intro j k hj hk
        simp only [List.getElem?_set] at hj hk
        split at hj
        · split at hj <;> simp at hj
        · split at hk
          · split at hk <;> simp at hk
          · exact h.one j k hj hk
    · cases hs

end Alexandria.FilePool
