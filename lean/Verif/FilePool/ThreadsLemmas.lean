import Verif.FilePool.Threads

/-!
# Invariants of the pool with several threads
-/

namespace Alexandria.FilePool.Threads

/-- The descriptor that a request has taken. -/
def Stage.fd : Stage → Option Id
  | .registered id | .taken id | .held id => some id
  | _ => none

/-- The request holds the lock of its file. -/
def Stage.locked : Stage → Bool
  | .wantFile | .finished | .sweep _ | .sweepAsk _ _ _ | .sweepClosing _ _ _ | .sweepClosed _ _ _ => false
  | _ => true

/-- The request holds the mutex of its handler. -/
def Stage.own : Stage → Bool
  | .wantFile | .finished | .wantHandler | .held _ | .returned | .sweep _ | .sweepAsk _ _ _ | .sweepClosing _ _ _ | .sweepClosed _ _ _ => false
  | _ => true

/-- The request holds the mutex of another handler. -/
def Stage.other : Stage → Option (Id × Nat)
  | .closing id o | .closed id o | .sweepClosing id o _ | .sweepClosed id o _ => some (id, o)
  | _ => none

/-- The handler is in the mode of the request. -/
def Stage.mode : Stage → Bool
  | .wantFile | .wantHandler | .changing | .dropping _ | .returned | .finished | .sweep _ | .sweepAsk _ _ _ | .sweepClosing _ _ _ | .sweepClosed _ _ _ => false
  | _ => true

/-- There is no idle descriptor, if the request writes. -/
def Stage.bare : Stage → Bool
  | .wantFile | .wantHandler | .changing | .dropping _ | .looking | .returned | .finished | .sweep _ | .sweepAsk _ _ _ | .sweepClosing _ _ _
  | .sweepClosed _ _ _ => false
  | _ => true

/-- The descriptor that is in `m_files` but not in `m_sorted_ids`. -/
def Stage.between : Stage → Option Id
  | .dropping id | .closed id _ | .sweepClosed id _ _ | .registered id => some id
  | _ => none

/-- The request holds the mutex of handler `h`. -/
def holds (P : Params) (s : State) (r h : Nat) : Prop :=
  ((s.stage r).own = true ∧ P.target r = h) ∨ ∃ id, (s.stage r).other = some (id, h)

structure Inv (P : Params) (s : State) : Prop where
  writer : ∀ h r, (s.hds h).writer = some r ↔ (s.stage r).locked = true ∧ P.target r = h ∧ P.write r = true
  readers : ∀ h r, r ∈ (s.hds h).readers ↔ (s.stage r).locked = true ∧ P.target r = h ∧ P.write r = false
  rnodup : ∀ h, (s.hds h).readers.Nodup
  excl : ∀ h, (s.hds h).writer = none ∨ (s.hds h).readers = []
  holder : ∀ h r, (s.hds h).holder = some r ↔ holds P s r h
  other : ∀ r id o, (s.stage r).other = some (id, o) → ((s.stage r).own = true → o ≠ P.target r) ∧ id ∈ (s.hds o).avail
  dropping : ∀ r id, s.stage r = .dropping id → id ∈ (s.hds (P.target r)).avail
  fnodup : s.files.Nodup
  anodup : ∀ h, (s.hds h).avail.Nodup
  avail : ∀ h id, id ∈ (s.hds h).avail → id ∈ s.files ∧ s.owner id = h
  fd : ∀ r id, (s.stage r).fd = some id → id ∈ s.files ∧ s.owner id = P.target r ∧ id ∉ (s.hds (P.target r)).avail
  unique : ∀ r r' id, (s.stage r).fd = some id → (s.stage r').fd = some id → r = r'
  place : ∀ id, id ∈ s.files → id ∈ (s.hds (s.owner id)).avail ∨ ∃ r, (s.stage r).fd = some id
  snodup : (ids s.sorted).Nodup
  nnodup : (nodes s.sorted).Nodup
  fresh : ∀ n ∈ nodes s.sorted, n < s.next
  sorted : ∀ id, id ∈ ids s.sorted ↔ id ∈ s.files ∧ ∀ r, (s.stage r).between ≠ some id
  mode : ∀ r, (s.stage r).mode = true → (s.hds (P.target r)).readOnly = !P.write r
  bare : ∀ r, (s.stage r).bare = true → P.write r = true → (s.hds (P.target r)).avail = []
  few : ∀ h, (s.hds h).readOnly = false → (s.hds h).avail.length ≤ 1

theorem inv_init (P : Params) : Inv P State.init := by
  constructor <;> simp [State.init, Stage.locked, holds, Stage.own, Stage.other, Stage.fd, Stage.mode, Stage.bare, ids, nodes]

section
variable {P : Params} {s : State}

theorem mem_insertId {id x : Id} {l : List Id} : x ∈ insertId id l ↔ x = id ∨ x ∈ l := by
  induction l with
  | nil => simp [insertId]
  | cons y l ih =>
    by_cases h : id < y
    · simp [insertId, h]
    · simp [insertId, h, ih]; grind

theorem nodup_insertId {id : Id} {l : List Id} (hl : l.Nodup) (h : id ∉ l) : (insertId id l).Nodup := by
  induction l with
  | nil => simp [insertId]
  | cons y l ih =>
    rw [List.nodup_cons] at hl
    by_cases hy : id < y
    · simp [insertId, hy, hl] at h ⊢; exact h
    · simp only [insertId, hy, if_false, List.nodup_cons, mem_insertId]
      simp at h
      exact ⟨by grind, ih hl.2 h.2⟩

theorem nodup_filter {l : List Id} (p : Id → Bool) (h : l.Nodup) : (l.filter p).Nodup := h.sublist List.filter_sublist

theorem mem_ids_dropId {id x : Id} {l : List (Nat × Id)} : x ∈ ids (dropId id l) ↔ x ∈ ids l ∧ x ≠ id := by
  simp only [ids, dropId, List.mem_map, List.mem_filter]
  grind

theorem mem_nodes_dropId {id : Id} {n : Nat} {l : List (Nat × Id)} (h : n ∈ nodes (dropId id l)) : n ∈ nodes l := by
  simp only [nodes, dropId, List.mem_map, List.mem_filter] at *
  grind

theorem nodup_ids_dropId {id : Id} {l : List (Nat × Id)} (h : (ids l).Nodup) : (ids (dropId id l)).Nodup :=
  h.sublist (List.filter_sublist.map _)

theorem nodup_nodes_dropId {id : Id} {l : List (Nat × Id)} (h : (nodes l).Nodup) : (nodes (dropId id l)).Nodup :=
  h.sublist (List.filter_sublist.map _)

theorem ids_append (l m : List (Nat × Id)) : ids (l ++ m) = ids l ++ ids m := by simp [ids]

theorem nodes_append (l m : List (Nat × Id)) : nodes (l ++ m) = nodes l ++ nodes m := by simp [nodes]

theorem ids_single (x : Nat × Id) : ids [x] = [x.2] := rfl

theorem nodes_single (x : Nat × Id) : nodes [x] = [x.1] := rfl

theorem Inv.one (hi : Inv P s) : ∀ r r', (s.stage r).own = true → (s.stage r').own = true → P.target r = P.target r' → r = r' := by
  intro r r' h h' e
  have h1 := (hi.holder (P.target r) r).2 (.inl ⟨h, rfl⟩)
  have h2 := (hi.holder (P.target r) r').2 (.inl ⟨h', e.symm⟩)
  grind

theorem Inv.one2 (hi : Inv P s) : ∀ r r' id, (s.stage r).own = true → (s.stage r').other = some (id, P.target r) → False := by
  intro r r' id h h'
  have h1 := (hi.holder (P.target r) r).2 (.inl ⟨h, rfl⟩)
  have h2 := (hi.holder (P.target r) r').2 (.inr ⟨id, h'⟩)
  have h3 := hi.other r' id _ h'
  grind

theorem Inv.one3 (hi : Inv P s) : ∀ r r' id id' o, (s.stage r).other = some (id, o) → (s.stage r').other = some (id', o) → r = r' := by
  intro r r' id id' o h h'
  have h1 := (hi.holder o r).2 (.inr ⟨id, h⟩)
  have h2 := (hi.holder o r').2 (.inr ⟨id', h'⟩)
  grind

theorem Inv.alone (hi : Inv P s) : ∀ r r', (s.stage r).locked = true → (s.stage r').locked = true → P.target r = P.target r' →
    P.write r = true → r = r' := by
  intro r r' h h' e w
  have h1 := (hi.writer (P.target r) r).2 ⟨h, rfl, w⟩
  cases w' : P.write r' with
  | true =>
    have h2 := (hi.writer (P.target r) r').2 ⟨h', e.symm, w'⟩
    grind
  | false =>
    have h2 := (hi.readers (P.target r) r').2 ⟨h', e.symm, w'⟩
    have := hi.excl (P.target r)
    grind

theorem Inv.mine (hi : Inv P s) : ∀ r, (s.stage r).own = true → (s.hds (P.target r)).holder = some r :=
  fun r h => (hi.holder (P.target r) r).2 (.inl ⟨h, rfl⟩)

theorem Inv.theirs (hi : Inv P s) : ∀ r id o, (s.stage r).other = some (id, o) → (s.hds o).holder = some r :=
  fun r id o h => (hi.holder o r).2 (.inr ⟨id, h⟩)

theorem between_cases {st : Stage} {id : Id} (h : st.between = some id) :
    st = .dropping id ∨ (∃ o, st.other = some (id, o)) ∨ st.fd = some id := by
  cases st <;> simp_all [Stage.between, Stage.other, Stage.fd]

theorem Inv.between_fd (hi : Inv P s) : ∀ r r' id, (s.stage r).between = some id → (s.stage r').fd = some id → r = r' := by
  intro r r' id h h'
  have h1 := hi.fd r' id h'
  rcases between_cases h with e | ⟨o, e⟩ | e
  · have h2 := hi.dropping r id e
    have h3 := hi.avail _ _ h2
    rw [← h3.2, h1.2.1] at h2
    exact absurd h2 h1.2.2
  · have h2 := (hi.other r id o e).2
    have h3 := hi.avail _ _ h2
    rw [← h3.2, h1.2.1] at h2
    exact absurd h2 h1.2.2
  · exact hi.unique _ _ _ e h'

theorem Inv.between_one (hi : Inv P s) : ∀ r r' id, (s.stage r).between = some id → (s.stage r').between = some id → r = r' := by
  intro r r' id h h'
  rcases between_cases h' with e' | ⟨o', e'⟩ | e'
  · rcases between_cases h with e | ⟨o, e⟩ | e
    · have h1 := hi.avail _ _ (hi.dropping r id e)
      have h2 := hi.avail _ _ (hi.dropping r' id e')
      exact hi.one r r' (by rw [e]; rfl) (by rw [e']; rfl) (h1.2.symm.trans h2.2)
    · have h1 := hi.avail _ _ (hi.other r id o e).2
      have h2 := hi.avail _ _ (hi.dropping r' id e')
      rw [← h1.2, h2.2] at e
      exact (hi.one2 r' r id (by rw [e']; rfl) e).elim
    · exact (hi.between_fd r' r id h' e).symm
  · rcases between_cases h with e | ⟨o, e⟩ | e
    · have h1 := hi.avail _ _ (hi.other r' id o' e').2
      have h2 := hi.avail _ _ (hi.dropping r id e)
      rw [← h1.2, h2.2] at e'
      exact (hi.one2 r r' id (by rw [e]; rfl) e').elim
    · have h1 := hi.avail _ _ (hi.other r' id o' e').2
      have h2 := hi.avail _ _ (hi.other r id o e).2
      have : o = o' := h2.2.symm.trans h1.2
      subst this
      exact hi.one3 r r' id id o e e'
    · exact (hi.between_fd r' r id h' e).symm
  · exact hi.between_fd r r' id h e'

theorem locked_of_mode (st : Stage) (h : st.mode = true) : st.locked = true := by
  cases st <;> simp_all [Stage.mode, Stage.locked]

theorem mode_of_bare (st : Stage) (h : st.bare = true) : st.mode = true := by
  cases st <;> simp_all [Stage.mode, Stage.bare]

theorem length_insertId (id : Id) (l : List Id) : (insertId id l).length = l.length + 1 := by
  induction l with
  | nil => rfl
  | cons y l ih =>
    by_cases h : id < y
    · simp [insertId, h]
    · simp [insertId, h, ih]

macro "inv_grind" hi:ident : tactic => `(tactic| (
  have one := Inv.one $hi
  have one2 := Inv.one2 $hi
  have one3 := Inv.one3 $hi
  have alone := Inv.alone $hi
  have mine := Inv.mine $hi
  have theirs := Inv.theirs $hi
  have btw := Inv.between_one $hi
  have btwfd := Inv.between_fd $hi
  obtain ⟨writer, readers, rnodup, excl, holder, other, dropping, fnodup, anodup, avail, fd, unique, place, snodup, nnodup, fresh, sorted, mode, bare, few⟩ := $hi
  refine ⟨?_, ?_, ?_, ?_, ?_, ?_, ?_, ?_, ?_, ?_, ?_, ?_, ?_, ?_, ?_, ?_, ?_, ?_, ?_, ?_⟩ <;> simp only [State.to, State.setHd, holds, upd] at *
  · clear rnodup holder other dropping fnodup anodup avail fd unique place snodup nnodup fresh sorted mode bare few one one2 one3 mine theirs btw btwfd; grind [Stage.locked, Stage.own, Stage.other, Stage.fd, Stage.mode, Stage.bare, Stage.between]
  · clear holder other dropping fnodup anodup avail fd unique place snodup nnodup fresh sorted mode bare few one one2 one3 mine theirs btw btwfd; grind [Stage.locked, Stage.own, Stage.other, Stage.fd, Stage.mode, Stage.bare, Stage.between, List.Nodup.mem_erase_iff]
  · clear writer excl holder other dropping fnodup anodup avail fd unique place snodup nnodup fresh sorted mode bare few one one2 one3 alone mine theirs btw btwfd; grind [Stage.locked, Stage.own, Stage.other, Stage.fd, Stage.mode, Stage.bare, Stage.between, List.Nodup.erase]
  · clear rnodup holder other dropping fnodup anodup avail fd unique place snodup nnodup fresh sorted mode bare few one one2 one3 mine theirs btw btwfd; grind [Stage.locked, Stage.own, Stage.other, Stage.fd, Stage.mode, Stage.bare, Stage.between]
  · clear writer readers rnodup excl dropping fnodup anodup avail fd unique place snodup nnodup fresh sorted mode bare few alone mine theirs btw btwfd; grind [Stage.locked, Stage.own, Stage.other, Stage.fd, Stage.mode, Stage.bare, Stage.between]
  · clear writer readers rnodup excl holder fnodup anodup avail fd unique place snodup nnodup fresh sorted mode bare few alone btw btwfd; grind [Stage.locked, Stage.own, Stage.other, Stage.fd, Stage.mode, Stage.bare, Stage.between]
  · clear writer readers rnodup excl holder fnodup anodup avail fd unique place snodup nnodup fresh sorted mode bare few alone btw btwfd; grind [Stage.locked, Stage.own, Stage.other, Stage.fd, Stage.mode, Stage.bare, Stage.between]
  · clear writer readers rnodup excl holder other dropping anodup avail fd unique place snodup nnodup fresh sorted mode bare few one one2 one3 alone mine theirs btw btwfd; grind [Stage.locked, Stage.own, Stage.other, Stage.fd, Stage.mode, Stage.bare, Stage.between, List.Nodup.erase]
  · clear writer readers rnodup excl holder other dropping fnodup avail unique place snodup nnodup fresh sorted mode bare few one one2 one3 alone mine theirs btw btwfd; grind [Stage.locked, Stage.own, Stage.other, Stage.fd, Stage.mode, Stage.bare, Stage.between, nodup_insertId, nodup_filter]
  · clear writer readers rnodup excl holder anodup unique place snodup nnodup fresh sorted mode bare few alone mine theirs btw btwfd; grind [Stage.locked, Stage.own, Stage.other, Stage.fd, Stage.mode, Stage.bare, Stage.between, mem_insertId, List.Nodup.mem_erase_iff]
  · clear writer readers rnodup excl holder place snodup nnodup fresh sorted mode bare few one one2 one3 alone mine theirs btw btwfd; grind [Stage.locked, Stage.own, Stage.other, Stage.fd, Stage.mode, Stage.bare, Stage.between, mem_insertId, List.Nodup.mem_erase_iff]
  · clear writer readers rnodup excl holder other dropping fnodup anodup place snodup nnodup fresh sorted mode bare few one one2 one3 alone mine theirs btw btwfd; grind [Stage.locked, Stage.own, Stage.other, Stage.fd, Stage.mode, Stage.bare, Stage.between]
  · clear writer readers rnodup excl holder other dropping anodup unique snodup nnodup fresh sorted mode bare few one one2 one3 alone mine theirs btw btwfd; grind [Stage.locked, Stage.own, Stage.other, Stage.fd, Stage.mode, Stage.bare, Stage.between, mem_insertId, List.Nodup.mem_erase_iff]
  · clear writer readers rnodup excl holder other dropping fnodup anodup avail fd unique place nnodup fresh mode bare few one one2 one3 alone mine theirs btw btwfd; grind [Stage.locked, Stage.own, Stage.other, Stage.fd, Stage.mode, Stage.bare, Stage.between, nodup_ids_dropId, mem_ids_dropId, ids_append, ids_single]
  · clear writer readers rnodup excl holder other dropping fnodup anodup avail fd unique place snodup sorted mode bare few one one2 one3 alone mine theirs btw btwfd; grind [Stage.locked, Stage.own, Stage.other, Stage.fd, Stage.mode, Stage.bare, Stage.between, nodup_nodes_dropId, → mem_nodes_dropId, nodes_append, nodes_single]
  · clear writer readers rnodup excl holder other dropping fnodup anodup avail fd unique place snodup nnodup sorted mode bare few one one2 one3 alone mine theirs btw btwfd; grind [Stage.locked, Stage.own, Stage.other, Stage.fd, Stage.mode, Stage.bare, Stage.between, → mem_nodes_dropId, nodes_append, nodes_single]
  · clear writer readers rnodup excl holder other dropping anodup avail unique place snodup nnodup fresh mode bare few one one2 one3 alone mine theirs; grind [Stage.locked, Stage.own, Stage.other, Stage.fd, Stage.mode, Stage.bare, Stage.between, mem_ids_dropId, List.Nodup.mem_erase_iff, ids_append, ids_single]
  · clear writer readers rnodup excl holder other dropping fnodup anodup avail fd unique place snodup nnodup fresh sorted bare few one one2 one3 mine theirs btw btwfd; grind [Stage.locked, Stage.own, Stage.other, Stage.fd, Stage.mode, Stage.bare, Stage.between, locked_of_mode]
  · clear writer readers rnodup excl holder other dropping fnodup anodup avail fd unique place snodup nnodup fresh sorted few one one2 one3 mine theirs btw btwfd; grind [Stage.locked, Stage.own, Stage.other, Stage.fd, Stage.mode, Stage.bare, Stage.between, locked_of_mode, mode_of_bare, length_insertId]
  · clear writer readers rnodup excl holder other dropping fnodup anodup avail fd unique place snodup nnodup fresh sorted one one2 one3 alone mine theirs btw btwfd; grind [Stage.locked, Stage.own, Stage.other, Stage.fd, Stage.mode, Stage.bare, Stage.between, length_insertId, List.length_filter_le]))

theorem inv_changing (hi : Inv P s) {a : Action} (hs : s.stage a.r = .changing) {s' : State}
    (h : step P s a = .ok s') : Inv P s' := by
  simp only [step, hs] at h
  split at h
  · cases h
    inv_grind hi
  · split at h
    · cases h
      inv_grind hi
    · simp only [State.notifyClosed] at h
      split at h
      · cases h
      · rename_i e
        split at e
        · cases e
          cases h
          inv_grind hi
        · cases e

theorem inv_dropping (hi : Inv P s) {a : Action} {id : Id} (hs : s.stage a.r = .dropping id) {s' : State}
    (h : step P s a = .ok s') : Inv P s' := by
  simp only [step, hs, State.eraseFile] at h
  split at h
  · cases h
  · rename_i e
    split at e
    · cases e
      cases h
      inv_grind hi
    · cases e

theorem inv_looking (hi : Inv P s) {a : Action} (hs : s.stage a.r = .looking) {s' : State}
    (h : step P s a = .ok s') : Inv P s' := by
  simp only [step, hs] at h
  split at h
  · cases h
  · split at h
    · cases h
      inv_grind hi
    · rename_i hw _ id rest e
      have hrest : P.write a.r = true → rest = [] := by
        intro w
        rw [e] at hw
        have : ¬ 1 < (id :: rest).length := fun c => hw ⟨w, c⟩
        rw [List.length_cons] at this
        exact List.length_eq_zero_iff.1 (by omega)
      cases h
      inv_grind hi

theorem inv_fail (hi : Inv P s) {r : Nat} (hs : s.stage r = .intent ∨ s.stage r = .opening ∨ ∃ n, s.stage r = .refused n) : Inv P (s.fail P r) := by
  unfold State.fail
  inv_grind hi

theorem inv_askNext (hi : Inv P s) {r : Nat} (hs : s.stage r = .intent ∨ ∃ n, s.stage r = .refused n) {l : List (Nat × Id)} {s' : State}
    (h : s.askNext P r l = .ok s') : Inv P s' := by
  cases l with
  | nil =>
    cases h
    exact inv_fail hi (by grind)
  | cons x l =>
    simp only [State.askNext] at h
    split at h
    · cases h
      inv_grind hi
    · cases h

theorem inv_intent (hi : Inv P s) {a : Action} (hs : s.stage a.r = .intent) {s' : State}
    (h : step P s a = .ok s') : Inv P s' := by
  simp only [step, hs] at h
  split at h
  · cases h
    inv_grind hi
  · exact inv_askNext hi (.inl hs) h

theorem inv_refused (hi : Inv P s) {a : Action} {n : Nat} (hs : s.stage a.r = .refused n) {s' : State}
    (h : step P s a = .ok s') : Inv P s' := by
  simp only [step, hs] at h
  split at h
  · exact inv_askNext hi (.inr ⟨n, hs⟩) h
  · cases h

theorem inv_asking (hi : Inv P s) {a : Action} {n : Nat} {id : Id} {o : Nat} (hs : s.stage a.r = .asking n id o) {s' : State}
    (h : step P s a = .ok s') : Inv P s' := by
  simp only [step, hs] at h
  split at h
  · cases h
  · split at h
    · cases h
    · split at h
      · cases h
        inv_grind hi
      · cases h
        inv_grind hi

theorem inv_closing (hi : Inv P s) {a : Action} {id : Id} {o : Nat} (hs : s.stage a.r = .closing id o) {s' : State}
    (h : step P s a = .ok s') : Inv P s' := by
  simp only [step, hs, State.notifyClosed] at h
  split at h
  · cases h
  · rename_i e
    split at e
    · cases e
      cases h
      inv_grind hi
    · cases e

theorem inv_closed (hi : Inv P s) {a : Action} {id : Id} {o : Nat} (hs : s.stage a.r = .closed id o) {s' : State}
    (h : step P s a = .ok s') : Inv P s' := by
  simp only [step, hs, State.eraseFile] at h
  have ho := hi.other a.r id o (by rw [hs]; rfl)
  have hb := hi.theirs a.r id o (by rw [hs]; rfl)
  have hav := hi.avail o id ho.2
  split at h
  · cases h
  · rename_i e
    split at e
    · cases e
      cases h
      inv_grind hi
    · cases e

theorem inv_opening (hi : Inv P s) {a : Action} (hs : s.stage a.r = .opening) {s' : State}
    (h : step P s a = .ok s') : Inv P s' := by
  simp only [step, hs] at h
  split at h
  · cases h
    exact inv_fail hi (by grind)
  · split at h
    · cases h
    · cases h
      inv_grind hi

theorem inv_registered (hi : Inv P s) {a : Action} {id : Id} (hs : s.stage a.r = .registered id) {s' : State}
    (h : step P s a = .ok s') : Inv P s' := by
  simp only [step, hs] at h
  cases h
  inv_grind hi

theorem inv_taken (hi : Inv P s) {a : Action} {id : Id} (hs : s.stage a.r = .taken id) {s' : State}
    (h : step P s a = .ok s') : Inv P s' := by
  simp only [step, hs] at h
  split at h
  · cases h
    inv_grind hi
  · cases h

theorem inv_held (hi : Inv P s) {a : Action} {id : Id} (hs : s.stage a.r = .held id) {s' : State}
    (h : step P s a = .ok s') : Inv P s' := by
  simp only [step, hs] at h
  split at h
  · cases h
    inv_grind hi
  · cases h

theorem inv_returned (hi : Inv P s) {a : Action} (hs : s.stage a.r = .returned) {s' : State}
    (h : step P s a = .ok s') : Inv P s' := by
  simp only [step, hs, Hd.unlockFile] at h
  cases h
  inv_grind hi

/-- Taking the lock of the file. -/
theorem inv_wantFile (hi : Inv P s) {a : Action} (hs : s.stage a.r = .wantFile) {s' : State}
    (h : step P s a = .ok s') : Inv P s' := by
  simp only [step, hs] at h
  by_cases v : P.sweep a.r = true
  · rw [if_pos v] at h
    cases h
    inv_grind hi
  rw [if_neg v] at h
  by_cases w : P.write a.r = true
  · simp only [w, if_true] at h
    split at h
    · cases h
      inv_grind hi
    · cases h
  · simp only [w] at h
    simp at h
    split at h
    · cases h
      inv_grind hi
    · cases h

theorem inv_wantHandler (hi : Inv P s) {a : Action} (hs : s.stage a.r = .wantHandler) {s' : State}
    (h : step P s a = .ok s') : Inv P s' := by
  simp only [step, hs] at h
  split at h
  · cases h
    inv_grind hi
  · cases h

theorem inv_sweep (hi : Inv P s) {a : Action} {l : List Id} (hs : s.stage a.r = .sweep l) {s' : State}
    (h : step P s a = .ok s') : Inv P s' := by
  cases l with
  | nil =>
    simp only [step, hs] at h
    cases h
    inv_grind hi
  | cons id l =>
    simp only [step, hs] at h
    split at h
    · cases h
      inv_grind hi
    · cases h

theorem inv_sweepAsk (hi : Inv P s) {a : Action} {id : Id} {o : Nat} {l : List Id} (hs : s.stage a.r = .sweepAsk id o l) {s' : State}
    (h : step P s a = .ok s') : Inv P s' := by
  simp only [step, hs] at h
  split at h
  · cases h
  · split at h
    · cases h
      inv_grind hi
    · cases h
      inv_grind hi

theorem inv_sweepClosing (hi : Inv P s) {a : Action} {id : Id} {o : Nat} {l : List Id} (hs : s.stage a.r = .sweepClosing id o l) {s' : State}
    (h : step P s a = .ok s') : Inv P s' := by
  simp only [step, hs, State.notifyClosed] at h
  split at h
  · cases h
  · rename_i e
    split at e
    · cases e
      cases h
      inv_grind hi
    · cases e

theorem inv_sweepClosed (hi : Inv P s) {a : Action} {id : Id} {o : Nat} {l : List Id} (hs : s.stage a.r = .sweepClosed id o l) {s' : State}
    (h : step P s a = .ok s') : Inv P s' := by
  simp only [step, hs, State.eraseFile] at h
  have ho := hi.other a.r id o (by rw [hs]; rfl)
  have hb := hi.theirs a.r id o (by rw [hs]; rfl)
  have hav := hi.avail o id ho.2
  split at h
  · cases h
  · rename_i e
    split at e
    · cases e
      cases h
      inv_grind hi
    · cases e

theorem inv_step (hi : Inv P s) {a : Action} {s' : State} (h : step P s a = .ok s') : Inv P s' := by
  cases hs : s.stage a.r with
  | wantFile => exact inv_wantFile hi hs h
  | wantHandler => exact inv_wantHandler hi hs h
  | changing => exact inv_changing hi hs h
  | dropping id => exact inv_dropping hi hs h
  | looking => exact inv_looking hi hs h
  | intent => exact inv_intent hi hs h
  | asking n id o => exact inv_asking hi hs h
  | closing id o => exact inv_closing hi hs h
  | closed id o => exact inv_closed hi hs h
  | refused n => exact inv_refused hi hs h
  | opening => exact inv_opening hi hs h
  | registered id => exact inv_registered hi hs h
  | taken id => exact inv_taken hi hs h
  | held id => exact inv_held hi hs h
  | returned => exact inv_returned hi hs h
  | sweep l => exact inv_sweep hi hs h
  | sweepAsk id o l => exact inv_sweepAsk hi hs h
  | sweepClosing id o l => exact inv_sweepClosing hi hs h
  | sweepClosed id o l => exact inv_sweepClosed hi hs h
  | finished => simp [step, hs] at h

theorem inv_run (hi : Inv P s) (as : List Action) {s' : State} (h : run P s as = .ok s') : Inv P s' := by
  induction as generalizing s with
  | nil => cases h; exact hi
  | cons a as ih =>
    simp only [run] at h
    split at h
    · rename_i s1 e
      exact ih (inv_step hi e) h
    · rename_i x hx
      exact absurd h (hx s')

theorem after_subset {n : Nat} {l : List (Nat × Id)} : ∀ x ∈ after n l, x ∈ l := by
  induction l with
  | nil => simp [after]
  | cons y l ih =>
    intro x hx
    simp only [after] at hx
    split at hx
    · exact List.mem_cons_of_mem _ hx
    · exact List.mem_cons_of_mem _ (ih x hx)

theorem Inv.files_of_sorted (hi : Inv P s) {x : Nat × Id} (h : x ∈ s.sorted) : x.2 ∈ s.files :=
  ((hi.sorted x.2).1 (List.mem_map_of_mem h)).1

theorem askNext_ne_ub (hi : Inv P s) {r : Nat} {l : List (Nat × Id)} (hl : ∀ x ∈ l, x ∈ s.sorted) : s.askNext P r l ≠ .ub := by
  cases l with
  | nil => simp [State.askNext]
  | cons x l =>
    have := hi.files_of_sorted (hl x (List.mem_cons_self ..))
    simp [State.askNext, this]

/-- The only steps that are undefined. -/
theorem ub_cases (hi : Inv P s) {a : Action} (h : step P s a = .ub) :
    (∃ n id, s.stage a.r = .asking n id (P.target a.r)) ∨ (∃ n, s.stage a.r = .refused n ∧ n ∉ nodes s.sorted) ∨
    (∃ id l, s.stage a.r = .sweep (id :: l) ∧ id ∉ s.files) := by
  cases hs : s.stage a.r with
  | wantFile => simp only [step, hs] at h; grind
  | wantHandler => simp only [step, hs] at h; grind
  | changing =>
    exfalso
    simp only [step, hs] at h
    split at h
    · cases h
    · split at h
      · cases h
      · rename_i id rest e
        have hm : id ∈ (s.hds (P.target a.r)).avail := by rw [e]; exact List.mem_cons_self ..
        have hf := hi.avail _ _ hm
        have : id ∈ ids s.sorted := by
          refine (hi.sorted id).2 ⟨hf.1, fun r hb => ?_⟩
          rcases between_cases hb with e1 | ⟨o, e1⟩ | e1
          · have h1 := hi.avail _ _ (hi.dropping r id e1)
            have := hi.one a.r r (by rw [hs]; rfl) (by rw [e1]; rfl) (hf.2.symm.trans h1.2)
            rw [← this, hs] at e1
            cases e1
          · have h1 := hi.avail _ _ (hi.other r id o e1).2
            rw [← h1.2, hf.2] at e1
            exact hi.one2 a.r r id (by rw [hs]; rfl) e1
          · have h1 := hi.fd r id e1
            rw [← hf.2, h1.2.1] at hm
            exact h1.2.2 hm
        simp [State.notifyClosed, this] at h
  | dropping id =>
    exfalso
    have := (hi.avail _ _ (hi.dropping _ _ hs)).1
    simp [step, hs, State.eraseFile, this] at h
  | looking =>
    exfalso
    simp only [step, hs] at h
    split at h
    · rename_i hw
      have h1 := hi.mode a.r (by rw [hs]; rfl)
      rw [hw.1] at h1
      have := hi.few _ h1
      omega
    · grind
  | intent =>
    exfalso
    simp only [step, hs] at h
    split at h
    · cases h
    · exact askNext_ne_ub hi (fun _ hx => hx) h
  | asking n id o =>
    left
    simp only [step, hs] at h
    split at h
    · rename_i hh
      rw [hi.holder] at hh
      rcases hh with hh | ⟨i, hh⟩
      · exact ⟨n, id, by rw [hh.2]⟩
      · rw [hs] at hh; cases hh
    · grind
  | closing id o =>
    exfalso
    have ho := hi.other a.r id o (by rw [hs]; rfl)
    have hf := hi.avail _ _ ho.2
    have : id ∈ ids s.sorted := by
      refine (hi.sorted id).2 ⟨hf.1, fun r hb => ?_⟩
      rcases between_cases hb with e1 | ⟨o', e1⟩ | e1
      · have h1 := hi.avail _ _ (hi.dropping r id e1)
        have e2 : (s.stage a.r).other = some (id, P.target r) := by rw [hs, ← h1.2, hf.2]; rfl
        exact hi.one2 r a.r id (by rw [e1]; rfl) e2
      · have h1 := hi.avail _ _ (hi.other r id o' e1).2
        have : o = o' := hf.2.symm.trans h1.2
        subst this
        have := hi.one3 a.r r id id o (by rw [hs]; rfl) e1
        rw [← this, hs] at hb
        cases hb
      · have h1 := hi.fd r id e1
        have h2 := ho.2
        rw [← hf.2, h1.2.1] at h2
        exact h1.2.2 h2
    simp [step, hs, State.notifyClosed, this] at h
  | closed id o =>
    exfalso
    have := (hi.avail _ _ (hi.other a.r id o (by rw [hs]; rfl)).2).1
    simp [step, hs, State.eraseFile, this] at h
  | refused n =>
    right; left
    simp only [step, hs] at h
    split at h
    · exact (askNext_ne_ub hi after_subset h).elim
    · rename_i hn
      exact ⟨n, rfl, hn⟩
  | opening => simp only [step, hs] at h; grind
  | registered id => simp [step, hs] at h
  | taken id =>
    exfalso
    have hf := hi.fd a.r id (by rw [hs]; rfl)
    have : id ∈ ids s.sorted := by
      refine (hi.sorted id).2 ⟨hf.1, fun r hb => ?_⟩
      have := hi.between_fd r a.r id hb (by rw [hs]; rfl)
      rw [this, hs] at hb
      cases hb
    simp [step, hs, this] at h
  | held id => simp only [step, hs] at h; grind
  | returned => simp [step, hs] at h
  | finished => simp [step, hs] at h
  | sweep l =>
    right; right
    cases l with
    | nil => simp [step, hs] at h
    | cons id l =>
      simp only [step, hs] at h
      split at h
      · cases h
      · rename_i hn
        exact ⟨id, l, rfl, hn⟩
  | sweepAsk id o l => simp only [step, hs] at h; grind
  | sweepClosing id o l =>
    exfalso
    have ho := hi.other a.r id o (by rw [hs]; rfl)
    have hf := hi.avail _ _ ho.2
    have : id ∈ ids s.sorted := by
      refine (hi.sorted id).2 ⟨hf.1, fun r hb => ?_⟩
      rcases between_cases hb with e1 | ⟨o', e1⟩ | e1
      · have h1 := hi.avail _ _ (hi.dropping r id e1)
        have e2 : (s.stage a.r).other = some (id, P.target r) := by rw [hs, ← h1.2, hf.2]; rfl
        exact hi.one2 r a.r id (by rw [e1]; rfl) e2
      · have h1 := hi.avail _ _ (hi.other r id o' e1).2
        have : o = o' := hf.2.symm.trans h1.2
        subst this
        have := hi.one3 a.r r id id o (by rw [hs]; rfl) e1
        rw [← this, hs] at hb
        cases hb
      · have h1 := hi.fd r id e1
        have h2 := ho.2
        rw [← hf.2, h1.2.1] at h2
        exact h1.2.2 h2
    simp [step, hs, State.notifyClosed, this] at h
  | sweepClosed id o l =>
    exfalso
    have := (hi.avail _ _ (hi.other a.r id o (by rw [hs]; rfl)).2).1
    simp [step, hs, State.eraseFile, this] at h

/-- The request may still register a file. -/
def Stage.early : Stage → Bool
  | .registered _ | .taken _ | .held _ | .returned | .finished => false
  | _ => true

/-- The request has found the manager full, or is a call of `closeAll`. -/
def Stage.evicts : Stage → Bool
  | .asking _ _ _ | .closing _ _ | .closed _ _ | .refused _ => true
  | .sweep _ | .sweepAsk _ _ _ | .sweepClosing _ _ _ | .sweepClosed _ _ _ => true
  | _ => false

/-- What holds as long as the requests `L` for accessors are no more than files may be open; `C` are calls of `closeAll`. -/
structure Room (P : Params) (L C : List Nat) (s : State) : Prop where
  plain : ∀ r ∈ L, P.sweep r = false ∧ r ∉ C
  outside : ∀ r, r ∉ L → r ∉ C → s.stage r = .wantFile
  calm : ∀ r, r ∉ C → (s.stage r).evicts = false
  count : s.files.length + (L.filter (fun r => (s.stage r).early)).length ≤ L.length

theorem room_init {L C : List Nat} (hp : ∀ r ∈ L, P.sweep r = false ∧ r ∉ C) : Room P L C State.init :=
  ⟨hp, fun _ _ _ => rfl, fun _ _ => rfl, by simpa [State.init] using List.length_filter_le _ _⟩

theorem filter_le_of_imp {L : List Nat} {p q : Nat → Bool} (h : ∀ r, q r = true → p r = true) : (L.filter q).length ≤ (L.filter p).length := by
  rw [← List.countP_eq_length_filter, ← List.countP_eq_length_filter]
  exact List.countP_mono_left (fun r _ => h r)

theorem filter_lt_of_imp {L : List Nat} {p q : Nat → Bool} (h : ∀ r, q r = true → p r = true) {r : Nat} (hr : r ∈ L) (hp : p r = true)
    (hq : q r = false) : (L.filter q).length + 1 ≤ (L.filter p).length := by
  induction L with
  | nil => cases hr
  | cons x L ih =>
    by_cases hx : x = r
    · subst hx
      have := filter_le_of_imp (L := L) h
      simp only [List.filter_cons, hp, hq]
      simpa using this
    · have := ih (by simpa [Ne.symm hx] using hr)
      simp only [List.filter_cons]
      cases hqx : q x with
      | true => simp [h x hqx]; exact this
      | false => cases p x <;> simp <;> omega

/-- A step that changes the stage of one request, and at most the number of files. -/
theorem room_of {L C : List Nat} (hi : Room P L C s) {r : Nat} (hr : r ∈ L) {st : Stage} {s' : State} (hst : s'.stage = upd s.stage r st)
    (hev : st.evicts = false) (hea : st.early = true → (s.stage r).early = true)
    (hf : s'.files.length ≤ s.files.length ∨ s'.files.length ≤ s.files.length + 1 ∧ (s.stage r).early = true ∧ st.early = false) : Room P L C s' := by
  have himp : ∀ x, (s'.stage x).early = true → (s.stage x).early = true := by
    intro x hx
    rw [hst] at hx
    unfold upd at hx
    split at hx
    · rename_i e; rw [e]; exact hea hx
    · exact hx
  refine ⟨hi.plain, ?_, ?_, ?_⟩
  · intro x hx hc
    rw [hst]
    unfold upd
    rw [if_neg (fun e : x = r => hx (e ▸ hr))]
    exact hi.outside x hx hc
  · intro x hc
    rw [hst]
    unfold upd
    split
    · exact hev
    · exact hi.calm x hc
  · have h0 := hi.count
    rcases hf with hf | ⟨hf, h1, h2⟩
    · have := filter_le_of_imp (L := L) himp
      omega
    · have := filter_lt_of_imp (L := L) himp hr h1 (by rw [hst]; simp [upd, h2])
      omega

theorem room_step {L C : List Nat} (hL : L.length ≤ P.limit) (hi : Room P L C s) {a : Action} (hr : a.r ∈ L) {s' : State}
    (h : step P s a = .ok s') : Room P L C s' := by
  have hc := hi.calm a.r (hi.plain a.r hr).2
  cases hs : s.stage a.r with
  | wantFile =>
    simp only [step, hs, (hi.plain a.r hr).1] at h
    rw [if_neg (by simp)] at h
    split at h <;> split at h <;> first | cases h | skip
    · exact room_of hi hr (st := .wantHandler) rfl rfl (by rw [hs]; simp [Stage.early]) (.inl (Nat.le_refl _))
    · exact room_of hi hr (st := .wantHandler) rfl rfl (by rw [hs]; simp [Stage.early]) (.inl (Nat.le_refl _))
  | wantHandler =>
    simp only [step, hs] at h
    split at h <;> cases h
    exact room_of hi hr (st := .changing) rfl rfl (by rw [hs]; simp [Stage.early]) (.inl (Nat.le_refl _))
  | changing =>
    simp only [step, hs] at h
    split at h
    · cases h
      exact room_of hi hr (st := .looking) rfl rfl (by rw [hs]; simp [Stage.early]) (.inl (Nat.le_refl _))
    · split at h
      · cases h
        exact room_of hi hr (st := .looking) rfl rfl (by rw [hs]; simp [Stage.early]) (.inl (Nat.le_refl _))
      · rename_i id rest e
        simp only [State.notifyClosed] at h
        split at h
        · cases h
        · rename_i e1
          split at e1 <;> cases e1
          cases h
          exact room_of hi hr (st := .dropping id) rfl rfl (by rw [hs]; simp [Stage.early]) (.inl (Nat.le_refl _))
  | dropping id =>
    simp only [step, hs, State.eraseFile] at h
    split at h
    · cases h
    · rename_i e1
      split at e1 <;> cases e1
      cases h
      exact room_of hi hr (st := .changing) rfl rfl (by rw [hs]; simp [Stage.early]) (.inl (List.length_erase_le ..))
  | looking =>
    simp only [step, hs] at h
    split at h
    · cases h
    · split at h
      · cases h
        exact room_of hi hr (st := .intent) rfl rfl (by rw [hs]; simp [Stage.early]) (.inl (Nat.le_refl _))
      · rename_i id rest e
        cases h
        exact room_of hi hr (st := .taken id) rfl rfl (by rw [hs]; simp [Stage.early]) (.inl (Nat.le_refl _))
  | intent =>
    simp only [step, hs] at h
    have h1 := filter_lt_of_imp (L := L) (p := fun r => (s.stage r).early) (q := fun _ => false) (by simp) hr (by rw [hs]; rfl) rfl
    have := hi.count
    rw [if_pos (by omega)] at h
    cases h
    exact room_of hi hr (st := .opening) rfl rfl (by rw [hs]; simp [Stage.early]) (.inl (Nat.le_refl _))
  | asking n id o => rw [hs] at hc; cases hc
  | closing id o => rw [hs] at hc; cases hc
  | closed id o => rw [hs] at hc; cases hc
  | refused n => rw [hs] at hc; cases hc
  | opening =>
    simp only [step, hs] at h
    split at h
    · cases h
      exact room_of hi hr (st := .returned) rfl rfl (by rw [hs]; simp [Stage.early]) (.inl (Nat.le_refl _))
    · split at h
      · cases h
      · cases h
        exact room_of hi hr (st := .registered a.newId) rfl rfl (by rw [hs]; simp [Stage.early])
          (.inr ⟨by simp [State.to], by rw [hs]; rfl, rfl⟩)
  | registered id =>
    simp only [step, hs] at h
    cases h
    exact room_of hi hr (st := .taken id) rfl rfl (by simp [Stage.early]) (.inl (Nat.le_refl _))
  | taken id =>
    simp only [step, hs] at h
    split at h <;> cases h
    exact room_of hi hr (st := .held id) rfl rfl (by simp [Stage.early]) (.inl (Nat.le_refl _))
  | held id =>
    simp only [step, hs] at h
    split at h <;> cases h
    exact room_of hi hr (st := .returned) rfl rfl (by simp [Stage.early]) (.inl (Nat.le_refl _))
  | returned =>
    simp only [step, hs] at h
    cases h
    exact room_of hi hr (st := .finished) rfl rfl (by simp [Stage.early]) (.inl (Nat.le_refl _))
  | finished => simp [step, hs] at h
  | sweep l => rw [hs] at hc; cases hc
  | sweepAsk id o l => rw [hs] at hc; cases hc
  | sweepClosing id o l => rw [hs] at hc; cases hc
  | sweepClosed id o l => rw [hs] at hc; cases hc

theorem room_run {L : List Nat} (hL : L.length ≤ P.limit) (hv : Inv P s) (hi : Room P L [] s) (as : List Action) (ha : ∀ a ∈ as, a.r ∈ L) :
    run P s as ≠ .ub ∧ ∀ s', run P s as = .ok s' → Room P L [] s' := by
  induction as generalizing s with
  | nil => exact ⟨by simp [run], fun s' h => by cases h; exact hi⟩
  | cons a as ih =>
    simp only [run]
    cases e : step P s a with
    | ok s1 => exact ih (inv_step hv e) (room_step hL hi (ha a (List.mem_cons_self ..)) e) (fun b hb => ha b (List.mem_cons_of_mem _ hb))
    | waits => exact ⟨by simp, by simp⟩
    | infeasible => exact ⟨by simp, by simp⟩
    | ub =>
      exfalso
      have hc := hi.calm a.r (by simp)
      rcases ub_cases hv e with ⟨n, id, h⟩ | ⟨n, h, _⟩ | ⟨id, l, h, _⟩ <;> rw [h] at hc <;> cases hc

theorem exists_fresh (l : List Id) : ∃ id, id ∉ l := by
  refine ⟨l.sum + 1, fun h => ?_⟩
  have : ∀ l : List Nat, ∀ x ∈ l, x ≤ l.sum := by
    intro l
    induction l with
    | nil => simp
    | cons y l ih =>
      intro x hx
      rw [List.sum_cons]
      rcases List.mem_cons.1 hx with e | e
      · omega
      · have := ih x e; omega
  have := this l _ h
  omega

theorem askNext_moves {r : Nat} {l : List (Nat × Id)} : s.askNext P r l ≠ .waits ∧ s.askNext P r l ≠ .infeasible := by
  cases l with
  | nil => simp [State.askNext]
  | cons x l => simp only [State.askNext]; split <;> simp

/-- A request that does not wait for a lock can move. -/
theorem step_ok (hv : Inv P s) {L : List Nat} (hi : Room P L [] s) {r : Nat} (h : s.stage r ≠ .wantFile) (h1 : s.stage r ≠ .wantHandler)
    (h2 : ∀ id, s.stage r ≠ .held id) (h3 : s.stage r ≠ .finished) : ∃ a s', a.r = r ∧ step P s a = .ok s' := by
  obtain ⟨id, hid⟩ := exists_fresh s.files
  refine ⟨{ r := r, newId := id, osOk := true }, ?_⟩
  have hub : step P s { r := r, newId := id, osOk := true } ≠ .ub := by
    intro e
    have hc := hi.calm r (by simp)
    rcases ub_cases hv e with ⟨n, id, h⟩ | ⟨n, h, _⟩ | ⟨id, l, h, _⟩ <;> simp only at h <;> rw [h] at hc <;> cases hc
  have hc := hi.calm r (by simp)
  cases e : step P s { r := r, newId := id, osOk := true } with
  | ok s' => exact ⟨s', rfl, rfl⟩
  | ub => exact absurd e hub
  | waits =>
    exfalso
    cases hs : s.stage r <;> simp only [step, hs] at e <;> simp_all [Stage.evicts] <;> grind [askNext_moves]
  | infeasible =>
    exfalso
    cases hs : s.stage r <;> simp only [step, hs] at e <;> simp_all [Stage.evicts] <;> grind [askNext_moves]

/-- Some request can move, unless all have finished. -/
theorem room_progress (hv : Inv P s) {L : List Nat} (hi : Room P L [] s) (h : ∃ r ∈ L, s.stage r ≠ .finished) :
    ∃ a s', a.r ∈ L ∧ step P s a = .ok s' := by
  by_cases h0 : ∃ r ∈ L, s.stage r ≠ .wantFile ∧ s.stage r ≠ .wantHandler ∧ (∀ id, s.stage r ≠ .held id) ∧ s.stage r ≠ .finished
  · obtain ⟨r, hr, h1, h2, h3, h4⟩ := h0
    obtain ⟨a, s', e, h⟩ := step_ok hv hi h1 h2 h3 h4
    exact ⟨a, s', e ▸ hr, h⟩
  · have hall : ∀ r, s.stage r = .wantFile ∨ s.stage r = .wantHandler ∨ (∃ id, s.stage r = .held id) ∨ s.stage r = .finished := by
      intro r
      by_cases hr : r ∈ L
      · grind
      · exact .inl (hi.outside r hr (by simp))
    have hfree : ∀ g, (s.hds g).holder = none := by
      intro g
      cases e : (s.hds g).holder with
      | none => rfl
      | some r =>
        exfalso
        rw [hv.holder] at e
        unfold holds at e
        rcases hall r with h | h | ⟨id, h⟩ | h <;> rw [h] at e <;> simp [Stage.own, Stage.other] at e
    by_cases h1 : ∃ r ∈ L, s.stage r = .wantHandler ∨ ∃ id, s.stage r = .held id
    · obtain ⟨r, hr, e | ⟨id, e⟩⟩ := h1
      · exact ⟨{ r := r }, _, hr, by simp [step, e, hfree]; rfl⟩
      · exact ⟨{ r := r }, _, hr, by simp [step, e, hfree]; rfl⟩
    · have hall2 : ∀ r, (s.stage r).locked = false := by
        intro r
        by_cases hr : r ∈ L
        · rcases hall r with h | h | ⟨id, h⟩ | h
          · rw [h]; rfl
          · exact absurd ⟨r, hr, .inl h⟩ h1
          · exact absurd ⟨r, hr, .inr ⟨id, h⟩⟩ h1
          · rw [h]; rfl
        · rw [hi.outside r hr (by simp)]; rfl
      obtain ⟨r, hr, hne⟩ := h
      have hw : s.stage r = .wantFile := by
        rcases hall r with h | h | h | h
        · exact h
        · exact absurd ⟨r, hr, .inl h⟩ h1
        · exact absurd ⟨r, hr, .inr h⟩ h1
        · exact absurd h hne
      have hwr : (s.hds (P.target r)).writer = none := by
        cases e : (s.hds (P.target r)).writer with
        | none => rfl
        | some r' => rw [hv.writer, hall2] at e; simp at e
      have hrd : (s.hds (P.target r)).readers = [] := by
        rw [List.eq_nil_iff_forall_not_mem]
        intro r' e
        rw [hv.readers, hall2] at e
        simp at e
      cases w : P.write r with
      | true => exact ⟨{ r := r }, _, hr, by simp [step, hw, w, hwr, hrd, (hi.plain r hr).1]; rfl⟩
      | false => exact ⟨{ r := r }, _, hr, by simp [step, hw, w, hwr, (hi.plain r hr).1]; rfl⟩

/-! ### One call of `closeAll` among readers -/

/-- The blocks that a call of `closeAll` will still use; the one that it is closing comes first. -/
def Stage.pending : Stage → List Id
  | .sweep l => l
  | .sweepAsk id _ l | .sweepClosing id _ l | .sweepClosed id _ l => id :: l
  | _ => []

/-- The stages of a call of `closeAll`. -/
def Stage.sweeping : Stage → Bool
  | .wantFile | .finished | .sweep _ | .sweepAsk _ _ _ | .sweepClosing _ _ _ | .sweepClosed _ _ _ => true
  | _ => false

structure Sweep (P : Params) (L : List Nat) (c : Nat) (s : State) : Prop where
  room : Room P L [c] s
  reads : ∀ r ∈ L, P.write r = false
  kind : P.sweep c = true
  ro : ∀ h, (s.hds h).readOnly = true
  keep : ∀ r ∈ L, ∀ id, s.stage r ≠ .dropping id
  stage : (s.stage c).sweeping = true
  nodup : (s.stage c).pending.Nodup
  alive : ∀ l, (s.stage c = .sweep l → ∀ id ∈ l, id ∈ s.files) ∧
    (∀ i o, (s.stage c = .sweepAsk i o l ∨ s.stage c = .sweepClosing i o l ∨ s.stage c = .sweepClosed i o l) → ∀ id ∈ l, id ∈ s.files)

set_option hygiene false in
/-- Closes a case of `sweep_reader` or `sweep_closer`. -/
macro "sweep_grind" : tactic => `(tactic| (
  (repeat' split at h)
  all_goals first
    | (cases h; done)
    | (cases h; simp only [State.to, State.setHd, upd, Hd.unlockFile] at *; grind [Stage.pending, Stage.sweeping])))

theorem sweep_reader {L : List Nat} {c : Nat} (hL : L.length ≤ P.limit) (hi : Sweep P L c s) {a : Action} (hr : a.r ∈ L) {s' : State}
    (h : step P s a = .ok s') : Sweep P L c s' := by
  have hroom := room_step hL hi.room hr h
  have hne : c ≠ a.r := fun e => (hi.room.plain a.r hr).2 (by simp [e])
  have hcalm := hi.room.calm a.r (hi.room.plain a.r hr).2
  have hw := hi.reads a.r hr
  have hro := hi.ro
  have hkeep := hi.keep a.r hr
  have hsw := (hi.room.plain a.r hr).1
  have key : (∀ g, (s'.hds g).readOnly = true) ∧ (∀ id, s'.stage a.r ≠ .dropping id) ∧ (∀ r, r ≠ a.r → s'.stage r = s.stage r) ∧
      (∀ id ∈ s.files, id ∈ s'.files) := by
    have hro1 := hro (P.target a.r)
    have hc2 := hroom.calm a.r (hi.room.plain a.r hr).2
    clear hroom hi
    cases hs : s.stage a.r with
    | wantFile => simp only [step, hs] at h; sweep_grind
    | wantHandler => simp only [step, hs] at h; sweep_grind
    | changing => simp only [step, hs] at h; sweep_grind
    | dropping id => exact absurd hs (hkeep id)
    | looking => simp only [step, hs] at h; sweep_grind
    | intent =>
      simp only [step, hs] at h
      split at h
      · sweep_grind
      · cases hso : s.sorted with
        | nil => rw [hso] at h; simp only [State.askNext, State.fail] at h; sweep_grind
        | cons x l =>
          rw [hso] at h
          simp only [State.askNext] at h
          split at h
          · cases h
            simp [State.to, upd, Stage.evicts] at hc2
          · cases h
    | opening =>
      simp only [step, hs] at h
      split at h
      · simp only [State.fail] at h
        sweep_grind
      · split at h
        · cases h
        · sweep_grind
    | registered id => simp only [step, hs] at h; sweep_grind
    | taken id => simp only [step, hs] at h; sweep_grind
    | held id => simp only [step, hs] at h; sweep_grind
    | returned => simp only [step, hs, Hd.unlockFile] at h; sweep_grind
    | finished => simp [step, hs] at h
    | _ => rw [hs] at hcalm; cases hcalm
  obtain ⟨k1, k2, k3, k4⟩ := key
  have hc := k3 c hne
  refine ⟨hroom, hi.reads, hi.kind, k1, ?_, by rw [hc]; exact hi.stage, by rw [hc]; exact hi.nodup, ?_⟩
  · intro r hr' id
    by_cases e : r = a.r
    · rw [e]; exact k2 id
    · rw [k3 r e]; exact hi.keep r hr' id
  · intro l
    rw [hc]
    exact ⟨fun e id hid => k4 id ((hi.alive l).1 e id hid), fun i o e id hid => k4 id ((hi.alive l).2 i o e id hid)⟩

theorem sweep_closer {L : List Nat} {c : Nat} (hv : Inv P s) (hi : Sweep P L c s) {a : Action} (hr : a.r = c) {s' : State}
    (h : step P s a = .ok s') : Sweep P L c s' := by
  have hnl : ∀ r ∈ L, r ≠ c := fun r h e => (hi.room.plain r h).2 (by simp [e])
  have hst := hi.stage
  have hal := hi.alive
  have hnd := hi.nodup
  subst hr
  have hk := hi.kind
  have key : (∀ g, (s'.hds g).readOnly = (s.hds g).readOnly) ∧ (∀ r, r ≠ a.r → s'.stage r = s.stage r) ∧
      s'.files.length ≤ s.files.length ∧ (s'.stage a.r).sweeping = true ∧ (s'.stage a.r).pending.Nodup ∧
      (∀ l, (s'.stage a.r = .sweep l → ∀ id ∈ l, id ∈ s'.files) ∧
    (∀ i o, (s'.stage a.r = .sweepAsk i o l ∨ s'.stage a.r = .sweepClosing i o l ∨ s'.stage a.r = .sweepClosed i o l) →
      ∀ id ∈ l, id ∈ s'.files)) := by
    have hfn := hv.fnodup
    clear hi hv
    cases hs : s.stage a.r with
    | wantFile =>
      simp only [step, hs, hk, if_true] at h
      sweep_grind
    | sweep l =>
      cases l with
      | nil => simp only [step, hs] at h; sweep_grind
      | cons id l =>
        simp only [step, hs] at h
        have := (hal (id :: l)).1 hs
        have hn2 : (id :: l).Nodup := by rw [hs] at hnd; exact hnd
        sweep_grind
    | sweepAsk id o l =>
      simp only [step, hs] at h
      have := (hal l).2 id o (.inl hs)
      have hn2 : (id :: l).Nodup := by rw [hs] at hnd; exact hnd
      sweep_grind
    | sweepClosing id o l =>
      simp only [step, hs, State.notifyClosed] at h
      have := (hal l).2 id o (.inr (.inl hs))
      have hn2 : (id :: l).Nodup := by rw [hs] at hnd; exact hnd
      sweep_grind
    | sweepClosed id o l =>
      have := (hal l).2 id o (.inr (.inr hs))
      have hn2 : (id :: l).Nodup := by rw [hs] at hnd; exact hnd
      simp only [step, hs, State.eraseFile] at h
      split at h
      · cases h
      · rename_i e
        split at e <;> cases e
        have hle := List.length_erase_le (a := id) (l := s.files)
        have hmem : ∀ x, x ≠ id → x ∈ s.files → x ∈ s.files.erase id := fun x hx hm => (List.mem_erase_of_ne hx).2 hm
        sweep_grind
    | finished => simp [step, hs] at h
    | _ => rw [hs] at hst; cases hst
  obtain ⟨k1, k2, k3, k4, k5, k6⟩ := key
  refine ⟨⟨hi.room.plain, ?_, ?_, ?_⟩, hi.reads, hi.kind, fun g => (k1 g).trans (hi.ro g), ?_, k4, k5, k6⟩
  · intro r h1 h2
    rw [k2 r (by simpa using h2)]
    exact hi.room.outside r h1 h2
  · intro r h2
    rw [k2 r (by simpa using h2)]
    exact hi.room.calm r h2
  · have := hi.room.count
    have e : L.filter (fun r => (s'.stage r).early) = L.filter (fun r => (s.stage r).early) :=
      List.filter_congr (fun r hr => by rw [k2 r (hnl r hr)])
    rw [e]
    omega
  · intro r hr id
    rw [k2 r (hnl r hr)]
    exact hi.keep r hr id

theorem sweep_init {L : List Nat} {c : Nat} (hp : ∀ r ∈ L, P.sweep r = false ∧ P.write r = false) (hc : P.sweep c = true) :
    Sweep P L c State.init := by
  refine ⟨room_init fun r hr => ⟨(hp r hr).1, fun e => ?_⟩, fun r hr => (hp r hr).2, hc, fun _ => rfl, fun _ _ _ => by simp [State.init], rfl,
    by simp [State.init, Stage.pending], fun l => by simp [State.init]⟩
  have e : r = c := by simpa using e
  have := (hp r hr).1
  rw [e, hc] at this
  cases this

theorem sweep_run {L : List Nat} {c : Nat} (hL : L.length ≤ P.limit) (hv : Inv P s) (hi : Sweep P L c s) (as : List Action)
    (ha : ∀ a ∈ as, a.r ∈ L ∨ a.r = c) : run P s as ≠ .ub ∧ ∀ s', run P s as = .ok s' → Sweep P L c s' := by
  induction as generalizing s with
  | nil => exact ⟨by simp [run], fun s' h => by cases h; exact hi⟩
  | cons a as ih =>
    simp only [run]
    cases e : step P s a with
    | ok s1 =>
      have h1 : Sweep P L c s1 := by
        rcases ha a (List.mem_cons_self ..) with h | h
        · exact sweep_reader hL hi h e
        · exact sweep_closer hv hi h e
      exact ih (inv_step hv e) h1 (fun b hb => ha b (List.mem_cons_of_mem _ hb))
    | waits => exact ⟨by simp, by simp⟩
    | infeasible => exact ⟨by simp, by simp⟩
    | ub =>
      exfalso
      rcases ha a (List.mem_cons_self ..) with h | h
      · have hc := hi.room.calm a.r (hi.room.plain a.r h).2
        rcases ub_cases hv e with ⟨n, id, h⟩ | ⟨n, h, _⟩ | ⟨id, l, h, _⟩ <;> rw [h] at hc <;> cases hc
      · have hst := hi.stage
        rcases ub_cases hv e with ⟨n, id, h1⟩ | ⟨n, h1, _⟩ | ⟨id, l, h1, h2⟩ <;> rw [h] at h1
        · rw [h1] at hst; cases hst
        · rw [h1] at hst; cases hst
        · exact h2 ((hi.alive (id :: l)).1 h1 id (List.mem_cons_self ..))

/-! ### A call of `closeAll` that is alone -/

/-- A handler with other idle streams. -/
def Hd.withAvail (hd : Hd) (l : List Id) : Hd := { hd with avail := l }

theorem run_one {a : Action} {s1 : State} {as : List Action} (h : step P s a = .ok s1) : run P s (a :: as) = run P s1 as := by
  simp [run, h]

theorem sweep_alone {c : Nat} (l : List Id) (hv : Inv P s) (hq : ∀ g, (s.hds g).holder = none) (hs : s.stage c = .sweep l) (nd : l.Nodup)
    (hal : ∀ id ∈ l, id ∈ s.files) :
    ∃ n s', run P s (List.replicate n ⟨c, 0, true⟩) = .ok s' ∧ s'.stage c = .finished ∧ (∀ r, r ≠ c → s'.stage r = s.stage r) ∧
      (∀ g, s'.hds g = (s.hds g).withAvail ((s.hds g).avail.filter (fun id => id ∉ l))) ∧ (∀ id ∈ s'.files, id ∈ s.files) := by
  induction l generalizing s with
  | nil =>
    refine ⟨1, s.to c .finished, by simp [run, step, hs], by simp [State.to, upd], fun r hr => by simp [State.to, upd, hr], fun g => ?_,
      fun id h => h⟩
    have e : (s.hds g).avail.filter (fun id => id ∉ ([] : List Id)) = (s.hds g).avail := List.filter_eq_self.2 (by simp)
    rw [e]
    rfl
  | cons id l ih =>
    rw [List.nodup_cons] at nd
    have h1 : step P s ⟨c, 0, true⟩ = .ok (s.to c (.sweepAsk id (s.owner id) l)) := by
      simp [step, hs, hal id (List.mem_cons_self ..)]
    have v1 := inv_step hv h1
    by_cases hm : id ∈ (s.hds (s.owner id)).avail
    · have h2 : step P (s.to c (.sweepAsk id (s.owner id) l)) ⟨c, 0, true⟩ = .ok (((s.to c (.sweepAsk id (s.owner id) l)).setHd (s.owner id)
          { s.hds (s.owner id) with holder := some c }).to c (.sweepClosing id (s.owner id) l)) := by
        simp [step, State.to, upd, hm, hq]
      have v2 := inv_step v1 h2
      generalize hs2 : ((s.to c (.sweepAsk id (s.owner id) l)).setHd (s.owner id)
          { s.hds (s.owner id) with holder := some c }).to c (.sweepClosing id (s.owner id) l) = s2 at *
      have t2 : s2.stage c = .sweepClosing id (s.owner id) l := by rw [← hs2]; simp [State.to, upd]
      obtain ⟨s3, h3⟩ : ∃ s3, step P s2 ⟨c, 0, true⟩ = .ok s3 := by
        have hu : step P s2 ⟨c, 0, true⟩ ≠ .ub := by
          intro h
          rcases ub_cases v2 h with ⟨n, i, h⟩ | ⟨n, h, _⟩ | ⟨i, m, h, _⟩ <;> rw [t2] at h <;> cases h
        simp only [step, t2] at hu ⊢
        cases e : s2.notifyClosed id with
        | none => rw [e] at hu; exact absurd rfl hu
        | some s3 => exact ⟨_, rfl⟩
      have v3 := inv_step v2 h3
      have d3 : s3.stage c = .sweepClosed id (s.owner id) l ∧ (∀ r, r ≠ c → s3.stage r = s2.stage r) ∧ s3.hds = s2.hds ∧ s3.files = s2.files := by
        simp only [step, t2, State.notifyClosed] at h3
        split at h3
        · cases h3
        · rename_i e
          split at e <;> cases e
          cases h3
          simp +contextual [State.to, upd]
      obtain ⟨t3, o3, hd3, f3⟩ := d3
      obtain ⟨s4, h4⟩ : ∃ s4, step P s3 ⟨c, 0, true⟩ = .ok s4 := by
        have hu : step P s3 ⟨c, 0, true⟩ ≠ .ub := by
          intro h
          rcases ub_cases v3 h with ⟨n, i, h⟩ | ⟨n, h, _⟩ | ⟨i, m, h, _⟩ <;> rw [t3] at h <;> cases h
        simp only [step, t3] at hu ⊢
        cases e : s3.eraseFile id with
        | none => rw [e] at hu; exact absurd rfl hu
        | some s3 => exact ⟨_, rfl⟩
      have v4 := inv_step v3 h4
      have d4 : s4.stage c = .sweep l ∧ (∀ r, r ≠ c → s4.stage r = s3.stage r) ∧ s4.files = s3.files.erase id ∧
          s4.hds = upd s3.hds (s.owner id)
            { s3.hds (s.owner id) with avail := (s3.hds (s.owner id)).avail.filter (· ≠ id), holder := none } := by
        simp only [step, t3, State.eraseFile] at h4
        split at h4
        · cases h4
        · rename_i e
          split at e <;> cases e
          cases h4
          simp +contextual [State.to, State.setHd, upd]
      obtain ⟨t4, o4, f4, hd4⟩ := d4
      have o2 : ∀ r, r ≠ c → s2.stage r = s.stage r := fun r hr => by rw [← hs2]; simp [State.to, State.setHd, upd, hr]
      have hd2 : s2.hds = upd s.hds (s.owner id) { s.hds (s.owner id) with holder := some c } := by rw [← hs2]; simp [State.to, State.setHd]
      have f2 : s2.files = s.files := by rw [← hs2]; simp [State.to, State.setHd]
      have e4 : ∀ g, s4.hds g = (s.hds g).withAvail ((s.hds g).avail.filter (fun i => i ≠ id)) := by
        intro g
        rw [hd4, hd3, hd2]
        have hqq := hq g
        by_cases hg : g = s.owner id
        · subst hg
          simp [upd, Hd.withAvail]
          rw [hqq]
        · have : (s.hds g).avail.filter (fun i => decide (i ≠ id)) = (s.hds g).avail := by
            rw [List.filter_eq_self]
            intro i hi
            have : i ≠ id := fun e => hg ((hv.avail g id (e ▸ hi)).2.symm)
            simpa using this
          rw [this]
          simp [upd, hg, Hd.withAvail]
      obtain ⟨n, s', h5, t5, o5, hd5, f5⟩ := ih v4 (fun g => by rw [e4]; exact hq g) t4 nd.2 (fun i hi => by
        rw [f4, f3, f2]
        exact (List.mem_erase_of_ne (fun e : i = id => nd.1 (e ▸ hi))).2 (hal i (List.mem_cons_of_mem _ hi)))
      refine ⟨n + 4, s', ?_, t5, fun r hr => by rw [o5 r hr, o4 r hr, o3 r hr, o2 r hr], fun g => ?_, fun i hi => ?_⟩
      · simp only [List.replicate_succ]
        rw [run_one h1, run_one h2, run_one h3, run_one h4, h5]
      · rw [hd5, e4]
        simp only [Hd.withAvail, List.filter_filter]
        apply congrArg (s.hds g).withAvail
        apply List.filter_congr
        intro i _
        by_cases e : i = id <;> simp [e]
      · have := f5 i hi
        rw [f4, f3, f2] at this
        exact List.mem_of_mem_erase this
    · have h2 : step P (s.to c (.sweepAsk id (s.owner id) l)) ⟨c, 0, true⟩ = .ok ((s.to c (.sweepAsk id (s.owner id) l)).to c (.sweep l)) := by
        simp [step, State.to, upd, hm, hq]
      have v2 := inv_step v1 h2
      obtain ⟨n, s', h5, t5, o5, hd5, f5⟩ := ih v2 (fun g => hq g) (by simp [State.to, upd]) nd.2 (fun i hi => hal i (List.mem_cons_of_mem _ hi))
      refine ⟨n + 2, s', ?_, t5, fun r hr => by rw [o5 r hr]; simp [State.to, upd, hr], fun g => ?_, f5⟩
      · simp only [List.replicate_succ]
        rw [run_one h1, run_one h2, h5]
      · rw [hd5]
        show (s.hds g).withAvail ((s.hds g).avail.filter (fun id => id ∉ l)) = _
        apply congrArg (s.hds g).withAvail
        apply List.filter_congr
        intro i hi
        have : i ≠ id := by
          rintro rfl
          have := (hv.avail g i hi).2
          exact hm (this ▸ hi)
        simp [this]

end
end Alexandria.FilePool.Threads
