import Verif.FilePool.Spec
import Mathlib.Data.List.Perm.Basic
import Mathlib.Data.List.Perm.Subperm
import Mathlib.Data.List.Nodup

/-! # Lemmas on the manager -/

namespace Alexandria.FilePool

/-- The manager's two containers agree and the limit is kept. -/
structure Ok (m : Lru) : Prop where
  pos : 1 ≤ m.limit
  nodup : m.sorted.Nodup
  perm : m.sorted.Perm m.files
  le : m.files.length ≤ m.limit

theorem Ok.mem {m : Lru} (h : Ok m) (id : Id) : id ∈ m.sorted ↔ id ∈ m.files := h.perm.mem_iff

theorem Ok.nodupF {m : Lru} (h : Ok m) : m.files.Nodup := h.perm.nodup_iff.1 h.nodup

theorem Ok.length {m : Lru} (h : Ok m) : m.sorted.length = m.files.length := h.perm.length_eq

/-- The state after closing `id`. -/
def Lru.without (m : Lru) (id : Id) : Lru := { m with sorted := m.sorted.erase id, files := m.files.erase id }

theorem close_eq {m : Lru} (h : Ok m) {id : Id} (hid : id ∈ m.files) : m.close id = .ok (m.without id) := by
  simp [Lru.close, Lru.notifyClosed, (h.mem id).2 hid, hid, Lru.without]

theorem close_ub {m : Lru} (h : Ok m) {id : Id} (hid : id ∉ m.files) : m.close id = .ub := by
  have : id ∉ m.sorted := fun h' => hid ((h.mem id).1 h')
  simp [Lru.close, Lru.notifyClosed, this]

theorem close_ok_mem {m m' : Lru} (h : Ok m) {id : Id} (hc : m.close id = .ok m') : id ∈ m.files ∧ m' = m.without id := by
  by_cases hid : id ∈ m.files
  · rw [close_eq h hid] at hc
    exact ⟨hid, by simpa using hc.symm⟩
  · rw [close_ub h hid] at hc; cases hc

theorem ok_without {m : Lru} (h : Ok m) (id : Id) : Ok (m.without id) where
  pos := h.pos
  nodup := h.nodup.erase id
  perm := h.perm.erase id
  le := Nat.le_trans (List.length_erase_le) h.le

theorem without_length {m : Lru} {id : Id} (hid : id ∈ m.files) : (m.without id).files.length = m.files.length - 1 := by
  simp [Lru.without, List.length_erase_of_mem hid]

theorem used_ok {m m' : Lru} {id : Id} (hc : m.notifyUsed id = .ok m') :
    id ∈ m.sorted ∧ m' = { m with sorted := m.sorted.erase id ++ [id] } := by
  unfold Lru.notifyUsed at hc
  split at hc
  · exact ⟨‹_›, by simpa using hc.symm⟩
  · cases hc

theorem ok_used {m m' : Lru} (h : Ok m) {id : Id} (hc : m.notifyUsed id = .ok m') : Ok m' := by
  obtain ⟨hid, rfl⟩ := used_ok hc
  have hp : (m.sorted.erase id ++ [id]).Perm m.sorted :=
    (List.perm_append_singleton id _).trans (List.perm_cons_erase hid).symm
  exact ⟨h.pos, hp.nodup_iff.2 h.nodup, hp.trans h.perm, h.le⟩

theorem register_ok {m m' : Lru} {id : Id} (hc : m.register id = .ok m') :
    id ∉ m.files ∧ m' = { m with files := m.files ++ [id], sorted := m.sorted ++ [id] } := by
  unfold Lru.register at hc
  split at hc
  · cases hc
  · exact ⟨‹_›, by simpa [Lru.notifyOpened] using hc.symm⟩

theorem ok_register {m m' : Lru} (h : Ok m) {id : Id} (hlt : m.files.length < m.limit) (hc : m.register id = .ok m') : Ok m' := by
  obtain ⟨hid, rfl⟩ := register_ok hc
  refine ⟨h.pos, ?_, h.perm.append_right _, ?_⟩
  · refine List.nodup_append.2 ⟨h.nodup, List.nodup_singleton _, ?_⟩
    intro a ha b hb
    rw [List.mem_singleton] at hb
    subst hb
    rintro rfl
    exact hid ((h.mem a).1 ha)
  · simp; omega

/-! ### The owners that accept or refuse -/

theorem askAll_answer (accepts : Id → Bool) : ∀ (l : List Id) (m : Lru),
    askAll (answer accepts) l m = match l.find? accepts with
      | none => .ok (m, false)
      | some v => (m.close v) >>= fun m' => .ok (m', true)
  | [], m => by simp [askAll]
  | id :: rest, m => by
    by_cases hid : accepts id = true
    · cases hc : m.close id with
      | ok m' => simp [askAll, answer, hid, hc]
      | throw e => simp [askAll, answer, hid, hc]
      | ub => simp [askAll, answer, hid, hc]
    · simp [askAll, answer, hid, askAll_answer accepts rest m]

/-- `notifyIntentToOpen` in closed form. -/
theorem intent_eq {m : Lru} (h : Ok m) (accepts : Id → Bool) :
    notifyIntent id (answer accepts) m =
      if m.files.length < m.limit then .ok (m, true)
      else match m.sorted.find? accepts with
        | none => .ok (m, false)
        | some v => .ok (m.without v, true) := by
  unfold notifyIntent
  by_cases hlt : m.files.length < m.limit
  · rw [if_pos hlt]
    have : ¬ m.limit ≤ m.files.length := by omega
    simp [intentLoop, this]
  · rw [if_neg hlt]
    have hge : m.files.length ≥ m.limit := by omega
    have hlen : m.files.length = m.limit := Nat.le_antisymm h.le hge
    simp only [intentLoop, id, hge, if_true, askAll_answer]
    cases hf : m.sorted.find? accepts with
    | none => simp
    | some v =>
      have hv : v ∈ m.files := (h.mem v).1 (List.mem_of_find?_eq_some hf)
      have hc := close_eq h hv
      have h1 : (m.without v).files.length = m.files.length - 1 := without_length hv
      have h2 : ¬ (m.without v).limit ≤ (m.without v).files.length := by
        have := h.pos
        simp only [h1]
        show ¬ m.limit ≤ _
        omega
      simp only [hc, Outcome.bind_ok, if_true]
      obtain ⟨k, hk⟩ : ∃ k, m.files.length = k + 1 := ⟨m.files.length - 1, by have := h.pos; omega⟩
      rw [hk]
      simp [intentLoop, h2]

theorem ok_intent {m m' : Lru} (h : Ok m) {accepts : Id → Bool} {room : Bool}
    (hi : notifyIntent id (answer accepts) m = .ok (m', room)) :
    Ok m' ∧ m'.limit = m.limit ∧ (room = true → m'.files.length < m'.limit) := by
  rw [intent_eq h] at hi
  split at hi
  · simp at hi; obtain ⟨rfl, rfl⟩ := hi; exact ⟨h, rfl, fun _ => ‹_›⟩
  · split at hi
    · simp at hi; obtain ⟨rfl, rfl⟩ := hi; exact ⟨h, rfl, by simp⟩
    · rename_i v hf
      simp at hi; obtain ⟨rfl, rfl⟩ := hi
      have hv : v ∈ m.files := (h.mem v).1 (List.mem_of_find?_eq_some hf)
      refine ⟨ok_without h v, rfl, fun _ => ?_⟩
      rw [without_length hv]
      show _ < m.limit
      have := h.le; have := h.pos; omega

/-- `open` in closed form. -/
theorem open_cases {m m' : Lru} {r : OpenResult} (h : Ok m) {accepts : Id → Bool} {newId : Id} {osOk : Bool}
    (ho : m.open accepts newId osOk = .ok (m', r)) :
    (∃ m1, notifyIntent id (answer accepts) m = .ok (m1, true) ∧
      ((r = .cannotOpen ∧ osOk = false ∧ m' = m1) ∨
        (r = .opened newId ∧ osOk = true ∧ newId ∉ m1.files ∧
          m' = { m1 with files := m1.files ++ [newId], sorted := m1.sorted ++ [newId] }))) ∨
    (notifyIntent id (answer accepts) m = .ok (m', false) ∧ r = .limitReached) := by
  unfold Lru.open at ho
  cases hi : notifyIntent id (answer accepts) m with
  | ub => rw [hi] at ho; cases ho
  | throw e => rw [hi] at ho; cases ho
  | ok p =>
    obtain ⟨m1, room⟩ := p
    rw [hi] at ho
    cases room with
    | false =>
      simp at ho
      obtain ⟨rfl, rfl⟩ := ho
      exact Or.inr ⟨rfl, rfl⟩
    | true =>
      refine Or.inl ⟨m1, rfl, ?_⟩
      cases osOk with
      | false => simp at ho; obtain ⟨rfl, rfl⟩ := ho; exact Or.inl ⟨rfl, rfl, rfl⟩
      | true =>
        simp only [Outcome.bind_ok, Bool.not_true, Bool.false_eq_true, if_false] at ho
        cases hr : m1.register newId with
        | ub => rw [hr] at ho; cases ho
        | throw e => rw [hr] at ho; cases ho
        | ok m2 =>
          rw [hr] at ho
          simp at ho
          obtain ⟨rfl, rfl⟩ := ho
          obtain ⟨hn, rfl⟩ := register_ok hr
          exact Or.inr ⟨rfl, rfl, hn, rfl⟩

theorem ok_open {m m' : Lru} {r : OpenResult} (h : Ok m) {accepts : Id → Bool} {newId : Id} {osOk : Bool}
    (ho : m.open accepts newId osOk = .ok (m', r)) : Ok m' ∧ m'.limit = m.limit := by
  rcases open_cases h ho with ⟨m1, hi, ⟨-, -, rfl⟩ | ⟨-, -, hn, rfl⟩⟩ | ⟨hi, -⟩
  · exact ⟨(ok_intent h hi).1, (ok_intent h hi).2.1⟩
  · obtain ⟨h1, h2, h3⟩ := ok_intent h hi
    refine ⟨ok_register h1 (h3 rfl) (id := newId) ?_, h2⟩
    simp [Lru.register, hn, Lru.notifyOpened]
  · exact ⟨(ok_intent h hi).1, (ok_intent h hi).2.1⟩

theorem ok_step {m m' : Lru} (h : Ok m) {op : MgrOp} (hs : m.step op = .ok m') : Ok m' ∧ m'.limit = m.limit := by
  cases op with
  | «open» accepts newId osOk =>
    simp only [Lru.step] at hs
    cases ho : m.open accepts newId osOk with
    | ub => rw [ho] at hs; cases hs
    | throw e => rw [ho] at hs; cases hs
    | ok p =>
      rw [ho] at hs
      simp at hs
      subst hs
      exact ok_open (r := p.2) h ho
  | close id =>
    obtain ⟨_, rfl⟩ := close_ok_mem h hs
    exact ⟨ok_without h id, rfl⟩
  | used id =>
    refine ⟨ok_used h hs, ?_⟩
    obtain ⟨-, rfl⟩ := used_ok hs
    rfl

theorem ok_run : ∀ (ops : List MgrOp) {m m' : Lru}, Ok m → m.run ops = .ok m' → Ok m' ∧ m'.limit = m.limit
  | [], m, m', h, hr => by
    simp [Lru.run] at hr; subst hr; exact ⟨h, rfl⟩
  | op :: ops, m, m', h, hr => by
    simp only [Lru.run] at hr
    cases hs : m.step op with
    | ub => rw [hs] at hr; cases hr
    | throw e => rw [hs] at hr; cases hr
    | ok m1 =>
      rw [hs] at hr
      obtain ⟨h1, h2⟩ := ok_step h hs
      obtain ⟨h3, h4⟩ := ok_run ops h1 hr
      exact ⟨h3, h4.trans h2⟩

theorem ok_new {limit rlim : Nat} (h : 1 ≤ limit ∨ rlim % 2 ^ 32 ≠ 3) : Ok (Lru.new limit rlim) := by
  refine ⟨?_, by simp [Lru.new], by simp [Lru.new], by simp [Lru.new]⟩
  simp only [Lru.new]
  split <;> omega

/-! ### Ages -/

/-- The list of the manager is in order of age, the oldest first. -/
structure Aged (s : Lru × List Id) : Prop where
  ok : Ok s.1
  order : s.1.sorted.Pairwise (fun a b => age s.2 b < age s.2 a)
  logged : ∀ id ∈ s.1.sorted, id ∈ s.2

theorem age_cons_self (log : List Id) (id : Id) : age (id :: log) id = 0 := by simp [age]

theorem age_cons_ne (log : List Id) {id x : Id} (h : x ≠ id) : age (id :: log) x = age log x + 1 := by
  simp [age, List.idxOf_cons_ne log (Ne.symm h)]

/-- A list in order of age, with a file touched now put at the end, is in order of age. -/
theorem aged_touch {log l : List Id} {id : Id} (h : l.Pairwise (fun a b => age log b < age log a)) (hn : id ∉ l) :
    (l ++ [id]).Pairwise (fun a b => age (id :: log) b < age (id :: log) a) := by
  rw [List.pairwise_append]
  refine ⟨?_, List.pairwise_singleton _ _, ?_⟩
  · refine h.imp_of_mem ?_
    intro a b ha hb hab
    rw [age_cons_ne log (x := a) (by rintro rfl; exact hn ha), age_cons_ne log (x := b) (by rintro rfl; exact hn hb)]
    omega
  · intro a ha b hb
    rw [List.mem_singleton] at hb
    subst hb
    rw [age_cons_self, age_cons_ne log (x := a) (by rintro rfl; exact hn ha)]
    omega

theorem aged_intent {m m' : Lru} {log : List Id} (h : Aged (m, log)) {accepts : Id → Bool} {room : Bool}
    (hi : notifyIntent id (answer accepts) m = .ok (m', room)) : Aged (m', log) := by
  have hok := (ok_intent h.ok hi).1
  rw [intent_eq h.ok] at hi
  split at hi
  · simp at hi; obtain ⟨rfl, rfl⟩ := hi; exact h
  · split at hi
    · simp at hi; obtain ⟨rfl, rfl⟩ := hi; exact h
    · rename_i v hf
      simp at hi; obtain ⟨rfl, rfl⟩ := hi
      exact ⟨hok, h.order.sublist List.erase_sublist, fun i hi => h.logged i (List.mem_of_mem_erase hi)⟩

theorem aged_step {s s' : Lru × List Id} (h : Aged s) {op : MgrOp} (hs : stepLog s op = .ok s') : Aged s' := by
  obtain ⟨m, log⟩ := s
  cases op with
  | «open» accepts newId osOk =>
    simp only [stepLog] at hs
    cases ho : m.open accepts newId osOk with
    | ub => rw [ho] at hs; cases hs
    | throw e => rw [ho] at hs; cases hs
    | ok p =>
      obtain ⟨m', r⟩ := p
      rw [ho] at hs
      have hok := (ok_open h.ok ho).1
      rcases open_cases h.ok ho with ⟨m1, hi, ⟨rfl, -, rfl⟩ | ⟨rfl, -, hn, rfl⟩⟩ | ⟨hi, rfl⟩
      · simp at hs; subst hs; exact aged_intent h hi
      · simp at hs; subst hs
        have h1 := aged_intent h hi
        refine ⟨hok, aged_touch h1.order (fun hm => hn ((h1.ok.mem _).1 hm)), ?_⟩
        intro i hi'
        simp at hi'
        rcases hi' with hi' | rfl
        · exact List.mem_cons_of_mem _ (h1.logged i hi')
        · simp
      · simp at hs; subst hs; exact aged_intent h hi
  | close id =>
    simp only [stepLog] at hs
    cases hc : m.close id with
    | ub => rw [hc] at hs; cases hs
    | throw e => rw [hc] at hs; cases hs
    | ok m' =>
      rw [hc] at hs
      simp at hs; subst hs
      obtain ⟨_, rfl⟩ := close_ok_mem h.ok hc
      exact ⟨ok_without h.ok id, h.order.sublist List.erase_sublist, fun i hi => h.logged i (List.mem_of_mem_erase hi)⟩
  | used id =>
    simp only [stepLog] at hs
    cases hc : m.notifyUsed id with
    | ub => rw [hc] at hs; cases hs
    | throw e => rw [hc] at hs; cases hs
    | ok m' =>
      rw [hc] at hs
      simp at hs; subst hs
      have hok := ok_used h.ok hc
      obtain ⟨hid, rfl⟩ := used_ok hc
      refine ⟨hok, aged_touch (h.order.sublist List.erase_sublist) (fun hm => ?_), ?_⟩
      · exact ((h.ok.nodup.mem_erase_iff).1 hm).1 rfl
      · intro i hi'
        simp at hi'
        rcases hi' with hi' | rfl
        · exact List.mem_cons_of_mem _ (h.logged i (List.mem_of_mem_erase hi'))
        · simp

theorem aged_run : ∀ (ops : List MgrOp) {s s' : Lru × List Id}, Aged s → runLog s ops = .ok s' → Aged s'
  | [], s, s', h, hr => by
    simp [runLog] at hr; subst hr; exact h
  | op :: ops, s, s', h, hr => by
    simp only [runLog] at hr
    cases hs : stepLog s op with
    | ub => rw [hs] at hr; cases hr
    | throw e => rw [hs] at hr; cases hr
    | ok s1 =>
      rw [hs] at hr
      exact aged_run ops (aged_step h hs) hr

theorem runLog_fst : ∀ (ops : List MgrOp) {m : Lru} {log : List Id} {s' : Lru × List Id}, runLog (m, log) ops = .ok s' →
    m.run ops = .ok s'.1
  | [], m, log, s', hr => by simp [runLog] at hr; subst hr; rfl
  | op :: ops, m, log, s', hr => by
    simp only [runLog] at hr
    cases hs : stepLog (m, log) op with
    | ub => rw [hs] at hr; cases hr
    | throw e => rw [hs] at hr; cases hr
    | ok s1 =>
      rw [hs] at hr
      have hr' := runLog_fst ops (m := s1.1) (log := s1.2) hr
      have : m.step op = .ok s1.1 := by
        cases op with
        | «open» accepts newId osOk =>
          simp only [stepLog] at hs
          cases ho : m.open accepts newId osOk with
          | ub => rw [ho] at hs; cases hs
          | throw e => rw [ho] at hs; cases hs
          | ok p =>
            obtain ⟨m', r⟩ := p
            rw [ho] at hs
            cases r <;> simp at hs <;> subst hs <;> simp [Lru.step, ho]
        | close id =>
          simp only [stepLog] at hs
          cases hc : m.close id with
          | ub => rw [hc] at hs; cases hs
          | throw e => rw [hc] at hs; cases hs
          | ok m' => rw [hc] at hs; simp at hs; subst hs; simp [Lru.step, hc]
        | used id =>
          simp only [stepLog] at hs
          cases hc : m.notifyUsed id with
          | ub => rw [hc] at hs; cases hs
          | throw e => rw [hc] at hs; cases hs
          | ok m' => rw [hc] at hs; simp at hs; subst hs; simp [Lru.step, hc]
      simp only [Lru.run, this]
      exact hr'

end Alexandria.FilePool
