import Verif.FilePool.Steps
import Verif.FilePool.ConcLemmas

/-! # Properties of the file pool (C11-C14, C73-C75) -/

namespace Alexandria.FilePool

/-! ## C11: the limit -/

/-- **C11** For every limit (0 stands for that of the process, see `C11_system`) and every history of opens, closes and uses, with owners that
accept or refuse in any way: the number of open files is at most the limit, `getUsed()` is that number and `getUsed() + getAvailable()`
is the limit. -/
theorem C11_limit {limit rlim : Nat} (hl : 1 ≤ limit ∨ rlim % 2 ^ 32 ≠ 3) (h32 : limit < 2 ^ 32) (ops : List MgrOp) {m : Lru}
    (hr : (Lru.new limit rlim).run ops = .ok m) :
    m.limit = (Lru.new limit rlim).limit ∧ m.files.length ≤ m.limit ∧ m.used = m.files.length ∧ m.used + m.available = m.limit := by
  obtain ⟨h1, h2⟩ := ok_run ops (ok_new hl) hr
  refine ⟨h2, h1.le, h1.length, ?_⟩
  have h32 : (Lru.new limit rlim).limit < 2 ^ 32 := by
    simp only [Lru.new]
    split <;> omega
  have h3 := h1.le
  have h4 := h1.length
  simp only [Lru.used, Lru.available, h2] at *
  rw [h4]
  rw [show (Lru.new limit rlim).limit + 2 ^ 32 - m.files.length = ((Lru.new limit rlim).limit - m.files.length) + 2 ^ 32 by omega,
    Nat.add_mod_right, Nat.mod_eq_of_lt (by omega)]
  omega

/-- **C11** The limit that the pool takes from the process is that of the process minus 3 if this has 32 bits. -/
theorem C11_system (rlim : Nat) (h3 : 3 ≤ rlim) (h32 : rlim - 3 < 2 ^ 32) : (Lru.new 0 rlim).limit = rlim - 3 := by
  simp only [Lru.new, if_pos]
  omega

example : (Lru.new 0 1024).limit = 1021 := C11_system 1024 (by decide) (by decide)

/-- **C11** A pool that takes its limit from the process can open no file at all exactly if the 32 bits it keeps are 0: for the limits 3, 2^32 + 3, … -/
theorem C11_system_none_iff (rlim : Nat) (accepts : Id → Bool) (newId : Id) :
    (Lru.new 0 rlim).open accepts newId true = .ok (Lru.new 0 rlim, .limitReached) ↔ rlim % 2 ^ 32 = 3 := by
  constructor
  · intro h
    by_contra hc
    have h1 := ok_new (limit := 0) (rlim := rlim) (.inr hc)
    unfold Lru.open at h
    rw [intent_eq h1, if_pos (show (Lru.new 0 rlim).files.length < _ from h1.pos)] at h
    simp [Lru.register, Lru.new] at h
  · intro h
    have h0 : (Lru.new 0 rlim).limit = 0 := by simp only [Lru.new, if_pos]; omega
    simp [Lru.open, notifyIntent, intentLoop, askAll, h0, show (Lru.new 0 rlim).sorted = [] from rfl, show (Lru.new 0 rlim).files = [] from rfl]

/-- No limit (`RLIM_INFINITY`) is the limit `2^32 - 4`; a limit of `2^32 + 3` files is none that can be opened. -/
example : (Lru.new 0 (2 ^ 64 - 1)).limit = 2 ^ 32 - 4 ∧ (Lru.new 0 (2 ^ 32 + 3)).open (fun _ => true) 1 true = .ok (Lru.new 0 (2 ^ 32 + 3), .limitReached) :=
  ⟨by decide, (C11_system_none_iff _ _ _).2 (by decide)⟩

/-- **C11** When the operating system is asked to open a file, there is room for it. -/
theorem C11_room {limit rlim : Nat} (hl : 1 ≤ limit ∨ rlim % 2 ^ 32 ≠ 3) (ops : List MgrOp) {m m' : Lru} (accepts : Id → Bool)
    (hr : (Lru.new limit rlim).run ops = .ok m) (hi : notifyIntent id (answer accepts) m = .ok (m', true)) :
    m'.files.length < m'.limit :=
  (ok_intent (ok_run ops (ok_new hl) hr).1 hi).2.2 rfl

/-- **C11** The manager never runs into undefined behaviour by itself: a request to open ends with a file, an exception, or an address
that is taken. -/
theorem C11_open_total {limit rlim : Nat} (hl : 1 ≤ limit ∨ rlim % 2 ^ 32 ≠ 3) (ops : List MgrOp) {m : Lru} (accepts : Id → Bool) (newId : Id)
    (osOk : Bool) (hr : (Lru.new limit rlim).run ops = .ok m) : m.open accepts newId osOk ≠ .ub := by
  have h1 := (ok_run ops (ok_new hl) hr).1
  unfold Lru.open
  rw [intent_eq h1]
  have aux : ∀ (m1 : Lru) (b : Bool), (((.ok (m1, b) : Run (Lru × Bool)) >>= fun x =>
      (match x with
      | (m, room) =>
        if (!room) = true then (.ok (m, .limitReached) : Run (Lru × OpenResult))
        else if (!osOk) = true then .ok (m, .cannotOpen)
        else (m.register newId >>= fun m => .ok (m, .opened newId))))) ≠ .ub := by
    intro m1 b
    cases b <;> cases osOk <;> simp [Lru.register]
    split <;> simp
  split
  · exact aux m true
  · split
    · exact aux m false
    · exact aux _ true

/-- **C11** The same for handlers and accessors, whatever their users do. -/
theorem C11_handlers {limit : Nat} (hl : 1 ≤ limit) {w : World} (hr : Reach (fun _ _ => True) limit w) :
    w.mgr.limit = limit ∧ w.mgr.files.length ≤ limit ∧ w.mgr.used = w.mgr.files.length := by
  obtain ⟨i, h2⟩ := inv_reach hr
  have h3 : w.mgr.limit = limit := by rw [h2]; simp [Lru.new]; omega
  exact ⟨h3, h3 ▸ i.ok.le, i.ok.length⟩

/-- A manager for two files: a third one is opened, the owner of file 1 refuses, so file 2 is closed. -/
example : (Lru.new 2 1024).run [.open (fun _ => true) 1 true, .open (fun _ => true) 2 true, .open (fun i => i != 1) 3 true]
    = .ok { limit := 2, files := [1, 3], sorted := [1, 3] } := by decide

/-! ## C12: which file is closed -/

/-- **C12** After any history, a request to open with the manager full: either some owner accepts; then the file that is closed is,
among those whose owners accept, the one that was opened or used the longest time ago, and no other file is closed. Or all refuse; then
the call fails and no file has been closed. -/
theorem C12_victim {limit rlim : Nat} (hl : 1 ≤ limit ∨ rlim % 2 ^ 32 ≠ 3) (ops : List MgrOp) {m m' : Lru} {log : List Id}
    (hr : runLog (Lru.new limit rlim, []) ops = .ok (m, log)) (hfull : m.files.length = m.limit)
    (accepts : Id → Bool) (newId : Id) (osOk : Bool) {r : OpenResult} (ho : m.open accepts newId osOk = .ok (m', r)) :
    (∃ v ∈ m.files, accepts v = true ∧ (∀ x ∈ m.files, accepts x = true → x ≠ v → age log x < age log v) ∧
      ((r = .opened newId ∧ osOk = true ∧ m'.files.Perm (newId :: m.files.erase v)) ∨
        (r = .cannotOpen ∧ osOk = false ∧ m'.files = m.files.erase v))) ∨
    ((∀ x ∈ m.files, accepts x = false) ∧ r = .limitReached ∧ m' = m) := by
  have hA : Aged (m, log) := aged_run ops ⟨ok_new hl, by simp [Lru.new], by simp [Lru.new]⟩ hr
  have hok : Ok m := hA.ok
  have hi := intent_eq hok accepts
  rw [if_neg (by omega)] at hi
  cases hf : m.sorted.find? accepts with
  | none =>
    rw [hf] at hi
    right
    have hnone : ∀ x ∈ m.files, accepts x = false := by
      intro x hx
      have := List.find?_eq_none.1 hf x ((hok.mem x).2 hx)
      simpa using this
    rcases open_cases hok ho with ⟨m1, h1, _⟩ | ⟨h1, rfl⟩
    · rw [hi] at h1; simp at h1
    · rw [hi] at h1; simp at h1
      exact ⟨hnone, rfl, h1.symm⟩
  | some v =>
    rw [hf] at hi
    left
    have hv : v ∈ m.files := (hok.mem v).1 (List.mem_of_find?_eq_some hf)
    refine ⟨v, hv, by simpa using List.find?_some hf, ?_, ?_⟩
    · intro x hx hax hne
      obtain ⟨-, as, bs, hs, has⟩ := List.find?_eq_some_iff_append.1 hf
      have hx' := (hok.mem x).2 hx
      have hord := hA.order
      simp only at hord
      rw [hs] at hx' hord
      simp only [List.mem_append, List.mem_cons] at hx'
      rcases hx' with hx' | hx' | hx'
      · have := has x hx'
        simp [hax] at this
      · exact absurd hx' hne
      · rw [List.pairwise_append, List.pairwise_cons] at hord
        exact hord.2.1.1 x hx'
    · rcases open_cases hok ho with ⟨m1, h1, ⟨rfl, hos, rfl⟩ | ⟨rfl, hos, -, rfl⟩⟩ | ⟨h1, rfl⟩
      · rw [hi] at h1; simp at h1; subst h1
        exact Or.inr ⟨rfl, hos, rfl⟩
      · rw [hi] at h1; simp at h1; subst h1
        exact Or.inl ⟨rfl, hos, List.perm_append_singleton _ _⟩
      · rw [hi] at h1; simp at h1

/-- **C12** As long as there is room, opening closes nothing. -/
theorem C12_room {limit rlim : Nat} (hl : 1 ≤ limit ∨ rlim % 2 ^ 32 ≠ 3) (ops : List MgrOp) {m m' : Lru} {log : List Id}
    (hr : runLog (Lru.new limit rlim, []) ops = .ok (m, log)) (hroom : m.files.length < m.limit)
    (accepts : Id → Bool) (newId : Id) (osOk : Bool) {r : OpenResult} (ho : m.open accepts newId osOk = .ok (m', r)) :
    (r = .opened newId ∧ osOk = true ∧ m'.files = m.files ++ [newId]) ∨ (r = .cannotOpen ∧ osOk = false ∧ m' = m) := by
  have hok : Ok m := (ok_run ops (ok_new hl) (runLog_fst ops hr)).1
  have hi := intent_eq hok accepts
  rw [if_pos hroom] at hi
  rcases open_cases hok ho with ⟨m1, h1, ⟨rfl, hos, rfl⟩ | ⟨rfl, hos, -, rfl⟩⟩ | ⟨h1, rfl⟩
  · rw [hi] at h1; simp at h1; exact Or.inr ⟨rfl, hos, h1.symm⟩
  · rw [hi] at h1; simp at h1; subst h1; exact Or.inl ⟨rfl, hos, rfl⟩
  · rw [hi] at h1; simp at h1

/-- **C12** Only the file that was asked to close, used or opened changes its place: the files that remain are listed in the order of
their last use after every history. -/
theorem C12_order {limit rlim : Nat} (hl : 1 ≤ limit ∨ rlim % 2 ^ 32 ≠ 3) (ops : List MgrOp) {m : Lru} {log : List Id}
    (hr : runLog (Lru.new limit rlim, []) ops = .ok (m, log)) :
    m.sorted.Perm m.files ∧ m.sorted.Nodup ∧ m.sorted.Pairwise (fun a b => age log b < age log a) ∧ ∀ id ∈ m.files, id ∈ log := by
  have hA : Aged (m, log) := aged_run ops ⟨ok_new hl, by simp [Lru.new], by simp [Lru.new]⟩ hr
  exact ⟨hA.ok.perm, hA.ok.nodup, hA.order, fun id hid => hA.logged id ((hA.ok.mem id).2 hid)⟩

/-- Files 1 and 2 are open, 1 has been used last; with all owners willing, 2 goes. -/
example : runLog (Lru.new 2 1024, []) [.open (fun _ => true) 1 true, .open (fun _ => true) 2 true, .used 1]
      = .ok ({ limit := 2, files := [1, 2], sorted := [2, 1] }, [1, 2, 1]) ∧
    ({ limit := 2, files := [1, 2], sorted := [2, 1] } : Lru).open (fun _ => true) 3 true
      = .ok ({ limit := 2, files := [1, 3], sorted := [1, 3] }, .opened 3) ∧
    age [1, 2, 1] 1 = 0 ∧ age [1, 2, 1] 2 = 1 := by decide

/-! ## C13: descriptors -/

theorem reach_run {P : World → Op → Prop} {limit : Nat} : ∀ (ops : List Op) {w w' : World}, Reach P limit w →
    (∀ w op, P w op) → w.run ops = .ok w' → Reach P limit w'
  | [], w, w', h, _, hr => by simp [World.run] at hr; subst hr; exact h
  | op :: ops, w, w', h, hP, hr => by
    simp only [World.run] at hr
    cases hs : w.step op with
    | ub => rw [hs] at hr; cases hr
    | throw x => rw [hs] at hr; cases hr
    | ok w1 =>
      rw [hs] at hr
      exact reach_run ops (h.step (hP _ _) hs) hP hr

/-- **C13**, the full statement: at every moment each open file is idle in one handler or belongs to one accessor. -/
def C13_full : Prop := ∀ limit, 1 ≤ limit → ∀ w, Reach (fun _ _ => True) limit w → (w.idle ++ w.inUse).Nodup ∧
  w.mgr.files.Perm (w.idle ++ w.inUse)

/-- **C13** No descriptor is given to two accessors, or to an accessor while it is idle, or is idle twice; and each of them is open. -/
theorem C13_exclusive {limit : Nat} {w : World} (hr : Reach (fun _ _ => True) limit w) :
    (w.idle ++ w.inUse).Nodup ∧ ∀ id ∈ w.idle ++ w.inUse, id ∈ w.mgr.files := by
  obtain ⟨i, -⟩ := inv_reach hr
  constructor
  · rw [List.nodup_iff_count]
    intro x
    have h1 := i.held x
    have h2 := files_count_le i x
    rw [List.count_append]
    omega
  · intro x hx
    have h1 := i.held x
    have h2 : 0 < (w.idle ++ w.inUse).count x := List.count_pos_iff.2 hx
    rw [List.count_append] at h2
    exact List.count_pos_iff.1 (by omega)

/-- **C13** fails: an accessor that writes through another type of stream than the one before drops the idle descriptor without closing
it (`FileHandler.icpp` 55). -/
theorem C13_violated : ¬ C13_full := by
  intro h
  obtain ⟨w, hw, hf, hu⟩ : ∃ w, (World.new 2).run [.getHandler 0, .get 0 0 true false 10 true, .release 0, .get 0 1 true false 11 true]
      = .ok w ∧ w.mgr.files = [10, 11] ∧ w.idle ++ w.inUse = [11] := ⟨_, rfl, rfl, rfl⟩
  have := (h 2 (by omega) w (reach_run _ .init (fun _ _ => trivial) hw)).2
  rw [hf, hu] at this
  have := this.length_eq
  simp at this

/-- **C13**, partial: in histories in which no accessor writes through another type of stream than the idle one, every open file is
idle in exactly one handler or belongs to exactly one accessor. -/
theorem C13_known_partial {limit : Nat} {w : World} (hr : Reach World.sameType limit w) :
    (w.idle ++ w.inUse).Nodup ∧ w.mgr.files.Perm (w.idle ++ w.inUse) := by
  obtain ⟨i, -⟩ := inv_reach hr
  have hl := lost_reach (fun _ _ h => h) hr
  have hp : w.mgr.files.Perm (w.idle ++ w.inUse) := by
    rw [List.perm_iff_count]
    intro x
    have := i.held x
    rw [hl] at this
    rw [List.count_append]
    simpa using this
  exact ⟨hp.nodup_iff.1 i.ok.nodupF, hp⟩

/-- **C13**, in all histories: the open files are the idle ones, those of the accessors, and the dropped ones; a dropped one stays open
whatever happens, and asking its owner to close it is refused or undefined. -/
theorem C13_accounting {limit : Nat} {w : World} (hr : Reach (fun _ _ => True) limit w) :
    w.mgr.files.Perm (w.idle ++ w.inUse ++ w.lost) ∧
    (∀ id ∈ w.lost, ∀ op w', w.step op = .ok w' → id ∈ w'.lost ∧ id ∈ w'.mgr.files) ∧
    (∀ id ∈ w.lost, ∀ h w' c, w.ask (some h) id = .ok (w', c) → c = false ∧ w' = w) := by
  obtain ⟨i, -⟩ := inv_reach hr
  refine ⟨?_, ?_, ?_⟩
  · rw [List.perm_iff_count]
    intro x
    have := i.held x
    rw [List.count_append, List.count_append]
    exact this
  · intro id hid op w' hs
    have h1 : id ∈ w'.lost := (lost_mono i hs).subset hid
    refine ⟨h1, ?_⟩
    have h2 := (inv_step i hs).1.held id
    have h3 : 0 < w'.lost.count id := List.count_pos_iff.2 h1
    exact List.count_pos_iff.1 (by omega)
  · intro id hid h w' c ha
    have h3 : 0 < w.lost.count id := List.count_pos_iff.2 hid
    have h4 := i.held id
    have h5 := files_count_le i id
    unfold World.ask at ha
    simp only at ha
    split at ha
    · cases ha
    · cases e : w.handlers[w.owner id]? with
      | none => rw [e] at ha; cases ha
      | some hd =>
        rw [e] at ha
        simp only at ha
        split at ha
        · cases ha
        · split at ha
          · rename_i hk
            have h6 : 0 < (keys hd.avail).count id := List.count_pos_iff.2 hk
            have := count_keys_le e id
            omega
          · simp at ha
            exact ⟨ha.2, ha.1.symm⟩

/-- Two readers of one file, one of them gone again: one descriptor idle, the other one in use. -/
example : ∃ w, (World.new 2).run [.getHandler 0, .get 0 0 false false 10 true, .get 0 0 false false 11 true, .release 0] = .ok w ∧
    w.mgr.files = [10, 11] ∧ w.idle = [10] ∧ w.inUse = [11] := ⟨_, rfl, rfl, rfl, rfl⟩

/-! ## C14: exclusion -/

/-- No accessor is in the way of a request to handler `h`. -/
def World.freeFor (w : World) (h : Nat) (write : Bool) : Prop := ∀ a ∈ w.accs, a.handler = h → a.write = false ∧ write = false

/-- **C14**, the full statement: a writer is alone with its path, and a request that does not want to wait succeeds exactly if no accessor
is in the way (provided that there is room and the file can be opened). -/
def C14_full : Prop := ∀ limit, 1 ≤ limit → ∀ w, Reach (fun _ _ => True) limit w →
  w.accs.Pairwise (Compatible w) ∧
  ∀ h hd, w.handlers[h]? = some hd → hd.alive = true → w.mgr.files.length < w.mgr.limit →
    ∀ ty write newId, newId ∉ w.mgr.files →
      ((∃ w' id, w.getAccessor h ty write true newId true = .ok (w', .accessor id)) ↔ w.freeFor h write)

/-- **C14** fails: a request that does not want to wait throws if the file is free, because the lock taken by `try_lock()` is locked a
second time (`FileHandler.icpp` 32-36 and 90-94). -/
theorem C14_violated : ¬ C14_full := by
  intro h
  obtain ⟨w, hw, hm, ha, hh⟩ : ∃ w, (World.new 2).run [.getHandler 0] = .ok w ∧ w.mgr.files = [] ∧ w.accs = [] ∧
      w.handlers = [⟨0, true, true, [], ⟨false, 0⟩⟩] := ⟨_, rfl, rfl, rfl, rfl⟩
  have hr : Reach (fun _ _ => True) 2 w := reach_run _ .init (fun _ _ => trivial) hw
  have hl := (C11_handlers (by omega) hr).1
  have h1 := (h 2 (by omega) w hr).2 0 ⟨0, true, true, [], ⟨false, 0⟩⟩ (by rw [hh]; rfl) rfl
    (by rw [hm, hl]; decide) 0 false 10 (by rw [hm]; simp)
  obtain ⟨w', id, h2⟩ := h1.2 (by intro a haa; rw [ha] at haa; cases haa)
  have h3 : w.getAccessor 0 0 false true 10 true = .ok (w, .lockError) := by
    simp [World.getAccessor, World.getRead, hh]
  rw [h3] at h2
  simp at h2

/-- **C14**, a request that does not want to wait never succeeds. -/
theorem C14_try_never (w : World) (h : Nat) (ty : Ty) (write : Bool) (newId : Id) (osOk : Bool) (w' : World) (id : Id) :
    w.getAccessor h ty write true newId osOk ≠ .ok (w', .accessor id) := by
  intro hg
  unfold World.getAccessor World.getWrite World.getRead at hg
  cases e : w.handlers[h]? with
  | none => cases write <;> rw [e] at hg <;> cases hg
  | some hd =>
    rw [e] at hg
    by_cases hal : hd.alive = true
    · cases write with
      | true =>
        simp only [if_true, hal, Bool.not_true, Bool.false_eq_true, if_false, Outcome.ok.injEq, Prod.mk.injEq] at hg
        have := hg.2
        split at this <;> cases this
      | false =>
        simp only [if_true, hal, Bool.not_true, Bool.false_eq_true, if_false, Outcome.ok.injEq, Prod.mk.injEq] at hg
        have := hg.2
        split at this <;> cases this
    · cases write <;> simp [hal] at hg

/-- **C14** fails also if a handler is dropped while an accessor of it is alive: the next handler for the path knows nothing of the first
accessor, and there are two writers. -/
theorem C14_two_writers : ∃ w, Reach (fun _ _ => True) 2 w ∧ ¬ w.accs.Pairwise (Compatible w) := by
  obtain ⟨w, hw, ha, hh⟩ : ∃ w, (World.new 2).run [.getHandler 5, .get 0 0 true false 10 true, .drop 0, .getHandler 5,
      .get 1 0 true false 11 true] = .ok w ∧ w.accs = [⟨0, 10, 0, true⟩, ⟨1, 11, 0, true⟩] ∧
      w.handlers = [⟨5, false, false, [], ⟨true, 0⟩⟩, ⟨5, true, false, [], ⟨true, 0⟩⟩] := ⟨_, rfl, rfl, rfl⟩
  refine ⟨w, reach_run _ .init (fun _ _ => trivial) hw, ?_⟩
  rw [ha]
  intro hp
  rw [List.pairwise_cons] at hp
  have := hp.1 ⟨1, 11, 0, true⟩ (by simp) ⟨5, false, false, [], ⟨true, 0⟩⟩ ⟨5, true, false, [], ⟨true, 0⟩⟩
    (by rw [hh]; rfl) (by rw [hh]; rfl) rfl
  simp at this

/-- **C14**, partial: as long as handlers live as long as their accessors, a writer is alone with its path; requests that wait are held
up exactly by accessors in the way; requests that do not want to wait get a null pointer exactly if an accessor is in the way (what is
missing: they throw otherwise). -/
theorem C14_exclusion_partial {limit : Nat} {w : World} (hr : Reach World.keepsHandlers limit w) :
    w.accs.Pairwise (Compatible w) ∧
    ∀ (h : Nat) (hd : Handler), w.handlers[h]? = some hd → hd.alive = true → ∀ ty write newId osOk,
      ((∃ w', w.getAccessor h ty write true newId osOk = .ok (w', .null)) ↔ ¬ w.freeFor h write) ∧
      ((∃ w', w.getAccessor h ty write false newId osOk = .ok (w', .blocked)) ↔ ¬ w.freeFor h write) := by
  obtain ⟨i, -⟩ := inv_reach hr
  have al := alive_reach (fun _ _ h => h) hr
  constructor
  · rw [List.pairwise_iff_getElem]
    intro j k hj hk hjk ha hb ea eb hp
    have ea' := List.getElem?_eq_getElem hj
    have eb' := List.getElem?_eq_getElem hk
    obtain ⟨p, hp1⟩ := al.accs _ (List.mem_of_getElem? ea')
    obtain ⟨q, hq1⟩ := al.accs _ (List.mem_of_getElem? eb')
    have hpa : p = ha.path := by simp [core, ea] at hp1; exact hp1.1.symm
    have hqb : q = hb.path := by simp [core, eb] at hq1; exact hq1.1.symm
    have hpq : p = q := by rw [hpa, hqb, hp]
    subst hpq
    exact exclusion i hjk ea' eb' (al.unique _ _ p hp1 hq1)
  · intro h hd e hal ty write newId osOk
    have hfree := free_iff i e write
    have hfree' : w.freeFor h write ↔ (hd.mutex.excl = false ∧ (write = true → hd.mutex.shared = 0)) := hfree
    rw [hfree']
    constructor
    · unfold World.getAccessor World.getWrite World.getRead
      rw [e]
      cases write with
      | true =>
        by_cases hx : hd.mutex.excl = false ∧ hd.mutex.shared = 0
        · simp [hal, hx.1, hx.2]
        · have hx' : ¬ (hd.mutex.excl = false ∧ (true = true → hd.mutex.shared = 0)) := by simpa using hx
          refine ⟨fun _ => hx', fun _ => ⟨w, ?_⟩⟩
          have h2 : (!hd.mutex.excl && hd.mutex.shared == 0) = false := by
            rw [Bool.eq_false_iff]
            intro hh
            simp at hh
            exact hx hh
          simp [hal, h2]
      | false =>
        cases hx : hd.mutex.excl <;> simp [hal, hx]
    · constructor
      · rintro ⟨w', hg⟩ hf
        rcases get_spec i hg with ⟨rfl, _⟩ | ⟨_, hd', e', hal', hex, hsh, g, _, _⟩
        · have hcalc : ∀ r, w'.getAccessor h ty write false newId osOk = .ok r →
              (write = true ∧ w'.writeLocked h ty newId osOk = .ok r) ∨ (write = false ∧ w'.readLocked h ty newId osOk = .ok r) := by
            intro r hr'
            unfold World.getAccessor World.getWrite World.getRead at hr'
            rw [e] at hr'
            cases write with
            | true => left; simpa [hal, hf.1, hf.2 rfl] using hr'
            | false => right; simpa [hal, hf.1] using hr'
          rcases hcalc _ hg with ⟨rfl, hc⟩ | ⟨rfl, hc⟩
          · have := (writeLocked_spec i e hal hf.1 (hf.2 rfl) hc).1.accs
            rcases this with ⟨_, _, hx, _⟩ | ⟨hx | hx, _⟩ <;> cases hx
          · have := (readLocked_spec i e hal hf.1 hc).1.accs
            rcases this with ⟨_, _, hx, _⟩ | ⟨hx | hx, _⟩ <;> cases hx
        · rcases g.accs with ⟨_, _, hx, _⟩ | ⟨hx | hx, _⟩ <;> cases hx
      · intro hx
        refine ⟨w, ?_⟩
        unfold World.getAccessor World.getWrite World.getRead
        rw [e]
        cases write with
        | true =>
          have h2 : (!hd.mutex.excl && hd.mutex.shared == 0) = false := by
            rw [Bool.eq_false_iff]
            intro hh
            simp at hh
            exact hx ⟨hh.1, fun _ => hh.2⟩
          simp [hal, h2]
        | false =>
          have h2 : hd.mutex.excl = true := by
            by_contra hh
            exact hx ⟨by simpa using hh, by simp⟩
          simp [hal, h2]

/-- A reader keeps a writer waiting. -/
example : ∃ w, (World.new 2).run [.getHandler 0, .get 0 0 false false 10 true] = .ok w ∧
    w.getAccessor 0 0 true false 11 true = .ok (w, .blocked) := ⟨_, rfl, rfl⟩

/-! ## C73: the limit with several threads -/

/-- **C73**, the full statement: the limit holds also while several threads open files. -/
def C73_full : Prop := ∀ limit n, 1 ≤ limit → ∀ is s, (OpenState.new limit n).run is = some s →
  s.mgr.files.length ≤ limit ∧ s.mgr.used + s.mgr.available = limit

/-- **C73** fails: two threads pass the check before either has registered its file; `getAvailable()` is then 2^32 - 1. -/
theorem C73_violated : ¬ C73_full := by
  intro h
  have := (h 1 2 (by omega) [0, 1, 0, 1, 0, 1] _ rfl).1
  simp [Lru.notifyOpened, Lru.new] at this

example : (OpenState.new 1 2).run [0, 1, 0, 1, 0, 1] = some { mgr := ⟨1, [0, 1], [0, 1]⟩, pcs := [.done, .done] } ∧
    (⟨1, [0, 1], [0, 1]⟩ : Lru).available = 2 ^ 32 - 1 := by decide

/-- **C73**, partial: whatever files the pool has open before, `n` threads that open one more each exceed the limit by at most `n - 1`. -/
theorem C73_excess_partial {limit n : Nat} (hl : 1 ≤ limit) (hn : 1 ≤ n) (m : Lru) (hm : m.limit = limit) (hk : m.files.length ≤ limit) (is : List Nat)
    {s : OpenState} (hr : (⟨m, List.replicate n .start⟩ : OpenState).run is = some s) : s.mgr.files.length ≤ limit - 1 + n := by
  have h0 : OpenInv limit n ⟨m, List.replicate n .start⟩ := by
    refine ⟨hm, by simp, ?_⟩
    simp [OpenState.pending, List.count_replicate]; omega
  have := (openInv_run hl is h0 hr).bound
  omega

/-- A pool of limit 3 with two files; two threads make it four. -/
example : ∃ s, (⟨⟨3, [7, 8], [7, 8]⟩, List.replicate 2 .start⟩ : OpenState).run [0, 1, 0, 1] = some s ∧ s.mgr.files.length = 3 - 1 + 2 ∧
    s.mgr.files.length ≤ 3 - 1 + 2 :=
  ⟨_, rfl, rfl, C73_excess_partial (limit := 3) (n := 2) (by decide) (by decide) ⟨3, [7, 8], [7, 8]⟩ rfl (by decide) [0, 1, 0, 1] rfl⟩

/-! ## C74: a request ends -/

/-- **C74**, the full statement: a request for an accessor is never undefined, in particular never waits for a mutex that the same thread
holds (in histories in which handlers live as long as their accessors and streams do not change type). -/
def C74_full : Prop := ∀ limit, 1 ≤ limit → ∀ w, Reach (fun w op => w.keepsHandlers op ∧ w.sameType op) limit w →
  ∀ h hd, w.handlers[h]? = some hd → hd.alive = true → ∀ ty write tryLock newId osOk,
    w.sameType (.get h ty write tryLock newId osOk) → w.getAccessor h ty write tryLock newId osOk ≠ .ub

/-- **C74** fails: a handler asks for a descriptor with its mutex locked; if the manager is full and asks that same handler to close one,
the callback locks the mutex again (`FileHandler.icpp` 96 and 117, `FileHandler.cpp` 38). Here: limit 1, two readers of one file. -/
theorem C74_violated : ¬ C74_full := by
  intro h
  obtain ⟨w1, h1, e1⟩ : ∃ w1, (World.new 1).step (.getHandler 0) = .ok w1 ∧ w1 = ⟨Lru.new 1 1024, fun _ => 0,
      [⟨0, true, true, [], ⟨false, 0⟩⟩], [], []⟩ := ⟨_, rfl, rfl⟩
  obtain ⟨w2, h2, e2, hub⟩ : ∃ w2, w1.step (.get 0 0 false false 10 true) = .ok w2 ∧
      w2.handlers = [⟨0, true, true, [], ⟨false, 1⟩⟩] ∧ w2.getAccessor 0 0 false false 11 true = .ub := by
    subst e1
    exact ⟨_, rfl, rfl, rfl⟩
  have hr : Reach (fun w op => w.keepsHandlers op ∧ w.sameType op) 1 w2 :=
    (Reach.init.step (op := .getHandler 0) ⟨trivial, trivial⟩ h1).step (op := .get 0 0 false false 10 true) ⟨trivial, trivial⟩ h2
  exact h 1 (by omega) w2 hr 0 _ (by rw [e2]; rfl) rfl 0 false false 11 true trivial hub

/-- **C74**, partial: no request is undefined while there is room, or if no open file belongs to the handler that asks. -/
theorem C74_ends_partial {limit : Nat} {w : World} (hr : Reach (fun w op => w.keepsHandlers op ∧ w.sameType op) limit w)
    {h : Nat} {hd : Handler} (e : w.handlers[h]? = some hd) (hal : hd.alive = true) {ty : Ty} {write tryLock : Bool} {newId : Id}
    {osOk : Bool} (hst : w.sameType (.get h ty write tryLock newId osOk))
    (hcond : w.mgr.files.length < w.mgr.limit ∨ ∀ id ∈ w.mgr.files, w.owner id ≠ h) :
    w.getAccessor h ty write tryLock newId osOk ≠ .ub :=
  get_ne_ub (inv_reach hr).1 (alive_reach (fun _ _ h => h.1) hr) (lost_reach (fun _ _ h => h.2) hr) e hal hst hcond

/-- The manager is full with an idle descriptor of another handler: that one is closed. -/
example : ∃ w, (World.new 1).run [.getHandler 0, .getHandler 1, .get 0 0 false false 10 true, .release 0] = .ok w ∧
    w.mgr.files = [10] ∧ w.owner 10 = 0 ∧
    ∃ w', w.getAccessor 1 0 false false 11 true = .ok (w', .accessor 11) ∧ w'.mgr.files = [11] :=
  ⟨_, rfl, rfl, rfl, _, rfl, rfl⟩

/-! ## C75: one handler for a path -/

/-- **C75**, the full statement: at every moment at most one handler of a path is alive. -/
def C75_full : Prop := ∀ as s, TableState.new.run as = some s → s.live ≤ 1

/-- **C75** fails: the deleter of a handler erases the entry of its path also if that entry belongs to a newer handler. -/
theorem C75_violated : ¬ C75_full := by
  intro h
  have := h [.get, .drop 0, .get, .delete 0, .get] _ rfl
  simp [TableState.live] at this

/-- Runs in which nobody asks for the handler while the deleter of an earlier one is pending. -/
inductive QuietRun : TableState → Prop
  | init : QuietRun TableState.new
  | step {s s' : TableState} {a : TableAction} : QuietRun s → (a = .get → s.quiet) → s.step a = some s' → QuietRun s'

theorem tableInv_quiet {s : TableState} (hr : QuietRun s) : TableInv s := by
  induction hr with
  | init => exact ⟨by simp [TableState.new], by simp [TableState.new]⟩
  | step _ hq hs ih => exact tableInv_step ih hq hs

/-- **C75**, partial: if nobody asks for the handler while the deleter of an earlier one is pending, at most one is alive, and the table
points to it. -/
theorem C75_one_partial {s : TableState} (hr : QuietRun s) : s.live ≤ 1 ∧ ∀ h, s.hs[h]? = some .live → s.entry = some h := by
  have hi := tableInv_quiet hr
  refine ⟨?_, fun h hh => (hi.entry h hh).1⟩
  have hone : ∀ j k : Nat, s.hs[j]? = some .live → s.hs[k]? = some .live → j = k := by
    intro j k hj hk
    have h1 := (hi.entry j hj).1
    have h2 := (hi.entry k hk).1
    rw [h1] at h2
    simpa using h2
  have aux : ∀ l : List HandlerPC, (∀ j k : Nat, l[j]? = some .live → l[k]? = some .live → j = k) → l.count .live ≤ 1 := by
    intro l
    induction l with
    | nil => simp
    | cons c l ih =>
      intro hl
      rw [List.count_cons]
      by_cases hc : c = .live
      · subst hc
        have : l.count .live = 0 := by
          rw [List.count_eq_zero]
          intro hm
          obtain ⟨k, hk⟩ := List.mem_iff_getElem?.1 hm
          have := hl 0 (k + 1) (by simp) (by simpa using hk)
          omega
        simp [this]
      · have := ih (fun j k hj hk => by
          have := hl (j + 1) (k + 1) (by simpa using hj) (by simpa using hk)
          omega)
        simp [hc, this]
  exact aux s.hs hone

/-- **C75** in histories of whole calls: two live handlers of one path are the same. -/
theorem C75_sequential {limit : Nat} {w : World} (hr : Reach World.keepsHandlers limit w) {j k : Nat} {hj hk : Handler}
    (ej : w.handlers[j]? = some hj) (ek : w.handlers[k]? = some hk) (aj : hj.alive = true) (ak : hk.alive = true)
    (hp : hj.path = hk.path) : j = k :=
  (alive_reach (fun _ _ h => h) hr).unique j k hj.path (by simp [core, ej, aj]) (by simp [core, ek, ak, hp])

/-- A handler is dropped, deleted and asked for again. -/
example : TableState.new.run [.get, .drop 0, .delete 0, .get] = some ⟨some 1, [.gone, .live]⟩ := by decide

end Alexandria.FilePool
