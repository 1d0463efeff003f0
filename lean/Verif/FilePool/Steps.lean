import Verif.FilePool.Lemmas

/-! # The calls keep the invariants -/

namespace Alexandria.FilePool

theorem get_spec {w w' : World} (i : Inv w) {h : Nat} {ty : Ty} {write tryLock : Bool} {newId : Id} {osOk : Bool} {r : Result}
    (hg : w.getAccessor h ty write tryLock newId osOk = .ok (w', r)) :
    (w' = w ∧ (r = .null ∨ r = .blocked ∨ r = .lockError)) ∨
    (tryLock = false ∧ ∃ hd, w.handlers[h]? = some hd ∧ hd.alive = true ∧ hd.mutex.excl = false ∧ (write = true → hd.mutex.shared = 0) ∧
      Granted w h write w' r ∧ w.lost <+: w'.lost ∧ (w.sameType (.get h ty write tryLock newId osOk) → w'.lost = w.lost)) := by
  unfold World.getAccessor at hg
  cases write with
  | true =>
    simp only [if_true] at hg
    unfold World.getWrite at hg
    cases e : w.handlers[h]? with
    | none => rw [e] at hg; cases hg
    | some hd =>
      rw [e] at hg
      simp only at hg
      by_cases hal : hd.alive = true
      swap
      · rw [if_pos (by simpa using hal)] at hg; cases hg
      · rw [if_neg (by simp [hal])] at hg
        cases tryLock with
        | true =>
          simp only [if_true, Outcome.ok.injEq, Prod.mk.injEq] at hg
          obtain ⟨rfl, rfl⟩ := hg
          refine Or.inl ⟨rfl, ?_⟩
          split <;> simp
        | false =>
          simp only [Bool.false_eq_true, if_false] at hg
          split at hg
          · simp at hg; obtain ⟨rfl, rfl⟩ := hg; exact Or.inl ⟨rfl, by simp⟩
          · rename_i hfree
            simp at hfree
            have := writeLocked_spec i e hal hfree.1 hfree.2 hg
            exact Or.inr ⟨rfl, hd, rfl, hal, hfree.1, fun _ => hfree.2, this.1, this.2.1, fun hs => this.2.2 (hs hd e)⟩
  | false =>
    simp only [Bool.false_eq_true, if_false] at hg
    unfold World.getRead at hg
    cases e : w.handlers[h]? with
    | none => rw [e] at hg; cases hg
    | some hd =>
      rw [e] at hg
      simp only at hg
      by_cases hal : hd.alive = true
      swap
      · rw [if_pos (by simpa using hal)] at hg; cases hg
      · rw [if_neg (by simp [hal])] at hg
        cases tryLock with
        | true =>
          simp only [if_true, Outcome.ok.injEq, Prod.mk.injEq] at hg
          obtain ⟨rfl, rfl⟩ := hg
          refine Or.inl ⟨rfl, ?_⟩
          split <;> simp
        | false =>
          simp only [Bool.false_eq_true, if_false] at hg
          split at hg
          · simp at hg; obtain ⟨rfl, rfl⟩ := hg; exact Or.inl ⟨rfl, by simp⟩
          · rename_i hfree
            simp at hfree
            have := readLocked_spec i e hal hfree hg
            exact Or.inr ⟨rfl, hd, rfl, hal, hfree, by simp, this.1, by rw [this.2]; exact List.prefix_refl _, fun _ => this.2⟩

theorem countP_eraseIdx (p : Acc → Bool) : ∀ (l : List Acc) (k : Nat) (a : Acc), l[k]? = some a →
    (l.eraseIdx k).countP p + (if p a then 1 else 0) = l.countP p
  | [], k, a, e => by simp at e
  | b :: l, 0, a, e => by
    simp at e; subst e
    simp [List.countP_cons]
  | b :: l, k + 1, a, e => by
    simp at e
    have := countP_eraseIdx p l k a e
    simp [List.countP_cons]; omega

theorem count_eraseIdx_ids : ∀ (l : List Acc) (k : Nat) (a : Acc), l[k]? = some a → ∀ x,
    ((l.eraseIdx k).map (·.id)).count x + (if a.id = x then 1 else 0) = (l.map (·.id)).count x
  | [], k, a, e, x => by simp at e
  | b :: l, 0, a, e, x => by
    simp at e; subst e
    simp [List.count_cons]
  | b :: l, k + 1, a, e, x => by
    simp at e
    have := count_eraseIdx_ids l k a e x
    simp [List.count_cons]; omega

theorem release_spec {w w' : World} (i : Inv w) {k : Nat} (hr : w.release k = .ok w') :
    Inv w' ∧ w'.accs = w.accs.eraseIdx k ∧ w'.lost = w.lost ∧ w'.mgr = w.mgr ∧ (∀ j, core w' j = core w j) := by
  unfold World.release at hr
  cases ea : w.accs[k]? with
  | none => rw [ea] at hr; cases hr
  | some a =>
    rw [ea] at hr
    simp only at hr
    cases e : w.handlers[a.handler]? with
    | none => rw [e] at hr; cases hr
    | some hd =>
      rw [e] at hr
      simp only at hr
      by_cases hal : hd.alive = true
      swap
      · rw [if_pos (by simpa using hal)] at hr; cases hr
      · rw [if_neg (by simp [hal])] at hr
        simp only [Outcome.ok.injEq] at hr
        subst hr
        have ham : a ∈ w.accs := List.mem_of_getElem? ea
        have hcE := countP_eraseIdx (fun b => b.handler == a.handler && b.write) w.accs k a ea
        have hcS := countP_eraseIdx (fun b => b.handler == a.handler && !b.write) w.accs k a ea
        have hE := i.excl _ hd e
        have hS := i.shared _ hd e
        refine ⟨?_, rfl, rfl, rfl, core_set e rfl rfl⟩
        refine inv_update (m' := w.mgr) (lost' := w.lost) i e i.ok ?_ ?_ ?_ i.known ?_ ?_ ?_ ?_ ?_ ?_
        · intro x
          have h1 := count_insert_keys hd.avail (a.id, a.ty) x
          have h2 := count_eraseIdx_ids w.accs k a ea x
          simp only [World.inUse] at *
          omega
        · intro fd hfd
          rw [mem_insertFd] at hfd
          rcases hfd with rfl | hfd
          · exact i.ownAcc a ham
          · exact i.ownIdle _ hd e fd hfd
        · intro b hb
          exact i.ownAcc b (List.mem_of_mem_eraseIdx hb)
        · intro hh; simp only at hh; rw [hal] at hh; cases hh
        · rw [hE] at hcE
          cases hw : a.write with
          | true =>
            cases hx : hd.mutex.excl with
            | true => simp [hw, hx] at hcE ⊢; omega
            | false => simp [hw, hx] at hcE
          | false => simp only [hw, Bool.and_false, Bool.false_eq_true, if_false] at hcE ⊢; omega
        · rw [hS] at hcS
          cases hw : a.write with
          | true => simp only [hw, Bool.not_true, Bool.and_false, Bool.false_eq_true, if_false, if_true] at hcS ⊢; omega
          | false =>
            simp only [hw, Bool.not_false, beq_self_eq_true, Bool.and_self, if_true, Bool.false_eq_true, if_false] at hcS ⊢
            omega
        · intro j hj p
          have := countP_eraseIdx (fun b => b.handler == j && p b.write) w.accs k a ea
          have hj' : (a.handler == j) = false := by simpa using fun hh : a.handler = j => hj hh.symm
          simp only [hj', Bool.false_and, Bool.false_eq_true, if_false] at this
          omega
        · intro hro
          have := i.reading _ hd e hro
          cases a.write <;> simp [this]
        · intro hro
          have h1 := i.writing _ hd e hro
          have hl := (insertFd_perm (a.id, a.ty) hd.avail).length_eq
          simp only [List.length_cons] at hl
          cases hw : a.write with
          | true =>
            rw [hE] at hcE
            cases hx : hd.mutex.excl with
            | true =>
              rw [hx] at h1
              simp only [if_true] at h1
              refine ⟨h1.1, ?_⟩
              have h2 : hd.avail.length = 0 := by have := h1.2; omega
              have h3 : (insertFd (a.id, a.ty) hd.avail).length = 1 := by rw [hl, h2]
              simp [h3]
            | false => simp [hw, hx] at hcE
          | false =>
            rw [hS, h1.1] at hcS
            simp only [hw, Bool.not_false, beq_self_eq_true, Bool.and_self, if_true] at hcS
            omega

theorem drop_spec {w w' : World} (i : Inv w) {h : Nat} (hr : w.dropHandler h = .ok w') :
    Inv w' ∧ w'.accs = w.accs ∧ w'.lost = w.lost ∧ w'.mgr.limit = w.mgr.limit ∧
      (∀ j, core w' j = if j = h then (core w h).map (fun p => (p.1, false)) else core w j) := by
  unfold World.dropHandler at hr
  cases e : w.handlers[h]? with
  | none => rw [e] at hr; cases hr
  | some hd =>
    rw [e] at hr
    simp only at hr
    by_cases hal : hd.alive = true
    swap
    · rw [if_pos (by simpa using hal)] at hr; cases hr
    · rw [if_neg (by simp [hal])] at hr
      obtain ⟨m', h1, h2, h3, h4, h5⟩ := closeIdle_spec i e
      rw [h1] at hr
      simp only [Outcome.bind_ok, Outcome.ok.injEq] at hr
      subst hr
      have hsub := sub_of_count _ h4
      refine ⟨?_, rfl, rfl, h3, ?_⟩
      · refine inv_update (m' := m') (accs' := w.accs) (lost' := w.lost) i e h2 ?_ (by simp) i.ownAcc
          (fun x hx => i.known x (hsub x hx)) (by simp) (i.excl _ hd e) (i.shared _ hd e) (fun _ _ _ => rfl) (i.reading _ hd e) ?_
        · intro x
          have := h4 x
          simp only [keys, List.map_nil, List.count_nil, World.inUse] at this ⊢
          omega
        · intro hr
          have := i.writing _ hd e hr
          refine ⟨this.1, ?_⟩
          have := this.2
          simp only [List.length_nil]
          omega
      · intro j
        have := get_set e { hd with alive := false, avail := [] } j
        simp only [core]
        have h6 : (({ w with mgr := m' } : World).setHandler h { hd with alive := false, avail := [] }).handlers[j]? = _ := this
        rw [h6]
        split
        · rw [e]; rfl
        · rfl

theorem getHandler_spec {w : World} (i : Inv w) (p : Nat) :
    Inv (w.getHandler p).1 ∧ (w.getHandler p).1.accs = w.accs ∧ (w.getHandler p).1.lost = w.lost ∧ (w.getHandler p).1.mgr = w.mgr ∧
      ((w.getHandler p).1 = w ∨ ((∀ (k : Nat) (hd : Handler), w.handlers[k]? = some hd → hd.alive = true → hd.path ≠ p) ∧
        ∀ j, core (w.getHandler p).1 j = if j = w.handlers.length then some (p, true) else core w j)) := by
  unfold World.getHandler
  cases hf : w.handlers.findIdx? (fun hd => hd.alive && hd.path == p) with
  | some k => exact ⟨i, rfl, rfl, rfl, Or.inl rfl⟩
  | none =>
    have hget : ∀ (k : Nat) (hd : Handler), (w.handlers ++ [(⟨p, true, true, [], ⟨false, 0⟩⟩ : Handler)])[k]? = some hd →
        w.handlers[k]? = some hd ∨ (k = w.handlers.length ∧ hd = ⟨p, true, true, [], ⟨false, 0⟩⟩) := by
      intro k hd e
      rcases Nat.lt_trichotomy k w.handlers.length with hk | hk | hk
      · rw [List.getElem?_append_left hk] at e; exact Or.inl e
      · subst hk
        simp at e
        exact Or.inr ⟨rfl, e.symm⟩
      · rw [List.getElem?_append_right (by omega)] at e
        rw [List.getElem?_eq_none (by simp; omega)] at e
        cases e
    have hnoacc : ∀ a ∈ w.accs, a.handler < w.handlers.length := by
      intro a ha
      have := i.known a.id (acc_mem i ha)
      rw [i.ownAcc a ha] at this
      exact this
    have hcnt : ∀ q : Bool → Bool, w.accs.countP (fun a => a.handler == w.handlers.length && q a.write) = 0 := by
      intro q
      rw [List.countP_eq_zero]
      intro a ha
      have := hnoacc a ha
      have : a.handler ≠ w.handlers.length := by omega
      simp [this]
    refine ⟨⟨i.ok, ?_, ?_, i.ownAcc, ?_, ?_, ?_, ?_, ?_, ?_⟩, rfl, rfl, rfl, Or.inr ⟨?_, ?_⟩⟩
    · intro x
      have := i.held x
      simpa [World.idle, World.inUse] using this
    · intro k hd e
      rcases hget k hd e with e' | ⟨rfl, rfl⟩
      · exact i.ownIdle k hd e'
      · simp
    · intro x hx
      have := i.known x hx
      simp only [List.length_append, List.length_singleton]
      show w.owner x < _
      omega
    · intro k hd e
      rcases hget k hd e with e' | ⟨rfl, rfl⟩
      · exact i.dead k hd e'
      · simp
    · intro k hd e
      rcases hget k hd e with e' | ⟨rfl, rfl⟩
      · exact i.excl k hd e'
      · exact hcnt (fun b => b)
    · intro k hd e
      rcases hget k hd e with e' | ⟨rfl, rfl⟩
      · exact i.shared k hd e'
      · exact hcnt (fun b => !b)
    · intro k hd e
      rcases hget k hd e with e' | ⟨rfl, rfl⟩
      · exact i.reading k hd e'
      · simp
    · intro k hd e
      rcases hget k hd e with e' | ⟨rfl, rfl⟩
      · exact i.writing k hd e'
      · simp
    · intro k hd e hal hp
      rw [List.findIdx?_eq_none_iff] at hf
      have := hf hd (List.mem_of_getElem? e)
      simp [hal, hp] at this
    · intro j
      simp only [core]
      split
      · subst j; simp
      · rename_i hj
        rcases Nat.lt_trichotomy j w.handlers.length with hk | hk | hk
        · rw [List.getElem?_append_left hk]
        · exact absurd hk hj
        · rw [List.getElem?_eq_none (by simp; omega), List.getElem?_eq_none (by omega)]

theorem inv_new {limit : Nat} : Inv (World.new limit) := by
  refine ⟨ok_new (Or.inr (by omega)), ?_, ?_, ?_, ?_, ?_, ?_, ?_, ?_, ?_⟩ <;> simp [World.new, World.idle, World.inUse, Lru.new]

theorem inv_step {w w' : World} (i : Inv w) {op : Op} (hs : w.step op = .ok w') : Inv w' ∧ w'.mgr.limit = w.mgr.limit := by
  cases op with
  | getHandler p =>
    simp [World.step] at hs
    subst hs
    exact ⟨(getHandler_spec i p).1, by rw [(getHandler_spec i p).2.2.2.1]⟩
  | get h ty write tryLock newId osOk =>
    simp only [World.step] at hs
    cases hg : w.getAccessor h ty write tryLock newId osOk with
    | ub => rw [hg] at hs; cases hs
    | throw x => rw [hg] at hs; cases hs
    | ok p =>
      obtain ⟨w1, r⟩ := p
      rw [hg] at hs
      simp at hs; subst hs
      rcases get_spec i hg with ⟨rfl, _⟩ | ⟨_, hd, _, _, _, _, g, _, _⟩
      · exact ⟨i, rfl⟩
      · exact ⟨g.inv, g.limit⟩
  | release k =>
    have := release_spec i hs
    exact ⟨this.1, by rw [this.2.2.2.1]⟩
  | drop h =>
    have := drop_spec i hs
    exact ⟨this.1, this.2.2.2.1⟩

theorem inv_reach {P : World → Op → Prop} {limit : Nat} {w : World} (hr : Reach P limit w) :
    Inv w ∧ w.mgr.limit = (Lru.new limit 1024).limit := by
  induction hr with
  | init => exact ⟨inv_new, rfl⟩
  | step _ _ hs ih =>
    obtain ⟨h1, h2⟩ := inv_step ih.1 hs
    exact ⟨h1, h2.trans ih.2⟩

theorem lost_step {w w' : World} (i : Inv w) {op : Op} (hp : w.sameType op) (hs : w.step op = .ok w') : w'.lost = w.lost := by
  cases op with
  | getHandler p =>
    simp [World.step] at hs
    subst hs
    exact (getHandler_spec i p).2.2.1
  | get h ty write tryLock newId osOk =>
    simp only [World.step] at hs
    cases hg : w.getAccessor h ty write tryLock newId osOk with
    | ub => rw [hg] at hs; cases hs
    | throw x => rw [hg] at hs; cases hs
    | ok p =>
      obtain ⟨w1, r⟩ := p
      rw [hg] at hs
      simp at hs; subst hs
      rcases get_spec i hg with ⟨rfl, _⟩ | ⟨_, hd, _, _, _, _, _, _, hl⟩
      · rfl
      · exact hl hp
  | release k => exact (release_spec i hs).2.2.1
  | drop h => exact (drop_spec i hs).2.2.1

theorem lost_reach {P : World → Op → Prop} (hP : ∀ w op, P w op → w.sameType op) {limit : Nat} {w : World} (hr : Reach P limit w) :
    w.lost = [] := by
  induction hr with
  | init => rfl
  | step hr hp hs ih => rw [lost_step (inv_reach hr).1 (hP _ _ hp) hs, ih]

theorem lost_mono {w w' : World} (i : Inv w) {op : Op} (hs : w.step op = .ok w') : w.lost <+: w'.lost := by
  cases op with
  | getHandler p =>
    simp [World.step] at hs
    subst hs
    rw [(getHandler_spec i p).2.2.1]; exact List.prefix_refl _
  | get h ty write tryLock newId osOk =>
    simp only [World.step] at hs
    cases hg : w.getAccessor h ty write tryLock newId osOk with
    | ub => rw [hg] at hs; cases hs
    | throw x => rw [hg] at hs; cases hs
    | ok p =>
      obtain ⟨w1, r⟩ := p
      rw [hg] at hs
      simp at hs; subst hs
      rcases get_spec i hg with ⟨rfl, _⟩ | ⟨_, hd, _, _, _, _, _, hl, _⟩
      · exact List.prefix_refl _
      · exact hl
  | release k => rw [(release_spec i hs).2.2.1]; exact List.prefix_refl _
  | drop h => rw [(drop_spec i hs).2.2.1]; exact List.prefix_refl _

/-! ### Handlers and paths -/

/-- Handlers with accessors are alive, and there is one live handler for a path. -/
structure Alive (w : World) : Prop where
  accs : ∀ a ∈ w.accs, ∃ p, core w a.handler = some (p, true)
  unique : ∀ (j k : Nat) (p : Nat), core w j = some (p, true) → core w k = some (p, true) → j = k

theorem alive_step {w w' : World} (i : Inv w) (al : Alive w) {op : Op} (hp : w.keepsHandlers op) (hs : w.step op = .ok w') :
    Alive w' := by
  cases op with
  | getHandler p =>
    simp [World.step] at hs
    subst hs
    obtain ⟨h1, h2, h3, h4, h5⟩ := getHandler_spec i p
    rcases h5 with h5 | ⟨h5, h6⟩
    · rw [h5]; exact al
    · constructor
      · intro a ha
        rw [h2] at ha
        obtain ⟨q, hq⟩ := al.accs a ha
        refine ⟨q, ?_⟩
        rw [h6]
        have : a.handler ≠ w.handlers.length := by
          intro hh
          rw [hh] at hq
          simp [core] at hq
        rw [if_neg this]; exact hq
      · intro j k q hj hk
        have hno : ∀ k, core w k ≠ some (p, true) := by
          intro k hk
          simp only [core] at hk
          cases e : w.handlers[k]? with
          | none => rw [e] at hk; cases hk
          | some hd =>
            rw [e] at hk
            simp at hk
            exact h5 k hd e hk.2 hk.1
        rw [h6] at hj hk
        split at hj <;> split at hk
        · omega
        · simp at hj; subst hj; exact absurd hk (hno k)
        · simp at hk; subst hk; exact absurd hj (hno j)
        · exact al.unique j k q hj hk
  | get h ty write tryLock newId osOk =>
    simp only [World.step] at hs
    cases hg : w.getAccessor h ty write tryLock newId osOk with
    | ub => rw [hg] at hs; cases hs
    | throw x => rw [hg] at hs; cases hs
    | ok p =>
      obtain ⟨w1, r⟩ := p
      rw [hg] at hs
      simp at hs; subst hs
      rcases get_spec i hg with ⟨rfl, _⟩ | ⟨_, hd, e, hal, _, _, g, _, _⟩
      · exact al
      · refine ⟨?_, ?_⟩
        · intro a ha
          rcases g.accs with ⟨id, ty', _, h1⟩ | ⟨_, h1⟩
          · rw [h1] at ha
            simp only [List.mem_append, List.mem_singleton] at ha
            rcases ha with ha | rfl
            · rw [g.core]; exact al.accs a ha
            · rw [g.core]
              exact ⟨hd.path, by simp [core, e, hal]⟩
          · rw [h1] at ha
            rw [g.core]; exact al.accs a ha
        · intro j k p hj hk
          rw [g.core] at hj hk
          exact al.unique j k p hj hk
  | release k =>
    obtain ⟨h1, h2, h3, h4, h5⟩ := release_spec i hs
    refine ⟨?_, ?_⟩
    · intro a ha
      rw [h2] at ha
      rw [h5]
      exact al.accs a (List.mem_of_mem_eraseIdx ha)
    · intro j k p hj hk
      rw [h5] at hj hk
      exact al.unique j k p hj hk
  | drop h =>
    obtain ⟨h1, h2, h3, h4, h5⟩ := drop_spec i hs
    refine ⟨?_, ?_⟩
    · intro a ha
      rw [h2] at ha
      rw [h5, if_neg (hp a ha)]
      exact al.accs a ha
    · intro j k p hj hk
      rw [h5] at hj hk
      split at hj
      · cases hc : core w h <;> rw [hc] at hj <;> simp at hj
      · split at hk
        · cases hc : core w h <;> rw [hc] at hk <;> simp at hk
        · exact al.unique j k p hj hk

theorem alive_reach {P : World → Op → Prop} (hP : ∀ w op, P w op → w.keepsHandlers op) {limit : Nat} {w : World} (hr : Reach P limit w) :
    Alive w := by
  induction hr with
  | init => exact ⟨by simp [World.new], by simp [World.new, core]⟩
  | step hr hp hs ih => exact alive_step (inv_reach hr).1 ih (hP _ _ hp) hs

/-! ### No undefined behaviour -/

theorem owner_alive {w : World} (i : Inv w) (al : Alive w) (hl : w.lost = []) {id : Id} (hid : id ∈ w.mgr.files) :
    ∃ hd, w.handlers[w.owner id]? = some hd ∧ hd.alive = true := by
  have h1 := i.held id
  have h2 : 0 < w.mgr.files.count id := List.count_pos_iff.2 hid
  rw [hl, List.count_nil] at h1
  by_cases hu : id ∈ w.inUse
  · obtain ⟨a, ha, rfl⟩ := List.mem_map.1 hu
    rw [i.ownAcc a ha]
    obtain ⟨p, hp⟩ := al.accs a ha
    simp only [core] at hp
    cases e : w.handlers[a.handler]? with
    | none => rw [e] at hp; cases hp
    | some hd => rw [e] at hp; simp at hp; exact ⟨hd, rfl, hp.2⟩
  · have h3 : w.inUse.count id = 0 := List.count_eq_zero.2 hu
    have h4 : id ∈ w.idle := List.count_pos_iff.1 (by omega)
    simp only [World.idle, List.mem_flatMap] at h4
    obtain ⟨hd, hm, hi⟩ := h4
    obtain ⟨k, hk⟩ := List.mem_iff_getElem?.1 hm
    obtain ⟨t, ht⟩ := mem_keys.1 hi
    have := i.ownIdle k hd hk _ ht
    simp only at this
    rw [this]
    refine ⟨hd, hk, ?_⟩
    by_contra hal
    have := i.dead k hd hk (by simpa using hal)
    rw [this] at ht
    cases ht

theorem ask_total {w : World} (i : Inv w) (al : Alive w) (hl : w.lost = []) {h : Nat} {id : Id} (hid : id ∈ w.mgr.files)
    (hne : w.owner id ≠ h) : ∃ w' c, w.ask (some h) id = .ok (w', c) := by
  obtain ⟨hd, e, hal⟩ := owner_alive i al hl hid
  unfold World.ask
  simp only [e]
  rw [if_neg (by simpa using fun hh : h = w.owner id => hne hh.symm), if_neg (by simp [hal])]
  split
  · rename_i hk
    have : id ∈ keys hd.avail := hk
    simp [World.closeFd, close_eq i.ok (idle_mem i e this)]
  · exact ⟨_, _, rfl⟩

/-- The condition under which a request of handler `h` can call all closing callbacks. -/
structure Safe (h : Nat) (w : World) : Prop where
  inv : Inv w
  alive : Alive w
  lost : w.lost = []
  other : ∀ id ∈ w.mgr.files, w.owner id ≠ h

theorem safe_frame {h : Nat} {w w' : World} (s : Safe h w) (i : Inv w') (f : Frame h w w') : Safe h w' := by
  refine ⟨i, ⟨?_, ?_⟩, f.lost.trans s.lost, ?_⟩
  · intro a ha
    rw [f.accs] at ha
    have := f.core a.handler
    simp only [core]
    rw [this]
    exact s.alive.accs a ha
  · intro j k p hj hk
    simp only [core] at hj hk
    rw [f.core] at hj hk
    exact s.alive.unique j k p hj hk
  · intro id hid
    rw [f.owner]
    exact s.other id (f.fewer id hid)

theorem askAll_total {h : Nat} : ∀ (l : List Id) {w : World}, Safe h w → (∀ id ∈ l, id ∈ w.mgr.files) →
    ∃ w' c, askAll (World.ask (some h)) l w = .ok (w', c) ∧ Safe h w' ∧
      (c = true → w'.mgr.files.length + 1 = w.mgr.files.length)
  | [], w, s, _ => ⟨w, false, rfl, s, by simp⟩
  | id :: rest, w, s, hl => by
    obtain ⟨w1, c, ha⟩ := ask_total s.inv s.alive s.lost (hl id (by simp)) (s.other id (hl id (by simp)))
    obtain ⟨h1, h2, h3, h4⟩ := ask_spec s.inv ha
    simp only [askAll, ha, Outcome.bind_ok]
    cases c with
    | true =>
      refine ⟨w1, true, rfl, safe_frame s h1 h2, fun _ => ?_⟩
      obtain ⟨hf, hm⟩ := h4 rfl
      rw [hm, without_length hf]
      have := List.length_pos_of_mem hf
      omega
    | false =>
      have := h3 rfl
      subst this
      simp only [Bool.false_eq_true, if_false]
      exact askAll_total rest s (fun i hi => hl i (by simp [hi]))

theorem intentLoop_total {h : Nat} : ∀ (fuel : Nat) {w : World}, Safe h w → w.mgr.files.length < fuel →
    ∃ w' c, intentLoop World.mgr (World.ask (some h)) fuel w = .ok (w', c)
  | 0, w, s, hf => by omega
  | fuel + 1, w, s, hf => by
    simp only [intentLoop]
    split
    · obtain ⟨w', c, h1, h2, h3⟩ := askAll_total w.mgr.sorted s (fun id hid => (s.inv.ok.mem id).1 hid)
      rw [h1]
      simp only [Outcome.bind_ok]
      cases c with
      | true =>
        simp only [if_true]
        exact intentLoop_total fuel h2 (by have := h3 rfl; omega)
      | false => exact ⟨w', false, rfl⟩
    · exact ⟨_, _, rfl⟩

theorem intent_total {h : Nat} {w : World} (s : Safe h w ∨ w.mgr.files.length < w.mgr.limit) :
    ∃ w' c, notifyIntent World.mgr (World.ask (some h)) w = .ok (w', c) := by
  rcases s with s | hlt
  · exact intentLoop_total _ s (by omega)
  · have : ¬ w.mgr.files.length ≥ w.mgr.limit := by omega
    exact ⟨w, true, by simp only [notifyIntent, intentLoop, this, if_false]⟩

theorem take_ne_ub {w : World} (i : Inv w) {h : Nat} {hd : Handler} (e : w.handlers[h]? = some hd) {id : Id} {ty : Ty} {write : Bool}
    (hid : id ∈ keys hd.avail) : w.take h hd id ty write ≠ .ub := by
  have := (i.ok.mem id).2 (idle_mem i e hid)
  simp [World.take, Lru.notifyUsed, this]

theorem openTake_of_intent {w : World} (i : Inv w) {h : Nat} {hd : Handler} (e : w.handlers[h]? = some hd) {ty : Ty} {write : Bool}
    {newId : Id} {osOk : Bool} (hal : hd.alive = true) (hex : hd.mutex.excl = false) (hro : hd.readOnly = !write)
    (hav : write = true → hd.avail = []) (s : ∃ w' c, notifyIntent World.mgr (World.ask (some h)) w = .ok (w', c)) :
    w.openTake h ty write newId osOk ≠ .ub := by
  obtain ⟨w1, c, hi⟩ := s
  obtain ⟨i1, f1, h3⟩ := intent_world i hi
  have e1 : w1.handlers[h]? = some hd := f1.own.trans e
  unfold World.openTake World.open
  rw [hi]
  cases c with
  | false => simp
  | true =>
    cases osOk with
    | false => simp
    | true =>
      simp only [Outcome.bind_ok, Bool.not_true, Bool.false_eq_true, if_false]
      by_cases hn : newId ∈ w1.mgr.files
      · simp [Lru.register, hn]
      · have hreg : w1.mgr.register newId = .ok { w1.mgr with files := w1.mgr.files ++ [newId], sorted := w1.mgr.sorted ++ [newId] } := by
          simp [Lru.register, hn, Lru.notifyOpened]
        rw [hreg]
        simp only [Outcome.bind_ok, e1]
        have i3 := inv_insert (ty := ty) i1 e1 (h3 rfl) hn hal (fun hf => ⟨hav (by rw [hro] at hf; simpa using hf), hex⟩)
        have e3 := get_set (w := w1.registered h newId) e1 { hd with avail := insertFd (newId, ty) hd.avail } h
        rw [if_pos rfl] at e3
        exact take_ne_ub i3 e3 (mem_keys.2 ⟨ty, mem_insertFd.2 (Or.inl rfl)⟩)

theorem openTake_ne_ub {w : World} (i : Inv w) {h : Nat} {hd : Handler} (e : w.handlers[h]? = some hd) {ty : Ty} {write : Bool}
    {newId : Id} {osOk : Bool} (hal : hd.alive = true) (hex : hd.mutex.excl = false) (hro : hd.readOnly = !write)
    (hav : write = true → hd.avail = []) (s : Safe h w ∨ w.mgr.files.length < w.mgr.limit) :
    w.openTake h ty write newId osOk ≠ .ub :=
  openTake_of_intent i e hal hex hro hav (intent_total s)

theorem changeMode_total {w : World} (i : Inv w) {h : Nat} {hd : Handler} (e : w.handlers[h]? = some hd) (ro : Bool) :
    ∃ w', w.changeMode h hd ro = .ok w' := by
  unfold World.changeMode
  split
  · exact ⟨_, rfl⟩
  · obtain ⟨m', h1, -⟩ := closeIdle_spec i e
    rw [h1]
    exact ⟨_, rfl⟩

theorem get_ne_ub {w : World} (i : Inv w) (al : Alive w) (hl : w.lost = []) {h : Nat} {hd : Handler} (e : w.handlers[h]? = some hd)
    (hal : hd.alive = true) {ty : Ty} {write tryLock : Bool} {newId : Id} {osOk : Bool}
    (hst : w.sameType (.get h ty write tryLock newId osOk))
    (hcond : w.mgr.files.length < w.mgr.limit ∨ ∀ id ∈ w.mgr.files, w.owner id ≠ h) :
    w.getAccessor h ty write tryLock newId osOk ≠ .ub := by
  have hsafe : ∀ {w1 : World}, Inv w1 → w1.accs = w.accs → w1.lost = w.lost → w1.owner = w.owner → w1.mgr.limit = w.mgr.limit →
      (∀ k, core w1 k = core w k) → (∀ x ∈ w1.mgr.files, x ∈ w.mgr.files) → w1.mgr.files.length ≤ w.mgr.files.length →
      Safe h w1 ∨ w1.mgr.files.length < w1.mgr.limit := by
    intro w1 i1 ha1 hl1 ho1 hm1 hk1 hs1 hle
    rcases hcond with hc | hc
    · exact Or.inr (by omega)
    · refine Or.inl ⟨i1, ⟨?_, ?_⟩, hl1.trans hl, ?_⟩
      · intro a ha
        rw [ha1] at ha
        rw [hk1]
        exact al.accs a ha
      · intro j k p hj hk
        rw [hk1] at hj hk
        exact al.unique j k p hj hk
      · intro x hx
        rw [ho1]
        exact hc x (hs1 x hx)
  unfold World.getAccessor
  cases write with
  | true =>
    simp only [if_true]
    unfold World.getWrite
    simp only [e]
    rw [if_neg (by simp [hal])]
    cases tryLock with
    | true => simp
    | false =>
      simp only [Bool.false_eq_true, if_false]
      split
      · simp
      · rename_i hfree
        simp at hfree
        unfold World.writeLocked
        simp only [e]
        obtain ⟨w1, hc⟩ := changeMode_total i e false
        rw [hc]
        obtain ⟨i1, ha1, hl1, ho1, hm1, hk1, hs1, hle, hd1, e1, hmu, hro, hal1, hsame, hdiff⟩ :=
          changeMode_spec i e hfree.1 (fun _ => hfree.2) hc
        have hex1 : hd1.mutex.excl = false := by rw [hmu]; exact hfree.1
        simp only [Outcome.bind_ok, e1]
        have hlen := (i1.writing h hd1 e1 hro).2
        rw [if_neg (by omega)]
        rcases hav : hd1.avail with _ | ⟨⟨id, t⟩, rest⟩
        · simp only [e1, hav]
          exact openTake_ne_ub i1 e1 (hal1.trans hal) hex1 (by simpa using hro) (fun _ => hav)
            (hsafe i1 ha1 hl1 ho1 hm1 hk1 hs1 hle)
        · have htt : t = ty := by
            by_cases hr0 : hd.readOnly = false
            · have := hsame hr0
              subst this
              rw [e] at e1
              cases e1
              exact hst hd e hr0 (id, t) (by rw [hav]; simp)
            · have := hdiff hr0
              rw [hav] at this
              cases this
          simp only [htt, if_true, e1, hav]
          exact take_ne_ub i1 e1 (by rw [hav]; simp [keys])
  | false =>
    simp only [Bool.false_eq_true, if_false]
    unfold World.getRead
    simp only [e]
    rw [if_neg (by simp [hal])]
    cases tryLock with
    | true => simp
    | false =>
      simp only [Bool.false_eq_true, if_false]
      split
      · simp
      · rename_i hfree
        simp at hfree
        unfold World.readLocked
        simp only [e]
        obtain ⟨w1, hc⟩ := changeMode_total i e true
        rw [hc]
        obtain ⟨i1, ha1, hl1, ho1, hm1, hk1, hs1, hle, hd1, e1, hmu, hro, hal1, hsame, hdiff⟩ :=
          changeMode_spec i e hfree (by simp) hc
        have hex1 : hd1.mutex.excl = false := by rw [hmu]; exact hfree
        simp only [Outcome.bind_ok, e1]
        cases hf : hd1.avail.find? (·.2 = ty) with
        | some fd =>
          obtain ⟨id, t⟩ := fd
          exact take_ne_ub i1 e1 (mem_keys.2 ⟨t, List.mem_of_find?_eq_some hf⟩)
        | none =>
          exact openTake_ne_ub i1 e1 (hal1.trans hal) hex1 (by simpa using hro) (by simp)
            (hsafe i1 ha1 hl1 ho1 hm1 hk1 hs1 hle)

/-! ### Exclusion -/

theorem countP_two (p : Acc → Bool) : ∀ (l : List Acc) (j k : Nat) (a b : Acc), j < k → l[j]? = some a → l[k]? = some b →
    p a = true → p b = true → 2 ≤ l.countP p
  | [], j, k, a, b, _, e, _, _, _ => by simp at e
  | c :: l, j, 0, a, b, h, _, _, _, _ => by omega
  | c :: l, 0, k + 1, a, b, _, ea, eb, ha, hb => by
    simp at ea eb
    subst ea
    have : 0 < l.countP p := List.countP_pos_iff.2 ⟨b, List.mem_of_getElem? eb, hb⟩
    rw [List.countP_cons, if_pos ha]; omega
  | c :: l, j + 1, k + 1, a, b, h, ea, eb, ha, hb => by
    simp at ea eb
    have := countP_two p l j k a b (by omega) ea eb ha hb
    simp [List.countP_cons]; omega

theorem countP_split (h : Nat) : ∀ l : List Acc, l.countP (fun a => a.handler == h) =
    l.countP (fun a => a.handler == h && a.write) + l.countP (fun a => a.handler == h && !a.write)
  | [] => by simp
  | a :: l => by
    have := countP_split h l
    simp only [List.countP_cons]
    cases a.handler == h <;> cases a.write <;> simp <;> omega

/-- Two accessors of one handler are both for reading. -/
theorem exclusion {w : World} (i : Inv w) {j k : Nat} {a b : Acc} (hjk : j < k) (ea : w.accs[j]? = some a) (eb : w.accs[k]? = some b)
    (hh : a.handler = b.handler) : a.write = false ∧ b.write = false := by
  have ha := List.mem_of_getElem? ea
  have hb := List.mem_of_getElem? eb
  have hl := i.known a.id (acc_mem i ha)
  rw [i.ownAcc a ha] at hl
  obtain ⟨hd, e⟩ : ∃ hd, w.handlers[a.handler]? = some hd := ⟨_, List.getElem?_eq_getElem hl⟩
  have h2 := countP_two (fun x => x.handler == a.handler) w.accs j k a b hjk ea eb (by simp) (by simp [hh])
  rw [countP_split, i.excl _ hd e, i.shared _ hd e] at h2
  have hexcl : hd.mutex.excl = false := by
    by_contra hx
    have hx' : hd.mutex.excl = true := by simpa using hx
    have hro : hd.readOnly = false := by
      by_contra hr
      have := i.reading _ hd e (by simpa using hr)
      rw [hx'] at this
      cases this
    have := (i.writing _ hd e hro).1
    rw [this, hx'] at h2
    simp at h2
  have h3 := i.excl _ hd e
  rw [hexcl] at h3
  simp only [Bool.false_eq_true, if_false, List.countP_eq_zero] at h3
  have h4 := h3 a ha
  have h5 := h3 b hb
  simp [hh] at h4 h5
  exact ⟨h4, h5⟩

/-- The lock of a handler is free for a request exactly if no accessor is in the way. -/
theorem free_iff {w : World} (i : Inv w) {h : Nat} {hd : Handler} (e : w.handlers[h]? = some hd) (write : Bool) :
    (∀ a ∈ w.accs, a.handler = h → a.write = false ∧ write = false) ↔
      (hd.mutex.excl = false ∧ (write = true → hd.mutex.shared = 0)) := by
  have h1 := i.excl _ hd e
  have h2 := i.shared _ hd e
  constructor
  · intro hall
    constructor
    · by_contra hx
      have hx' : hd.mutex.excl = true := by simpa using hx
      rw [hx'] at h1
      simp only [if_true] at h1
      obtain ⟨a, ha, hp⟩ := List.countP_pos_iff.1 (show 0 < w.accs.countP _ by rw [h1]; omega)
      simp at hp
      have := hall a ha hp.1
      rw [hp.2] at this
      cases this.1
    · intro hw
      rw [← h2, List.countP_eq_zero]
      intro a ha hp
      simp at hp
      have := (hall a ha hp.1).2
      rw [hw] at this
      cases this
  · rintro ⟨hx, hs⟩ a ha hh
    rw [hx] at h1
    simp only [Bool.false_eq_true, if_false, List.countP_eq_zero] at h1
    have h3 := h1 a ha
    simp [hh] at h3
    refine ⟨h3, ?_⟩
    by_contra hw
    have hw' : write = true := by simpa using hw
    rw [hs hw', List.countP_eq_zero] at h2
    have := h2 a ha
    simp [hh, h3] at this

end Alexandria.FilePool
