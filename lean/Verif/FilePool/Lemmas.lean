import Verif.FilePool.LruLemmas

/-! # Lemmas on handlers and accessors -/

namespace Alexandria.FilePool

/-- What holds in every state. -/
structure Inv (w : World) : Prop where
  ok : Ok w.mgr
  held : ∀ id, w.mgr.files.count id = w.idle.count id + w.inUse.count id + w.lost.count id
  ownIdle : ∀ (h : Nat) (hd : Handler), w.handlers[h]? = some hd → ∀ fd ∈ hd.avail, w.owner fd.1 = h
  ownAcc : ∀ a ∈ w.accs, w.owner a.id = a.handler
  known : ∀ id ∈ w.mgr.files, w.owner id < w.handlers.length
  dead : ∀ (h : Nat) (hd : Handler), w.handlers[h]? = some hd → hd.alive = false → hd.avail = []
  excl : ∀ (h : Nat) (hd : Handler), w.handlers[h]? = some hd →
    w.accs.countP (fun a => a.handler == h && a.write) = if hd.mutex.excl then 1 else 0
  shared : ∀ (h : Nat) (hd : Handler), w.handlers[h]? = some hd → w.accs.countP (fun a => a.handler == h && !a.write) = hd.mutex.shared
  reading : ∀ (h : Nat) (hd : Handler), w.handlers[h]? = some hd → hd.readOnly = true → hd.mutex.excl = false
  writing : ∀ (h : Nat) (hd : Handler), w.handlers[h]? = some hd → hd.readOnly = false →
    hd.mutex.shared = 0 ∧ hd.avail.length + (if hd.mutex.excl then 1 else 0) ≤ 1

def keys (l : List (Id × Ty)) : List Id := l.map (·.1)

/-- What no callback changes: everything but the idle descriptors of handlers other than `h`. -/
structure Frame (h : Nat) (w w' : World) : Prop where
  accs : w'.accs = w.accs
  lost : w'.lost = w.lost
  owner : w'.owner = w.owner
  limit : w'.mgr.limit = w.mgr.limit
  own : w'.handlers[h]? = w.handlers[h]?
  core : ∀ k : Nat, (w'.handlers[k]?).map (fun hd : Handler => (hd.path, hd.alive)) = (w.handlers[k]?).map (fun hd : Handler => (hd.path, hd.alive))
  fewer : ∀ id, id ∈ w'.mgr.files → id ∈ w.mgr.files

theorem Frame.refl (h : Nat) (w : World) : Frame h w w := ⟨rfl, rfl, rfl, rfl, rfl, fun _ => rfl, fun _ hi => hi⟩

theorem Frame.trans {h : Nat} {a b c : World} (x : Frame h a b) (y : Frame h b c) : Frame h a c :=
  ⟨y.accs.trans x.accs, y.lost.trans x.lost, y.owner.trans x.owner, y.limit.trans x.limit, y.own.trans x.own,
   fun k => (y.core k).trans (x.core k), fun i hi => x.fewer i (y.fewer i hi)⟩

theorem flatMap_set_count (f : Handler → List Id) (x : Id) : ∀ (l : List Handler) (h : Nat) (a b : Handler), l[h]? = some a →
    ((l.set h b).flatMap f).count x + (f a).count x = (l.flatMap f).count x + (f b).count x
  | [], h, a, b, e => by simp at e
  | c :: l, 0, a, b, e => by
    simp at e; subst e
    simp [List.count_append]; omega
  | c :: l, h + 1, a, b, e => by
    simp at e
    have := flatMap_set_count f x l h a b e
    simp [List.count_append]; omega

theorem idle_set {w : World} {h : Nat} {hd : Handler} (e : w.handlers[h]? = some hd) (hd' : Handler) (x : Id) :
    (w.setHandler h hd').idle.count x + (keys hd.avail).count x = w.idle.count x + (keys hd'.avail).count x :=
  flatMap_set_count _ x w.handlers h hd hd' e

theorem get_set {w : World} {h : Nat} {hd : Handler} (e : w.handlers[h]? = some hd) (hd' : Handler) (k : Nat) :
    (w.setHandler h hd').handlers[k]? = if k = h then some hd' else w.handlers[k]? := by
  obtain ⟨hl, -⟩ := List.getElem?_eq_some_iff.1 e
  simp only [World.setHandler, List.getElem?_set]
  by_cases hk : h = k
  · subst hk; simp [hl]
  · simp [hk, Ne.symm hk]

theorem count_keys_le {w : World} {h : Nat} {hd : Handler} (e : w.handlers[h]? = some hd) (x : Id) :
    (keys hd.avail).count x ≤ w.idle.count x := by
  have h1 := idle_set e { hd with avail := [] } x
  simp only [keys, List.map_nil, List.count_nil] at h1 ⊢
  omega

theorem mem_keys {l : List (Id × Ty)} {id : Id} : id ∈ keys l ↔ ∃ t, (id, t) ∈ l := by
  simp [keys]

theorem idle_mem {w : World} (i : Inv w) {h : Nat} {hd : Handler} (e : w.handlers[h]? = some hd) {id : Id} (hid : id ∈ keys hd.avail) :
    id ∈ w.mgr.files := by
  have h1 := count_keys_le e id
  have h2 : 0 < (keys hd.avail).count id := List.count_pos_iff.2 hid
  have h3 := i.held id
  exact List.count_pos_iff.1 (by omega)

theorem acc_mem {w : World} (i : Inv w) {a : Acc} (ha : a ∈ w.accs) : a.id ∈ w.mgr.files := by
  have h2 : 0 < w.inUse.count a.id := List.count_pos_iff.2 (List.mem_map.2 ⟨a, ha, rfl⟩)
  have h3 := i.held a.id
  exact List.count_pos_iff.1 (by omega)

theorem files_count_le {w : World} (i : Inv w) (x : Id) : w.mgr.files.count x ≤ 1 := List.nodup_iff_count.1 i.ok.nodupF x

theorem count_filter_keys (l : List (Id × Ty)) (id x : Id) :
    (keys (l.filter (·.1 ≠ id))).count x = if x = id then 0 else (keys l).count x := by
  induction l with
  | nil => simp [keys]
  | cons a l ih =>
    simp only [keys] at ih ⊢
    by_cases ha : a.1 = id
    · simp only [List.filter_cons, ha, ne_eq, not_true_eq_false, decide_false, Bool.false_eq_true, if_false, List.map_cons,
        List.count_cons]
      rw [ih]
      by_cases hx : x = id
      · simp [hx]
      · have hx' : ¬ id = x := fun hh => hx hh.symm
        simp [hx, hx']
    · simp only [List.filter_cons, ha, ne_eq, not_false_eq_true, decide_true, if_true, List.map_cons, List.count_cons]
      rw [ih]
      by_cases hx : x = id
      · subst hx; simp [ha]
      · simp [hx]

theorem insertFd_perm (fd : Id × Ty) : ∀ l, (insertFd fd l).Perm (fd :: l)
  | [] => by simp [insertFd]
  | x :: xs => by
    simp only [insertFd]
    split
    · exact List.Perm.refl _
    · exact ((insertFd_perm fd xs).cons x).trans (List.Perm.swap _ _ _)

theorem count_insert_keys (l : List (Id × Ty)) (fd : Id × Ty) (x : Id) :
    (keys (insertFd fd l)).count x = (keys l).count x + if fd.1 = x then 1 else 0 := by
  have := ((insertFd_perm fd l).map (·.1)).count_eq x
  simp only [keys]
  rw [this]
  simp [List.count_cons]

theorem mem_insertFd {l : List (Id × Ty)} {fd y : Id × Ty} : y ∈ insertFd fd l ↔ y = fd ∨ y ∈ l := by
  rw [(insertFd_perm fd l).mem_iff, List.mem_cons]

theorem count_without (m : Lru) (id x : Id) :
    (m.without id).files.count x = m.files.count x - if x = id then 1 else 0 := by
  simp only [Lru.without, List.count_erase]
  by_cases hx : x = id
  · subst hx; simp
  · have hx' : ¬ id = x := fun hh => hx hh.symm
    simp [hx, hx']

/-! ### Changing one handler -/

/-- Replacing a handler, the manager, the accessors and the list of lost descriptors at once: what has to be checked. -/
theorem inv_update {w : World} (i : Inv w) {h : Nat} {hd : Handler} (e : w.handlers[h]? = some hd) {hd' : Handler} {m' : Lru}
    {accs' : List Acc} {lost' : List Id}
    (hok : Ok m')
    (hheld : ∀ x, m'.files.count x + (keys hd.avail).count x + w.inUse.count x + w.lost.count x
        = w.mgr.files.count x + (keys hd'.avail).count x + (accs'.map (·.id)).count x + lost'.count x)
    (hown : ∀ fd ∈ hd'.avail, w.owner fd.1 = h)
    (hownA : ∀ a ∈ accs', w.owner a.id = a.handler)
    (hknown : ∀ x ∈ m'.files, w.owner x < w.handlers.length)
    (hdead : hd'.alive = false → hd'.avail = [])
    (hexcl : accs'.countP (fun a => a.handler == h && a.write) = if hd'.mutex.excl then 1 else 0)
    (hshared : accs'.countP (fun a => a.handler == h && !a.write) = hd'.mutex.shared)
    (hother : ∀ k, k ≠ h → ∀ p : Bool → Bool, accs'.countP (fun a => a.handler == k && p a.write)
        = w.accs.countP (fun a => a.handler == k && p a.write))
    (hreading : hd'.readOnly = true → hd'.mutex.excl = false)
    (hwriting : hd'.readOnly = false → hd'.mutex.shared = 0 ∧ hd'.avail.length + (if hd'.mutex.excl then 1 else 0) ≤ 1) :
    Inv { w.setHandler h hd' with mgr := m', accs := accs', lost := lost' } := by
  have hget : ∀ (k : Nat) (hk : Handler), ({ w.setHandler h hd' with mgr := m', accs := accs', lost := lost' } : World).handlers[k]? = some hk →
      (k = h ∧ hk = hd') ∨ (k ≠ h ∧ w.handlers[k]? = some hk) := by
    intro k hk ek
    have : (w.setHandler h hd').handlers[k]? = some hk := ek
    rw [get_set e] at this
    split at this
    · exact Or.inl ⟨‹_›, by simpa using this.symm⟩
    · exact Or.inr ⟨‹_›, this⟩
  refine ⟨hok, ?_, ?_, hownA, ?_, ?_, ?_, ?_, ?_, ?_⟩
  · intro x
    have h1 := idle_set e hd' x
    have h2 := hheld x
    have h3 := i.held x
    show m'.files.count x = (w.setHandler h hd').idle.count x + (accs'.map (·.id)).count x + lost'.count x
    omega
  · intro k hk ek fd hfd
    rcases hget k hk ek with ⟨rfl, rfl⟩ | ⟨_, ek'⟩
    · exact hown fd hfd
    · exact i.ownIdle k hk ek' fd hfd
  · intro x hx
    have := hknown x hx
    simpa [World.setHandler] using this
  · intro k hk ek
    rcases hget k hk ek with ⟨rfl, rfl⟩ | ⟨_, ek'⟩
    · exact hdead
    · exact i.dead k hk ek'
  · intro k hk ek
    rcases hget k hk ek with ⟨rfl, rfl⟩ | ⟨hne, ek'⟩
    · exact hexcl
    · rw [← i.excl k hk ek']
      exact hother k hne (fun b => b)
  · intro k hk ek
    rcases hget k hk ek with ⟨rfl, rfl⟩ | ⟨hne, ek'⟩
    · exact hshared
    · rw [← i.shared k hk ek']
      exact hother k hne (fun b => !b)
  · intro k hk ek
    rcases hget k hk ek with ⟨rfl, rfl⟩ | ⟨hne, ek'⟩
    · exact hreading
    · exact i.reading k hk ek'
  · intro k hk ek
    rcases hget k hk ek with ⟨rfl, rfl⟩ | ⟨hne, ek'⟩
    · exact hwriting
    · exact i.writing k hk ek'

/-! ### Closing descriptors -/

/-- Closing several descriptors. -/
theorem closeFds_spec : ∀ (ids : List Id) {w : World}, Ok w.mgr → ids.Nodup → (∀ x ∈ ids, x ∈ w.mgr.files) →
    ∃ m', w.closeFds ids = .ok { w with mgr := m' } ∧ Ok m' ∧ m'.limit = w.mgr.limit ∧
      (∀ x, m'.files.count x + ids.count x = w.mgr.files.count x) ∧ m'.files.length + ids.length = w.mgr.files.length
  | [], w, h, _, _ => ⟨w.mgr, rfl, h, rfl, by simp, by simp⟩
  | id :: ids, w, h, hn, hm => by
    have hid := hm id (by simp)
    rw [List.nodup_cons] at hn
    obtain ⟨m', h1, h2, h3, h4, h5⟩ := closeFds_spec ids (w := { w with mgr := w.mgr.without id }) (ok_without h id) hn.2 (by
      intro x hx
      show x ∈ w.mgr.files.erase id
      rw [h.nodupF.mem_erase_iff]
      exact ⟨by rintro rfl; exact hn.1 hx, hm x (by simp [hx])⟩)
    refine ⟨m', ?_, h2, h3, ?_, ?_⟩
    · simp only [World.closeFds, World.closeFd, close_eq h hid, Outcome.bind_ok]
      exact h1
    · intro x
      have := h4 x
      have h6 := count_without w.mgr id x
      have h7 : 0 < w.mgr.files.count id := List.count_pos_iff.2 hid
      rw [List.count_cons]
      simp only [h6] at this
      by_cases hx : x = id
      · subst hx; simp at this ⊢; omega
      · have hx' : ¬ id = x := fun hh => hx hh.symm
        simp [hx, hx'] at this ⊢; omega
    · have h6 := without_length hid
      have h7 : 0 < w.mgr.files.length := List.length_pos_of_mem hid
      simp only [h6] at h5
      simp only [List.length_cons]
      omega

theorem keys_nodup {w : World} (i : Inv w) {h : Nat} {hd : Handler} (e : w.handlers[h]? = some hd) : (keys hd.avail).Nodup := by
  rw [List.nodup_iff_count]
  intro x
  have h1 := count_keys_le e x
  have h2 := files_count_le i x
  have h3 := i.held x
  omega

/-- Closing all idle descriptors of a handler. -/
theorem closeIdle_spec {w : World} (i : Inv w) {h : Nat} {hd : Handler} (e : w.handlers[h]? = some hd) :
    ∃ m', w.closeFds (hd.avail.map (·.1)) = .ok { w with mgr := m' } ∧ Ok m' ∧ m'.limit = w.mgr.limit ∧
      (∀ x, m'.files.count x + (keys hd.avail).count x = w.mgr.files.count x) ∧
      m'.files.length + hd.avail.length = w.mgr.files.length := by
  obtain ⟨m', h1, h2, h3, h4, h5⟩ := closeFds_spec (keys hd.avail) i.ok (keys_nodup i e) (fun x hx => idle_mem i e hx)
  exact ⟨m', h1, h2, h3, h4, by simpa [keys] using h5⟩

theorem sub_of_count {a b : List Id} (c : List Id) (h : ∀ x, a.count x + c.count x = b.count x) : ∀ x ∈ a, x ∈ b := by
  intro x hx
  have h1 : 0 < a.count x := List.count_pos_iff.2 hx
  exact List.count_pos_iff.1 (by have := h x; omega)

/-! ### Callbacks -/

theorem ask_spec {w w' : World} (i : Inv w) {h : Nat} {id : Id} {c : Bool} (ha : w.ask (some h) id = .ok (w', c)) :
    Inv w' ∧ Frame h w w' ∧ (c = false → w' = w) ∧ (c = true → id ∈ w.mgr.files ∧ w'.mgr = w.mgr.without id) := by
  unfold World.ask at ha
  simp only at ha
  split at ha
  · cases ha
  · rename_i hne
    cases e : w.handlers[w.owner id]? with
    | none => rw [e] at ha; cases ha
    | some hd =>
      rw [e] at ha
      simp only at ha
      by_cases hal : hd.alive = true
      swap
      · rw [if_pos (by simpa using hal)] at ha; cases ha
      · rw [if_neg (by simp [hal])] at ha
        by_cases hid : id ∈ keys hd.avail
        · have hf := idle_mem i e hid
          have hid' : id ∈ List.map (fun x => x.1) hd.avail := hid
          rw [if_pos hid'] at ha
          simp only [World.closeFd, close_eq i.ok hf, Outcome.bind_ok, Outcome.ok.injEq, Prod.mk.injEq] at ha
          obtain ⟨rfl, rfl⟩ := ha
          have hne' : h ≠ w.owner id := fun hh => hne (by rw [hh])
          refine ⟨?_, ?_, by simp, fun _ => ⟨hf, rfl⟩⟩
          · refine inv_update (accs' := w.accs) (lost' := w.lost) (m' := w.mgr.without id) i e (ok_without i.ok id) ?_ ?_ i.ownAcc ?_ ?_
              (i.excl _ hd e) (i.shared _ hd e) (fun _ _ _ => rfl) (i.reading _ hd e) ?_
            · intro x
              have h1 := count_filter_keys hd.avail id x
              have h2 := count_without w.mgr id x
              have h3 := files_count_le i x
              have h4 := count_keys_le e x
              have h5 := i.held x
              simp only [World.inUse] at *
              by_cases hx : x = id
              · subst hx
                have h6 : 0 < (keys hd.avail).count x := List.count_pos_iff.2 hid
                have h7 : 0 < w.mgr.files.count x := List.count_pos_iff.2 hf
                rw [if_pos rfl] at h1 h2
                omega
              · rw [if_neg hx] at h1 h2
                omega
            · intro fd hfd
              exact i.ownIdle _ hd e fd (List.mem_filter.1 hfd).1
            · intro x hx
              exact i.known x (List.mem_of_mem_erase hx)
            · intro hh; rw [hal] at hh; cases hh
            · intro hro
              have h1 := i.writing _ hd e hro
              refine ⟨h1.1, ?_⟩
              have h2 := List.length_filter_le (fun x : Id × Ty => decide (x.1 ≠ id)) hd.avail
              have h3 := h1.2
              simp only at h2 ⊢
              omega
          · refine ⟨rfl, rfl, rfl, rfl, ?_, ?_, fun x hx => List.mem_of_mem_erase hx⟩
            · have := get_set e { hd with avail := hd.avail.filter (·.1 ≠ id) } h
              rw [if_neg hne'] at this
              exact this
            · intro k
              have := get_set e { hd with avail := hd.avail.filter (·.1 ≠ id) } k
              have h2 : (({ w with mgr := w.mgr.without id } : World).setHandler (w.owner id)
                  { hd with avail := hd.avail.filter (·.1 ≠ id) }).handlers[k]? = _ := this
              rw [h2]
              split
              · subst k; rw [e]; rfl
              · rfl
        · have hid' : id ∉ List.map (fun x => x.1) hd.avail := hid
          rw [if_neg hid'] at ha
          simp only [Outcome.ok.injEq, Prod.mk.injEq] at ha
          obtain ⟨rfl, rfl⟩ := ha
          exact ⟨i, Frame.refl h w, fun _ => rfl, by simp⟩

theorem askAll_ind {σ : Type} {ask : σ → Id → Run (σ × Bool)} (P : σ → Prop)
    (hstep : ∀ s id s' c, P s → ask s id = .ok (s', c) → P s') : ∀ (l : List Id) {s s' : σ} {c : Bool}, P s →
      askAll ask l s = .ok (s', c) → P s'
  | [], s, s', c, h, ha => by
    simp [askAll] at ha; obtain ⟨rfl, _⟩ := ha; exact h
  | id :: rest, s, s', c, h, ha => by
    simp only [askAll] at ha
    cases e : ask s id with
    | ub => rw [e] at ha; cases ha
    | throw x => rw [e] at ha; cases ha
    | ok p =>
      obtain ⟨s1, c1⟩ := p
      rw [e] at ha
      have h1 := hstep s id s1 c1 h e
      simp only [Outcome.bind_ok] at ha
      split at ha
      · simp at ha; obtain ⟨rfl, _⟩ := ha; exact h1
      · exact askAll_ind P hstep rest h1 ha

theorem intentLoop_ind {σ : Type} {mgr : σ → Lru} {ask : σ → Id → Run (σ × Bool)} (P : σ → Prop)
    (hstep : ∀ s id s' c, P s → ask s id = .ok (s', c) → P s') : ∀ (fuel : Nat) {s s' : σ} {c : Bool}, P s →
      intentLoop mgr ask fuel s = .ok (s', c) → P s' ∧ (c = true → (mgr s').files.length < (mgr s').limit)
  | 0, s, s', c, h, ha => by simp [intentLoop] at ha
  | fuel + 1, s, s', c, h, ha => by
    simp only [intentLoop] at ha
    split at ha
    · cases e : askAll ask (mgr s).sorted s with
      | ub => rw [e] at ha; cases ha
      | throw x => rw [e] at ha; cases ha
      | ok p =>
        obtain ⟨s1, c1⟩ := p
        rw [e] at ha
        have h1 := askAll_ind P hstep _ h e
        simp only [Outcome.bind_ok] at ha
        split at ha
        · exact intentLoop_ind P hstep fuel h1 ha
        · simp at ha; obtain ⟨rfl, rfl⟩ := ha; exact ⟨h1, by simp⟩
    · simp at ha; obtain ⟨rfl, rfl⟩ := ha
      refine ⟨h, fun _ => by omega⟩

theorem intent_world {w w' : World} (i : Inv w) {h : Nat} {c : Bool}
    (hi : notifyIntent World.mgr (World.ask (some h)) w = .ok (w', c)) :
    Inv w' ∧ Frame h w w' ∧ (c = true → w'.mgr.files.length < w'.mgr.limit) := by
  have := intentLoop_ind (mgr := World.mgr) (fun s => Inv s ∧ Frame h w s) (by
    intro s id s' c hs ha
    obtain ⟨h1, h2, -, -⟩ := ask_spec hs.1 ha
    exact ⟨h1, hs.2.trans h2⟩) _ ⟨i, Frame.refl h w⟩ hi
  exact ⟨this.1.1, this.1.2, this.2⟩

/-! ### Requests -/

def core (w : World) (k : Nat) : Option (Nat × Bool) := (w.handlers[k]?).map (fun hd : Handler => (hd.path, hd.alive))

theorem core_set {w : World} {h : Nat} {hd : Handler} (e : w.handlers[h]? = some hd) {hd' : Handler} (hp : hd'.path = hd.path)
    (ha : hd'.alive = hd.alive) (k : Nat) : core (w.setHandler h hd') k = core w k := by
  simp only [core, get_set e]
  split
  · subst k; rw [e]; simp [hp, ha]
  · rfl

theorem inv_lost {w : World} (i : Inv w) {h : Nat} {hd : Handler} (e : w.handlers[h]? = some hd) {id : Id} {ty : Ty}
    (hav : hd.avail = [(id, ty)]) :
    Inv { w.setHandler h { hd with avail := [] } with lost := w.lost ++ [id] } := by
  refine inv_update (m' := w.mgr) (accs' := w.accs) i e i.ok ?_ (by simp) i.ownAcc i.known (by simp) (i.excl _ hd e) (i.shared _ hd e)
    (fun _ _ _ => rfl) (i.reading _ hd e) ?_
  · intro x
    simp only [keys, hav, List.map_cons, List.map_nil, List.count_nil, List.count_append, World.inUse]
    omega
  · intro hro
    have := i.writing _ hd e hro
    refine ⟨this.1, ?_⟩
    have := this.2
    simp only [List.length_nil]
    omega

theorem changeMode_spec {w w' : World} (i : Inv w) {h : Nat} {hd : Handler} (e : w.handlers[h]? = some hd) {ro : Bool}
    (hex : hd.mutex.excl = false) (hsh : ro = false → hd.mutex.shared = 0) (hc : w.changeMode h hd ro = .ok w') :
    Inv w' ∧ w'.accs = w.accs ∧ w'.lost = w.lost ∧ w'.owner = w.owner ∧ w'.mgr.limit = w.mgr.limit ∧ (∀ k, core w' k = core w k) ∧
      (∀ x ∈ w'.mgr.files, x ∈ w.mgr.files) ∧ w'.mgr.files.length ≤ w.mgr.files.length ∧
      ∃ hd', w'.handlers[h]? = some hd' ∧ hd'.mutex = hd.mutex ∧ hd'.readOnly = ro ∧ hd'.alive = hd.alive ∧
        (hd.readOnly = ro → w' = w) ∧ (hd.readOnly ≠ ro → hd'.avail = []) := by
  unfold World.changeMode at hc
  by_cases hro : hd.readOnly = ro
  · rw [if_pos hro] at hc
    simp at hc; subst hc
    exact ⟨i, rfl, rfl, rfl, rfl, fun _ => rfl, fun _ hx => hx, Nat.le_refl _, hd, e, rfl, hro, rfl, fun _ => rfl, fun hh => absurd hro hh⟩
  · rw [if_neg hro] at hc
    obtain ⟨m', h1, h2, h3, h4, h5⟩ := closeIdle_spec i e
    rw [h1] at hc
    simp only [Outcome.bind_ok, Outcome.ok.injEq] at hc
    subst hc
    have hsub := sub_of_count _ h4
    refine ⟨?_, rfl, rfl, rfl, h3, core_set e rfl rfl, hsub, ?_, { hd with avail := [], readOnly := ro }, ?_, rfl, rfl, rfl,
      fun hh => absurd hh hro, fun _ => rfl⟩
    · refine inv_update (m' := m') (accs' := w.accs) (lost' := w.lost) i e h2 ?_ (by simp) i.ownAcc
        (fun x hx => i.known x (hsub x hx)) (by simp) (i.excl _ hd e) (i.shared _ hd e) (fun _ _ _ => rfl) (fun _ => hex) ?_
      · intro x
        have := h4 x
        simp only [keys, List.map_nil, List.count_nil, World.inUse] at this ⊢
        omega
      · intro hr
        simp only at hr
        refine ⟨hsh hr, ?_⟩
        simp [hex]
    · show m'.files.length ≤ _
      omega
    · have := get_set e { hd with avail := [], readOnly := ro } h
      rw [if_pos rfl] at this
      exact this

theorem inv_owner {w : World} (i : Inv w) {id : Id} {h : Nat} (hid : id ∉ w.mgr.files) :
    Inv { w with owner := fun k => if k = id then h else w.owner k } := by
  refine ⟨i.ok, i.held, ?_, ?_, ?_, i.dead, i.excl, i.shared, i.reading, i.writing⟩
  · intro k hk ek fd hfd
    have : fd.1 ≠ id := by
      rintro rfl
      exact hid (idle_mem i ek (mem_keys.2 ⟨fd.2, hfd⟩))
    simp only [this, if_false]
    exact i.ownIdle k hk ek fd hfd
  · intro a ha
    have : a.id ≠ id := by
      rintro rfl
      exact hid (acc_mem i ha)
    simp only [this, if_false]
    exact i.ownAcc a ha
  · intro x hx
    have : x ≠ id := by rintro rfl; exact hid hx
    simp only [this, if_false]
    exact i.known x hx

/-- The state with file `newId` of handler `h` registered. -/
def World.registered (w : World) (h : Nat) (newId : Id) : World :=
  { w with mgr := { w.mgr with files := w.mgr.files ++ [newId], sorted := w.mgr.sorted ++ [newId] },
           owner := fun k => if k = newId then h else w.owner k }

theorem open_spec {w w' : World} (i : Inv w) {h : Nat} {newId : Id} {osOk : Bool} {r : OpenResult}
    (ho : w.open h newId osOk = .ok (w', r)) :
    (Inv w' ∧ Frame h w w' ∧ (r = .limitReached ∨ r = .cannotOpen)) ∨
    (r = .opened newId ∧ ∃ w1, Inv w1 ∧ Frame h w w1 ∧ w1.mgr.files.length < w1.mgr.limit ∧ newId ∉ w1.mgr.files ∧
      w' = w1.registered h newId) := by
  unfold World.open at ho
  cases hi : notifyIntent World.mgr (World.ask (some h)) w with
  | ub => rw [hi] at ho; cases ho
  | throw e => rw [hi] at ho; cases ho
  | ok p =>
    obtain ⟨w1, room⟩ := p
    rw [hi] at ho
    obtain ⟨h1, h2, h3⟩ := intent_world i hi
    cases room with
    | false => simp at ho; obtain ⟨rfl, rfl⟩ := ho; exact Or.inl ⟨h1, h2, Or.inl rfl⟩
    | true =>
      cases osOk with
      | false => simp at ho; obtain ⟨rfl, rfl⟩ := ho; exact Or.inl ⟨h1, h2, Or.inr rfl⟩
      | true =>
        simp only [Outcome.bind_ok, Bool.not_true, Bool.false_eq_true, if_false] at ho
        cases hr : w1.mgr.register newId with
        | ub => rw [hr] at ho; cases ho
        | throw e => rw [hr] at ho; cases ho
        | ok m2 =>
          rw [hr] at ho
          simp only [Outcome.bind_ok, Outcome.ok.injEq, Prod.mk.injEq] at ho
          obtain ⟨rfl, rfl⟩ := ho
          obtain ⟨hn, rfl⟩ := register_ok hr
          exact Or.inr ⟨rfl, w1, h1, h2, h3 rfl, hn, rfl⟩

/-- A new descriptor is put among the idle ones. -/
theorem inv_insert {w : World} (i : Inv w) {h : Nat} {hd : Handler} (e : w.handlers[h]? = some hd) {newId : Id} {ty : Ty}
    (hlt : w.mgr.files.length < w.mgr.limit) (hn : newId ∉ w.mgr.files) (hal : hd.alive = true)
    (hw : hd.readOnly = false → hd.avail = [] ∧ hd.mutex.excl = false) :
    Inv ((w.registered h newId).setHandler h
          { hd with avail := insertFd (newId, ty) hd.avail }) := by
  have hl : h < w.handlers.length := (List.getElem?_eq_some_iff.1 e).1
  have i' := inv_owner (h := h) i hn
  have key := inv_update (hd' := { hd with avail := insertFd (newId, ty) hd.avail })
    (m' := { w.mgr with files := w.mgr.files ++ [newId], sorted := w.mgr.sorted ++ [newId] })
    (accs' := w.accs) (lost' := w.lost) i' e
    (ok_register i.ok hlt (id := newId) (by simp [Lru.register, hn, Lru.notifyOpened])) ?_ ?_ i'.ownAcc ?_ ?_
    (i.excl _ hd e) (i.shared _ hd e) (fun _ _ _ => rfl) (i.reading _ hd e) ?_
  · exact key
  · intro x
    have h1 := count_insert_keys hd.avail (newId, ty) x
    simp only [List.count_append, List.count_singleton, World.inUse] at h1 ⊢
    by_cases hx : newId = x
    · subst hx; simp at h1 ⊢; omega
    · simp [hx] at h1 ⊢; omega
  · intro fd hfd
    rw [mem_insertFd] at hfd
    rcases hfd with rfl | hfd
    · simp
    · exact i'.ownIdle h hd e fd hfd
  · intro x hx
    simp only [List.mem_append, List.mem_singleton] at hx
    rcases hx with hx | rfl
    · exact i'.known x hx
    · simpa using hl
  · intro hh; simp only at hh; rw [hal] at hh; cases hh
  · intro hr
    have h1 := hw hr
    have h2 := i.writing _ hd e hr
    exact ⟨h2.1, by simp [h1.1, h1.2, insertFd]⟩

theorem take_spec {w w' : World} (i : Inv w) {h : Nat} {hd : Handler} (e : w.handlers[h]? = some hd) {id : Id} {ty : Ty} {write : Bool}
    {r : Result} (hid : id ∈ keys hd.avail) (hal : hd.alive = true) (hex : hd.mutex.excl = false)
    (hsh : write = true → hd.mutex.shared = 0) (hro : hd.readOnly = !write)
    (ht : w.take h hd id ty write = .ok (w', r)) :
    Inv w' ∧ r = .accessor id ∧ w'.accs = w.accs ++ [{ handler := h, id := id, ty := ty, write := write }] ∧ w'.lost = w.lost ∧
      w'.mgr.limit = w.mgr.limit ∧ (∀ k, core w' k = core w k) := by
  unfold World.take at ht
  cases hu : w.mgr.notifyUsed id with
  | ub => rw [hu] at ht; cases ht
  | throw x => rw [hu] at ht; cases ht
  | ok m' =>
    rw [hu] at ht
    simp only [Outcome.bind_ok, Outcome.ok.injEq, Prod.mk.injEq] at ht
    obtain ⟨rfl, rfl⟩ := ht
    have hok := ok_used i.ok hu
    obtain ⟨hs, rfl⟩ := used_ok hu
    refine ⟨?_, rfl, rfl, rfl, rfl, core_set e rfl rfl⟩
    refine inv_update (m' := { w.mgr with sorted := w.mgr.sorted.erase id ++ [id] }) (lost' := w.lost) i e hok ?_ ?_ ?_
      i.known ?_ ?_ ?_ ?_ ?_ ?_
    · intro x
      have h1 := count_filter_keys hd.avail id x
      have h3 := files_count_le i x
      have h4 := count_keys_le e x
      have h5 := i.held x
      simp only [World.inUse, List.map_append, List.map_cons, List.map_nil, List.count_append, List.count_singleton] at *
      generalize (keys (hd.avail.filter (·.1 ≠ id))).count x = q at *
      by_cases hx : x = id
      · subst hx
        have h6 : 0 < (keys hd.avail).count x := List.count_pos_iff.2 hid
        rw [if_pos rfl] at h1
        simp
        omega
      · rw [if_neg hx] at h1
        have hx' : ¬ id = x := fun hh => hx hh.symm
        simp [hx']
        omega
    · intro fd hfd
      exact i.ownIdle _ hd e fd (List.mem_filter.1 hfd).1
    · intro a ha
      simp only [List.mem_append, List.mem_singleton] at ha
      rcases ha with ha | rfl
      · exact i.ownAcc a ha
      · obtain ⟨t, ht⟩ := mem_keys.1 hid
        exact i.ownIdle _ hd e _ ht
    · intro hh; simp only at hh; rw [hal] at hh; cases hh
    · have h1 := i.excl _ hd e
      rw [hex] at h1
      cases write <;> simp [List.countP_append, h1, hex]
    · have h1 := i.shared _ hd e
      cases write <;> simp [List.countP_append, h1]
    · intro k hk p
      have : ¬ h = k := fun hh => hk hh.symm
      simp [List.countP_append, this]
    · intro hr
      simp only at hr
      cases write with
      | true => rw [hro] at hr; cases hr
      | false => simpa using hex
    · intro hr
      simp only at hr
      cases write with
      | false => rw [hro] at hr; cases hr
      | true =>
        have h1 := i.writing _ hd e hr
        have h2 : hd.avail.length ≤ 1 := by have := h1.2; omega
        refine ⟨by simpa using hsh rfl, ?_⟩
        have h3 : hd.avail.filter (fun x => x.1 ≠ id) = [] := by
          match hl : hd.avail, h2 with
          | [], _ => rfl
          | [a], _ =>
            rw [hl] at hid
            simp [keys] at hid
            simp [hid]
        simp only [h3]
        simp

/-- A request that was granted the lock: what it leaves unchanged. -/
structure Granted (w : World) (h : Nat) (write : Bool) (w' : World) (r : Result) : Prop where
  inv : Inv w'
  limit : w'.mgr.limit = w.mgr.limit
  core : ∀ k, core w' k = core w k
  accs : (∃ id ty, r = .accessor id ∧ w'.accs = w.accs ++ [{ handler := h, id := id, ty := ty, write := write }]) ∨
    ((r = .limitReached ∨ r = .cannotOpen) ∧ w'.accs = w.accs)

theorem Granted.after {w w1 w' : World} {h : Nat} {write : Bool} {r : Result} (g : Granted w1 h write w' r)
    (hl : w1.mgr.limit = w.mgr.limit) (hc : ∀ k, FilePool.core w1 k = FilePool.core w k) (ha : w1.accs = w.accs) : Granted w h write w' r :=
  ⟨g.inv, g.limit.trans hl, fun k => (g.core k).trans (hc k), by simpa [ha] using g.accs⟩

/-- Opening a descriptor and taking it. -/
theorem openTake_spec {w w' : World} (i : Inv w) {h : Nat} {hd : Handler} (e : w.handlers[h]? = some hd) {ty : Ty} {write : Bool}
    {newId : Id} {osOk : Bool} {r : Result} (hal : hd.alive = true) (hex : hd.mutex.excl = false)
    (hsh : write = true → hd.mutex.shared = 0) (hro : hd.readOnly = !write) (hav : write = true → hd.avail = [])
    (ht : w.openTake h ty write newId osOk = .ok (w', r)) :
    Granted w h write w' r ∧ w'.lost = w.lost := by
  unfold World.openTake at ht
  cases ho : w.open h newId osOk with
  | ub => rw [ho] at ht; cases ht
  | throw x => rw [ho] at ht; cases ht
  | ok p =>
    obtain ⟨w1, r1⟩ := p
    rw [ho] at ht
    rcases open_spec i ho with ⟨h1, h2, hr⟩ | ⟨rfl, w2, h1, h2, h3, h4, rfl⟩
    · rcases hr with rfl | rfl
      · simp at ht; obtain ⟨rfl, rfl⟩ := ht
        exact ⟨⟨h1, h2.limit, h2.core, Or.inr ⟨Or.inl rfl, h2.accs⟩⟩, h2.lost⟩
      · simp at ht; obtain ⟨rfl, rfl⟩ := ht
        exact ⟨⟨h1, h2.limit, h2.core, Or.inr ⟨Or.inr rfl, h2.accs⟩⟩, h2.lost⟩
    · have e2 : w2.handlers[h]? = some hd := h2.own.trans e
      have e2' : (w2.registered h newId).handlers[h]? = some hd := e2
      simp only [Outcome.bind_ok, e2'] at ht
      have i3 := inv_insert (ty := ty) h1 e2 h3 h4 hal (fun hf => ⟨hav (by rw [hro] at hf; simpa using hf), hex⟩)
      have e3 := get_set (w := w2.registered h newId) e2 { hd with avail := insertFd (newId, ty) hd.avail } h
      rw [if_pos rfl] at e3
      obtain ⟨g1, g2, g3, g4, g5, g6⟩ := take_spec i3 e3 (mem_keys.2 ⟨ty, mem_insertFd.2 (Or.inl rfl)⟩) hal hex hsh hro ht
      refine ⟨⟨g1, ?_, ?_, Or.inl ⟨newId, ty, g2, ?_⟩⟩, ?_⟩
      · rw [g5]; exact h2.limit
      · intro k
        rw [g6 k]
        exact (core_set (w := w2.registered h newId) (hd' := { hd with avail := insertFd (newId, ty) hd.avail }) e2 rfl rfl k).trans (h2.core k)
      · rw [g3, ← h2.accs]; rfl
      · rw [g4]; exact h2.lost

theorem writeLocked_spec {w w' : World} (i : Inv w) {h : Nat} {hd : Handler} (e : w.handlers[h]? = some hd) {ty : Ty} {newId : Id}
    {osOk : Bool} {r : Result} (hal : hd.alive = true) (hex : hd.mutex.excl = false) (hsh : hd.mutex.shared = 0)
    (ht : w.writeLocked h ty newId osOk = .ok (w', r)) :
    Granted w h true w' r ∧ w.lost <+: w'.lost ∧ ((hd.readOnly = false → ∀ fd ∈ hd.avail, fd.2 = ty) → w'.lost = w.lost) := by
  unfold World.writeLocked at ht
  rw [e] at ht
  simp only at ht
  cases hc : w.changeMode h hd false with
  | ub => rw [hc] at ht; cases ht
  | throw x => rw [hc] at ht; cases ht
  | ok w1 =>
    rw [hc] at ht
    obtain ⟨i1, ha1, hl1, ho1, hm1, hk1, hs1, -, hd1, e1, hmu, hro, hal1, hsame, hdiff⟩ := changeMode_spec i e hex (fun _ => hsh) hc
    simp only [Outcome.bind_ok, e1] at ht
    by_cases hlen : hd1.avail.length > 1
    · rw [if_pos hlen] at ht; cases ht
    · rw [if_neg hlen] at ht
      have hex1 : hd1.mutex.excl = false := by rw [hmu]; exact hex
      have hsh1 : hd1.mutex.shared = 0 := by rw [hmu]; exact hsh
      rcases hav : hd1.avail with _ | ⟨⟨id, t⟩, _ | ⟨y, ys⟩⟩
      · rw [hav] at ht
        simp only [e1, hav] at ht
        have := openTake_spec (write := true) i1 e1 (hal1.trans hal) hex1 (fun _ => hsh1) hro (fun _ => hav) ht
        exact ⟨this.1.after hm1 hk1 ha1, by rw [this.2.trans hl1]; exact List.prefix_refl _, fun _ => this.2.trans hl1⟩
      · rw [hav] at ht
        simp only at ht
        by_cases htt : t = ty
        · rw [if_pos htt] at ht
          simp only [e1, hav] at ht
          obtain ⟨g1, g2, g3, g4, g5, g6⟩ := take_spec (write := true) i1 e1 (by rw [hav]; simp [keys]) (hal1.trans hal) hex1 (fun _ => hsh1) hro ht
          exact ⟨⟨g1, g5.trans hm1, fun k => (g6 k).trans (hk1 k), Or.inl ⟨id, ty, g2, by rw [g3, ha1]⟩⟩, by rw [g4.trans hl1]; exact List.prefix_refl _, fun _ => g4.trans hl1⟩
        · rw [if_neg htt] at ht
          have i2 := inv_lost i1 e1 hav
          have e2 := get_set e1 { hd1 with avail := [] } h
          rw [if_pos rfl] at e2
          have e2' : ({ w1.setHandler h { hd1 with avail := [] } with lost := w1.lost ++ [id] } : World).handlers[h]?
              = some { hd1 with avail := [] } := e2
          simp only [e2'] at ht
          have := openTake_spec (write := true) i2 e2' (hal1.trans hal) hex1 (fun _ => hsh1) hro (fun _ => rfl) ht
          refine ⟨this.1.after hm1 (fun k => (core_set e1 (hd' := { hd1 with avail := [] }) rfl rfl k).trans (hk1 k)) ha1, by rw [this.2]; simp [hl1], fun hty => ?_⟩
          exfalso
          by_cases hr0 : hd.readOnly = false
          · have := hsame hr0
            subst this
            rw [e] at e1
            cases e1
            exact htt (hty hr0 (id, t) (by rw [hav]; simp))
          · have := hdiff hr0
            rw [hav] at this
            cases this
      · rw [hav] at hlen; simp at hlen

theorem readLocked_spec {w w' : World} (i : Inv w) {h : Nat} {hd : Handler} (e : w.handlers[h]? = some hd) {ty : Ty} {newId : Id}
    {osOk : Bool} {r : Result} (hal : hd.alive = true) (hex : hd.mutex.excl = false)
    (ht : w.readLocked h ty newId osOk = .ok (w', r)) :
    Granted w h false w' r ∧ w'.lost = w.lost := by
  unfold World.readLocked at ht
  rw [e] at ht
  simp only at ht
  cases hc : w.changeMode h hd true with
  | ub => rw [hc] at ht; cases ht
  | throw x => rw [hc] at ht; cases ht
  | ok w1 =>
    rw [hc] at ht
    obtain ⟨i1, ha1, hl1, ho1, hm1, hk1, hs1, -, hd1, e1, hmu, hro, hal1, hsame, hdiff⟩ := changeMode_spec i e hex (by simp) hc
    simp only [Outcome.bind_ok, e1] at ht
    have hex1 : hd1.mutex.excl = false := by rw [hmu]; exact hex
    cases hf : hd1.avail.find? (·.2 = ty) with
    | some fd =>
      obtain ⟨id, t⟩ := fd
      rw [hf] at ht
      simp only at ht
      have hm : (id, t) ∈ hd1.avail := List.mem_of_find?_eq_some hf
      obtain ⟨g1, g2, g3, g4, g5, g6⟩ := take_spec (write := false) i1 e1 (mem_keys.2 ⟨t, hm⟩) (hal1.trans hal) hex1 (by simp) hro ht
      exact ⟨⟨g1, g5.trans hm1, fun k => (g6 k).trans (hk1 k), Or.inl ⟨id, ty, g2, by rw [g3, ha1]⟩⟩, g4.trans hl1⟩
    | none =>
      rw [hf] at ht
      simp only at ht
      have := openTake_spec (write := false) i1 e1 (hal1.trans hal) hex1 (by simp) hro (by simp) ht
      exact ⟨this.1.after hm1 hk1 ha1, this.2.trans hl1⟩

end Alexandria.FilePool
