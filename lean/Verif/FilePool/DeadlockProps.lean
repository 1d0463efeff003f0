import Verif.FilePool.Props

/-!
# C74: exactly which requests wait for themselves

`getAccessor` holds the mutex of its handler while the manager asks the handlers for a file to close. The manager asks in the order in
which the files were used last, the one used longest ago first, and stops at the first handler that closes a file.
-/

namespace Alexandria.FilePool

/-- The request meets its own handler: it wants to read and to wait, the file is open for reading, no idle descriptor has the wanted type,
the manager is full, and all files used longer ago than some file of the handler are held by accessors of other handlers. -/
def Spec.MeetsItself (w : World) (h : Nat) (hd : Handler) (ty : Ty) (write tryLock : Bool) : Prop :=
  write = false ∧ tryLock = false ∧ hd.readOnly = true ∧ (∀ fd ∈ hd.avail, fd.2 ≠ ty) ∧ w.mgr.files.length = w.mgr.limit ∧
    ∃ older id newer, w.mgr.sorted = older ++ id :: newer ∧ w.owner id = h ∧ ∀ x ∈ older, w.owner x ≠ h ∧ ∃ a ∈ w.accs, a.id = x

theorem busy_or_idle {w : World} (i : Inv w) (hl : w.lost = []) {id : Id} (hid : id ∈ w.mgr.files) {hd : Handler}
    (e : w.handlers[w.owner id]? = some hd) : id ∈ keys hd.avail ↔ id ∉ w.inUse := by
  have h1 := i.held id
  have h2 : 0 < w.mgr.files.count id := List.count_pos_iff.2 hid
  have h5 := files_count_le i id
  rw [hl, List.count_nil] at h1
  constructor
  · intro hk hu
    have h3 : 0 < w.inUse.count id := List.count_pos_iff.2 hu
    have h4 : 0 < (keys hd.avail).count id := List.count_pos_iff.2 hk
    have := count_keys_le e id
    omega
  · intro hu
    have h3 : w.inUse.count id = 0 := List.count_eq_zero.2 hu
    have h4 : id ∈ w.idle := List.count_pos_iff.1 (by omega)
    simp only [World.idle, List.mem_flatMap] at h4
    obtain ⟨hd', hm, hi⟩ := h4
    obtain ⟨k, hk⟩ := List.mem_iff_getElem?.1 hm
    obtain ⟨t, ht⟩ := mem_keys.1 hi
    have := i.ownIdle k hd' hk _ ht
    simp only at this
    rw [this, hk, Option.some.injEq] at e
    exact e ▸ hi

theorem ask_busy {w : World} (i : Inv w) (al : Alive w) (hl : w.lost = []) {h : Nat} {id : Id} (hid : id ∈ w.mgr.files)
    (hne : w.owner id ≠ h) (hu : id ∈ w.inUse) : w.ask (some h) id = .ok (w, false) := by
  obtain ⟨hd, e, hal⟩ := owner_alive i al hl hid
  have hk : id ∉ hd.avail.map (·.1) := fun hk => (busy_or_idle i hl hid e).1 hk hu
  unfold World.ask
  simp only [e]
  rw [if_neg (by simpa using fun hh : h = w.owner id => hne hh.symm), if_neg (by simp [hal]), if_neg hk]

theorem ask_idle {w : World} (i : Inv w) (al : Alive w) (hl : w.lost = []) {h : Nat} {id : Id} (hid : id ∈ w.mgr.files)
    (hne : w.owner id ≠ h) (hu : id ∉ w.inUse) : ∃ w', w.ask (some h) id = .ok (w', true) := by
  obtain ⟨hd, e, hal⟩ := owner_alive i al hl hid
  have hk : id ∈ keys hd.avail := (busy_or_idle i hl hid e).2 hu
  have hk' : id ∈ hd.avail.map (·.1) := hk
  unfold World.ask
  simp only [e]
  rw [if_neg (by simpa using fun hh : h = w.owner id => hne hh.symm), if_neg (by simp [hal]), if_pos hk']
  simp [World.closeFd, close_eq i.ok (idle_mem i e hk)]

theorem askAll_ub_iff {w : World} (i : Inv w) (al : Alive w) (hl : w.lost = []) {h : Nat} : ∀ l : List Id, (∀ x ∈ l, x ∈ w.mgr.files) →
    ((∃ w' c, askAll (World.ask (some h)) l w = .ok (w', c)) ∨ askAll (World.ask (some h)) l w = .ub) ∧
    (askAll (World.ask (some h)) l w = .ub ↔ ∃ older id newer, l = older ++ id :: newer ∧ w.owner id = h ∧ ∀ x ∈ older, w.owner x ≠ h ∧ x ∈ w.inUse)
  | [], _ => by simp [askAll]
  | x :: l, hm => by
    have ih := askAll_ub_iff i al hl (h := h) l (fun y hy => hm y (by simp [hy]))
    by_cases ho : w.owner x = h
    · have : askAll (World.ask (some h)) (x :: l) w = .ub := by simp [askAll, World.ask, ho]
      exact ⟨Or.inr this, fun _ => ⟨[], x, l, rfl, ho, by simp⟩, fun _ => this⟩
    · have hcons : (∃ older id newer, x :: l = older ++ id :: newer ∧ w.owner id = h ∧ ∀ y ∈ older, w.owner y ≠ h ∧ y ∈ w.inUse) ↔
          x ∈ w.inUse ∧ ∃ older id newer, l = older ++ id :: newer ∧ w.owner id = h ∧ ∀ y ∈ older, w.owner y ≠ h ∧ y ∈ w.inUse := by
        constructor
        · rintro ⟨older, id, newer, e1, e2, e3⟩
          cases older with
          | nil =>
            simp only [List.nil_append, List.cons.injEq] at e1
            exact absurd (e1.1 ▸ e2) ho
          | cons y older =>
            simp only [List.cons_append, List.cons.injEq] at e1
            obtain ⟨rfl, e1⟩ := e1
            exact ⟨(e3 x (by simp)).2, older, id, newer, e1, e2, fun y hy => e3 y (by simp [hy])⟩
        · rintro ⟨hu, older, id, newer, e1, e2, e3⟩
          refine ⟨x :: older, id, newer, by rw [e1]; rfl, e2, ?_⟩
          intro y hy
          rcases List.mem_cons.1 hy with rfl | hy
          · exact ⟨ho, hu⟩
          · exact e3 y hy
      rw [hcons]
      by_cases hu : x ∈ w.inUse
      · have : askAll (World.ask (some h)) (x :: l) w = askAll (World.ask (some h)) l w := by
          simp [askAll, ask_busy i al hl (hm x (by simp)) ho hu]
        rw [this]
        simpa [hu] using ih
      · obtain ⟨w', hw⟩ := ask_idle i al hl (hm x (by simp)) ho hu
        have : askAll (World.ask (some h)) (x :: l) w = .ok (w', true) := by simp [askAll, hw]
        rw [this]
        simp [hu]

theorem askAll_shrinks {h : Nat} : ∀ (l : List Id) {w w' : World}, Inv w → askAll (World.ask (some h)) l w = .ok (w', true) →
    w'.mgr.files.length < w.mgr.files.length ∧ w'.mgr.limit = w.mgr.limit
  | [], w, w', _, ha => by simp [askAll] at ha
  | x :: l, w, w', i, ha => by
    simp only [askAll] at ha
    cases e : w.ask (some h) x with
    | ub => rw [e] at ha; cases ha
    | throw y => rw [e] at ha; cases ha
    | ok p =>
      obtain ⟨w1, c⟩ := p
      rw [e] at ha
      obtain ⟨h1, h2, h3, h4⟩ := ask_spec i e
      simp only [Outcome.bind_ok] at ha
      cases c with
      | true =>
        simp only [if_true, Outcome.ok.injEq, Prod.mk.injEq, and_true] at ha
        subst ha
        obtain ⟨hf, hm⟩ := h4 rfl
        have := List.length_pos_of_mem hf
        refine ⟨?_, h2.limit⟩
        rw [hm, without_length hf]
        omega
      | false =>
        have := h3 rfl
        subst this
        exact askAll_shrinks l i (by simpa using ha)

theorem intent_ub_iff {w : World} (i : Inv w) (al : Alive w) (hl : w.lost = []) {h : Nat} :
    ((∃ w' c, notifyIntent World.mgr (World.ask (some h)) w = .ok (w', c)) ∨ notifyIntent World.mgr (World.ask (some h)) w = .ub) ∧
    (notifyIntent World.mgr (World.ask (some h)) w = .ub ↔ w.mgr.files.length = w.mgr.limit ∧
      ∃ older id newer, w.mgr.sorted = older ++ id :: newer ∧ w.owner id = h ∧ ∀ x ∈ older, w.owner x ≠ h ∧ x ∈ w.inUse) := by
  obtain ⟨h1, h2⟩ := askAll_ub_iff i al hl (h := h) w.mgr.sorted (fun x hx => (i.ok.mem x).1 hx)
  have hle := i.ok.le
  unfold notifyIntent
  by_cases hf : w.mgr.files.length ≥ w.mgr.limit
  · rw [← h2]
    have he : w.mgr.files.length = w.mgr.limit := by omega
    simp only [intentLoop, if_pos hf]
    rcases h1 with ⟨w', c, h1⟩ | h1
    · rw [h1]
      simp only [Outcome.bind_ok]
      cases c with
      | false => simp
      | true =>
        have hpos : 0 < w.mgr.files.length := by have := i.ok.pos; omega
        have hlt : ¬ w'.mgr.files.length ≥ w'.mgr.limit := by
          obtain ⟨p1, p2⟩ := askAll_shrinks _ i h1
          omega
        obtain ⟨n, hn⟩ : ∃ n, w.mgr.files.length = n + 1 := ⟨w.mgr.files.length - 1, by omega⟩
        simp only [if_true, hn, intentLoop, if_neg hlt]
        simp
    · rw [h1]
      simp [he]
  · have : w.mgr.files.length ≠ w.mgr.limit := by omega
    simp only [intentLoop, if_neg hf]
    simp [this]

/-- A handler without accessors and idle descriptors has no open file. -/
theorem no_files {w : World} (i : Inv w) (al : Alive w) (hl : w.lost = []) {h : Nat} {hd : Handler} (e : w.handlers[h]? = some hd)
    (hex : hd.mutex.excl = false) (hsh : hd.mutex.shared = 0) (hav : hd.avail = []) : ∀ id ∈ w.mgr.files, w.owner id ≠ h := by
  intro id hid ho
  have h1 : id ∈ w.inUse := by
    by_contra hu
    have := (busy_or_idle i hl hid (ho ▸ e)).2 hu
    rw [hav] at this
    cases this
  obtain ⟨a, ha, rfl⟩ := List.mem_map.1 h1
  have h2 := countP_split h w.accs
  rw [i.excl h hd e, i.shared h hd e, hex, hsh] at h2
  simp only [Bool.false_eq_true, if_false, Nat.add_zero, List.countP_eq_zero] at h2
  exact h2 a ha (by simpa using (i.ownAcc a ha).symm.trans ho)

theorem alive_frame {w w1 : World} (al : Alive w) (ha : w1.accs = w.accs) (hk : ∀ k, core w1 k = core w k) : Alive w1 := by
  refine ⟨?_, ?_⟩
  · intro a h
    rw [ha] at h
    rw [hk]
    exact al.accs a h
  · intro j k p hj hk'
    rw [hk] at hj hk'
    exact al.unique j k p hj hk'

/-- **C74**, exactly: in histories in which handlers live as long as their accessors and streams do not change type, a request for an
accessor waits for itself if and only if it meets its own handler; requests to write never do. -/
theorem C74_iff {limit : Nat} {w : World} (hr : Reach (fun w op => w.keepsHandlers op ∧ w.sameType op) limit w)
    {h : Nat} {hd : Handler} (e : w.handlers[h]? = some hd) (hal : hd.alive = true) {ty : Ty} {write tryLock : Bool} {newId : Id}
    {osOk : Bool} (hst : w.sameType (.get h ty write tryLock newId osOk)) :
    w.getAccessor h ty write tryLock newId osOk = .ub ↔ Spec.MeetsItself w h hd ty write tryLock := by
  have i := (inv_reach hr).1
  have al := alive_reach (fun _ _ h => h.1) hr
  have hl := lost_reach (fun _ _ h => h.2) hr
  unfold World.getAccessor Spec.MeetsItself
  cases write with
  | true =>
    simp only [if_true, Bool.true_eq_false, false_and, iff_false]
    unfold World.getWrite
    simp only [e]
    rw [if_neg (by simp [hal])]
    cases tryLock with
    | true => simp
    | false =>
      simp only [Bool.false_eq_true, if_false]
      split
      · simp
      · rename_i hfree
        simp at hfree
        unfold World.writeLocked
        simp only [e]
        obtain ⟨w1, hc⟩ := changeMode_total i e false
        rw [hc]
        obtain ⟨i1, ha1, hl1, ho1, hm1, hk1, hs1, hle, hd1, e1, hmu, hro, hal1, hsame, hdiff⟩ :=
          changeMode_spec i e hfree.1 (fun _ => hfree.2) hc
        have hex1 : hd1.mutex.excl = false := by rw [hmu]; exact hfree.1
        simp only [Outcome.bind_ok, e1]
        have hlen := (i1.writing h hd1 e1 hro).2
        rw [if_neg (by omega)]
        have al1 := alive_frame al ha1 hk1
        rcases hav : hd1.avail with _ | ⟨⟨id, t⟩, rest⟩
        · simp only [e1, hav]
          exact openTake_ne_ub i1 e1 (hal1.trans hal) hex1 (by simpa using hro) (fun _ => hav)
            (Or.inl ⟨i1, al1, hl1.trans hl, no_files i1 al1 (hl1.trans hl) e1 hex1 (by rw [hmu]; exact hfree.2) hav⟩)
        · have htt : t = ty := by
            by_cases hr0 : hd.readOnly = false
            · have := hsame hr0
              subst this
              rw [e] at e1
              cases e1
              exact hst hd e hr0 (id, t) (by rw [hav]; simp)
            · have := hdiff hr0
              rw [hav] at this
              cases this
          simp only [htt, if_true, e1, hav]
          exact take_ne_ub i1 e1 (by rw [hav]; simp [keys])
  | false =>
    simp only [Bool.false_eq_true, if_false, true_and]
    unfold World.getRead
    simp only [e]
    rw [if_neg (by simp [hal])]
    cases tryLock with
    | true => simp
    | false =>
      simp only [Bool.false_eq_true, if_false, true_and]
      by_cases hro : hd.readOnly = true
      · have hex := i.reading h hd e hro
        rw [if_neg (by simp [hex])]
        unfold World.readLocked
        have hc : w.changeMode h hd true = .ok w := by rw [World.changeMode, if_pos hro]
        simp only [e, hc, Outcome.bind_ok, hro, true_and]
        cases hf : hd.avail.find? (·.2 = ty) with
        | some fd =>
          obtain ⟨id, t⟩ := fd
          have h1 := List.mem_of_find?_eq_some hf
          have h2 := List.find?_some hf
          have := take_ne_ub (ty := ty) (write := false) i e (mem_keys.2 ⟨t, h1⟩)
          refine ⟨fun hu => absurd hu this, fun hn => ?_⟩
          exact absurd (by simpa using h2) (hn.1 _ h1)
        | none =>
          have hn : ∀ fd ∈ hd.avail, fd.2 ≠ ty := by simpa using hf
          obtain ⟨q1, q2⟩ := intent_ub_iff i al hl (h := h)
          have hq : w.openTake h ty false newId osOk = .ub ↔ notifyIntent World.mgr (World.ask (some h)) w = .ub := by
            constructor
            · intro hu
              rcases q1 with q1 | q1
              · exact absurd hu (openTake_of_intent i e hal hex (by simpa using hro) (by simp) q1)
              · exact q1
            · intro hu
              simp [World.openTake, World.open, hu]
          rw [hq, q2]
          simp only [World.inUse, List.mem_map]
          exact (and_iff_right hn).symm
      · have hro' : hd.readOnly = false := by simpa using hro
        have hw := i.writing h hd e hro'
        simp only [hro', Bool.false_eq_true, false_and, iff_false]
        split
        · simp
        · rename_i hfree
          simp at hfree
          unfold World.readLocked
          simp only [e]
          obtain ⟨w1, hc⟩ := changeMode_total i e true
          rw [hc]
          obtain ⟨i1, ha1, hl1, ho1, hm1, hk1, hs1, hle, hd1, e1, hmu, hro1, hal1, hsame, hdiff⟩ :=
            changeMode_spec i e hfree (by simp) hc
          have hex1 : hd1.mutex.excl = false := by rw [hmu]; exact hfree
          have al1 := alive_frame al ha1 hk1
          have hav := hdiff hro
          simp only [Outcome.bind_ok, e1, hav, List.find?_nil]
          exact openTake_ne_ub (write := false) i1 e1 (hal1.trans hal) hex1 (by simpa using hro1) (by simp)
            (Or.inl ⟨i1, al1, hl1.trans hl, no_files i1 al1 (hl1.trans hl) e1 hex1 (by rw [hmu]; exact hw.1) hav⟩)

/-- Two files, both open; the handler of the second asks for another stream while the first file is being read: it meets itself. If the
first file is idle, that one is closed. -/
example : ∃ w, (World.new 2).run [.getHandler 0, .getHandler 1, .get 0 0 false false 10 true, .get 1 0 false false 11 true] = .ok w ∧
    ∃ hd, w.handlers[1]? = some hd ∧ hd.alive = true ∧ Spec.MeetsItself w 1 hd 0 false false ∧ w.getAccessor 1 0 false false 12 true = .ub :=
  ⟨_, rfl, _, rfl, rfl, ⟨rfl, rfl, rfl, by simp [insertFd], rfl, [10], 11, [], rfl, rfl, by decide⟩, rfl⟩

example : ∃ w, (World.new 2).run [.getHandler 0, .getHandler 1, .get 0 0 false false 10 true, .get 1 0 false false 11 true, .release 0] = .ok w ∧
    ∃ w', w.getAccessor 1 0 false false 12 true = .ok (w', .accessor 12) ∧ w'.mgr.files = [11, 12] := ⟨_, rfl, _, rfl, rfl⟩

end Alexandria.FilePool
