import Verif.FilePool.LostProps

/-!
# C167: which descriptor a request gets
-/

namespace Alexandria.FilePool

/-- The idle descriptors of every handler are in the order of their addresses. -/
def Ordered (w : World) : Prop := ∀ (h : Nat) (hd : Handler), w.handlers[h]? = some hd → hd.avail.Pairwise (fun a b => a.1 ≤ b.1)

theorem insertFd_ordered (fd : Id × Ty) : ∀ l : List (Id × Ty), l.Pairwise (fun a b => a.1 ≤ b.1) →
    (insertFd fd l).Pairwise (fun a b => a.1 ≤ b.1)
  | [], _ => by simp [insertFd]
  | x :: xs, hl => by
    rw [List.pairwise_cons] at hl
    unfold insertFd
    by_cases hlt : fd.1 < x.1
    · rw [if_pos hlt, List.pairwise_cons, List.pairwise_cons]
      refine ⟨fun y hy => ?_, hl⟩
      rcases List.mem_cons.1 hy with rfl | hy
      · exact Nat.le_of_lt hlt
      · exact Nat.le_trans (Nat.le_of_lt hlt) (hl.1 y hy)
    · rw [if_neg hlt, List.pairwise_cons]
      refine ⟨fun y hy => ?_, insertFd_ordered fd xs hl.2⟩
      rcases mem_insertFd.1 hy with rfl | hy
      · exact Nat.le_of_not_lt hlt
      · exact hl.1 y hy

theorem Ordered.set {w : World} (o : Ordered w) (h : Nat) {hd' : Handler} (hs : hd'.avail.Pairwise (fun a b => a.1 ≤ b.1)) :
    Ordered (w.setHandler h hd') := by
  intro k hk ek
  simp only [World.setHandler, List.getElem?_set] at ek
  by_cases hh : h = k
  · subst hh
    rw [if_pos rfl] at ek
    by_cases hl : h < w.handlers.length
    · rw [if_pos hl] at ek; cases ek; exact hs
    · rw [if_neg hl] at ek; cases ek
  · rw [if_neg hh] at ek
    exact o k hk ek

theorem Ordered.congr {w w' : World} (o : Ordered w) (hh : w'.handlers = w.handlers) : Ordered w' := by
  intro k hk ek
  rw [hh] at ek
  exact o k hk ek

theorem closeFd_handlers {w w' : World} {id : Id} (hc : w.closeFd id = .ok w') : w'.handlers = w.handlers := by
  unfold World.closeFd at hc
  cases hm : w.mgr.close id with
  | ub => rw [hm] at hc; cases hc
  | throw x => rw [hm] at hc; cases hc
  | ok m => rw [hm] at hc; cases hc; rfl

theorem closeFds_handlers : ∀ (ids : List Id) {w w' : World}, w.closeFds ids = .ok w' → w'.handlers = w.handlers
  | [], w, w', hc => by cases hc; rfl
  | id :: ids, w, w', hc => by
    unfold World.closeFds at hc
    cases h1 : w.closeFd id with
    | ub => rw [h1] at hc; cases hc
    | throw x => rw [h1] at hc; cases hc
    | ok w1 =>
      rw [h1, Outcome.bind_ok] at hc
      exact (closeFds_handlers ids hc).trans (closeFd_handlers h1)

theorem Ordered.ask {w w' : World} (o : Ordered w) {cur : Option Nat} {id : Id} {c : Bool} (ha : w.ask cur id = .ok (w', c)) : Ordered w' := by
  unfold World.ask at ha
  simp only at ha
  by_cases hcur : cur = some (w.owner id)
  · rw [if_pos hcur] at ha; cases ha
  · rw [if_neg hcur] at ha
    cases e : w.handlers[w.owner id]? with
    | none => rw [e] at ha; cases ha
    | some hd =>
      simp only [e] at ha
      by_cases hal : (!hd.alive) = true
      · rw [if_pos hal] at ha; cases ha
      · rw [if_neg hal] at ha
        by_cases hm : id ∈ hd.avail.map (·.1)
        · rw [if_pos hm] at ha
          cases h1 : w.closeFd id with
          | ub => rw [h1] at ha; cases ha
          | throw x => rw [h1] at ha; cases ha
          | ok w1 =>
            rw [h1] at ha
            simp only [Outcome.bind_ok, Outcome.ok.injEq, Prod.mk.injEq] at ha
            obtain ⟨rfl, -⟩ := ha
            exact (o.congr (closeFd_handlers h1)).set _ ((o _ hd e).filter _)
        · rw [if_neg hm] at ha
          simp only [Outcome.ok.injEq, Prod.mk.injEq] at ha
          obtain ⟨rfl, -⟩ := ha
          exact o

theorem Ordered.open {w w' : World} (o : Ordered w) {h : Nat} {newId : Id} {osOk : Bool} {r : OpenResult}
    (ho : w.open h newId osOk = .ok (w', r)) : Ordered w' := by
  unfold World.open at ho
  cases hi : notifyIntent World.mgr (World.ask (some h)) w with
  | ub => rw [hi] at ho; cases ho
  | throw e => rw [hi] at ho; cases ho
  | ok p =>
    obtain ⟨w1, room⟩ := p
    rw [hi] at ho
    have o1 : Ordered w1 := (intentLoop_ind (mgr := World.mgr) Ordered (fun s id s' c hs ha => hs.ask ha) _ o hi).1
    cases room with
    | false => simp at ho; obtain ⟨rfl, -⟩ := ho; exact o1
    | true =>
      cases osOk with
      | false => simp at ho; obtain ⟨rfl, -⟩ := ho; exact o1
      | true =>
        simp only [Outcome.bind_ok, Bool.not_true, Bool.false_eq_true, if_false] at ho
        cases hr : w1.mgr.register newId with
        | ub => rw [hr] at ho; cases ho
        | throw e => rw [hr] at ho; cases ho
        | ok m2 =>
          rw [hr] at ho
          simp only [Outcome.bind_ok, Outcome.ok.injEq, Prod.mk.injEq] at ho
          obtain ⟨rfl, -⟩ := ho
          exact o1.congr rfl

theorem Ordered.take {w w' : World} (o : Ordered w) {h : Nat} {hd : Handler} {id : Id} {ty : Ty} {write : Bool} {r : Result}
    (hs : hd.avail.Pairwise (fun a b => a.1 ≤ b.1)) (ht : w.take h hd id ty write = .ok (w', r)) : Ordered w' := by
  unfold World.take at ht
  cases hu : w.mgr.notifyUsed id with
  | ub => rw [hu] at ht; cases ht
  | throw x => rw [hu] at ht; cases ht
  | ok m' =>
    rw [hu] at ht
    simp only [Outcome.bind_ok, Outcome.ok.injEq, Prod.mk.injEq] at ht
    obtain ⟨rfl, -⟩ := ht
    exact (o.set h (hd' := { hd with avail := hd.avail.filter (·.1 ≠ id), mutex := _ }) (hs.filter _)).congr rfl

theorem Ordered.openTake {w w' : World} (o : Ordered w) {h : Nat} {ty : Ty} {write : Bool} {newId : Id} {osOk : Bool} {r : Result}
    (ht : w.openTake h ty write newId osOk = .ok (w', r)) : Ordered w' := by
  unfold World.openTake at ht
  cases ho : w.open h newId osOk with
  | ub => rw [ho] at ht; cases ht
  | throw x => rw [ho] at ht; cases ht
  | ok p =>
    obtain ⟨w1, r1⟩ := p
    rw [ho, Outcome.bind_ok] at ht
    have o1 := o.open ho
    cases r1 with
    | limitReached => simp at ht; obtain ⟨rfl, -⟩ := ht; exact o1
    | cannotOpen => simp at ht; obtain ⟨rfl, -⟩ := ht; exact o1
    | opened id =>
      simp only at ht
      cases e : w1.handlers[h]? with
      | none => rw [e] at ht; cases ht
      | some hd =>
        simp only [e] at ht
        have hs := insertFd_ordered (id, ty) hd.avail (o1 h hd e)
        exact (o1.set h (hd' := { hd with avail := insertFd (id, ty) hd.avail }) hs).take hs ht

theorem Ordered.changeMode {w w' : World} (o : Ordered w) {h : Nat} {hd : Handler} {ro : Bool} (hc : w.changeMode h hd ro = .ok w') : Ordered w' := by
  unfold World.changeMode at hc
  by_cases hro : hd.readOnly = ro
  · rw [if_pos hro] at hc; cases hc; exact o
  · rw [if_neg hro] at hc
    cases h1 : w.closeFds (hd.avail.map (·.1)) with
    | ub => rw [h1] at hc; cases hc
    | throw x => rw [h1] at hc; cases hc
    | ok w1 =>
      rw [h1] at hc
      simp only [Outcome.bind_ok, Outcome.ok.injEq] at hc
      subst hc
      exact (o.congr (closeFds_handlers _ h1)).set h (by simp)

theorem Ordered.writeLocked {w w' : World} (o : Ordered w) {h : Nat} {ty : Ty} {newId : Id} {osOk : Bool} {r : Result}
    (ht : w.writeLocked h ty newId osOk = .ok (w', r)) : Ordered w' := by
  unfold World.writeLocked at ht
  cases e : w.handlers[h]? with
  | none => rw [e] at ht; cases ht
  | some hd =>
    simp only [e] at ht
    cases hc : w.changeMode h hd false with
    | ub => rw [hc] at ht; cases ht
    | throw x => rw [hc] at ht; cases ht
    | ok w1 =>
      have o1 := o.changeMode hc
      rw [hc, Outcome.bind_ok] at ht
      cases e1 : w1.handlers[h]? with
      | none => rw [e1] at ht; cases ht
      | some hd1 =>
        simp only [e1] at ht
        by_cases hlen : hd1.avail.length > 1
        · rw [if_pos hlen] at ht; cases ht
        · rw [if_neg hlen] at ht
          have key : ∀ w2 : World, Ordered w2 → (match w2.handlers[h]? with
              | none => Outcome.ub
              | some hd => match hd.avail with
                | (id, _) :: _ => w2.take h hd id ty true
                | [] => w2.openTake h ty true newId osOk : Run (World × Result)) = .ok (w', r) → Ordered w' := by
            intro w2 o2 h2
            cases e2 : w2.handlers[h]? with
            | none => rw [e2] at h2; cases h2
            | some hd2 =>
              simp only [e2] at h2
              cases hav : hd2.avail with
              | nil => simp only [hav] at h2; exact o2.openTake h2
              | cons fd l => simp only [hav] at h2; exact o2.take (o2 h hd2 e2) h2
          refine key _ ?_ ht
          cases hav : hd1.avail with
          | nil => exact o1
          | cons fd l =>
            simp only
            by_cases htt : fd.2 = ty
            · rw [if_pos htt]; exact o1
            · rw [if_neg htt]
              exact (o1.set h (hd' := { hd1 with avail := [] }) (by simp)).congr rfl

theorem Ordered.readLocked {w w' : World} (o : Ordered w) {h : Nat} {ty : Ty} {newId : Id} {osOk : Bool} {r : Result}
    (ht : w.readLocked h ty newId osOk = .ok (w', r)) : Ordered w' := by
  unfold World.readLocked at ht
  cases e : w.handlers[h]? with
  | none => rw [e] at ht; cases ht
  | some hd =>
    simp only [e] at ht
    cases hc : w.changeMode h hd true with
    | ub => rw [hc] at ht; cases ht
    | throw x => rw [hc] at ht; cases ht
    | ok w1 =>
      have o1 := o.changeMode hc
      rw [hc, Outcome.bind_ok] at ht
      cases e1 : w1.handlers[h]? with
      | none => rw [e1] at ht; cases ht
      | some hd1 =>
        simp only [e1] at ht
        cases hf : hd1.avail.find? (·.2 = ty) with
        | none => simp only [hf] at ht; exact o1.openTake ht
        | some fd => simp only [hf] at ht; exact o1.take (o1 h hd1 e1) ht

theorem Ordered.getAccessor {w w' : World} (o : Ordered w) {h : Nat} {ty : Ty} {write tryLock : Bool} {newId : Id} {osOk : Bool} {r : Result}
    (hg : w.getAccessor h ty write tryLock newId osOk = .ok (w', r)) : Ordered w' := by
  unfold World.getAccessor at hg
  cases write with
  | true =>
    rw [if_pos rfl] at hg
    unfold World.getWrite at hg
    cases e : w.handlers[h]? with
    | none => rw [e] at hg; cases hg
    | some hd =>
      simp only [e] at hg
      by_cases hal : (!hd.alive) = true
      · rw [if_pos hal] at hg; cases hg
      · rw [if_neg hal] at hg
        by_cases htl : tryLock = true
        · rw [if_pos htl] at hg; cases hg; exact o
        · rw [if_neg htl] at hg
          by_cases hfr : (!(!hd.mutex.excl && hd.mutex.shared == 0)) = true
          · rw [if_pos hfr] at hg; cases hg; exact o
          · rw [if_neg hfr] at hg; exact o.writeLocked hg
  | false =>
    rw [if_neg (by simp)] at hg
    unfold World.getRead at hg
    cases e : w.handlers[h]? with
    | none => rw [e] at hg; cases hg
    | some hd =>
      simp only [e] at hg
      by_cases hal : (!hd.alive) = true
      · rw [if_pos hal] at hg; cases hg
      · rw [if_neg hal] at hg
        by_cases htl : tryLock = true
        · rw [if_pos htl] at hg; cases hg; exact o
        · rw [if_neg htl] at hg
          by_cases hfr : (!!hd.mutex.excl) = true
          · rw [if_pos hfr] at hg; cases hg; exact o
          · rw [if_neg hfr] at hg; exact o.readLocked hg

theorem Ordered.step {w w' : World} (o : Ordered w) {op : Op} (hs : w.step op = .ok w') : Ordered w' := by
  unfold World.step at hs
  cases op with
  | getHandler p =>
    simp only [Outcome.ok.injEq] at hs
    subst hs
    unfold World.getHandler
    cases hf : w.handlers.findIdx? (fun hd => hd.alive && hd.path == p) with
    | some k => exact o
    | none =>
      intro k hk ek
      simp only [List.getElem?_append] at ek
      by_cases hlt : k < w.handlers.length
      · rw [if_pos hlt] at ek; exact o k hk ek
      · rw [if_neg hlt] at ek
        have := List.mem_of_getElem? ek
        rw [List.mem_singleton.1 this]
        simp
  | get h ty write tryLock newId osOk =>
    simp only at hs
    cases hg : w.getAccessor h ty write tryLock newId osOk with
    | ub => rw [hg] at hs; cases hs
    | throw x => rw [hg] at hs; cases hs
    | ok p =>
      obtain ⟨w1, r⟩ := p
      rw [hg] at hs
      cases hs
      exact o.getAccessor hg
  | release k =>
    simp only at hs
    unfold World.release at hs
    cases ea : w.accs[k]? with
    | none => rw [ea] at hs; cases hs
    | some a =>
      simp only [ea] at hs
      cases e : w.handlers[a.handler]? with
      | none => rw [e] at hs; cases hs
      | some hd =>
        simp only [e] at hs
        by_cases hal : (!hd.alive) = true
        · rw [if_pos hal] at hs; cases hs
        · rw [if_neg hal] at hs
          cases hs
          exact (o.set a.handler (hd' := { hd with avail := insertFd (a.id, a.ty) hd.avail, mutex := _ })
            (insertFd_ordered _ _ (o _ hd e))).congr rfl
  | drop h =>
    simp only at hs
    unfold World.dropHandler at hs
    cases e : w.handlers[h]? with
    | none => rw [e] at hs; cases hs
    | some hd =>
      simp only [e] at hs
      by_cases hal : (!hd.alive) = true
      · rw [if_pos hal] at hs; cases hs
      · rw [if_neg hal] at hs
        cases h1 : w.closeFds (hd.avail.map (·.1)) with
        | ub => rw [h1] at hs; cases hs
        | throw x => rw [h1] at hs; cases hs
        | ok w1 =>
          rw [h1] at hs
          cases hs
          exact (o.congr (closeFds_handlers _ h1)).set h (by simp)

theorem ordered_reach {P : World → Op → Prop} {limit : Nat} {w : World} (hr : Reach P limit w) : Ordered w := by
  induction hr with
  | init => intro h hd e; simp [World.new] at e
  | step _ _ hs ih => exact ih.step hs

/-! ### Specification -/

/-- `id` is an idle descriptor of the handler, of the type of stream and in the mode that is asked for. -/
def Spec.Usable (hd : Handler) (ty : Ty) (write : Bool) (id : Id) : Prop := hd.readOnly = !write ∧ (id, ty) ∈ hd.avail

/-! ### What requests get -/

/-- The request does not wait: nobody writes, and for a request to write nobody reads either. -/
def Spec.Free (hd : Handler) (write : Bool) : Prop := hd.mutex.excl = false ∧ (write = true → hd.mutex.shared = 0)

theorem getAccessor_free {w : World} {h : Nat} {hd : Handler} (e : w.handlers[h]? = some hd) (hal : hd.alive = true) {write : Bool}
    (hf : Spec.Free hd write) (ty : Ty) (newId : Id) (osOk : Bool) :
    w.getAccessor h ty write false newId osOk = if write then w.writeLocked h ty newId osOk else w.readLocked h ty newId osOk := by
  unfold World.getAccessor
  cases write with
  | true =>
    rw [if_pos rfl, if_pos rfl]
    unfold World.getWrite
    simp only [e]
    rw [if_neg (by simp [hal])]
    simp only [Bool.false_eq_true, if_false]
    rw [if_neg (by simp [hf.1, hf.2 rfl])]
  | false =>
    rw [if_neg (by simp), if_neg (by simp)]
    unfold World.getRead
    simp only [e]
    rw [if_neg (by simp [hal])]
    simp only [Bool.false_eq_true, if_false]
    rw [if_neg (by simp [hf.1])]

/-- A request with a usable idle descriptor takes the one with the least address. -/
theorem getAccessor_takes {w : World} (i : Inv w) (o : Ordered w) {h : Nat} {hd : Handler} (e : w.handlers[h]? = some hd) {write : Bool}
    (hf : Spec.Free hd write) {ty : Ty} {j : Id} (hj : Spec.Usable hd ty write j) (newId : Id) (osOk : Bool) :
    ∃ id, Spec.Usable hd ty write id ∧ (∀ k, Spec.Usable hd ty write k → id ≤ k) ∧
      w.getAccessor h ty write false newId osOk = w.take h hd id ty write := by
  have hal : hd.alive = true := by
    by_contra hx
    have := i.dead h hd e (by simpa using hx)
    have hj2 := hj.2
    rw [this] at hj2
    cases hj2
  rw [getAccessor_free e hal hf]
  have ho := o h hd e
  cases write with
  | true =>
    have hro : hd.readOnly = false := hj.1
    obtain ⟨-, hlen⟩ := i.writing h hd e hro
    rw [hf.1] at hlen
    have hav : hd.avail = [(j, ty)] := by
      have hm := hj.2
      rcases hl : hd.avail with _ | ⟨a, _ | ⟨b, l⟩⟩
      · rw [hl] at hm; cases hm
      · rw [hl] at hm; rw [List.mem_singleton.1 hm]
      · rw [hl] at hlen; simp at hlen
    refine ⟨j, hj, fun k hk => ?_, ?_⟩
    · have := hk.2
      rw [hav, List.mem_singleton] at this
      cases this
      exact Nat.le_refl _
    · rw [if_pos rfl]
      unfold World.writeLocked
      have hc : w.changeMode h hd false = .ok w := by rw [World.changeMode, if_pos hro]
      simp only [e, hc, Outcome.bind_ok]
      rw [if_neg (by rw [hav]; simp)]
      simp only [hav, if_true, e]
  | false =>
    have hro : hd.readOnly = true := hj.1
    rw [if_neg (by simp)]
    unfold World.readLocked
    have hc : w.changeMode h hd true = .ok w := by rw [World.changeMode, if_pos hro]
    simp only [e, hc, Outcome.bind_ok]
    cases hfd : hd.avail.find? (·.2 = ty) with
    | none =>
      have := List.find?_eq_none.1 hfd (j, ty) hj.2
      simp at this
    | some fd =>
      obtain ⟨id, t⟩ := fd
      obtain ⟨ht, as, bs, hl, hno⟩ := List.find?_eq_some_iff_append.1 hfd
      have ht' : t = ty := by simpa using ht
      subst ht'
      refine ⟨id, ⟨hro, by rw [hl]; simp⟩, fun k hk => ?_, rfl⟩
      have hk2 := hk.2
      rw [hl, List.mem_append, List.mem_cons] at hk2
      rcases hk2 with hk2 | hk2 | hk2
      · have := hno _ hk2
        simp at this
      · cases hk2; exact Nat.le_refl _
      · rw [hl] at ho
        exact (List.pairwise_cons.1 (List.pairwise_append.1 ho).2.1).1 _ hk2

theorem take_total {w : World} (i : Inv w) {h : Nat} {hd : Handler} (e : w.handlers[h]? = some hd) {id : Id} {ty : Ty} {write : Bool}
    (hid : (id, ty) ∈ hd.avail) : ∃ w', w.take h hd id ty write = .ok (w', .accessor id) ∧ w'.mgr.files = w.mgr.files := by
  have hm : id ∈ w.mgr.files := idle_mem i e (mem_keys.2 ⟨ty, hid⟩)
  have hs : id ∈ w.mgr.sorted := i.ok.perm.mem_iff.2 hm
  unfold World.take Lru.notifyUsed
  rw [if_pos hs]
  exact ⟨_, rfl, rfl⟩

/-- **C167**: in every history, a request that need not wait and for which there is an idle descriptor of its type and mode is granted, even
if the limit is reached and the system can open no file; it gets the idle descriptor with the least address, and no file is opened or
closed. -/
theorem C167_reuses {P : World → Op → Prop} {limit : Nat} {w : World} (hr : Reach P limit w) {h : Nat} {hd : Handler}
    (e : w.handlers[h]? = some hd) {write : Bool} (hf : Spec.Free hd write) {ty : Ty} {j : Id} (hj : Spec.Usable hd ty write j) (newId : Id)
    (osOk : Bool) :
    ∃ w' id, w.getAccessor h ty write false newId osOk = .ok (w', .accessor id) ∧ w'.mgr.files = w.mgr.files ∧
      Spec.Usable hd ty write id ∧ ∀ k, Spec.Usable hd ty write k → id ≤ k := by
  have i := (inv_reach hr).1
  obtain ⟨id, hu, hmin, hg⟩ := getAccessor_takes i (ordered_reach hr) e hf hj newId osOk
  obtain ⟨w', h1, h2⟩ := take_total (write := write) i e hu.2
  exact ⟨w', id, hg.trans h1, h2, hu, hmin⟩

theorem openTake_id {w w' : World} {h : Nat} {ty : Ty} {write : Bool} {newId : Id} {osOk : Bool} {id : Id} (i : Inv w)
    (ht : w.openTake h ty write newId osOk = .ok (w', .accessor id)) : id = newId := by
  unfold World.openTake at ht
  cases ho : w.open h newId osOk with
  | ub => rw [ho] at ht; cases ht
  | throw x => rw [ho] at ht; cases ht
  | ok p =>
    obtain ⟨w1, r1⟩ := p
    rw [ho, Outcome.bind_ok] at ht
    rcases open_spec i ho with ⟨-, -, rfl | rfl⟩ | ⟨rfl, -⟩
    · cases ht
    · cases ht
    · simp only at ht
      cases e : w1.handlers[h]? with
      | none => rw [e] at ht; cases ht
      | some hd =>
        simp only [e] at ht
        unfold World.take at ht
        cases hu : ((w1.setHandler h { hd with avail := insertFd (newId, ty) hd.avail }).mgr).notifyUsed newId with
        | ub => simp only [hu] at ht; cases ht
        | throw x => simp only [hu] at ht; cases ht
        | ok m' =>
          simp only [hu, Outcome.bind_ok, Outcome.ok.injEq, Prod.mk.injEq, Result.accessor.injEq] at ht
          exact ht.2.symm

/-- **C167**: without one, a request that is granted gets a file opened for it. -/
theorem C167_opens {P : World → Op → Prop} {limit : Nat} {w w' : World} (hr : Reach P limit w) {h : Nat} {hd : Handler}
    (e : w.handlers[h]? = some hd) {write tryLock : Bool} {ty : Ty} (hno : ∀ j, ¬ Spec.Usable hd ty write j) {newId : Id} {osOk : Bool}
    {id : Id} (hg : w.getAccessor h ty write tryLock newId osOk = .ok (w', .accessor id)) : id = newId := by
  have i := (inv_reach hr).1
  have htl : tryLock = false := by
    by_contra hx
    have hx' : tryLock = true := by simpa using hx
    subst hx'
    exact C14_try_never w h ty write newId osOk w' id hg
  subst htl
  have hal : hd.alive = true := by
    by_contra hx
    have hx' : hd.alive = false := by simpa using hx
    unfold World.getAccessor World.getWrite World.getRead at hg
    simp only [e, hx'] at hg
    cases write <;> simp at hg
  have hf : Spec.Free hd write := by
    unfold World.getAccessor World.getWrite World.getRead at hg
    simp only [e, hal] at hg
    cases write with
    | true =>
      by_contra hx
      have : (!hd.mutex.excl && hd.mutex.shared == 0) = false := by
        by_contra hy
        have hy' : (!hd.mutex.excl && hd.mutex.shared == 0) = true := by simpa using hy
        simp at hy'
        exact hx ⟨hy'.1, fun _ => hy'.2⟩
      simp [this] at hg
    | false =>
      refine ⟨?_, by simp⟩
      by_contra hx
      have hx' : hd.mutex.excl = true := by simpa using hx
      simp [hx'] at hg
  rw [getAccessor_free e hal hf] at hg
  cases write with
  | true =>
    rw [if_pos rfl] at hg
    unfold World.writeLocked at hg
    rw [e] at hg
    simp only at hg
    cases hc : w.changeMode h hd false with
    | ub => rw [hc] at hg; cases hg
    | throw x => rw [hc] at hg; cases hg
    | ok w1 =>
      rw [hc] at hg
      obtain ⟨i1, -, -, -, -, -, -, -, hd1, e1, -, -, -, hsame, hdiff⟩ := changeMode_spec i e hf.1 (fun _ => hf.2 rfl) hc
      simp only [Outcome.bind_ok, e1] at hg
      by_cases hlen : hd1.avail.length > 1
      · rw [if_pos hlen] at hg; cases hg
      · rw [if_neg hlen] at hg
        rcases hav : hd1.avail with _ | ⟨⟨k, t⟩, _ | ⟨y, ys⟩⟩
        · simp only [hav, e1] at hg
          exact openTake_id i1 hg
        · simp only [hav] at hg
          have hro : hd.readOnly = false := by
            by_contra hx
            have := hdiff hx
            rw [hav] at this
            cases this
          have hw := hsame hro
          subst hw
          rw [e] at e1
          cases e1
          have htt : t ≠ ty := by
            rintro rfl
            exact hno k ⟨hro, by rw [hav]; simp⟩
          rw [if_neg htt] at hg
          have e2 := get_set e { hd with avail := [] } h
          rw [if_pos rfl] at e2
          have e2' : ({ w1.setHandler h { hd with avail := [] } with lost := w1.lost ++ [k] } : World).handlers[h]?
              = some { hd with avail := [] } := e2
          simp only [e2'] at hg
          exact openTake_id (inv_lost i e hav) hg
        · rw [hav] at hlen; simp at hlen
  | false =>
    rw [if_neg (by simp)] at hg
    unfold World.readLocked at hg
    rw [e] at hg
    simp only at hg
    cases hc : w.changeMode h hd true with
    | ub => rw [hc] at hg; cases hg
    | throw x => rw [hc] at hg; cases hg
    | ok w1 =>
      rw [hc] at hg
      obtain ⟨i1, -, -, -, -, -, -, -, hd1, e1, -, -, -, hsame, hdiff⟩ := changeMode_spec i e hf.1 (by simp) hc
      simp only [Outcome.bind_ok, e1] at hg
      cases hfd : hd1.avail.find? (·.2 = ty) with
      | none => simp only [hfd] at hg; exact openTake_id i1 hg
      | some fd =>
        exfalso
        obtain ⟨k, t⟩ := fd
        have hm := List.mem_of_find?_eq_some hfd
        have ht : t = ty := by simpa using List.find?_some hfd
        subst ht
        have hro : hd.readOnly = true := by
          by_contra hx
          rw [hdiff hx] at hm
          cases hm
        have hw := hsame hro
        subst hw
        rw [e] at e1
        cases e1
        exact hno k ⟨hro, hm⟩

/-! ### Examples -/

/-- With a limit of two, two readers of one file have given their descriptors back, the later one first; a third request gets the one with
the least address although no file can be opened. -/
example : ∃ w, (World.new 2).run [.getHandler 0, .get 0 0 false false 10 true, .get 0 0 false false 7 true, .release 1, .release 0] = .ok w ∧
    w.handlers[0]? = some { path := 0, alive := true, readOnly := true, avail := [(7, 0), (10, 0)], mutex := { excl := false, shared := 0 } } ∧
    ∃ w', w.getAccessor 0 0 false false 20 false = .ok (w', .accessor 7) ∧ w'.mgr.files = [10, 7] :=
  ⟨_, rfl, by decide +kernel, _, rfl, by decide +kernel⟩

/-- The same with the descriptors given back in the other order. -/
example : ∃ w, (World.new 2).run [.getHandler 0, .get 0 0 false false 7 true, .get 0 0 false false 10 true, .release 1, .release 0] = .ok w ∧
    ∃ w', w.getAccessor 0 0 false false 20 false = .ok (w', .accessor 7) :=
  ⟨_, rfl, _, rfl⟩

/-- A request to write finds no descriptor for writing among those for reading; they are closed and a file is opened. -/
example : ∃ w, (World.new 2).run [.getHandler 0, .get 0 0 false false 10 true, .release 0] = .ok w ∧
    ∃ w', w.getAccessor 0 0 true false 20 true = .ok (w', .accessor 20) ∧ w'.mgr.files = [20] :=
  ⟨_, rfl, _, rfl, by decide +kernel⟩

end Alexandria.FilePool
