import Verif.FilePool.Props

/-!
# C13: exactly which calls drop a descriptor
-/

namespace Alexandria.FilePool

/-- A request to write through another type of stream than the idle one drops the descriptor of that one. -/
theorem lost_other_type {w w' : World} (i : Inv w) {h : Nat} {hd : Handler} (e : w.handlers[h]? = some hd) (hro : hd.readOnly = false) {fd : Id × Ty}
    (hfd : fd ∈ hd.avail) {ty : Ty} (hty : fd.2 ≠ ty) {newId : Id} {osOk : Bool} {r : Result}
    (hg : w.getAccessor h ty true false newId osOk = .ok (w', r)) : hd.avail = [fd] ∧ w'.lost = w.lost ++ [fd.1] := by
  obtain ⟨hsh, hlen⟩ := i.writing h hd e hro
  have hpos := List.length_pos_of_mem hfd
  have hex : hd.mutex.excl = false := by
    by_contra hx
    have hx' : hd.mutex.excl = true := by simpa using hx
    rw [hx'] at hlen
    simp only [if_true] at hlen
    omega
  have hal : hd.alive = true := by
    by_contra hx
    have := i.dead h hd e (by simpa using hx)
    rw [this] at hfd
    cases hfd
  have hav : hd.avail = [fd] := by
    rcases hl : hd.avail with _ | ⟨a, _ | ⟨b, l⟩⟩
    · rw [hl] at hfd; cases hfd
    · rw [hl] at hfd
      rw [List.mem_singleton.1 hfd]
    · rw [hl, hex] at hlen
      simp at hlen
  obtain ⟨id, t⟩ := fd
  refine ⟨hav, ?_⟩
  unfold World.getAccessor World.getWrite at hg
  simp only [if_true, e] at hg
  rw [if_neg (by simp [hal])] at hg
  simp only [Bool.false_eq_true, if_false] at hg
  rw [if_neg (by simp [hex, hsh])] at hg
  unfold World.writeLocked at hg
  have hc : w.changeMode h hd false = .ok w := by rw [World.changeMode, if_pos hro]
  simp only [e, hc, Outcome.bind_ok] at hg
  rw [if_neg (by rw [hav]; simp), hav] at hg
  simp only [if_neg hty] at hg
  have i2 := inv_lost i e hav
  have e2 := get_set e { hd with avail := [] } h
  rw [if_pos rfl] at e2
  have e2' : ({ w.setHandler h { hd with avail := [] } with lost := w.lost ++ [id] } : World).handlers[h]? = some { hd with avail := [] } := e2
  simp only [e2'] at hg
  exact (openTake_spec (write := true) i2 e2' hal hex (fun _ => hsh) hro (fun _ => rfl) hg).2

/-- **C13**, exactly, for single calls in any history: a call that returns drops a descriptor if and only if it is a request to write, which
waits, through another type of stream than the idle one of the same path. -/
theorem C13_drops_iff {P : World → Op → Prop} {limit : Nat} {w w' : World} (hr : Reach P limit w) {op : Op} (hs : w.step op = .ok w') :
    w'.lost ≠ w.lost ↔ ¬ w.sameType op := by
  have i := (inv_reach hr).1
  constructor
  · exact fun hne hst => hne (lost_step i hst hs)
  · intro hst
    unfold World.sameType at hst
    split at hst
    · rename_i h ty newId osOk
      push Not at hst
      obtain ⟨hd, e, hro, fd, hfd, hty⟩ := hst
      simp only [World.step] at hs
      cases hg : w.getAccessor h ty true false newId osOk with
      | ub => rw [hg] at hs; cases hs
      | throw x => rw [hg] at hs; cases hs
      | ok p =>
        obtain ⟨w1, r⟩ := p
        rw [hg] at hs
        simp at hs
        subst hs
        rw [(lost_other_type i e hro hfd hty hg).2]
        simp
    · exact absurd trivial hst

/-- All calls of the history keep the type of the idle stream. -/
def Spec.KeepsTypes (w : World) : List Op → Prop
  | [] => True
  | op :: ops => w.sameType op ∧ ∀ w', w.step op = .ok w' → Spec.KeepsTypes w' ops

theorem lost_run {limit : Nat} : ∀ (ops : List Op) {w w' : World}, Reach (fun _ _ => True) limit w → w.run ops = .ok w' →
    w.lost <+: w'.lost ∧ (w'.lost = w.lost ↔ Spec.KeepsTypes w ops)
  | [], w, w', _, h => by
    simp [World.run] at h
    subst h
    exact ⟨List.prefix_refl _, by simp [Spec.KeepsTypes]⟩
  | op :: ops, w, w', hr, h => by
    simp only [World.run] at h
    cases hs : w.step op with
    | ub => rw [hs] at h; cases h
    | throw x => rw [hs] at h; cases h
    | ok w1 =>
      rw [hs] at h
      obtain ⟨h1, h2⟩ := lost_run ops (hr.step trivial hs) h
      have h3 := lost_mono (inv_reach hr).1 hs
      have h4 := C13_drops_iff hr hs
      refine ⟨h3.trans h1, ?_⟩
      have h5 : Spec.KeepsTypes w (op :: ops) ↔ w.sameType op ∧ Spec.KeepsTypes w1 ops := by
        simp only [Spec.KeepsTypes, hs, Outcome.ok.injEq, forall_eq']
      rw [h5, ← h2, ← not_iff_not.1 (by simpa using h4 : ¬ w1.lost = w.lost ↔ ¬ w.sameType op)]
      constructor
      · intro e
        have l1 := h3.length_le
        have l2 := h1.length_le
        have e1 : w1.lost = w.lost := (h3.eq_of_length (by rw [e] at l2; omega)).symm
        exact ⟨e1, e.trans e1.symm⟩
      · exact fun e => e.2.trans e.1

/-- **C13**, exactly: after a history every open file is idle in one handler or belongs to one accessor if and only if no call of the history was a
request to write through another type of stream than the idle one of the same path. -/
theorem C13_known_iff {limit : Nat} {ops : List Op} {w : World} (h : (World.new limit).run ops = .ok w) :
    w.mgr.files.Perm (w.idle ++ w.inUse) ↔ Spec.KeepsTypes (World.new limit) ops := by
  have hr := reach_run (P := fun _ _ => True) (limit := limit) ops .init (fun _ _ => trivial) h
  rw [← (lost_run ops .init h).2]
  have i := (inv_reach hr).1
  show _ ↔ w.lost = []
  constructor
  · intro hp
    rw [List.eq_nil_iff_forall_not_mem]
    intro x hx
    have h1 := i.held x
    have h2 := hp.count_eq x
    rw [List.count_append] at h2
    have h3 : 0 < w.lost.count x := List.count_pos_iff.2 hx
    omega
  · intro hl
    rw [List.perm_iff_count]
    intro x
    have := i.held x
    rw [hl] at this
    rw [List.count_append]
    simpa using this

/-- Writing, reading and writing again through streams of different types keeps them all known, since the idle ones are closed when the mode
changes; writing twice does not. -/
example : ∃ w, (World.new 2).run [.getHandler 0, .get 0 0 true false 10 true, .release 0, .get 0 1 false false 11 true, .release 0,
    .get 0 2 true false 12 true] = .ok w ∧ w.mgr.files = [12] ∧ w.idle ++ w.inUse = [12] := ⟨_, rfl, rfl, rfl⟩

example : ∃ w, (World.new 2).run [.getHandler 0, .get 0 0 true false 10 true, .release 0, .get 0 1 true false 11 true] = .ok w ∧
    w.mgr.files = [10, 11] ∧ w.idle ++ w.inUse = [11] ∧ w.lost = [10] := ⟨_, rfl, rfl, rfl, rfl⟩

end Alexandria.FilePool
