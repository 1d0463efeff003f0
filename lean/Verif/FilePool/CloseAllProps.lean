import Verif.FilePool.CloseAll
import Verif.FilePool.Props

/-!
# Properties of closing everything, and of asking for handlers
-/

namespace Alexandria.FilePool

/-- A callback without a locked handler mutex is one with the mutex of another handler. -/
theorem ask_none (w : World) (id : Id) : w.ask none id = w.ask (some (w.owner id + 1)) id := by
  unfold World.ask
  simp

/-- The owners of all files are alive. -/
def OwnersAlive (w : World) : Prop := ∀ id ∈ w.mgr.files, ∃ p, core w (w.owner id) = some (p, true)

theorem ask_ok {w : World} (i : Inv w) (al : OwnersAlive w) (hl : w.lost = []) {id : Id} (hid : id ∈ w.mgr.files) :
    ∃ w' c, w.ask none id = .ok (w', c) ∧ (c = true ↔ id ∉ w.inUse) := by
  obtain ⟨p, hp⟩ := al id hid
  unfold World.ask
  simp only [reduceCtorEq, if_false]
  cases e : w.handlers[w.owner id]? with
  | none => simp [core, e] at hp
  | some hd =>
    simp only [core, e, Option.map_some, Option.some.injEq, Prod.mk.injEq] at hp
    simp only
    rw [if_neg (by simp [hp.2])]
    have hheld := i.held id
    have hle := files_count_le i id
    have hkl := count_keys_le e id
    rw [hl, List.count_nil] at hheld
    have hpos : 0 < w.mgr.files.count id := List.count_pos_iff.2 hid
    by_cases hk : id ∈ keys hd.avail
    · have hk' : id ∈ hd.avail.map (·.1) := hk
      rw [if_pos hk']
      simp only [World.closeFd, close_eq i.ok hid, Outcome.bind_ok]
      refine ⟨_, true, rfl, fun _ hu => ?_, fun _ => rfl⟩
      have h1 : 0 < (keys hd.avail).count id := List.count_pos_iff.2 hk
      have h2 : 0 < w.inUse.count id := List.count_pos_iff.2 hu
      omega
    · have hk' : id ∉ hd.avail.map (·.1) := hk
      rw [if_neg hk']
      refine ⟨_, false, rfl, fun h => (by cases h), fun hu => ?_⟩
      exfalso
      have h2 : w.inUse.count id = 0 := List.count_eq_zero.2 hu
      have h3 : 0 < w.idle.count id := by omega
      have h4 : id ∈ w.idle := List.count_pos_iff.1 h3
      simp only [World.idle, List.mem_flatMap, List.mem_map] at h4
      obtain ⟨hd2, hm, fd, hfd, hfe⟩ := h4
      obtain ⟨k, hkk⟩ := List.mem_iff_getElem?.1 hm
      have := i.ownIdle k hd2 hkk fd hfd
      rw [hfe] at this
      rw [this, hkk] at e
      cases e
      exact hk' (List.mem_map.2 ⟨fd, hfd, hfe⟩)

theorem closeEach_spec : ∀ (l : List Id) (w : World), Inv w → OwnersAlive w → w.lost = [] → l.Nodup → (∀ x ∈ l, x ∈ w.mgr.files) →
    ∃ w', World.closeEach l w = .ok w' ∧ Inv w' ∧ w'.accs = w.accs ∧ w'.lost = [] ∧ (∀ k, core w' k = core w k) ∧
      ∀ x, x ∈ w'.mgr.files ↔ x ∈ w.mgr.files ∧ (x ∉ l ∨ x ∈ w.inUse)
  | [], w, i, _, hl, _, _ => ⟨w, rfl, i, rfl, hl, fun _ => rfl, fun x => by simp⟩
  | id :: l, w, i, al, hl, hn, hs => by
    rw [List.nodup_cons] at hn
    have hid := hs id (by simp)
    obtain ⟨w1, c, e, hc⟩ := ask_ok i al hl hid
    have e' := e
    rw [ask_none] at e'
    obtain ⟨i1, f1, hf, ht⟩ := ask_spec i e'
    have hmem : ∀ x, x ∈ w1.mgr.files ↔ x ∈ w.mgr.files ∧ (x ≠ id ∨ x ∈ w.inUse) := by
      intro x
      cases c with
      | true =>
        have hm := (ht rfl).2
        have hnu := hc.1 rfl
        rw [hm]
        show x ∈ w.mgr.files.erase id ↔ _
        rw [i.ok.nodupF.mem_erase_iff]
        constructor
        · rintro ⟨h1, h2⟩; exact ⟨h2, .inl h1⟩
        · rintro ⟨h1, h2 | h2⟩
          · exact ⟨h2, h1⟩
          · exact ⟨by rintro rfl; exact hnu h2, h1⟩
      | false =>
        have hw := hf rfl
        have hu : id ∈ w.inUse := by
          by_cases h : id ∈ w.inUse
          · exact h
          · exact absurd (hc.2 h) (by simp)
        rw [hw]
        constructor
        · intro h
          refine ⟨h, ?_⟩
          by_cases hx : x = id
          · exact .inr (hx ▸ hu)
          · exact .inl hx
        · exact fun h => h.1
    have al1 : OwnersAlive w1 := by
      intro x hx
      obtain ⟨p, hp⟩ := al x (f1.fewer x hx)
      refine ⟨p, ?_⟩
      rw [f1.owner]
      exact (f1.core _).trans hp
    have hl1 : w1.lost = [] := f1.lost.trans hl
    have hin : w1.inUse = w.inUse := by simp only [World.inUse, f1.accs]
    obtain ⟨w2, e2, i2, a2, l2, c2, m2⟩ := closeEach_spec l w1 i1 al1 hl1 hn.2 (by
      intro x hx
      exact (hmem x).2 ⟨hs x (by simp [hx]), .inl (by rintro rfl; exact hn.1 hx)⟩)
    refine ⟨w2, ?_, i2, a2.trans f1.accs, l2, fun k => (c2 k).trans (f1.core k), ?_⟩
    · rw [World.closeEach, if_pos hid, e]
      exact e2
    · intro x
      rw [m2, hmem, hin, List.mem_cons]
      constructor
      · rintro ⟨⟨h1, h2⟩, h3⟩
        refine ⟨h1, ?_⟩
        by_cases hu : x ∈ w.inUse
        · exact .inr hu
        · left
          rcases h2 with h2 | h2
          · rcases h3 with h3 | h3
            · exact fun h => h.elim h2 h3
            · exact absurd h3 hu
          · exact absurd h2 hu
      · rintro ⟨h1, h2⟩
        rcases h2 with h2 | h2
        · exact ⟨⟨h1, .inl fun h => h2 (.inl h)⟩, .inl fun h => h2 (.inr h)⟩
        · exact ⟨⟨h1, .inr h2⟩, .inr h2⟩

/-- **C114**, the full statement: in every state, `closeAll` ends and closes exactly the files that nobody uses. -/
def C114_full : Prop := ∀ limit, 1 ≤ limit → ∀ w, Reach (fun _ _ => True) limit w → ∀ order, order.Perm w.mgr.files →
  ∃ w', w.closeAll order = .ok w' ∧ w'.accs = w.accs ∧ w'.idle = [] ∧ w'.mgr.files.Perm w.inUse

/-- **C114**, for pools in which handlers outlive their accessors, and in which nobody asks for a stream of another type to write to a file
than the idle one: whatever the order of the files in the map, `closeAll` ends, the accessors and their descriptors are as before, no
handler has an idle descriptor, the open files are exactly those in use, and the handlers are those there were. -/
theorem C114_close_all_partial {limit : Nat} {w : World} (hr : Reach (fun w op => w.keepsHandlers op ∧ w.sameType op) limit w)
    {order : List Id} (ho : order.Perm w.mgr.files) :
    ∃ w', w.closeAll order = .ok w' ∧ w'.accs = w.accs ∧ w'.idle = [] ∧ w'.mgr.files.Perm w.inUse ∧
      ∀ k : Nat, (w'.handlers[k]?).map (fun hd : Handler => (hd.path, hd.alive)) = (w.handlers[k]?).map (fun hd : Handler => (hd.path, hd.alive)) := by
  obtain ⟨i, -⟩ := inv_reach hr
  have hl := lost_reach (fun _ _ h => h.2) hr
  have ha := alive_reach (fun _ _ h => h.1) hr
  have al : OwnersAlive w := by
    intro id hid
    have h1 : 0 < w.mgr.files.count id := List.count_pos_iff.2 hid
    have h2 := i.held id
    rw [hl, List.count_nil] at h2
    by_cases hu : id ∈ w.inUse
    · simp only [World.inUse, List.mem_map] at hu
      obtain ⟨a, ham, hae⟩ := hu
      obtain ⟨p, hp⟩ := ha.accs a ham
      exact ⟨p, by rw [← hae, i.ownAcc a ham]; exact hp⟩
    · have h3 : w.inUse.count id = 0 := List.count_eq_zero.2 hu
      have h4 : id ∈ w.idle := List.count_pos_iff.1 (by omega)
      simp only [World.idle, List.mem_flatMap, List.mem_map] at h4
      obtain ⟨hd, hm, fd, hfd, hfe⟩ := h4
      obtain ⟨k, hk⟩ := List.mem_iff_getElem?.1 hm
      have how := i.ownIdle k hd hk fd hfd
      rw [hfe] at how
      refine ⟨hd.path, ?_⟩
      rw [how, core, hk]
      cases hal : hd.alive with
      | true => simp [hal]
      | false =>
        rw [i.dead k hd hk hal] at hfd
        cases hfd
  have hn : order.Nodup := ho.nodup_iff.2 i.ok.nodupF
  obtain ⟨w', e, i', ha', hl', hc', hm⟩ := closeEach_spec order w i al hl hn (fun x hx => ho.mem_iff.1 hx)
  have hin : w'.inUse = w.inUse := by simp only [World.inUse, ha']
  have hsub : ∀ x, x ∈ w'.mgr.files → x ∈ w.inUse := by
    intro x hx
    obtain ⟨h1, h2 | h2⟩ := (hm x).1 hx
    · exact absurd (ho.mem_iff.2 h1) h2
    · exact h2
  have hidle : ∀ x, w'.idle.count x = 0 := by
    intro x
    rw [List.count_eq_zero]
    intro hx
    have h1 : 0 < w'.idle.count x := List.count_pos_iff.2 hx
    have h2 := i'.held x
    have h3 := files_count_le i' x
    have h4 : x ∈ w'.mgr.files := List.count_pos_iff.1 (by omega)
    have h5 : 0 < w'.inUse.count x := List.count_pos_iff.2 (hin ▸ hsub x h4)
    omega
  refine ⟨w', e, ha', ?_, ?_, hc'⟩
  · apply List.eq_nil_iff_forall_not_mem.2
    intro x hx
    exact absurd (hidle x) (by have := List.count_pos_iff.2 hx; omega)
  · rw [List.perm_iff_count]
    intro x
    have h1 := i'.held x
    have h2 := hidle x
    rw [hl', List.count_nil, hin] at h1
    omega

/-- A pool with an idle descriptor and one in use. -/
example : ∃ w, (World.new 3).run [.getHandler 0, .getHandler 1, .get 0 0 true false 10 true, .get 1 0 false false 11 true, .release 0] = .ok w ∧
    w.mgr.files = [10, 11] ∧ w.inUse = [11] ∧ w.idle = [10] ∧
    ∃ w', w.closeAll [11, 10] = .ok w' ∧ w'.mgr.files = [11] ∧ w'.idle = [] := ⟨_, rfl, rfl, rfl, rfl, _, rfl, rfl, rfl⟩

/-- **C114**, the destructor of the manager: no accessor exists then (each of them keeps the manager alive), so all files are closed, and no
handler that outlives the manager will use it. -/
theorem C114_destructor_partial {limit : Nat} {w : World} (hr : Reach (fun w op => w.keepsHandlers op ∧ w.sameType op) limit w)
    (hacc : w.accs = []) {order : List Id} (ho : order.Perm w.mgr.files) :
    ∃ w', w.closeAll order = .ok w' ∧ w'.mgr.files = [] ∧
      ∀ (h : Nat) (hd : Handler), w'.handlers[h]? = some hd → hd.avail = [] := by
  obtain ⟨w', e, _, hi, hp, _⟩ := C114_close_all_partial hr ho
  refine ⟨w', e, ?_, ?_⟩
  · rw [World.inUse, hacc] at hp
    exact hp.eq_nil
  · intro h hd hh
    cases ha : hd.avail with
    | nil => rfl
    | cons fd l =>
      exfalso
      have : fd.1 ∈ w'.idle := by
        simp only [World.idle, List.mem_flatMap, List.mem_map]
        exact ⟨hd, List.mem_of_getElem? hh, fd, by rw [ha]; simp, rfl⟩
      rw [hi] at this
      cases this

/-- **C114** fails: a descriptor that was dropped for one of another type (`FileHandler.icpp` 52-57) is still registered; its callback uses
the handler, also after that has been destroyed. -/
theorem C114_dangling_violated : ∃ w, (World.new 2).run [.getHandler 0, .get 0 0 true false 10 true, .release 0, .get 0 1 true false 11 true,
    .release 0, .drop 0] = .ok w ∧ w.accs = [] ∧ w.mgr.files = [10] ∧ w.closeAll [10] = .ub := ⟨_, rfl, rfl, rfl, rfl⟩

/-- **C114** fails also while the handler is there: the file stays registered for ever. -/
theorem C114_registered_violated : ∃ w w', (World.new 2).run [.getHandler 0, .get 0 0 true false 10 true, .release 0, .get 0 1 true false 11 true,
    .release 0] = .ok w ∧ w.accs = [] ∧ w.closeAll [10, 11] = .ok w' ∧ w'.mgr.files = [10] := ⟨_, _, rfl, rfl, rfl, rfl⟩

/-- **C114** fails if a handler is destroyed before its accessor: the callback of the descriptor in use uses the handler. -/
theorem C114_accessor_violated : ∃ w, (World.new 2).run [.getHandler 0, .get 0 0 true false 10 true, .drop 0] = .ok w ∧
    w.mgr.files = [10] ∧ w.closeAll [10] = .ub := ⟨_, rfl, rfl, rfl⟩

theorem C114_violated : ¬ C114_full := by
  intro h
  obtain ⟨w, hw, _, hf, hu⟩ := C114_dangling_violated
  obtain ⟨w', e, _⟩ := h 2 (by omega) w (reach_run _ .init (fun _ _ => trivial) hw) [10] (by rw [hf])
  rw [hu] at e
  cases e

/-! ## C115 -/

/-- **C115**, the full statement: "true if the path has an associated handler". -/
def C115_full : Prop := ∀ as s, TableState.new.run as = some s → (s.hasHandler = true ↔ ∃ h : Nat, s.hs[h]? = some .live)

/-- **C115** fails in both directions: while the deleter of the last handler is pending, and after the deleter of an earlier handler has
removed the entry of the present one. -/
theorem C115_violated : ¬ C115_full ∧
    (∃ s, TableState.new.run [.get, .drop 0] = some s ∧ s.hasHandler = true ∧ ∀ h : Nat, s.hs[h]? ≠ some .live) ∧
    (∃ s, TableState.new.run [.get, .drop 0, .get, .delete 0] = some s ∧ s.hasHandler = false ∧ s.hs[1]? = some .live) := by
  have h1 : ∃ s, TableState.new.run [.get, .drop 0] = some s ∧ s.hasHandler = true ∧ ∀ h : Nat, s.hs[h]? ≠ some .live := by
    refine ⟨⟨some 0, [.expired]⟩, rfl, rfl, ?_⟩
    intro h
    match h with
    | 0 => simp
    | n + 1 => simp
  refine ⟨?_, h1, ⟨⟨none, [.gone, .live]⟩, rfl, rfl, rfl⟩⟩
  intro hf
  obtain ⟨s, e, h2, h3⟩ := h1
  obtain ⟨h, hh⟩ := (hf _ s e).1 h2
  exact h3 h hh

theorem entry_quiet {s : TableState} (hr : QuietRun s) : ∀ h, s.entry = some h → s.hs[h]? = some .live ∨ s.hs[h]? = some .expired := by
  induction hr with
  | init => intro h hh; cases hh
  | @step s s' a _ hq hs ih =>
    intro h hh
    cases a with
    | get =>
      simp only [TableState.step] at hs
      split at hs
      · simp at hs; subst hs; exact ih h hh
      · simp at hs; subst hs
        cases hh
        left; simp
    | drop d =>
      simp only [TableState.step] at hs
      split at hs
      · rename_i e
        simp at hs; subst hs
        have hl := (List.getElem?_eq_some_iff.1 e).1
        simp only at hh ⊢
        rw [List.getElem?_set]
        split
        · right; simp [hl]
        · exact ih h hh
      · cases hs
    | delete d =>
      simp only [TableState.step] at hs
      split at hs
      · simp at hs; subst hs; cases hh
      · cases hs

/-- **C115**, partial: if nobody asks for the handler of a path while a deleter for that path is pending, and none is pending now, then
`hasHandler` tells whether a handler is alive. -/
theorem C115_has_handler_partial {s : TableState} (hr : QuietRun s) (hq : s.quiet) :
    s.hasHandler = true ↔ ∃ h : Nat, s.hs[h]? = some .live := by
  constructor
  · intro h
    obtain ⟨k, hk⟩ := Option.isSome_iff_exists.1 h
    rcases entry_quiet hr k hk with h1 | h1
    · exact ⟨k, h1⟩
    · exact absurd (List.mem_of_getElem? h1) hq
  · rintro ⟨k, hk⟩
    have := ((tableInv_quiet hr).entry k hk).1
    simp [TableState.hasHandler, this]

/-- A live handler is always found under that condition, also while a deleter is pending. -/
theorem C115_live_partial {s : TableState} (hr : QuietRun s) {h : Nat} (hl : s.hs[h]? = some .live) : s.hasHandler = true := by
  have := ((tableInv_quiet hr).entry h hl).1
  simp [TableState.hasHandler, this]

example : QuietRun ⟨some 1, [.gone, .live]⟩ ∧ (⟨some 1, [.gone, .live]⟩ : TableState).quiet ∧
    (⟨some 1, [.gone, .live]⟩ : TableState).hasHandler = true := by
  refine ⟨?_, by simp [TableState.quiet], rfl⟩
  have h1 : QuietRun ⟨some 0, [.live]⟩ := .step (a := .get) .init (fun _ => by simp [TableState.quiet, TableState.new]) rfl
  have h2 : QuietRun ⟨some 0, [.expired]⟩ := .step (a := .drop 0) h1 (fun h => (by cases h)) rfl
  have h3 : QuietRun ⟨none, [.gone]⟩ := .step (a := .delete 0) h2 (fun h => (by cases h)) rfl
  exact .step (a := .get) h3 (fun _ => by simp [TableState.quiet]) rfl

theorem hasHandler_run : ∀ (as : List TableAction) (s s' : TableState), s.run as = some s' →
    (s'.hasHandler = true ↔ (∃ before after, as = before ++ .get :: after ∧ ∀ h, .delete h ∉ after) ∨ (s.hasHandler = true ∧ ∀ h, .delete h ∉ as))
  | [], s, s', e => by
    cases e
    simp
  | a :: as, s, s', e => by
    simp only [TableState.run] at e
    cases ha : s.step a with
    | none => rw [ha] at e; cases e
    | some t =>
      rw [ha] at e
      rw [hasHandler_run as t s' e]
      have hcons : (∃ before after, a :: as = before ++ .get :: after ∧ ∀ h, .delete h ∉ after) ↔
          (a = .get ∧ ∀ h, .delete h ∉ as) ∨ ∃ before after, as = before ++ .get :: after ∧ ∀ h, .delete h ∉ after := by
        constructor
        · rintro ⟨before, after, e1, e2⟩
          cases before with
          | nil =>
            simp only [List.nil_append, List.cons.injEq] at e1
            exact Or.inl ⟨e1.1, e1.2 ▸ e2⟩
          | cons b before =>
            simp only [List.cons_append, List.cons.injEq] at e1
            exact Or.inr ⟨before, after, e1.2, e2⟩
        · rintro (⟨rfl, e2⟩ | ⟨before, after, e1, e2⟩)
          · exact ⟨[], as, rfl, e2⟩
          · exact ⟨a :: before, after, by rw [e1]; rfl, e2⟩
      rw [hcons]
      cases a with
      | get =>
        have ht : t.hasHandler = true := by
          simp only [TableState.step] at ha
          by_cases hl : (s.entry.bind (fun h => s.hs[h]?)) = some .live
          · rw [if_pos hl, Option.some.injEq] at ha
            subst ha
            cases he : s.entry with
            | none => rw [he] at hl; cases hl
            | some k => simp [TableState.hasHandler, he]
          · rw [if_neg hl, Option.some.injEq] at ha
            subst ha
            rfl
        simp only [ht, true_and, List.mem_cons, reduceCtorEq, false_or]
        clear hcons
        generalize (∃ before after, as = before ++ TableAction.get :: after ∧ ∀ h, TableAction.delete h ∉ after) = P
        generalize (∀ h, TableAction.delete h ∉ as) = Q
        tauto
      | drop k =>
        have ht : t.hasHandler = s.hasHandler := by
          simp only [TableState.step] at ha
          split at ha
          · rw [Option.some.injEq] at ha
            subst ha
            rfl
          · cases ha
        simp only [ht, List.mem_cons, reduceCtorEq, false_or, false_and]
      | delete k =>
        have ht : t.hasHandler = false := by
          simp only [TableState.step] at ha
          split at ha
          · rw [Option.some.injEq] at ha
            subst ha
            rfl
          · cases ha
        have hd : ¬ ∀ h, TableAction.delete h ∉ TableAction.delete k :: as := fun h => h k (by simp)
        simp only [ht, Bool.false_eq_true, false_and, or_false, reduceCtorEq, false_or, hd, and_false]

/-- **C115**, exactly: `hasHandler` says true if and only if the handler of the path has been asked for since the last time a deleter for the path ran,
whether or not somebody still has it. -/
theorem C115_history (as : List TableAction) (s : TableState) (h : TableState.new.run as = some s) :
    s.hasHandler = true ↔ ∃ before after, as = before ++ .get :: after ∧ ∀ h, .delete h ∉ after := by
  rw [hasHandler_run as _ s h]
  simp [TableState.hasHandler, TableState.new]

/-- A handler is got, dropped and got again, and the deleter of the first one runs late. -/
example : ∃ s, TableState.new.run [.get, .drop 0, .get, .delete 0] = some s ∧ s.hasHandler = false := ⟨_, rfl, rfl⟩

end Alexandria.FilePool
