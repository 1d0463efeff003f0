import Verif.FilePool.ThreadsLemmas

/-!
# C127, C128, C129: the pool with several threads
-/

namespace Alexandria.FilePool.Threads

/-! ## Specification -/

namespace Spec

/-- Request `r` has an accessor for the stream `id`. -/
def Has (s : State) (r : Nat) (id : Id) : Prop := s.stage r = .held id

/-- Request `r` has still to lock the mutex of handler `h`. -/
def Needs (P : Params) (s : State) (r h : Nat) : Prop :=
  match s.stage r with
  | .wantHandler | .held _ => P.target r = h
  | .asking _ _ o | .sweepAsk _ o _ => o = h
  | _ => False

/-- Request `r` cannot go on before `r'` releases the mutex of a handler. -/
def WaitsFor (P : Params) (s : State) (r r' : Nat) : Prop := ∃ h, Needs P s r h ∧ (s.hds h).holder = some r'

/-- Some requests wait for each other. -/
def Deadlock (P : Params) (s : State) : Prop := ∃ S : List Nat, S ≠ [] ∧ ∀ r ∈ S, ∃ r' ∈ S, WaitsFor P s r r'

/-- Request `r` has found the manager full and asks the owner of a file to close it. -/
def Asks (s : State) (r : Nat) : Prop := ∃ n id o, s.stage r = .asking n id o

end Spec

section
variable {P : Params} {s : State}

/-! ## C127: accessors of several threads -/

/-- **C127**: in every interleaving of requests, two accessors never share a stream, and a write accessor is the only one of its file. -/
theorem C127_exclusive (as : List Action) (h : run P State.init as = .ok s) {r r' : Nat} {id id' : Id} (h1 : Spec.Has s r id)
    (h2 : Spec.Has s r' id') (hne : r ≠ r') : id ≠ id' ∧ (P.target r = P.target r' → P.write r = false ∧ P.write r' = false) := by
  have hi := inv_run (inv_init P) as h
  unfold Spec.Has at h1 h2
  have l1 : (s.stage r).locked = true := by rw [h1]; rfl
  have l2 : (s.stage r').locked = true := by rw [h2]; rfl
  refine ⟨fun e => hne (hi.unique r r' id (by rw [h1]; rfl) (by rw [h2, e]; rfl)), fun ht => ⟨?_, ?_⟩⟩
  · cases w : P.write r with
    | false => rfl
    | true => exact absurd (hi.alone r r' l1 l2 ht w) hne
  · cases w : P.write r' with
    | false => rfl
    | true => exact absurd (hi.alone r' r l2 l1 ht.symm w).symm hne

/-- **C127**: the manager knows the stream of every accessor (it is counted, and has one place in the order of use), its owner is the handler of
the request, and it is not among the idle ones. -/
theorem C127_known (as : List Action) (h : run P State.init as = .ok s) {r : Nat} {id : Id} (h1 : Spec.Has s r id) :
    id ∈ s.files ∧ (ids s.sorted).count id = 1 ∧ s.owner id = P.target r ∧ ∀ g, id ∉ (s.hds g).avail := by
  have hi := inv_run (inv_init P) as h
  unfold Spec.Has at h1
  obtain ⟨hf, ho, ha⟩ := hi.fd r id (by rw [h1]; rfl)
  have hm : id ∈ ids s.sorted := by
    refine (hi.sorted id).2 ⟨hf, fun x hb => ?_⟩
    have := hi.between_fd x r id hb (by rw [h1]; rfl)
    rw [this, h1] at hb
    cases hb
  refine ⟨hf, hi.snodup.count.trans (by simp [hm]), ho, fun g hg => ?_⟩
  have := (hi.avail g id hg).2
  rw [ho] at this
  exact ha (this ▸ hg)

/-- **C127**: no stream is lost. When no request is under way, the files that the manager counts are the idle ones of the handlers, and each is in
the order of use once. -/
theorem C127_accounted (as : List Action) (h : run P State.init as = .ok s)
    (hq : ∀ r, s.stage r = .wantFile ∨ s.stage r = .finished) :
    s.files.Nodup ∧ (ids s.sorted).Perm s.files ∧ ∀ id, id ∈ s.files ↔ ∃ g, id ∈ (s.hds g).avail := by
  have hi := inv_run (inv_init P) as h
  refine ⟨hi.fnodup, (List.perm_ext_iff_of_nodup hi.snodup hi.fnodup).2 fun id => ?_, fun id => ⟨fun hf => ?_, fun ⟨g, hg⟩ => (hi.avail g id hg).1⟩⟩
  · rw [hi.sorted]
    exact ⟨fun h => h.1, fun h => ⟨h, fun r => by rcases hq r with e | e <;> rw [e] <;> simp [Stage.between]⟩⟩
  · rcases hi.place id hf with h | ⟨r, h⟩
    · exact ⟨_, h⟩
    · exfalso
      rcases hq r with e | e <;> rw [e] at h <;> cases h

/-- **C127**: when no request is under way, no lock is held. -/
theorem C127_unlocked (as : List Action) (h : run P State.init as = .ok s)
    (hq : ∀ r, s.stage r = .wantFile ∨ s.stage r = .finished) (g : Nat) :
    (s.hds g).holder = none ∧ (s.hds g).writer = none ∧ (s.hds g).readers = [] := by
  have hi := inv_run (inv_init P) as h
  refine ⟨?_, ?_, ?_⟩
  · cases e : (s.hds g).holder with
    | none => rfl
    | some r =>
      rw [hi.holder] at e
      unfold holds at e
      rcases hq r with h | h <;> rw [h] at e <;> simp [Stage.own, Stage.other] at e
  · cases e : (s.hds g).writer with
    | none => rfl
    | some r =>
      rw [hi.writer] at e
      rcases hq r with h | h <;> rw [h] at e <;> simp [Stage.locked] at e
  · rw [List.eq_nil_iff_forall_not_mem]
    intro r e
    rw [hi.readers] at e
    rcases hq r with h | h <;> rw [h] at e <;> simp [Stage.locked] at e

/-- The steps of a request that opens the file `id`. -/
def opens (r : Nat) (id : Id) : List Action :=
  [⟨r, 0, true⟩, ⟨r, 0, true⟩, ⟨r, 0, true⟩, ⟨r, 0, true⟩, ⟨r, 0, true⟩, ⟨r, id, true⟩, ⟨r, 0, true⟩, ⟨r, 0, true⟩]

/-- The next `n` steps of request `r`. -/
def moves (r n : Nat) : List Action := List.replicate n ⟨r, 0, true⟩

/-- Two readers of one file and a writer of another one, which evicts the idle stream of the first reader. -/
example : ∃ s, run ⟨2, fun r => if r = 2 then 1 else 0, fun r => r == 2, fun _ => false⟩ State.init
      (opens 0 10 ++ opens 1 11 ++ moves 0 2 ++ moves 2 5 ++ moves 2 4 ++ [⟨2, 12, true⟩] ++ moves 2 2) = .ok s ∧
    Spec.Has s 1 11 ∧ Spec.Has s 2 12 ∧ s.files = [11, 12] ∧ ids s.sorted = [11, 12] := ⟨_, rfl, rfl, rfl, rfl, rfl⟩

/-! ## C128: eviction with several threads -/

/-- **C128**, the full statement: no execution comes to undefined behaviour, and in none do requests wait for each other. -/
def C128_full : Prop := ∀ P as, 1 ≤ P.limit → (∀ r, P.sweep r = false) → run P State.init as ≠ .ub ∧ ∀ s, run P State.init as = .ok s → ¬ Spec.Deadlock P s

/-- **C128** fails: `notifyIntentToOpen` iterates over `m_sorted_ids` and releases the mutex in between. Request 1 (limit 1) asks for the file of
request 0 to be closed while that one is still in `getAccessor`; `notifyUsed` erases the element that the iterator of request 1 is at; the
callback refuses, and the loop advances an invalid iterator. -/
theorem C128_violated : ¬ C128_full := by
  intro h
  exact (h ⟨1, fun r => r, fun _ => false, fun _ => false⟩ ((opens 0 10).take 7 ++ moves 1 5 ++ moves 0 1 ++ moves 1 2) (by decide) (fun _ => rfl)).1 rfl

/-- **C128**, the second half of the full statement. -/
def C128_deadlock_full : Prop := ∀ P as, 1 ≤ P.limit → (∀ r, P.sweep r = false) → ∀ s, run P State.init as = .ok s → ¬ Spec.Deadlock P s

/-- **C128** fails also without undefined behaviour: requests 2 and 4 hold the mutex of their handler and ask the handler of the other one to close
a file. (Limit 2; request 2 has chosen the file of handler 0 when request 3 takes that file, so that request 4 finds the file of handler
1 to be the oldest.) -/
theorem C128_deadlock_violated : ¬ C128_deadlock_full := by
  intro h
  obtain ⟨s, e, h1, h2, h3, h4⟩ : ∃ s, run ⟨2, fun r => if r = 1 ∨ r = 2 then 1 else 0, fun _ => false, fun _ => false⟩ State.init
      (opens 0 10 ++ opens 1 11 ++ moves 0 2 ++ moves 2 5 ++ moves 3 5 ++ moves 4 5) = .ok s ∧
      s.stage 2 = .asking 1 10 0 ∧ s.stage 4 = .asking 3 11 1 ∧ (s.hds 0).holder = some 4 ∧ (s.hds 1).holder = some 2 :=
    ⟨_, rfl, rfl, rfl, rfl, rfl⟩
  refine h _ _ (by decide) (fun _ => rfl) s e ⟨[2, 4], by simp, ?_⟩
  intro r hr
  simp only [List.mem_cons, List.not_mem_nil, or_false] at hr
  rcases hr with rfl | rfl
  · exact ⟨4, by simp, 0, by simp [Spec.Needs, h1], h3⟩
  · exact ⟨2, by simp, 1, by simp [Spec.Needs, h2], h4⟩

/-- **C128**, partial: in every interleaving, exactly three steps are undefined: a request that has found the manager full asks the handler whose mutex
it holds itself, or it advances an iterator whose element has been erased; and `closeAll` uses a block that has been deleted. -/
theorem C128_ub_partial (as : List Action) (h : run P State.init as = .ok s) (a : Action) : step P s a = .ub ↔
    (∃ n id, s.stage a.r = .asking n id (P.target a.r)) ∨ (∃ n, s.stage a.r = .refused n ∧ n ∉ nodes s.sorted) ∨
    (∃ id l, s.stage a.r = .sweep (id :: l) ∧ id ∉ s.files) := by
  have hi := inv_run (inv_init P) as h
  refine ⟨ub_cases hi, ?_⟩
  rintro (⟨n, id, e⟩ | ⟨n, e, hn⟩ | ⟨id, l, e, hn⟩)
  · simp [step, e, hi.mine a.r (by rw [e]; rfl)]
  · simp [step, e, hn]
  · simp [step, e, hn]

/-- **C128**, partial: requests wait for each other only if one of them has found the manager full and asks another handler. -/
theorem C128_deadlock_partial (as : List Action) (h : run P State.init as = .ok s) (hd : Spec.Deadlock P s) : ∃ r, Spec.Asks s r := by
  have hi := inv_run (inv_init P) as h
  obtain ⟨S, hS, hw⟩ := hd
  obtain ⟨r, hr⟩ := List.exists_mem_of_ne_nil S hS
  obtain ⟨r', hr', g, _, hh⟩ := hw r hr
  obtain ⟨_, _, g', hn, _⟩ := hw r' hr'
  rw [hi.holder] at hh
  refine ⟨r', ?_⟩
  unfold holds at hh
  unfold Spec.Needs at hn
  unfold Spec.Asks
  cases e : s.stage r' <;> rw [e] at hh hn <;> simp [Stage.own, Stage.other] at hh hn ⊢

/-- **C128**, partial: if there are no more requests than files may be open, no execution is undefined, requests never wait for each other, and
some request can always move until all have finished. -/
theorem C128_room_partial {L : List Nat} (hL : L.length ≤ P.limit) (hp : ∀ r ∈ L, P.sweep r = false) (as : List Action) (ha : ∀ a ∈ as, a.r ∈ L) :
    run P State.init as ≠ .ub ∧ ∀ s, run P State.init as = .ok s →
      ¬ Spec.Deadlock P s ∧ ((∃ r ∈ L, s.stage r ≠ .finished) → ∃ a s', a.r ∈ L ∧ step P s a = .ok s') := by
  have hr := room_run hL (inv_init P) (room_init fun r hr => ⟨hp r hr, by simp⟩) as ha
  refine ⟨hr.1, fun s h => ⟨fun hd => ?_, fun hu => room_progress (inv_run (inv_init P) as h) (hr.2 s h) hu⟩⟩
  obtain ⟨r, n, id, o, e⟩ := C128_deadlock_partial as h hd
  have := (hr.2 s h).calm r (by simp)
  rw [e] at this
  cases this

/-- Two readers and a writer of one file, limit 3: the writer waits for the readers, then closes their streams and opens its own. -/
example : ∃ s, run ⟨3, fun _ => 0, fun r => r == 2, fun _ => false⟩ State.init
      (opens 0 10 ++ opens 1 11 ++ moves 0 2 ++ moves 1 2 ++ moves 2 9 ++ [⟨2, 12, true⟩] ++ moves 2 2) = .ok s ∧
    Spec.Has s 2 12 ∧ s.files = [12] ∧ (s.hds 0).readOnly = false := ⟨_, rfl, rfl, rfl, rfl⟩

/-! ## C129: `closeAll` with several threads -/

/-- **C129**, the full statement: calls of `closeAll` beside requests for accessors are not undefined if no request finds the manager full. -/
def C129_full : Prop := ∀ P (L : List Nat) as, L.length ≤ P.limit → (∀ a ∈ as, a.r ∈ L ∨ P.sweep a.r = true) → (∀ r ∈ L, P.sweep r = false) →
  run P State.init as ≠ .ub

/-- **C129** fails: `closeAll` collects pointers to the blocks and uses them after it has released the mutex; here a writer closes the idle stream
of a reader in between. -/
theorem C129_violated : ¬ C129_full := by
  intro h
  exact h ⟨2, fun _ => 0, fun r => r == 1, fun r => r == 2⟩ [0, 1] (opens 0 10 ++ moves 0 2 ++ moves 2 1 ++ moves 1 4 ++ moves 2 1)
    (by decide) (by decide) (by decide) rfl

/-- Two calls of `closeAll` suffice, too. -/
example : run ⟨1, fun _ => 0, fun _ => false, fun r => r != 0⟩ State.init (opens 0 10 ++ moves 0 2 ++ moves 1 1 ++ moves 2 1 ++ moves 1 4 ++ moves 2 1)
    = .ub := rfl

/-- **C129**, partial: one call of `closeAll` beside readers, no more than files may be open: nothing is undefined, and no requests wait for each
other. -/
theorem C129_readers_partial {L : List Nat} {c : Nat} (hL : L.length ≤ P.limit) (hp : ∀ r ∈ L, P.sweep r = false ∧ P.write r = false)
    (hc : P.sweep c = true) (as : List Action) (ha : ∀ a ∈ as, a.r ∈ L ∨ a.r = c) :
    run P State.init as ≠ .ub ∧ ∀ s, run P State.init as = .ok s → ¬ Spec.Deadlock P s := by
  have hr := sweep_run hL (inv_init P) (sweep_init hp hc) as ha
  refine ⟨hr.1, fun s h hd => ?_⟩
  obtain ⟨r, n, id, o, e⟩ := C128_deadlock_partial as h hd
  by_cases hrc : r = c
  · have := (hr.2 s h).stage
    rw [← hrc, e] at this
    cases this
  · have := (hr.2 s h).room.calm r (by simpa using hrc)
    rw [e] at this
    cases this

/-- `closeAll` has chosen the idle stream when a reader takes it; it is not closed. -/
example : ∃ s, run ⟨2, fun _ => 0, fun _ => false, fun r => r == 2⟩ State.init
      (opens 0 10 ++ moves 0 2 ++ moves 2 2 ++ moves 1 5 ++ moves 2 2) = .ok s ∧
    Spec.Has s 1 10 ∧ s.files = [10] ∧ s.stage 2 = .finished := ⟨_, rfl, rfl, rfl, rfl⟩

/-- **C129**: a call of `closeAll` that is not disturbed returns; it closes exactly the streams that no request has, and changes nothing else. -/
theorem C129_alone (as : List Action) (h : run P State.init as = .ok s) {c : Nat} (hc : s.stage c = .wantFile) (hk : P.sweep c = true)
    (hq : ∀ g, (s.hds g).holder = none) :
    ∃ n s', run P s (moves c n) = .ok s' ∧ s'.stage c = .finished ∧ (∀ r, r ≠ c → s'.stage r = s.stage r) ∧
      (∀ g, s'.hds g = { s.hds g with avail := [] }) ∧ ∀ id, id ∈ s'.files ↔ id ∈ s.files ∧ ∃ r, (s.stage r).fd = some id := by
  have hv := inv_run (inv_init P) as h
  have h1 : step P s ⟨c, 0, true⟩ = .ok (s.to c (.sweep s.files)) := by simp [step, hc, hk]
  have v1 := inv_step hv h1
  obtain ⟨n, s', h2, t2, o2, hd2, f2⟩ := sweep_alone (c := c) s.files v1 hq (by simp [State.to, upd]) hv.fnodup (fun _ h => h)
  have o : ∀ r, r ≠ c → s'.stage r = s.stage r := fun r hr => by rw [o2 r hr]; simp [State.to, upd, hr]
  have ha : ∀ g, s'.hds g = { s.hds g with avail := [] } := by
    intro g
    rw [hd2]
    apply congrArg (s.hds g).withAvail
    rw [List.filter_eq_nil_iff]
    intro i hi
    simpa using (hv.avail g i hi).1
  have v2 := inv_run v1 _ h2
  refine ⟨n + 1, s', ?_, t2, o, ha, fun id => ⟨fun hm => ⟨f2 id hm, ?_⟩, fun ⟨hm, r, hr⟩ => ?_⟩⟩
  · unfold moves
    rw [List.replicate_succ, run_one h1, h2]
  · rcases v2.place id hm with h | ⟨r, hr⟩
    · rw [ha] at h
      cases h
    · have : r ≠ c := fun e => by rw [e, t2] at hr; cases hr
      exact ⟨r, by rw [← o r this]; exact hr⟩
  · have : r ≠ c := fun e => by rw [e, hc] at hr; cases hr
    exact (v2.fd r id (by rw [o r this]; exact hr)).1

/-- A stream that is in use and an idle one. -/
example : ∃ s s', run ⟨2, fun _ => 0, fun _ => false, fun r => r == 2⟩ State.init (opens 0 10 ++ opens 1 11 ++ moves 0 2) = .ok s ∧
    run ⟨2, fun _ => 0, fun _ => false, fun r => r == 2⟩ s (moves 2 8) = .ok s' ∧ s.files = [10, 11] ∧ s'.files = [11] ∧
    s'.stage 2 = .finished ∧ Spec.Has s' 1 11 := ⟨_, _, rfl, rfl, rfl, rfl, rfl, rfl⟩

end

end Alexandria.FilePool.Threads
