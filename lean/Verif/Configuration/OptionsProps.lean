import Verif.Configuration.OptionsModel
import Verif.Configuration.Props
import Mathlib.Data.List.Perm.Basic
import Mathlib.Data.List.Nodup
import Mathlib.Data.String.Basic

/-!
# The options that closing the registration returns (C138)
-/

namespace Alexandria.Configuration

variable {O : Type}

/-- The options which groups of the name `n` hold. -/
def Spec.inGroup (n : String) (g : Groups O) : List O := (g.filter fun p => p.1 = n).flatMap (·.2)

theorem inGroup_cons (n : String) (p : String × List O) (g : Groups O) :
    Spec.inGroup n (p :: g) = (if p.1 = n then p.2 else []) ++ Spec.inGroup n g := by
  by_cases h : p.1 = n <;> simp [Spec.inGroup, h]

theorem addGroup_perm (name : String) (l : List O) (g : Groups O) : (flat (addGroup name l g)).Perm (flat g ++ l) := by
  induction g with
  | nil => simp [addGroup, flat]
  | cons p r ih =>
    obtain ⟨n, k⟩ := p
    unfold addGroup
    by_cases h1 : name < n
    · rw [if_pos h1]
      simp only [flat, List.flatMap_cons]
      exact List.perm_append_comm
    · rw [if_neg h1]
      by_cases h2 : name = n
      · rw [if_pos h2]
        simp only [flat, List.flatMap_cons, List.append_assoc]
        exact List.Perm.append_left _ List.perm_append_comm
      · rw [if_neg h2]
        simp only [flat, List.flatMap_cons, List.append_assoc]
        exact List.Perm.append_left _ ih

theorem addGroup_names (name : String) (l : List O) (g : Groups O) (x : String) :
    x ∈ (addGroup name l g).map (·.1) ↔ x = name ∨ x ∈ g.map (·.1) := by
  induction g with
  | nil => simp [addGroup]
  | cons p r ih =>
    obtain ⟨n, k⟩ := p
    unfold addGroup
    by_cases h1 : name < n
    · rw [if_pos h1]; simp
    · rw [if_neg h1]
      by_cases h2 : name = n
      · rw [if_pos h2]; simp [h2]
      · rw [if_neg h2]
        rw [List.map_cons, List.mem_cons, ih, List.map_cons, List.mem_cons]
        tauto

theorem addGroup_sorted (name : String) (l : List O) (g : Groups O) (h : (g.map (·.1)).Pairwise (· < ·)) :
    ((addGroup name l g).map (·.1)).Pairwise (· < ·) := by
  induction g with
  | nil => simp [addGroup]
  | cons p r ih =>
    obtain ⟨n, k⟩ := p
    rw [List.map_cons, List.pairwise_cons] at h
    unfold addGroup
    by_cases h1 : name < n
    · rw [if_pos h1, List.map_cons, List.map_cons, List.pairwise_cons, List.pairwise_cons]
      refine ⟨?_, h⟩
      intro x hx
      rcases List.mem_cons.mp hx with rfl | hx
      · exact h1
      · exact lt_trans h1 (h.1 x hx)
    · rw [if_neg h1]
      by_cases h2 : name = n
      · rw [if_pos h2, List.map_cons, List.pairwise_cons]
        exact h
      · rw [if_neg h2, List.map_cons, List.pairwise_cons]
        refine ⟨?_, ih h.2⟩
        intro x hx
        rcases (addGroup_names name l r x).mp hx with rfl | hx
        · exact lt_of_le_of_ne (not_lt.mp h1) (Ne.symm h2)
        · exact h.1 x hx

theorem addGroup_inGroup (name : String) (l : List O) (g : Groups O) (h : (g.map (·.1)).Pairwise (· < ·)) (n : String) :
    Spec.inGroup n (addGroup name l g) = Spec.inGroup n g ++ if name = n then l else [] := by
  induction g with
  | nil => by_cases h : name = n <;> simp [addGroup, Spec.inGroup, h]
  | cons p r ih =>
    obtain ⟨k, v⟩ := p
    rw [List.map_cons, List.pairwise_cons] at h
    have hnone : ∀ y : String, y ≤ k → Spec.inGroup y r = [] := by
      intro y hy
      unfold Spec.inGroup
      rw [List.filter_eq_nil_iff.mpr]
      · rfl
      · intro q hq he
        have := h.1 q.1 (List.mem_map_of_mem hq)
        rw [decide_eq_true_eq] at he
        rw [he] at this
        exact absurd this (not_lt.mpr hy)
    unfold addGroup
    by_cases h1 : name < k
    · rw [if_pos h1, inGroup_cons]
      by_cases h3 : name = n
      · subst h3
        have hk : ¬ k = name := ne_of_gt h1
        rw [inGroup_cons, hnone _ (le_of_lt h1)]
        simp [hk]
      · simp [h3]
    · rw [if_neg h1]
      by_cases h2 : name = k
      · subst h2
        rw [if_pos rfl, inGroup_cons, inGroup_cons]
        by_cases h3 : name = n
        · subst h3
          rw [if_pos rfl, if_pos rfl, if_pos rfl, hnone _ le_rfl]
          simp
        · rw [if_neg h3, if_neg h3, if_neg h3]; simp
      · rw [if_neg h2, inGroup_cons, inGroup_cons, ih h.2, List.append_assoc]

theorem addConfig_spec (g : Groups O) : ∀ (a : Groups O), (a.map (·.1)).Pairwise (· < ·) →
    ((addConfig a g).map (·.1)).Pairwise (· < ·) ∧ (∀ x, x ∈ (addConfig a g).map (·.1) ↔ x ∈ a.map (·.1) ∨ x ∈ g.map (·.1)) ∧
    (∀ n, Spec.inGroup n (addConfig a g) = Spec.inGroup n a ++ Spec.inGroup n g) ∧ (flat (addConfig a g)).Perm (flat a ++ flat g) := by
  induction g with
  | nil => intro a h; exact ⟨h, by simp [addConfig], by simp [addConfig, Spec.inGroup], by simp [addConfig, flat]⟩
  | cons p g ih =>
    intro a h
    obtain ⟨s, nm, gr, pe⟩ := ih (addGroup p.1 p.2 a) (addGroup_sorted _ _ _ h)
    change ((addConfig a (p :: g)).map (·.1)).Pairwise (· < ·) at s
    change ∀ x, x ∈ (addConfig a (p :: g)).map (·.1) ↔ _ at nm
    change ∀ n, Spec.inGroup n (addConfig a (p :: g)) = _ at gr
    change (flat (addConfig a (p :: g))).Perm _ at pe
    refine ⟨s, ?_, ?_, ?_⟩
    · intro x
      rw [nm, addGroup_names, List.map_cons, List.mem_cons]
      tauto
    · intro n
      rw [gr, addGroup_inGroup _ _ _ h, inGroup_cons, List.append_assoc]
    · refine pe.trans ?_
      have e : flat (p :: g) = p.2 ++ flat g := by simp [flat]
      rw [e, ← List.append_assoc]
      exact List.Perm.append_right _ (addGroup_perm _ _ _)

theorem collect_spec (opts : Id → Groups O) (dict : List Id) : ∀ (a : Groups O), (a.map (·.1)).Pairwise (· < ·) →
    ((dict.foldl (fun a i => addConfig a (opts i)) a).map (·.1)).Pairwise (· < ·) ∧
    (∀ x, x ∈ (dict.foldl (fun a i => addConfig a (opts i)) a).map (·.1) ↔ x ∈ a.map (·.1) ∨ ∃ i ∈ dict, x ∈ (opts i).map (·.1)) ∧
    (∀ n, Spec.inGroup n (dict.foldl (fun a i => addConfig a (opts i)) a) =
      Spec.inGroup n a ++ dict.flatMap fun i => Spec.inGroup n (opts i)) ∧
    (flat (dict.foldl (fun a i => addConfig a (opts i)) a)).Perm (flat a ++ dict.flatMap fun i => flat (opts i)) := by
  induction dict with
  | nil => intro a h; exact ⟨h, by simp, by simp, by simp⟩
  | cons i d ih =>
    intro a h
    obtain ⟨s1, nm1, gr1, pe1⟩ := addConfig_spec (opts i) a h
    obtain ⟨s, nm, gr, pe⟩ := ih _ s1
    rw [List.foldl_cons]
    refine ⟨s, ?_, ?_, ?_⟩
    · intro x
      rw [nm, nm1, or_assoc]
      refine or_congr_right ?_
      constructor
      · rintro (hx | ⟨j, hj, hx⟩)
        · exact ⟨i, by simp, hx⟩
        · exact ⟨j, by simp [hj], hx⟩
      · rintro ⟨j, hj, hx⟩
        rcases List.mem_cons.mp hj with rfl | hj
        · exact .inl hx
        · exact .inr ⟨j, hj, hx⟩
    · intro n
      rw [gr, gr1, List.flatMap_cons, List.append_assoc]
    · rw [List.flatMap_cons, ← List.append_assoc]
      exact pe.trans (List.Perm.append_right _ pe1)

/-! ## C138 -/

/-- What a registration that closes normally returns: the groups of options of the registered configurations, each once and in
alphabetic order; in each of them the options which the configurations have in groups of that name, configuration by configuration;
and all in all every option of every registered configuration exactly as often as it is declared, and nothing else. -/
theorem C138_options (p : Program) (opts : Id → Groups O) (fuel : Nat) (m m' : Manager) (g : Groups O)
    (h : closeOptions p opts fuel m = some (m', .ok g)) :
    (g.map (·.1)).Pairwise (· < ·) ∧ (∀ n, n ∈ g.map (·.1) ↔ ∃ i ∈ m.dict, n ∈ (opts i).map (·.1)) ∧
    (∀ n, Spec.inGroup n g = m.dict.flatMap fun i => Spec.inGroup n (opts i)) ∧
    (flat g).Perm (m.dict.flatMap fun i => flat (opts i)) := by
  unfold closeOptions at h
  cases hc : close p fuel m with
  | none => rw [hc] at h; simp at h
  | some q =>
    obtain ⟨mq, r⟩ := q
    rw [hc] at h
    cases r with
    | ok u =>
      simp only [Option.some.injEq, Prod.mk.injEq, Outcome.ok.injEq] at h
      rw [← h.2]
      have := collect_spec opts m.dict [] (by simp)
      simpa [collect, Spec.inGroup, flat] using this
    | throw e => simp at h
    | ub => simp at h

/-- When the dependencies have no cycle, every registration does close with a list of options. -/
theorem C138_returns (p : Program) (opts : Id → Groups O) (m : Manager) (hb : ∀ i ∈ m.dict, i ∈ m.built)
    (hac : Spec.Acyclic (Spec.Depends p m)) : ∃ fuel m' g, closeOptions p opts fuel m = some (m', .ok g) := by
  obtain ⟨fuel, m', hc⟩ := C25_acyclic_returns p m hb hac
  exact ⟨fuel, m', collect opts m.dict, by simp [closeOptions, hc]⟩

/-- Whatever configurations of the library are registered, and in whatever order the manager holds them, no two of the options
returned have the same name: the command line and the configuration file are not ambiguous. -/
theorem C138_distinct (p : Program) (kind : Id → Known) (fuel : Nat) (m m' : Manager) (g : Groups Opt) (hn : m.dict.Nodup)
    (hk : ∀ i ∈ m.dict, ∀ j ∈ m.dict, kind i = kind j → i = j)
    (h : closeOptions p (fun i => (kind i).options) fuel m = some (m', .ok g)) : ((flat g).map (·.name)).Nodup := by
  have hp := ((C138_options p _ fuel m m' g h).2.2.2.map (·.name))
  rw [hp.nodup_iff, List.map_flatMap, List.nodup_flatMap]
  constructor
  · intro i _
    cases kind i <;> decide
  · have hne : ∀ a b : Known, a ≠ b → List.Disjoint ((flat a.options).map (·.name)) ((flat b.options).map (·.name)) := by
      intro a b hab
      cases a <;> cases b <;> first | exact absurd rfl hab | (intro x hx hy; revert hy; revert hx; simp [flat, Known.options]; rintro (rfl | rfl | rfl | rfl) <;> decide)
    refine List.Pairwise.imp_of_mem ?_ hn
    intro i j hi hj hij
    exact hne _ _ fun e => hij (hk i hi j hj e)

/-- All options of these configurations are in a single group. -/
theorem C138_one_group (p : Program) (kind : Id → Known) (fuel : Nat) (m m' : Manager) (g : Groups Opt)
    (h : closeOptions p (fun i => (kind i).options) fuel m = some (m', .ok g)) : ∀ n ∈ g.map (·.1), n = "Input catalog options" := by
  intro n hn
  obtain ⟨i, _, hi⟩ := ((C138_options p _ fuel m m' g h).2.1 n).mp hn
  cases hk : kind i <;> simpa [hk, Known.options] using hi

/-! ## Examples -/

/-- Two configurations, one of which depends on the other, with a common group. -/
example : (closeOptions ⟨fun i => if i = 1 then [0] else [], fun _ => true, fun _ => true⟩
    (fun i => if i = 0 then [("b", [1, 2])] else [("a", [3]), ("b", [4])]) 5
    { dict := [0, 1], built := [1, 0] }).map (·.2) = some (.ok [("a", [3]), ("b", [1, 2, 4])]) := by decide

/-- A cycle: no options. -/
example : (closeOptions ⟨fun i => if i = 1 then [0] else [1], fun _ => true, fun _ => true⟩
    (fun i => if i = 0 then [("b", [1, 2])] else [("a", [3]), ("b", [4])]) 5
    { dict := [0, 1], built := [1, 0] }).map (·.2) = some (.throw .elements) := by decide

/-- Photometry with the configurations it depends on. -/
example : (closeOptions ⟨fun i => if i = 2 then [0, 1] else [], fun _ => true, fun _ => true⟩
    (fun i => (if i = 0 then Known.catalog else if i = 1 then .bandMapping else .photometry).options) 5
    { dict := [0, 1, 2], built := [2, 1, 0] }).map (fun r => match r.2 with | .ok g => (flat g).map (·.name) | _ => []) =
    some ["input-catalog-file", "input-catalog-format", "source-id-column-name", "source-id-column-index", "filter-mapping-file",
      "exclude-filter", "missing-photometry-flag", "enable-upper-limit", "upper-limit-use-threshod-flag"] := by decide

end Alexandria.Configuration
