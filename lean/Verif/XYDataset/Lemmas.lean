import Verif.XYDataset.Model
import Verif.XYDataset.Spec
import Mathlib.Data.List.Lex
import Mathlib.Data.Char

/-! # Lemmas about names -/

namespace Alexandria.XYDataset

open Str

/-- Groups followed by slashes. -/
def enc (gs : List Bytes) : Bytes := gs.flatMap fun g => g ++ ['/']

theorem enc_append (a b : List Bytes) : enc (a ++ b) = enc a ++ enc b := by simp [enc]

theorem text_eq (gs : List Bytes) (n : Bytes) : Spec.text gs n = enc gs ++ n := by
  unfold Spec.text
  induction gs with
  | nil => simp [enc]
  | cons g gs ih =>
    cases gs with
    | nil => simp [enc, List.intercalate_cons_cons]
    | cons h gs =>
      rw [List.cons_append, List.cons_append, List.intercalate_cons_cons, ← List.cons_append, ih]
      simp [enc]

theorem joinGroups_ok : ∀ (gs : List Bytes) (q : Bytes), (∀ g ∈ gs, Spec.Part g) → joinGroups gs q = .ok (q ++ enc gs) := by
  intro gs
  induction gs with
  | nil => intro q _; simp [joinGroups, enc]
  | cons g gs ih =>
    intro q h
    have hg := h g List.mem_cons_self
    rw [joinGroups, if_neg (by rintro (h' | h'); exacts [hg.1 h', hg.2 h']), ih _ (fun x hx => h x (List.mem_cons_of_mem _ hx))]
    simp [enc]

theorem joinGroups_bad : ∀ (gs : List Bytes) (q : Bytes), ¬ (∀ g ∈ gs, Spec.Part g) → joinGroups gs q = .throw .elements := by
  intro gs
  induction gs with
  | nil => intro q h; exact absurd (by simp) h
  | cons g gs ih =>
    intro q h
    rw [joinGroups]
    by_cases hg : g = [] ∨ '/' ∈ g
    · rw [if_pos hg]
    · rw [if_neg hg]
      apply ih
      intro hall
      apply h
      intro x hx
      rcases List.mem_cons.mp hx with rfl | hx
      · rw [not_or] at hg; exact hg
      · exact hall x hx

theorem mkName_ok {gs : List Bytes} {n : Bytes} (hg : ∀ g ∈ gs, Spec.Part g) (hn : Spec.Part n) :
    mkName gs n = .ok { groups := gs, name := n, qname := Spec.text gs n } := by
  unfold mkName
  rw [joinGroups_ok gs [] hg, Outcome.bind_ok, if_neg (by rintro (h' | h'); exacts [hn.1 h', hn.2 h']), List.nil_append, text_eq]

theorem mkName_bad {gs : List Bytes} {n : Bytes} (h : ¬ ((∀ g ∈ gs, Spec.Part g) ∧ Spec.Part n)) : mkName gs n = .throw .elements := by
  unfold mkName
  by_cases hg : ∀ g ∈ gs, Spec.Part g
  · rw [joinGroups_ok gs [] hg, Outcome.bind_ok, if_pos]
    by_contra hc
    rw [not_or] at hc
    exact h ⟨hg, hc⟩
  · rw [joinGroups_bad gs [] hg]; rfl

/-- What the constructor guarantees. -/
structure QName.Valid (h : Bytes → Nat) (q : QName) : Prop where
  groups : ∀ g ∈ q.groups, Spec.Part g
  name : Spec.Part q.name
  qname : q.qname = Spec.text q.groups q.name
  hash : q.mhash = 0 ∨ q.mhash = h q.qname

theorem mkName_valid {h : Bytes → Nat} {gs : List Bytes} {n : Bytes} {q : QName} (hq : mkName gs n = .ok q) :
    q.Valid h ∧ q.groups = gs ∧ q.name = n := by
  by_cases hv : (∀ g ∈ gs, Spec.Part g) ∧ Spec.Part n
  · rw [mkName_ok hv.1 hv.2, Outcome.ok.injEq] at hq
    subst hq
    exact ⟨⟨hv.1, hv.2, rfl, Or.inl rfl⟩, rfl, rfl⟩
  · rw [mkName_bad hv] at hq; cases hq

theorem QName.Valid.hash_eq {h : Bytes → Nat} {q : QName} (hv : q.Valid h) : q.hash h = h q.qname := by
  unfold QName.hash
  rcases hv.hash with h0 | h0
  · rw [if_pos h0]
  · split
    · rfl
    · exact h0

theorem split_text {gs : List Bytes} {n : Bytes} (hg : ∀ g ∈ gs, Spec.Part g) (hn : Spec.Part n) :
    splitChar '/' (Spec.text gs n) = gs ++ [n] := by
  unfold Spec.text
  apply splitChar_intercalate
  · simp
  · intro t ht
    rcases List.mem_append.mp ht with ht | ht
    · exact (hg t ht).2
    · rw [List.mem_singleton] at ht; subst ht; exact hn.2

theorem text_inj {gs gs' : List Bytes} {n n' : Bytes} (hg : ∀ g ∈ gs, Spec.Part g) (hn : Spec.Part n)
    (hg' : ∀ g ∈ gs', Spec.Part g) (hn' : Spec.Part n') (h : Spec.text gs n = Spec.text gs' n') : gs = gs' ∧ n = n' := by
  have h1 := split_text hg hn
  rw [h, split_text hg' hn'] at h1
  have := List.append_inj' h1 rfl
  exact ⟨this.1.symm, by simpa using this.2.symm⟩

theorem token_prefix {a b r s : Bytes} (ha : '/' ∉ a) (hb : '/' ∉ b) (h : a ++ '/' :: r <+: b ++ '/' :: s) : a = b ∧ r <+: s := by
  induction a generalizing b with
  | nil =>
    cases b with
    | nil =>
      simp only [List.nil_append] at h
      exact ⟨rfl, (List.cons_prefix_cons.mp h).2⟩
    | cons c b =>
      simp only [List.nil_append, List.cons_append] at h
      have := (List.cons_prefix_cons.mp h).1
      simp [← this] at hb
  | cons c a ih =>
    simp only [List.mem_cons, not_or] at ha
    cases b with
    | nil =>
      simp only [List.nil_append, List.cons_append] at h
      exact absurd (List.cons_prefix_cons.mp h).1.symm ha.1
    | cons d b =>
      simp only [List.mem_cons, not_or] at hb
      simp only [List.cons_append] at h
      obtain ⟨h1, h2⟩ := List.cons_prefix_cons.mp h
      obtain ⟨h3, h4⟩ := ih ha.2 hb.2 h2
      exact ⟨by rw [h1, h3], h4⟩

theorem no_slash_prefix {a r n : Bytes} (hn : '/' ∉ n) : ¬ (a ++ '/' :: r <+: n) := by
  intro h
  exact hn (h.subset (by simp))

/-- Prefixes of encoded group lists are prefixes of the lists. -/
theorem enc_prefix {as gs : List Bytes} {n : Bytes} (ha : ∀ a ∈ as, '/' ∉ a) (hg : ∀ g ∈ gs, '/' ∉ g) (hn : '/' ∉ n) :
    enc as <+: enc gs ++ n ↔ as <+: gs := by
  induction as generalizing gs with
  | nil => simp [enc]
  | cons a as ih =>
    cases gs with
    | nil =>
      constructor
      · intro h
        simp only [enc, List.flatMap_cons, List.flatMap_nil, List.nil_append, List.append_assoc] at h
        exact absurd h (no_slash_prefix hn)
      · intro h; simp at h
    | cons g gs =>
      constructor
      · intro h
        simp only [enc, List.flatMap_cons, List.append_assoc, List.cons_append, List.nil_append] at h
        obtain ⟨h1, h2⟩ := token_prefix (ha a List.mem_cons_self) (hg g List.mem_cons_self) h
        rw [List.cons_prefix_cons]
        exact ⟨h1, (ih (fun x hx => ha x (List.mem_cons_of_mem _ hx)) (fun x hx => hg x (List.mem_cons_of_mem _ hx))).mp h2⟩
      · rintro ⟨t, ht⟩
        rw [← ht, enc_append]
        simp [List.append_assoc]

end Alexandria.XYDataset
