import Verif.FilePool.PathModel
import Verif.FilePool.Model
import Mathlib.Data.List.Induction

/-!
# C153: one handler for each file, whatever its name
-/

namespace Alexandria.Paths

variable {N : Type}

/-! ## Specification -/

/-- There is a directory at this place. -/
def Spec.IsDir (fs : FS N) (d : List N) : Prop := d = [] ∨ fs d = some .dir

/-- Everything is in a directory. -/
def Spec.Tree (fs : FS N) : Prop := ∀ d n, fs (d ++ [n]) ≠ none → Spec.IsDir fs d

/-- The file that is opened, or created if it does not exist, when the elements are followed from a directory. -/
inductive Spec.Opens (fs : FS N) : List N → List (Comp N) → List N → Prop where
  | here {d : List N} : Opens fs d [] d
  | cur {d cs f} : Opens fs d cs f → Opens fs d (.cur :: cs) f
  | up {d cs f} : Opens fs d.dropLast cs f → Opens fs d (.up :: cs) f
  | dir {d n cs f} : fs (d ++ [n]) = some .dir → Opens fs (d ++ [n]) cs f → Opens fs d (.name n :: cs) f
  | file {d n} : fs (d ++ [n]) = some .file → Opens fs d [.name n] (d ++ [n])
  | new {d n} : fs (d ++ [n]) = none → Opens fs d [.name n] (d ++ [n])
  | link {d n t cs f} : fs (d ++ [n]) = some (.link t) → Opens fs (if t.abs then [] else d) (t.comps ++ cs) f → Opens fs d (.name n :: cs) f

/-- The path names the file. -/
def Spec.Names (fs : FS N) (cwd : List N) (p : PathT N) (f : List N) : Prop := Spec.Opens fs (if p.abs then [] else cwd) p.comps f

/-- A path names one file. -/
theorem Spec.Opens.unique {fs : FS N} {d : List N} {cs : List (Comp N)} {f g : List N} (hf : Spec.Opens fs d cs f) (hg : Spec.Opens fs d cs g) : f = g := by
  induction hf with
  | here => cases hg; rfl
  | cur _ ih => cases hg with | cur h => exact ih h
  | up _ ih => cases hg with | up h => exact ih h
  | dir he _ ih =>
    cases hg with
    | dir _ h => exact ih h
    | file h => rw [he] at h; cases h
    | new h => rw [he] at h; cases h
    | link h _ => rw [he] at h; cases h
  | file he =>
    cases hg with
    | dir h _ => rw [he] at h; cases h
    | file _ => rfl
    | new _ => rfl
    | link h _ => rw [he] at h; cases h
  | new he =>
    cases hg with
    | dir h _ => rw [he] at h; cases h
    | file _ => rfl
    | new _ => rfl
    | link h _ => rw [he] at h; cases h
  | link he _ ih =>
    cases hg with
    | dir h _ => rw [he] at h; cases h
    | file h => rw [he] at h; cases h
    | new h => rw [he] at h; cases h
    | link h h2 =>
      rw [he] at h
      simp only [Option.some.injEq, Kind.link.injEq] at h
      subst h
      exact ih h2

/-- The last element is a symbolic link to something that does not exist. -/
def Spec.Dangling (fs : FS N) (links : Nat) (cwd : List N) (p : PathT N) : Prop :=
  lookup fs links cwd p = .missing ∧
    ∃ init n D t, p.comps = init ++ [.name n] ∧ lookup fs links cwd ⟨p.abs, init⟩ = .found D ∧ fs (D ++ [n]) = some (.link t)

/-! ## Following paths -/

/-- What happens at a link. -/
def follow (fs : FS N) : Nat → List N → List (Comp N) → Res N
  | 0 => fun _ _ => .loop
  | k + 1 => resolve fs k

theorem resolve_eq (fs : FS N) (k : Nat) : resolve fs k = walk fs (follow fs k) := by cases k <;> rfl

theorem resolve_nil (fs : FS N) (k : Nat) (d : List N) : resolve fs k d [] = .found d := by rw [resolve_eq]; rfl
theorem resolve_cur (fs : FS N) (k : Nat) (d : List N) (cs : List (Comp N)) : resolve fs k d (.cur :: cs) = resolve fs k d cs := by rw [resolve_eq]; rfl
theorem resolve_up (fs : FS N) (k : Nat) (d : List N) (cs : List (Comp N)) : resolve fs k d (.up :: cs) = resolve fs k d.dropLast cs := by rw [resolve_eq]; rfl
theorem resolve_none {fs : FS N} {d : List N} {n : N} (h : fs (d ++ [n]) = none) (k : Nat) (cs : List (Comp N)) :
    resolve fs k d (.name n :: cs) = .missing := by rw [resolve_eq, walk, h]
theorem resolve_dir {fs : FS N} {d : List N} {n : N} (h : fs (d ++ [n]) = some .dir) (k : Nat) (cs : List (Comp N)) :
    resolve fs k d (.name n :: cs) = resolve fs k (d ++ [n]) cs := by rw [resolve_eq, walk, h]
theorem resolve_file {fs : FS N} {d : List N} {n : N} (h : fs (d ++ [n]) = some .file) (k : Nat) (cs : List (Comp N)) :
    resolve fs k d (.name n :: cs) = if cs = [] then .found (d ++ [n]) else .missing := by rw [resolve_eq, walk, h]
theorem resolve_link {fs : FS N} {d : List N} {n : N} {t : PathT N} (h : fs (d ++ [n]) = some (.link t)) (k : Nat) (cs : List (Comp N)) :
    resolve fs k d (.name n :: cs) = follow fs k (if t.abs then [] else d) (t.comps ++ cs) := by rw [resolve_eq, walk, h]

/-- What follows an existing directory is followed from there. -/
theorem resolve_append {fs : FS N} (k : Nat) {d D : List N} {a : List (Comp N)} (h : resolve fs k d a = .found D) (hD : Spec.IsDir fs D) :
    ∃ j, ∀ b, resolve fs k d (a ++ b) = resolve fs j D b := by
  induction k generalizing d a with
  | zero =>
    induction a generalizing d with
    | nil => rw [resolve_nil] at h; cases h; exact ⟨0, fun b => rfl⟩
    | cons c cs ih =>
      cases c with
      | cur => rw [resolve_cur] at h; obtain ⟨j, hj⟩ := ih h; exact ⟨j, fun b => by rw [List.cons_append, resolve_cur]; exact hj b⟩
      | up => rw [resolve_up] at h; obtain ⟨j, hj⟩ := ih h; exact ⟨j, fun b => by rw [List.cons_append, resolve_up]; exact hj b⟩
      | name n =>
        cases he : fs (d ++ [n]) with
        | none => rw [resolve_none he] at h; cases h
        | some e =>
          cases e with
          | dir => rw [resolve_dir he] at h; obtain ⟨j, hj⟩ := ih h; exact ⟨j, fun b => by rw [List.cons_append, resolve_dir he]; exact hj b⟩
          | file =>
            rw [resolve_file he] at h
            by_cases hc : cs = []
            · rw [if_pos hc] at h
              cases h
              rcases hD with hD | hD
              · simp at hD
              · rw [he] at hD; cases hD
            · rw [if_neg hc] at h; cases h
          | link t => rw [resolve_link he] at h; cases h
  | succ k ihk =>
    induction a generalizing d with
    | nil => rw [resolve_nil] at h; cases h; exact ⟨k + 1, fun b => rfl⟩
    | cons c cs ih =>
      cases c with
      | cur => rw [resolve_cur] at h; obtain ⟨j, hj⟩ := ih h; exact ⟨j, fun b => by rw [List.cons_append, resolve_cur]; exact hj b⟩
      | up => rw [resolve_up] at h; obtain ⟨j, hj⟩ := ih h; exact ⟨j, fun b => by rw [List.cons_append, resolve_up]; exact hj b⟩
      | name n =>
        cases he : fs (d ++ [n]) with
        | none => rw [resolve_none he] at h; cases h
        | some e =>
          cases e with
          | dir => rw [resolve_dir he] at h; obtain ⟨j, hj⟩ := ih h; exact ⟨j, fun b => by rw [List.cons_append, resolve_dir he]; exact hj b⟩
          | file =>
            rw [resolve_file he] at h
            by_cases hc : cs = []
            · rw [if_pos hc] at h
              cases h
              rcases hD with hD | hD
              · simp at hD
              · rw [he] at hD; cases hD
            · rw [if_neg hc] at h; cases h
          | link t =>
            rw [resolve_link he] at h
            obtain ⟨j, hj⟩ := ihk h
            refine ⟨j, fun b => ?_⟩
            rw [List.cons_append, resolve_link he, ← List.append_assoc]
            exact hj b

/-- Induction over the elements that are followed. -/
theorem resolve_induct {fs : FS N} {motive : Nat → List N → List (Comp N) → Prop}
    (nil : ∀ k d, motive k d []) (cur : ∀ k d cs, motive k d cs → motive k d (.cur :: cs))
    (up : ∀ k d cs, motive k d.dropLast cs → motive k d (.up :: cs))
    (none : ∀ k d n cs, fs (d ++ [n]) = none → motive k d (.name n :: cs))
    (dir : ∀ k d n cs, fs (d ++ [n]) = some .dir → motive k (d ++ [n]) cs → motive k d (.name n :: cs))
    (file : ∀ k d n cs, fs (d ++ [n]) = some .file → motive k d (.name n :: cs))
    (zero : ∀ d n cs t, fs (d ++ [n]) = some (.link t) → motive 0 d (.name n :: cs))
    (link : ∀ k d n cs t, fs (d ++ [n]) = some (.link t) → motive k (if t.abs then [] else d) (t.comps ++ cs) → motive (k + 1) d (.name n :: cs))
    (k : Nat) (d : List N) (cs : List (Comp N)) : motive k d cs := by
  induction k generalizing d cs with
  | zero =>
    induction cs generalizing d with
    | nil => exact nil _ _
    | cons c cs ih =>
      cases c with
      | cur => exact cur _ _ _ (ih d)
      | up => exact up _ _ _ (ih _)
      | name n =>
        cases he : fs (d ++ [n]) with
        | none => exact none _ _ _ _ he
        | some e =>
          cases e with
          | dir => exact dir _ _ _ _ he (ih _)
          | file => exact file _ _ _ _ he
          | link t => exact zero _ _ _ _ he
  | succ k ihk =>
    induction cs generalizing d with
    | nil => exact nil _ _
    | cons c cs ih =>
      cases c with
      | cur => exact cur _ _ _ (ih d)
      | up => exact up _ _ _ (ih _)
      | name n =>
        cases he : fs (d ++ [n]) with
        | none => exact none _ _ _ _ he
        | some e =>
          cases e with
          | dir => exact dir _ _ _ _ he (ih _)
          | file => exact file _ _ _ _ he
          | link t => exact link _ _ _ _ _ he (ihk _ _)

theorem isDir_dropLast {fs : FS N} (hfs : Spec.Tree fs) {d : List N} (hd : Spec.IsDir fs d) : Spec.IsDir fs d.dropLast := by
  rcases hd with rfl | hd
  · exact Or.inl rfl
  · rcases List.eq_nil_or_concat d with rfl | ⟨l, n, rfl⟩
    · exact Or.inl rfl
    · rw [List.concat_eq_append, List.dropLast_concat]
      rw [List.concat_eq_append] at hd
      exact hfs l n (by rw [hd]; simp)

theorem isDir_base {fs : FS N} {d : List N} (hd : Spec.IsDir fs d) (t : PathT N) : Spec.IsDir fs (if t.abs then [] else d) := by
  by_cases h : t.abs = true
  · rw [if_pos h]; exact Or.inl rfl
  · rw [if_neg h]; exact hd

/-- What is found is a directory or a file; nothing is behind a file. -/
theorem resolve_found {fs : FS N} (hfs : Spec.Tree fs) (k : Nat) (d : List N) (a : List (Comp N)) (hd : Spec.IsDir fs d) {D : List N}
    (h : resolve fs k d a = .found D) :
    Spec.IsDir fs D ∨ (fs D = some .file ∧ ∀ b, b ≠ [] → resolve fs k d (a ++ b) = .missing) := by
  revert hd h
  refine resolve_induct (fs := fs) (motive := fun k d a => Spec.IsDir fs d → resolve fs k d a = .found D →
    Spec.IsDir fs D ∨ (fs D = some .file ∧ ∀ b, b ≠ [] → resolve fs k d (a ++ b) = .missing)) ?_ ?_ ?_ ?_ ?_ ?_ ?_ ?_ k d a
  · intro k d hd h; rw [resolve_nil] at h; cases h; exact Or.inl hd
  · intro k d cs ih hd h
    rw [resolve_cur] at h
    simpa only [List.cons_append, resolve_cur] using ih hd h
  · intro k d cs ih hd h
    rw [resolve_up] at h
    simpa only [List.cons_append, resolve_up] using ih (isDir_dropLast hfs hd) h
  · intro k d n cs he hd h; rw [resolve_none he] at h; cases h
  · intro k d n cs he ih hd h
    rw [resolve_dir he] at h
    simpa only [List.cons_append, resolve_dir he] using ih (Or.inr he) h
  · intro k d n cs he hd h
    rw [resolve_file he] at h
    by_cases hc : cs = []
    · rw [if_pos hc] at h
      cases h
      refine Or.inr ⟨he, fun b hb => ?_⟩
      rw [List.cons_append, resolve_file he, if_neg (by simp [hb])]
    · rw [if_neg hc] at h; cases h
  · intro d n cs t he hd h; rw [resolve_link he] at h; cases h
  · intro k d n cs t he ih hd h
    rw [resolve_link he] at h
    rcases ih (isDir_base hd t) h with h1 | ⟨h1, h2⟩
    · exact Or.inl h1
    · refine Or.inr ⟨h1, fun b hb => ?_⟩
      rw [List.cons_append, resolve_link he, ← List.append_assoc]
      exact h2 b hb

/-- What is found is what is opened. -/
theorem resolve_opens {fs : FS N} (k : Nat) (d : List N) (a : List (Comp N)) {D : List N}
    (h : resolve fs k d a = .found D) : Spec.Opens fs d a D := by
  revert h
  refine resolve_induct (fs := fs) (motive := fun k d a => resolve fs k d a = .found D → Spec.Opens fs d a D) ?_ ?_ ?_ ?_ ?_ ?_ ?_ ?_ k d a
  · intro k d h; rw [resolve_nil] at h; cases h; exact .here
  · intro k d cs ih h; rw [resolve_cur] at h; exact .cur (ih h)
  · intro k d cs ih h; rw [resolve_up] at h; exact .up (ih h)
  · intro k d n cs he h; rw [resolve_none he] at h; cases h
  · intro k d n cs he ih h; rw [resolve_dir he] at h; exact .dir he (ih h)
  · intro k d n cs he h
    rw [resolve_file he] at h
    by_cases hc : cs = []
    · rw [if_pos hc] at h
      cases h
      subst hc
      exact .file he
    · rw [if_neg hc] at h; cases h
  · intro d n cs t he h; rw [resolve_link he] at h; cases h
  · intro k d n cs t he ih h; rw [resolve_link he] at h; exact .link he (ih h)

/-- If nothing is found at a path that names a file, only the last element is missing, or is a link. -/
theorem opens_missing {fs : FS N} {d : List N} {a : List (Comp N)} {f : List N} (ho : Spec.Opens fs d a f) (k : Nat)
    (h : resolve fs k d a = .missing) :
    ∃ init n D, a = init ++ [.name n] ∧ resolve fs k d init = .found D ∧
      ((fs (D ++ [n]) = none ∧ f = D ++ [n]) ∨ ∃ t, fs (D ++ [n]) = some (.link t)) := by
  induction ho generalizing k with
  | here => rw [resolve_nil] at h; cases h
  | cur _ ih =>
    rw [resolve_cur] at h
    obtain ⟨i, n, D, rfl, h2, h3⟩ := ih k h
    exact ⟨.cur :: i, n, D, rfl, by rw [resolve_cur]; exact h2, h3⟩
  | up _ ih =>
    rw [resolve_up] at h
    obtain ⟨i, n, D, rfl, h2, h3⟩ := ih k h
    exact ⟨.up :: i, n, D, rfl, by rw [resolve_up]; exact h2, h3⟩
  | @dir d m _ _ he _ ih =>
    rw [resolve_dir he] at h
    obtain ⟨i, n, D, rfl, h2, h3⟩ := ih k h
    exact ⟨.name m :: i, n, D, rfl, by rw [resolve_dir he]; exact h2, h3⟩
  | file he => rw [resolve_file he, if_pos rfl] at h; cases h
  | @new d n he => exact ⟨[], n, d, rfl, resolve_nil _ _ _, Or.inl ⟨he, rfl⟩⟩
  | @link d m t cs f he _ ih =>
    rcases List.eq_nil_or_concat cs with rfl | ⟨cs', c, rfl⟩
    · exact ⟨[], m, d, rfl, resolve_nil _ _ _, Or.inr ⟨t, he⟩⟩
    · rw [resolve_link he] at h
      cases k with
      | zero => cases h
      | succ k =>
        obtain ⟨i, n, D, h1, h2, h3⟩ := ih k h
        rw [List.concat_eq_append, ← List.append_assoc] at h1
        obtain ⟨h4, h5⟩ := List.append_inj' h1 rfl
        simp only [List.cons.injEq, and_true] at h5
        subst h4 h5
        exact ⟨.name m :: cs', n, D, by simp, by rw [resolve_link he]; exact h2, h3⟩

/-! ## The key -/

/-- The loop ends at one of the beginnings of the path that exist. -/
theorem search_spec {fs : FS N} {links : Nat} {cwd : List N} {p : PathT N} {T : List (Comp N)} {m : Nat} {D : List N}
    (hm : lookup fs links cwd ⟨p.abs, p.comps.take m⟩ = .found D) (k : Nat) (hk : m ≤ k)
    (h : ∀ i, m ≤ i → i ≤ k → lookup fs links cwd ⟨p.abs, p.comps.take i⟩ ≠ .loop ∧
      ∀ r, lookup fs links cwd ⟨p.abs, p.comps.take i⟩ = .found r → r.map Comp.name ++ p.comps.drop i = T) :
    (do match ← search fs links cwd p k with
        | none => Outcome.ok (cwd.map .name ++ p.comps)
        | some (r, k) => .ok (r.map .name ++ p.comps.drop k)) = (Outcome.ok T : Outcome Unit _) := by
  induction k with
  | zero =>
    have h0 : m = 0 := by omega
    subst h0
    have h1 := (h 0 (Nat.le_refl _) (Nat.le_refl _)).2 D hm
    rw [lookup, List.take_zero, resolve_nil] at hm
    rw [search]
    by_cases ha : p.abs = true
    · rw [if_pos ha] at hm
      cases hm
      rw [if_pos ha]
      simpa using h1
    · rw [if_neg ha] at hm
      cases hm
      rw [if_neg ha]
      simpa using h1
  | succ k ih =>
    rw [search]
    obtain ⟨h1, h2⟩ := h (k + 1) hk (Nat.le_refl _)
    cases hl : lookup fs links cwd ⟨p.abs, p.comps.take (k + 1)⟩ with
    | loop => exact absurd hl h1
    | found r => simpa using h2 r hl
    | missing =>
      have hne : m ≠ k + 1 := by rintro rfl; rw [hm] at hl; cases hl
      exact ih (by omega) fun i hi hik => h i hi (by omega)

/-- **C153**: the key of a path is the canonical path of the longest beginning that exists, followed by the remaining elements as they are. -/
theorem C153_exact (fs : FS N) (links : Nat) (cwd : List N) (p : PathT N) {a b : List (Comp N)} {D : List N} (hp : p.comps = a ++ b)
    (ha : lookup fs links cwd ⟨p.abs, a⟩ = .found D)
    (hb : ∀ c c', b = c ++ c' → c ≠ [] → lookup fs links cwd ⟨p.abs, a ++ c⟩ = .missing) :
    weaklyCanonical fs links cwd p = .ok (D.map .name ++ b) := by
  have ht : p.comps.take a.length = a := by rw [hp]; simp
  refine search_spec (m := a.length) (D := D) (by rw [ht]; exact ha) _ (by rw [hp]; simp) fun i hi hik => ?_
  by_cases he : i = a.length
  · subst he
    rw [ht, ha]
    refine ⟨by simp, fun r hr => ?_⟩
    cases hr
    rw [hp]; simp
  · have : p.comps.take i = a ++ b.take (i - a.length) := by rw [hp, List.take_append, List.take_of_length_le hi]
    rw [hp, List.length_append] at hik
    rw [this, hb (b.take (i - a.length)) (b.drop (i - a.length)) (by simp) (by
      intro h
      rw [List.take_eq_nil_iff] at h
      rcases h with h | h
      · omega
      · subst h; simp at hik; omega)]
    exact ⟨by simp, fun r hr => (by cases hr)⟩

/-- **C153**: for a path that names a file, existing or not, the key is the place of the file, unless the last element is a link to something
that does not exist. -/
theorem C153_key_partial (fs : FS N) (links : Nat) (cwd : List N) (p : PathT N) (f : List N)
    (hf : Spec.Names fs cwd p f) (hl : lookup fs links cwd p ≠ .loop) (hd : ¬ Spec.Dangling fs links cwd p) :
    weaklyCanonical fs links cwd p = .ok (f.map .name) := by
  cases h : lookup fs links cwd p with
  | loop => exact absurd h hl
  | found D =>
    have : D = f := (resolve_opens _ _ _ h).unique hf
    subst this
    have := C153_exact fs links cwd p (a := p.comps) (b := []) (D := D) (by simp) h
      (fun c c' hcc hne => by simp at hcc; exact absurd hcc.1 hne)
    simpa using this
  | missing =>
    obtain ⟨i, n, D, h1, h2, h3⟩ := opens_missing hf links h
    rcases h3 with ⟨h3, h4⟩ | ⟨t, h3⟩
    · have := C153_exact fs links cwd p (a := i) (b := [.name n]) (D := D) h1 h2 (fun c c' hcc hne => by
        obtain ⟨x, c, rfl⟩ := List.exists_cons_of_ne_nil hne
        simp only [List.cons_append, List.cons.injEq, List.nil_eq, List.append_eq_nil_iff] at hcc
        obtain ⟨rfl, rfl, rfl⟩ := hcc
        rw [← h1]
        exact h)
      rw [this, h4]
      simp
    · exact absurd ⟨h, i, n, D, t, h1, h2, h3⟩ hd

theorem map_name_inj {a b : List N} : a.map Comp.name = b.map Comp.name ↔ a = b :=
  ⟨fun h => List.map_injective_iff.mpr (fun _ _ e => by cases e; rfl) h, fun h => by rw [h]⟩

/-! ## Files that are created later -/

/-- Only directories and files have been added. -/
structure Spec.Grown (fs fs' : FS N) : Prop where
  kept : ∀ x e, fs x = some e → fs' x = some e
  new : ∀ x, fs x = none → ∀ t, fs' x ≠ some (.link t)

theorem resolve_grown {fs fs' : FS N} (h : Spec.Grown fs fs') (k : Nat) (d : List N) (a : List (Comp N)) {D : List N}
    (hr : resolve fs k d a = .found D) : resolve fs' k d a = .found D := by
  revert hr
  refine resolve_induct (fs := fs) (motive := fun k d a => resolve fs k d a = .found D → resolve fs' k d a = .found D) ?_ ?_ ?_ ?_ ?_ ?_ ?_ ?_ k d a
  · intro k d hr; rw [resolve_nil] at hr ⊢; exact hr
  · intro k d cs ih hr; rw [resolve_cur] at hr ⊢; exact ih hr
  · intro k d cs ih hr; rw [resolve_up] at hr ⊢; exact ih hr
  · intro k d n cs he hr; rw [resolve_none he] at hr; cases hr
  · intro k d n cs he ih hr; rw [resolve_dir he] at hr; rw [resolve_dir (h.kept _ _ he)]; exact ih hr
  · intro k d n cs he hr; rw [resolve_file he] at hr; rw [resolve_file (h.kept _ _ he)]; exact hr
  · intro d n cs t he hr; rw [resolve_link he] at hr; cases hr
  · intro k d n cs t he ih hr; rw [resolve_link he] at hr; rw [resolve_link (h.kept _ _ he)]; exact ih hr

/-- There is nothing in a directory that does not exist. -/
theorem none_below {fs : FS N} (hfs : Spec.Tree fs) {d : List N} (hne : d ≠ []) (h : fs d = none) (l : List N) : fs (d ++ l) = none := by
  induction l using List.reverseRecOn with
  | nil => simpa using h
  | append_singleton l n ih =>
    by_contra hn
    rw [← List.append_assoc] at hn
    rcases hfs _ _ hn with h1 | h1
    · simp [hne] at h1
    · rw [ih] at h1; cases h1

/-- Names that are not links lead where they say. -/
theorem resolve_names {fs : FS N} (l : List N) (d : List N) (j : Nat) (h : ∀ l₁ l₂, l = l₁ ++ l₂ → l₁ ≠ [] → ∀ t, fs (d ++ l₁) ≠ some (.link t)) :
    resolve fs j d (l.map .name) = .missing ∨ resolve fs j d (l.map .name) = .found (d ++ l) := by
  induction l generalizing d with
  | nil => right; rw [List.map_nil, resolve_nil, List.append_nil]
  | cons n l ih =>
    rw [List.map_cons]
    cases he : fs (d ++ [n]) with
    | none => left; exact resolve_none he _ _
    | some e =>
      cases e with
      | dir =>
        rw [resolve_dir he]
        have := ih (d ++ [n]) (fun l₁ l₂ h1 h2 t => by
          have := h (n :: l₁) l₂ (by rw [h1]; rfl) (by simp) t
          simpa using this)
        simpa using this
      | file =>
        rw [resolve_file he]
        by_cases hl : l.map Comp.name = []
        · rw [if_pos hl]
          right
          simp only [List.map_eq_nil_iff] at hl
          rw [hl]
        · left; rw [if_neg hl]
      | link t => exact absurd he (h [n] l rfl (by simp) t)

/-- **C153**: the key of a path stays the same when directories and files are created, if what is missing of it are plain names. -/
theorem C153_stable (fs fs' : FS N) (hfs : Spec.Tree fs) (hfs' : Spec.Tree fs') (hg : Spec.Grown fs fs') (links : Nat) (cwd : List N)
    (hc : Spec.IsDir fs cwd) (p : PathT N) {a : List (Comp N)} {b D : List N} (hp : p.comps = a ++ b.map .name)
    (ha : lookup fs links cwd ⟨p.abs, a⟩ = .found D) (hb : ∀ n l, b = n :: l → fs (D ++ [n]) = none) :
    weaklyCanonical fs links cwd p = .ok ((D ++ b).map .name) ∧ weaklyCanonical fs' links cwd p = .ok ((D ++ b).map .name) := by
  have hbase : Spec.IsDir fs (if p.abs then [] else cwd) := isDir_base hc p
  have hnone : ∀ l₁ l₂, b = l₁ ++ l₂ → l₁ ≠ [] → fs (D ++ l₁) = none := by
    intro l₁ l₂ h1 h2
    obtain ⟨n, l, rfl⟩ := List.exists_cons_of_ne_nil h2
    have := none_below hfs (by simp) (hb n _ h1) l
    simpa using this
  have main : ∀ g : FS N, Spec.Tree g → Spec.Grown fs g → weaklyCanonical g links cwd p = .ok ((D ++ b).map .name) := by
    intro g hgt hgg
    have hag : lookup g links cwd ⟨p.abs, a⟩ = .found D := resolve_grown hgg _ _ _ ha
    have hbg : Spec.IsDir g (if p.abs then [] else cwd) := hbase.imp id (hgg.kept _ _)
    have ht : p.comps.take a.length = a := by rw [hp]; simp
    refine search_spec (m := a.length) (D := D) (by rw [ht]; exact hag) _ (by rw [hp]; simp) fun i hi hik => ?_
    have hti : p.comps.take i = a ++ (b.take (i - a.length)).map .name := by
      rw [hp, List.take_append, List.take_of_length_le hi, List.map_take]
    have hdi : p.comps.drop i = (b.drop (i - a.length)).map .name := by
      rw [hp, List.drop_append, List.drop_of_length_le hi, List.nil_append, List.map_drop]
    rw [hti, hdi]
    have hkey : ∀ r, r = D ++ b.take (i - a.length) → r.map Comp.name ++ (b.drop (i - a.length)).map .name = (D ++ b).map .name := by
      rintro r rfl
      rw [← List.map_append, List.append_assoc, List.take_append_drop]
    rcases resolve_found hgt _ _ _ hbg hag with hD | ⟨_, hD⟩
    · obtain ⟨j, hj⟩ := resolve_append links hag hD
      have := resolve_names (fs := g) (b.take (i - a.length)) D j (fun l₁ l₂ h1 h2 t => hgg.new _ (hnone l₁ (l₂ ++ b.drop (i - a.length)) (by
        rw [← List.append_assoc, ← h1, List.take_append_drop]) h2) t)
      rw [← hj] at this
      rw [lookup]
      rcases this with h | h <;> rw [h]
      · exact ⟨by simp, fun r hr => (by cases hr)⟩
      · refine ⟨by simp, fun r hr => hkey r ?_⟩
        cases hr; rfl
    · by_cases hne : b.take (i - a.length) = []
      · rw [hne, List.map_nil, List.append_nil, hag]
        refine ⟨by simp, fun r hr => hkey r ?_⟩
        cases hr
        rw [hne, List.append_nil]
      · rw [lookup, hD _ (by simpa using hne)]
        exact ⟨by simp, fun r hr => (by cases hr)⟩
  exact ⟨main fs hfs ⟨fun _ _ h => h, fun x h t => by rw [h]; simp⟩, main fs' hfs' hg⟩

/-! ## Handlers -/

/-- **C153**: two paths that name files get the same handler, while it is alive, exactly if they name the same file. Keys are numbers in the
model of the manager; `enc` gives different keys different numbers. -/
theorem C153_handler_partial (fs : FS N) (links : Nat) (cwd : List N) (p q : PathT N) (f g : List N)
    (hp : Spec.Names fs cwd p f) (hq : Spec.Names fs cwd q g) (hlp : lookup fs links cwd p ≠ .loop) (hlq : lookup fs links cwd q ≠ .loop)
    (hdp : ¬ Spec.Dangling fs links cwd p) (hdq : ¬ Spec.Dangling fs links cwd q)
    (enc : List (Comp N) → Nat) (henc : Function.Injective enc) (w : FilePool.World) :
    ∃ kp kq, weaklyCanonical fs links cwd p = .ok kp ∧ weaklyCanonical fs links cwd q = .ok kq ∧
      let r := w.getHandler (enc kp)
      ((r.1.getHandler (enc kq)).2 = r.2 ↔ f = g) := by
  refine ⟨_, _, C153_key_partial fs links cwd p f hp hlp hdp, C153_key_partial fs links cwd q g hq hlq hdq, ?_⟩
  have henc' : enc (g.map .name) = enc (f.map .name) ↔ f = g := by
    rw [henc.eq_iff, map_name_inj]; exact eq_comm
  simp only
  rw [← henc']
  generalize enc (f.map .name) = x
  generalize enc (g.map .name) = y
  -- the handler found or made is alive, for `x`, and the first one
  have key : ∃ hd, (w.getHandler x).1.handlers[(w.getHandler x).2]? = some hd ∧ hd.alive = true ∧ hd.path = x ∧
      (w.getHandler x).1.handlers.findIdx? (fun hd => hd.alive && hd.path == x) = some (w.getHandler x).2 := by
    rw [FilePool.World.getHandler]
    cases hf : w.handlers.findIdx? (fun hd => hd.alive && hd.path == x) with
    | some i =>
      simp only [hf, and_true]
      rw [List.findIdx?_eq_some_iff_getElem] at hf
      obtain ⟨h1, h2, _⟩ := hf
      simp only [Bool.and_eq_true, beq_iff_eq] at h2
      exact ⟨_, List.getElem?_eq_getElem h1, h2.1, h2.2⟩
    | none =>
      simp only
      refine ⟨{ path := x, alive := true, readOnly := true, avail := [], mutex := { excl := false, shared := 0 } },
        by rw [List.getElem?_append_right (Nat.le_refl _), Nat.sub_self]; rfl, rfl, rfl, ?_⟩
      rw [List.findIdx?_append, hf]
      simp
  obtain ⟨hd, h1, h2, h3, h4⟩ := key
  constructor
  · intro h
    rw [FilePool.World.getHandler] at h
    cases hf : (w.getHandler x).1.handlers.findIdx? (fun hd => hd.alive && hd.path == y) with
    | some i =>
      rw [hf] at h
      simp only at h
      subst h
      rw [List.findIdx?_eq_some_iff_getElem] at hf
      obtain ⟨h5, h6, _⟩ := hf
      simp only [Bool.and_eq_true, beq_iff_eq] at h6
      rw [List.getElem?_eq_getElem h5] at h1
      cases h1
      exact h6.2.symm.trans h3
    | none =>
      rw [hf] at h
      simp only at h
      rw [← h, List.getElem?_eq_none (Nat.le_refl _)] at h1
      cases h1
  · rintro rfl
    rw [FilePool.World.getHandler, h4]

/-! ## Where it fails -/

/-- **C153**, the full statement: two paths that name files have the same key exactly if they name the same file. -/
def C153_full : Prop := ∀ (fs : FS Nat) (links : Nat) (cwd : List Nat) (p q : PathT Nat) (f g : List Nat), Spec.Tree fs → Spec.IsDir fs cwd →
  Spec.Names fs cwd p f → Spec.Names fs cwd q g → lookup fs links cwd p ≠ .loop → lookup fs links cwd q ≠ .loop →
  (weaklyCanonical fs links cwd p = weaklyCanonical fs links cwd q ↔ f = g)

/-- The directory `/0` with the file `/0/1`, the link `/0/2` to `../0/1`, the link `/3` to `/0`, and the link `/0/4` to `5`, which does not
exist. -/
def someFiles : FS Nat
  | [0] => some .dir
  | [0, 1] => some .file
  | [0, 2] => some (.link ⟨false, [.up, .name 0, .name 1]⟩)
  | [3] => some (.link ⟨true, [.name 0]⟩)
  | [0, 4] => some (.link ⟨false, [.name 5]⟩)
  | _ => none

theorem someFiles_tree : Spec.Tree someFiles := by
  intro d n h
  unfold someFiles at h
  split at h
  all_goals rename_i heq
  · obtain ⟨rfl, _⟩ := List.append_inj' (s₁ := d) (s₂ := []) heq rfl; exact Or.inl rfl
  · obtain ⟨rfl, _⟩ := List.append_inj' (s₁ := d) (s₂ := [0]) heq rfl; exact Or.inr rfl
  · obtain ⟨rfl, _⟩ := List.append_inj' (s₁ := d) (s₂ := [0]) heq rfl; exact Or.inr rfl
  · obtain ⟨rfl, _⟩ := List.append_inj' (s₁ := d) (s₂ := []) heq rfl; exact Or.inl rfl
  · obtain ⟨rfl, _⟩ := List.append_inj' (s₁ := d) (s₂ := [0]) heq rfl; exact Or.inr rfl
  · exact absurd rfl h

/-- A link to a file that does not exist yet has a key of its own: after `/0/4` and `/0/5` are opened for writing there are two handlers for
one file. -/
theorem C153_violated : ¬ C153_full := by
  intro h
  have h1 := (h someFiles 8 [] ⟨true, [.name 0, .name 4]⟩ ⟨true, [.name 0, .name 5]⟩ [0, 5] [0, 5] someFiles_tree (Or.inl rfl)
    (.dir rfl (.link (t := ⟨false, [.name 5]⟩) rfl (.new rfl))) (.dir rfl (.new rfl)) (by decide) (by decide)).mpr rfl
  revert h1
  decide

/-- **C153**, the full statement about later creations: the key of a path never changes when directories and files are created. -/
def C153_later_full : Prop := ∀ (fs fs' : FS Nat) (links : Nat) (cwd : List Nat) (p : PathT Nat), Spec.Tree fs → Spec.Tree fs' → Spec.Grown fs fs' →
  Spec.IsDir fs cwd → lookup fs links cwd p ≠ .loop → weaklyCanonical fs links cwd p = weaklyCanonical fs' links cwd p

/-- A file system with one directory. -/
def oneDirectory : FS Nat
  | [0] => some .dir
  | _ => none

/-- `/0/../1` before and after `/0` is created: the two dots are kept in the key, although the file is `/1`. -/
theorem C153_later_violated : ¬ C153_later_full := by
  intro h
  have h1 := h (fun _ => none) oneDirectory 8 [] ⟨true, [.name 0, .up, .name 1]⟩ (fun d n hn => absurd rfl hn)
    (by
      intro d n h
      unfold oneDirectory at h
      split at h
      all_goals rename_i heq
      · obtain ⟨rfl, _⟩ := List.append_inj' (s₁ := d) (s₂ := []) heq rfl; exact Or.inl rfl
      · exact absurd rfl h)
    ⟨fun x e he => (by cases he), fun x _ t => by unfold oneDirectory; split <;> simp⟩ (Or.inl rfl) (by decide)
  revert h1
  decide

/-! ## Examples -/

/-- `2`, seen from the directory `/0`, and `/3/./1` are the same file. -/
example : weaklyCanonical someFiles 8 [0] ⟨false, [.name 2]⟩ = .ok [.name 0, .name 1] ∧
    weaklyCanonical someFiles 8 [0] ⟨true, [.name 3, .cur, .name 1]⟩ = .ok [.name 0, .name 1] := by decide

/-- `/3/6/7` has the same key before and after the directory `/0/6` is there. -/
example : weaklyCanonical someFiles 8 [] ⟨true, [.name 3, .name 6, .name 7]⟩ = .ok [.name 0, .name 6, .name 7] ∧
    weaklyCanonical (fun x => if x = [0, 6] then some .dir else someFiles x) 8 [] ⟨true, [.name 3, .name 6, .name 7]⟩ =
      .ok [.name 0, .name 6, .name 7] := by decide

/-- It meets the hypotheses of `C153_stable`. -/
example : lookup someFiles 8 [] ⟨true, [.name 3]⟩ = .found [0] ∧ someFiles ([0] ++ [6]) = none ∧
    Spec.Grown someFiles (fun x => if x = [0, 6] then some .dir else someFiles x) := by
  refine ⟨by decide, rfl, fun x e h => ?_, fun x h t => ?_⟩
  · by_cases hx : x = [0, 6]
    · subst hx; cases h
    · simp only [if_neg hx, h]
  · by_cases hx : x = [0, 6]
    · simp [hx]
    · simp [if_neg hx, h]

/-- The hypotheses of `C153_handler_partial` can be met: a file through a link, and one that does not exist. -/
example : Spec.Names someFiles [0] ⟨true, [.name 3, .name 2]⟩ [0, 1] ∧ Spec.Names someFiles [0] ⟨false, [.up, .name 3, .name 7]⟩ [0, 7] ∧
    ¬ Spec.Dangling someFiles 8 [0] ⟨true, [.name 3, .name 2]⟩ ∧ ¬ Spec.Dangling someFiles 8 [0] ⟨false, [.up, .name 3, .name 7]⟩ := by
  refine ⟨.link (t := ⟨true, [.name 0]⟩) rfl (.dir rfl (.link (t := ⟨false, [.up, .name 0, .name 1]⟩) rfl (.up (.dir rfl (.file rfl))))),
    .up (.link (t := ⟨true, [.name 0]⟩) rfl (.dir rfl (.new rfl))), fun h => absurd h.1 (by decide), ?_⟩
  rintro ⟨_, i, n, D, t, h1, h2, h3⟩
  obtain ⟨rfl, h4⟩ := List.append_inj' (s₁ := [Comp.up, .name 3]) (t₁ := [.name 7]) h1 rfl
  cases h4
  have : D = [0] := by
    have : lookup someFiles 8 [0] ⟨false, [.up, .name 3]⟩ = .found [0] := by decide
    rw [this] at h2; cases h2; rfl
  subst this
  cases h3

end Alexandria.Paths
