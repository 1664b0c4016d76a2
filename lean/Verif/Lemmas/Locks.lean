import Verif.Spec.Locks

/-!
# Counting holders
-/

namespace Alaya.Locks

theorem count_set {α : Type} (p : α → Bool) (l : List α) (i : Nat) (a b : α) (h : l[i]? = some b) :
    (l.set i a).countP p + (if p b then 1 else 0) = l.countP p + (if p a then 1 else 0) := by
  obtain ⟨hi, rfl⟩ := List.getElem?_eq_some_iff.mp h
  rw [List.countP_set hi]
  have : (if p l[i] then 1 else 0) ≤ l.countP p := by
    split
    · next hp => exact List.countP_pos_iff.mpr ⟨_, List.getElem_mem hi, hp⟩
    · omega
  omega

theorem count_none {α : Type} {p : α → Bool} {l : List α} : l.countP p = 0 ↔ ∀ a ∈ l, p a = false := by
  rw [List.countP_eq_zero]
  simp

theorem count_one {α : Type} {p : α → Bool} {l : List α} (h : l.countP p ≤ 1) {i j : Nat} {a b : α} (hi : l[i]? = some a)
    (hj : l[j]? = some b) (ha : p a = true) (hb : p b = true) : i = j := by
  induction l generalizing i j with
  | nil => simp at hi
  | cons x t ih =>
    rw [List.countP_cons] at h
    cases i with
    | zero =>
      cases j with
      | zero => rfl
      | succ j =>
        simp only [List.getElem?_cons_zero, Option.some.injEq] at hi
        subst hi
        rw [if_pos ha] at h
        rw [List.getElem?_cons_succ] at hj
        have := count_none.mp (show t.countP p = 0 by omega) b (List.mem_of_getElem? hj)
        rw [hb] at this; cases this
    | succ i =>
      rw [List.getElem?_cons_succ] at hi
      cases j with
      | zero =>
        simp only [List.getElem?_cons_zero, Option.some.injEq] at hj
        subst hj
        rw [if_pos hb] at h
        have := count_none.mp (show t.countP p = 0 by omega) a (List.mem_of_getElem? hi)
        rw [ha] at this; cases this
      | succ j =>
        rw [List.getElem?_cons_succ] at hj
        rw [ih (by omega) hi hj]

/-! ## SpinLock -/

def isHeld : SPc → Bool
  | .held => true
  | _ => false

def SInv (s : Spin) : Prop := s.threads.countP isHeld = if s.flag then 1 else 0

theorem spinStep_inv {s s' : Spin} {i : Nat} {a : SAct} (h : SInv s) (hs : spinStep s i a = some s') : SInv s' := by
  unfold SInv at *
  unfold spinStep at hs
  split at hs
  · next hi =>
    have := count_set isHeld s.threads i .spin _ hi
    cases hs
    simp only [isHeld, Bool.false_eq_true, ↓reduceIte, Nat.add_zero] at this
    rw [← h, this]
  · next hi =>
    have := count_set isHeld s.threads i .held _ hi
    split at hs
    · next hf =>
      cases hs
      simpa [hf] using h
    · next hf =>
      cases hs
      simp only [isHeld, hf, Bool.false_eq_true, ↓reduceIte] at this h ⊢
      omega
  · next hi =>
    have := count_set isHeld s.threads i .held _ hi
    split at hs
    · next hf =>
      cases hs
      simpa [hf] using h
    · next hf =>
      cases hs
      simp only [isHeld, hf, Bool.false_eq_true, ↓reduceIte] at this h ⊢
      omega
  · next hi =>
    have := count_set isHeld s.threads i .idle _ hi
    cases hs
    simp only [isHeld, Bool.false_eq_true, ↓reduceIte] at this ⊢
    split at h <;> omega
  · cases hs

theorem spinRun_inv {acts : List (Nat × SAct)} {s s' : Spin} (h : SInv s) (hs : spinRun s acts = some s') : SInv s' := by
  induction acts generalizing s with
  | nil => cases hs; exact h
  | cons x t ih =>
    obtain ⟨s1, h1, h2⟩ := Option.bind_eq_some_iff.mp hs
    exact ih (spinStep_inv h h1) h2

/-! ## SharedLock -/

def isReader : Pc → Bool
  | .reader => true
  | _ => false

def isWriter : Pc → Bool
  | .writer => true
  | _ => false

structure Inv (s : Shared) : Prop where
  counts : (s.threads.countP isWriter = 1 ∧ s.threads.countP isReader = 0 ∧ s.state = -1) ∨
    (s.threads.countP isWriter = 0 ∧ s.state = (s.threads.countP isReader : Int))
  loaded : ∀ e, Pc.scas e ∈ s.threads → 0 ≤ e

theorem loaded_set {l : List Pc} {i : Nat} {a : Pc} (h : ∀ e, Pc.scas e ∈ l → 0 ≤ e) (ha : ∀ e, a = Pc.scas e → 0 ≤ e) :
    ∀ e, Pc.scas e ∈ l.set i a → 0 ≤ e := by
  intro e he
  rcases List.mem_or_eq_of_mem_set he with h1 | h1
  · exact h e h1
  · exact ha e h1.symm

/-- `degrade` and `upgrade` -/
def Act.converts : Act → Bool
  | .degrade _ => true
  | .upgrade _ => true
  | _ => false

theorem step_inv {asserts : Bool} {s s' : Shared} {i : Nat} {a : Act} (h : Inv s) (ha : asserts = true ∨ a.converts = false)
    (hs : step asserts s i a = some s') : Inv s' := by
  obtain ⟨hc, hl⟩ := h
  unfold step at hs
  split at hs
  · next hi =>
    have w := count_set isWriter s.threads i .sload _ hi
    have r := count_set isReader s.threads i .sload _ hi
    cases hs
    simp only [isWriter, isReader, Bool.false_eq_true, ↓reduceIte, Nat.add_zero] at w r
    refine ⟨?_, loaded_set hl (by intro e he; cases he)⟩
    simp only [w, r]; exact hc
  · next hi =>
    have w := count_set isWriter s.threads i .wcas _ hi
    have r := count_set isReader s.threads i .wcas _ hi
    cases hs
    simp only [isWriter, isReader, Bool.false_eq_true, ↓reduceIte, Nat.add_zero] at w r
    refine ⟨?_, loaded_set hl (by intro e he; cases he)⟩
    simp only [w, r]; exact hc
  · next hi =>
    have w := count_set isWriter s.threads i (.scas s.state) _ hi
    have r := count_set isReader s.threads i (.scas s.state) _ hi
    split at hs
    · cases hs; exact ⟨hc, hl⟩
    · next hne =>
      cases hs
      simp only [isWriter, isReader, Bool.false_eq_true, ↓reduceIte, Nat.add_zero] at w r
      refine ⟨?_, loaded_set hl ?_⟩
      · simp only [w, r]; exact hc
      · intro e he
        cases he
        rcases hc with ⟨_, _, h3⟩ | ⟨_, h3⟩
        · exact absurd h3 hne
        · omega
  · next sp e hi =>
    have he := hl e (List.mem_of_getElem? hi)
    simp only [cas] at hs
    split at hs
    · next hcas =>
      have w := count_set isWriter s.threads i .reader _ hi
      have r := count_set isReader s.threads i .reader _ hi
      cases hs
      simp only [isWriter, isReader, Bool.false_eq_true, ↓reduceIte, Nat.add_zero] at w r
      refine ⟨?_, loaded_set hl (by intro e he; cases he)⟩
      simp only [w, r, if_true]
      omega
    · have w := count_set isWriter s.threads i .sload _ hi
      have r := count_set isReader s.threads i .sload _ hi
      cases hs
      simp only [isWriter, isReader, Bool.false_eq_true, ↓reduceIte, Nat.add_zero] at w r
      refine ⟨?_, loaded_set hl (by intro e he; cases he)⟩
      simp only [w, r, Bool.false_eq_true, ↓reduceIte]; exact hc
  · next sp hi =>
    simp only [cas] at hs
    split at hs
    · next hcas =>
      have w := count_set isWriter s.threads i .writer _ hi
      have r := count_set isReader s.threads i .writer _ hi
      cases hs
      simp only [isWriter, isReader, Bool.false_eq_true, ↓reduceIte, Nat.add_zero] at w r
      refine ⟨?_, loaded_set hl (by intro e he; cases he)⟩
      simp only [w, r, if_true]
      exact .inl ⟨by omega, by omega, trivial⟩
    · have w := count_set isWriter s.threads i .wcas _ hi
      have r := count_set isReader s.threads i .wcas _ hi
      cases hs
      simp only [isWriter, isReader, Bool.false_eq_true, ↓reduceIte, Nat.add_zero] at w r
      refine ⟨?_, loaded_set hl (by intro e he; cases he)⟩
      simp only [w, r, Bool.false_eq_true, ↓reduceIte]; exact hc
  · next hi =>
    have w := count_set isWriter s.threads i .idle _ hi
    have r := count_set isReader s.threads i .idle _ hi
    cases hs
    simp only [isWriter, isReader, Bool.false_eq_true, ↓reduceIte, Nat.add_zero] at w r
    refine ⟨?_, loaded_set hl (by intro e he; cases he)⟩
    simp only [w]
    omega
  · next hi =>
    have w := count_set isWriter s.threads i .idle _ hi
    have r := count_set isReader s.threads i .idle _ hi
    cases hs
    simp only [isWriter, isReader, Bool.false_eq_true, ↓reduceIte, Nat.add_zero] at w r
    refine ⟨?_, loaded_set hl (by intro e he; cases he)⟩
    simp only [r]
    omega
  · next sp hi =>
    have has : asserts = true := by
      rcases ha with h | h
      · exact h
      · cases h
    subst has
    simp only [cas] at hs
    split at hs
    · next hcas =>
      have w := count_set isWriter s.threads i .reader _ hi
      have r := count_set isReader s.threads i .reader _ hi
      simp at hs
      cases hs
      simp only [isWriter, isReader, Bool.false_eq_true, ↓reduceIte, Nat.add_zero] at w r
      refine ⟨?_, loaded_set hl (by intro e he; cases he)⟩
      simp only [r]
      omega
    · simp at hs
  · next sp hi =>
    have has : asserts = true := by
      rcases ha with h | h
      · exact h
      · cases h
    subst has
    simp only [cas] at hs
    split at hs
    · next hcas =>
      have w := count_set isWriter s.threads i .writer _ hi
      have r := count_set isReader s.threads i .writer _ hi
      simp at hs
      cases hs
      simp only [isWriter, isReader, Bool.false_eq_true, ↓reduceIte, Nat.add_zero] at w r
      refine ⟨?_, loaded_set hl (by intro e he; cases he)⟩
      simp only [w]
      exact .inl ⟨by omega, by omega, trivial⟩
    · simp at hs
  · cases hs

theorem run_inv {asserts : Bool} {acts : List (Nat × Act)} {s s' : Shared} (h : Inv s)
    (ha : asserts = true ∨ ∀ x ∈ acts, x.2.converts = false) (hs : run asserts s acts = some s') : Inv s' := by
  induction acts generalizing s with
  | nil => cases hs; exact h
  | cons x t ih =>
    obtain ⟨s1, h1, h2⟩ := Option.bind_eq_some_iff.mp hs
    refine ih (step_inv h ?_ h1) ?_ h2
    · exact ha.imp id (fun h => h x List.mem_cons_self)
    · exact ha.imp id (fun h y hy => h y (List.mem_cons_of_mem _ hy))

/-! ## FileLock -/

def FInv (s : Files) : Prop :=
  (∀ i : Nat, s.procs[i]? = some (FPc.inside true) → s.owner = some i) ∧ (∀ i : Nat, s.procs[i]? ≠ some (FPc.inside false)) ∧
    ∀ i, s.owner = some i → s.procs[i]? = some (FPc.inside true)

/-- `open` and `flock` succeed -/
def FAct.succeeds : FAct → Bool
  | .construct ok => ok
  | .interrupted => false
  | _ => true

theorem fileStep_inv {s s' : Files} {i : Nat} {a : FAct} (h : FInv s) (ha : a.succeeds = true) (hs : fileStep s i a = some s') : FInv s' := by
  obtain ⟨h1, h2, h3⟩ := h
  unfold fileStep at hs
  have key : ∀ (c : FPc) (j : Nat) (x : FPc), (s.procs.set i c)[j]? = some x → (j = i ∧ x = c) ∨ s.procs[j]? = some x := by
    intro c j x hx
    rw [List.getElem?_set] at hx
    split at hx
    · next e =>
      split at hx
      · exact .inl ⟨e.symm, (Option.some.inj hx).symm⟩
      · cases hx
    · exact .inr hx
  have keep : ∀ (c : FPc) (j : Nat), j ≠ i → (s.procs.set i c)[j]? = s.procs[j]? := by
    intro c j hj
    rw [List.getElem?_set_ne (Ne.symm hj)]
  split at hs
  · next ok hi =>
    have hok : ok = true := ha
    subst hok
    cases hs
    refine ⟨?_, ?_, ?_⟩
    · intro j hj
      rcases key _ j _ hj with ⟨_, h⟩ | h
      · cases h
      · exact h1 j h
    · intro j hj
      rcases key _ j _ hj with ⟨_, h⟩ | h
      · cases h
      · exact h2 j h
    · intro j hj
      have := h3 j hj
      rw [keep _ _ (by rintro rfl; rw [hi] at this; cases this)]
      exact this
  · next hi =>
    split at hs
    · next hn =>
      cases hs
      refine ⟨?_, ?_, ?_⟩
      · intro j hj
        rcases key _ j _ hj with ⟨h, _⟩ | h
        · rw [h]
        · have := h1 j h; rw [hn] at this; cases this
      · intro j hj
        rcases key _ j _ hj with ⟨_, h⟩ | h
        · cases h
        · exact h2 j h
      · intro j hj
        cases hj
        exact List.getElem?_set_self (List.getElem?_eq_some_iff.mp hi).1
    · cases hs
  · cases ha
  · next fd hi =>
    cases hs
    cases fd with
    | false => exact absurd hi (h2 i)
    | true =>
      have ho := h1 i hi
      refine ⟨?_, ?_, ?_⟩
      · intro j hj
        have hj' := hj
        simp only [List.getElem?_set] at hj'
        split at hj'
        · split at hj' <;> cases hj'
        · next hne =>
          have := h1 j hj'
          rw [ho] at this
          exact absurd (Option.some.inj this) hne
      · intro j hj
        rcases key _ j _ hj with ⟨_, h⟩ | h
        · cases h
        · exact h2 j h
      · intro j hj
        simp [ho] at hj
  · cases hs

theorem fileRun_inv {acts : List (Nat × FAct)} {s s' : Files} (h : FInv s) (ha : ∀ x ∈ acts, x.2.succeeds = true)
    (hs : fileRun s acts = some s') : FInv s' := by
  induction acts generalizing s with
  | nil => cases hs; exact h
  | cons x t ih =>
    obtain ⟨s1, h1, h2⟩ := Option.bind_eq_some_iff.mp hs
    exact ih (fileStep_inv h (ha x List.mem_cons_self) h1) (fun y hy => ha y (List.mem_cons_of_mem _ hy)) h2

end Alaya.Locks
