import Verif.Lemmas.Locks

/-!
# C103: locks exclude each other

Model: Model/Locks.lean.  Spec: Spec/Locks.lean.  What fails is in C103Limits.lean.
-/

namespace Alaya.Locks

/-- A fresh `SpinLock` and `n` threads. -/
def spin0 (n : Nat) : Spin := ⟨false, List.replicate n .idle⟩

/-- A fresh `SharedLock` and `n` threads. -/
def shared0 (n : Nat) : Shared := ⟨0, List.replicate n .idle⟩

/-- `n` processes, none of which holds the lock. -/
def files0 (n : Nat) : Files := ⟨none, List.replicate n .out⟩

theorem replicate_count {α : Type} (p : α → Bool) (n : Nat) (a : α) (h : p a = false) : (List.replicate n a).countP p = 0 := by
  rw [count_none]
  intro b hb
  rw [(List.mem_replicate.mp hb).2, h]

/-- `SpinLock`: never two holders; while there is none the next attempt of whoever waits or tries succeeds, and while there is
one no attempt does. -/
theorem C103_spin (n : Nat) (acts : List (Nat × SAct)) (s : Spin) (h : spinRun (spin0 n) acts = some s) :
    Apart s.threads (· = .held) (· = .held) ∧
    (Nobody s.threads (· = .held) → ∀ i, (s.threads[i]? = some .spin → spinStep s i .go = some ⟨true, s.threads.set i .held⟩) ∧
      (s.threads[i]? = some .idle → spinStep s i .tryLock = some ⟨true, s.threads.set i .held⟩)) ∧
    (¬ Nobody s.threads (· = .held) → ∀ i, (s.threads[i]? = some .spin → spinStep s i .go = some s) ∧
      (s.threads[i]? = some .idle → spinStep s i .tryLock = some s)) := by
  have hinv : SInv s := by
    apply spinRun_inv _ h
    unfold SInv spin0
    rw [replicate_count _ _ _ rfl]; rfl
  unfold SInv at hinv
  refine ⟨?_, ?_, ?_⟩
  · rintro i j a b hi hj rfl rfl
    exact count_one (p := isHeld) (by split at hinv <;> omega) hi hj rfl rfl
  · intro hn i
    have h0 : s.threads.countP isHeld = 0 := by
      rw [count_none]
      intro a ha
      have := hn a ha
      cases a <;> first | rfl | exact absurd rfl this
    have hf : s.flag = false := by
      rw [h0] at hinv
      cases hfl : s.flag
      · rfl
      · rw [hfl] at hinv; simp at hinv
    constructor <;> intro hi <;> simp [spinStep, hi, hf]
  · intro hn i
    have hf : s.flag = true := by
      cases hfl : s.flag
      · exfalso
        rw [hfl] at hinv
        have h0 := count_none.mp (show s.threads.countP isHeld = 0 from hinv)
        apply hn
        rintro a ha rfl
        exact absurd (h0 _ ha) (by decide)
      · rfl
    obtain ⟨fl, ts⟩ := s
    simp only at hf
    subst hf
    constructor <;> intro hi <;> simp only at hi <;> simp [spinStep, hi]

/-- `SharedLock`: never two writers, never a writer beside a reader, for every number of threads and every order of steps,
if assertions are compiled in or nobody converts a lock; a writer that tries while nobody holds the lock gets it, and a reader
that tries while there is no writer gets it, unless somebody else comes between or the exchange fails for no reason. -/
theorem C103_shared (n : Nat) (asserts : Bool) (acts : List (Nat × Act)) (s : Shared) (h : run asserts (shared0 n) acts = some s)
    (ha : asserts = true ∨ ∀ i sp, (i, Act.degrade sp) ∉ acts ∧ (i, Act.upgrade sp) ∉ acts) :
    Apart s.threads (· = .writer) (· = .writer) ∧ Apart s.threads (· = .writer) (· = .reader) ∧
    (∀ i, s.threads[i]? = some .wcas → (Nobody s.threads (fun p => p = .writer ∨ p = .reader) ↔
      (step asserts s i (.go false)).bind (·.threads[i]?) = some .writer)) ∧
    (∀ i, s.threads[i]? = some .sload → (Nobody s.threads (· = .writer) ↔
      (run asserts s [(i, .go false), (i, .go false)]).bind (·.threads[i]?) = some .reader)) := by
  have hinv : Inv s := by
    apply run_inv _ _ h
    · refine ⟨.inr ?_, ?_⟩
      · unfold shared0
        rw [replicate_count _ _ _ rfl, replicate_count _ _ _ rfl]; exact ⟨rfl, rfl⟩
      · intro e he
        cases (List.mem_replicate.mp he).2
    · refine ha.imp id (fun h => ?_)
      rintro ⟨i, a⟩ hx
      cases a with
      | degrade sp => exact absurd hx (h i sp).1
      | upgrade sp => exact absurd hx (h i sp).2
      | _ => rfl
  obtain ⟨hc, _⟩ := hinv
  have hw0 : s.threads.countP isWriter = 0 ↔ Nobody s.threads (· = .writer) := by
    rw [count_none]
    constructor
    · rintro h a ha rfl; exact absurd (h _ ha) (by decide)
    · intro h a ha
      have := h a ha
      cases a <;> first | rfl | exact absurd rfl this
  have hr0 : s.threads.countP isReader = 0 ↔ Nobody s.threads (· = .reader) := by
    rw [count_none]
    constructor
    · rintro h a ha rfl; exact absurd (h _ ha) (by decide)
    · intro h a ha
      have := h a ha
      cases a <;> first | rfl | exact absurd rfl this
  refine ⟨?_, ?_, ?_, ?_⟩
  · rintro i j a b hi hj rfl rfl
    exact count_one (p := isWriter) (by omega) hi hj rfl rfl
  · rintro i j a b hi hj rfl rfl
    exfalso
    have h1 : ¬ s.threads.countP isWriter = 0 := fun h => hw0.mp h _ (List.mem_of_getElem? hi) rfl
    have h2 : ¬ s.threads.countP isReader = 0 := fun h => hr0.mp h _ (List.mem_of_getElem? hj) rfl
    omega
  · intro i hi
    have hlt := (List.getElem?_eq_some_iff.mp hi).1
    have hno : Nobody s.threads (fun p => p = .writer ∨ p = .reader) ↔ s.state = 0 := by
      constructor
      · intro hn
        have h1 := hw0.mpr (fun a ha h => hn a ha (.inl h))
        have h2 := hr0.mpr (fun a ha h => hn a ha (.inr h))
        omega
      · intro h0 a ha hor
        rcases hor with rfl | rfl
        · exact hw0.mp (by omega) _ ha rfl
        · exact hr0.mp (by omega) _ ha rfl
    rw [hno]
    simp only [step, hi, cas, Option.bind_some]
    by_cases h0 : s.state = 0
    · simp [h0, hlt]
    · simp [h0, hlt]
  · intro i hi
    have hlt := (List.getElem?_eq_some_iff.mp hi).1
    have hno : Nobody s.threads (· = .writer) ↔ s.state ≠ -1 := by
      rw [← hw0]; omega
    rw [hno]
    simp only [run, step, hi]
    by_cases h0 : s.state = -1
    · simp [h0, hi]
    · simp [h0, hlt, cas]

/-- `FileLock`: never two processes inside if `open` and `flock` succeed, and the lock can be had while nobody is inside. -/
theorem C103_file (n : Nat) (acts : List (Nat × FAct)) (s : Files) (h : fileRun (files0 n) acts = some s)
    (ha : ∀ i, (i, FAct.construct false) ∉ acts ∧ (i, FAct.interrupted) ∉ acts) :
    Apart s.procs (∃ fd, · = .inside fd) (∃ fd, · = .inside fd) ∧
    (Nobody s.procs (∃ fd, · = .inside fd) → ∀ i, s.procs[i]? = some .waiting →
      fileStep s i .granted = some ⟨some i, s.procs.set i (.inside true)⟩) := by
  have hinv : FInv s := by
    apply fileRun_inv _ _ h
    · have hr : ∀ (i : Nat) (x : FPc), (files0 n).procs[i]? = some x → x = .out := by
        intro i x hx
        exact (List.mem_replicate.mp (List.mem_of_getElem? hx)).2
      refine ⟨?_, ?_, ?_⟩
      · intro i hi; cases hr i _ hi
      · intro i hi; cases hr i _ hi
      · intro i hi; cases hi
    · rintro ⟨i, a⟩ hx
      cases a with
      | construct ok =>
        cases ok with
        | true => rfl
        | false => exact absurd hx (ha i).1
      | interrupted => exact absurd hx (ha i).2
      | _ => rfl
  obtain ⟨h1, h2, h3⟩ := hinv
  constructor
  · rintro i j a b hi hj ⟨fa, rfl⟩ ⟨fb, rfl⟩
    cases fa with
    | false => exact absurd hi (h2 i)
    | true =>
      cases fb with
      | false => exact absurd hj (h2 j)
      | true => exact Option.some.inj ((h1 i hi).symm.trans (h1 j hj))
  · intro hn i hi
    have ho : s.owner = none := by
      cases hown : s.owner with
      | none => rfl
      | some k => exact absurd ⟨_, rfl⟩ (hn _ (List.mem_of_getElem? (h3 k hown)))
    simp [fileStep, hi, ho]

/-! Concrete cases. -/

/-- Two readers at a time, then a writer that has to wait for both. -/
def traffic : List (Nat × Act) :=
  [(0, .lockShared), (1, .lockShared), (2, .lock), (0, .go false), (1, .go false), (0, .go false), (1, .go false), (1, .go false), (1, .go false),
   (2, .go false), (0, .unlockShared), (2, .go false), (1, .unlockShared), (2, .go true), (2, .go false)]

theorem C103_example_shared :
    (run false (shared0 3) (traffic.take 9)).map (·.threads) = some [.reader, .reader, .wcas] ∧
    (run false (shared0 3) traffic) = some ⟨-1, [.idle, .idle, .writer]⟩ ∧
    (run true (shared0 3) (traffic ++ [(2, .degrade false), (2, .upgrade false), (2, .unlock)])) = some (shared0 3) := by decide +kernel

theorem C103_example_spin :
    spinRun (spin0 2) [(0, .lock), (1, .lock), (1, .go), (0, .go)] = some ⟨true, [.spin, .held]⟩ := by decide +kernel

theorem C103_example_file :
    fileRun (files0 2) [(0, .construct true), (1, .construct true), (1, .granted)] = some ⟨some 1, [.waiting, .inside true]⟩ := by decide +kernel

end Alaya.Locks
