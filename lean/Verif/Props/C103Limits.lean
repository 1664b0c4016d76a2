import Verif.Props.C103

/-!
# C103: what the locks do not promise
-/

namespace Alaya.Locks

/-- Without assertions two readers that convert are writers at the same time. -/
theorem C103_upgrade_refuted :
    ¬ ∀ n acts s, run false (shared0 n) acts = some s → Apart s.threads (· = .writer) (· = .writer) := by
  intro h
  have := h 2 [(0, .lockShared), (0, .go false), (0, .go false), (1, .lockShared), (1, .go false), (1, .go false), (0, .upgrade false), (1, .upgrade false)]
    ⟨2, [.writer, .writer]⟩ (by decide +kernel) 0 1 .writer .writer rfl rfl rfl rfl
  cases this

/-- … and afterwards the lock can stay taken with nobody holding it. -/
theorem C103_stuck_refuted :
    run false (shared0 3) [(0, .lockShared), (0, .go false), (0, .go false), (1, .lockShared), (1, .go false), (1, .go false), (0, .upgrade false),
      (0, .unlock), (1, .unlockShared), (2, .lock), (2, .go false)] = some ⟨-1, [.idle, .idle, .wcas]⟩ := by decide +kernel

/-- Without assertions one spurious failure of the exchange leaves a converted writer's lock taken: readers wait for a reader. -/
theorem C103_degrade_refuted :
    run false (shared0 2) [(0, .lock), (0, .go false), (0, .degrade true), (1, .lockShared), (1, .go false)] = some ⟨-1, [.reader, .sload]⟩ := by
  decide +kernel

/-- … and when that reader leaves, nobody holds the lock and still no writer gets it. -/
theorem C103_degrade_stuck_refuted :
    run false (shared0 2) [(0, .lock), (0, .go false), (0, .degrade true), (0, .unlockShared), (1, .lock), (1, .go false)] = some ⟨-2, [.idle, .wcas]⟩ := by
  decide +kernel

/-- With assertions a spurious failure ends the program. -/
theorem C103_assert_refuted : run true (shared0 1) [(0, .lock), (0, .go false), (0, .degrade true)] = none := by decide +kernel

def crowd : Shared := ⟨1, [.reader, .idle, .wcas]⟩

/-- One round: another reader comes, the writer tries, the first reader leaves and comes back, the writer tries, the second leaves. -/
def round : List (Nat × Act) :=
  [(1, .lockShared), (1, .go false), (1, .go false), (2, .go false), (0, .unlockShared), (2, .go false), (0, .lockShared), (0, .go false), (0, .go false),
   (2, .go false), (1, .unlockShared)]

theorem run_append (asserts : Bool) (s : Shared) (x y : List (Nat × Act)) : run asserts s (x ++ y) = (run asserts s x).bind (run asserts · y) := by
  induction x generalizing s with
  | nil => rfl
  | cons a t ih =>
    simp only [List.cons_append, run]
    cases step asserts s a.1 a.2 with
    | none => rfl
    | some s1 => exact ih s1

/-- A writer can wait for ever although every reader leaves: after any number of rounds, in each of which it tries three times, it
still waits. -/
theorem C103_starve_refuted (k : Nat) :
    run true (shared0 3) ([(0, .lockShared), (0, .go false), (0, .go false), (2, .lock)] ++ (List.replicate k round).flatten) = some crowd := by
  rw [run_append]
  have : run true (shared0 3) [(0, .lockShared), (0, .go false), (0, .go false), (2, .lock)] = some crowd := by decide +kernel
  rw [this, Option.bind_some]
  induction k with
  | zero => rfl
  | succ k ih =>
    rw [List.replicate_succ, List.flatten_cons, run_append]
    have : run true crowd round = some crowd := by decide +kernel
    rw [this, Option.bind_some, ih]

/-- A `FileLock` whose file cannot be opened, or whose `flock` is interrupted, lets its owner in beside another. -/
theorem C103_open_refuted :
    ¬ ∀ n acts s, fileRun (files0 n) acts = some s → Apart s.procs (∃ fd, · = .inside fd) (∃ fd, · = .inside fd) := by
  intro h
  have := h 2 [(0, .construct true), (0, .granted), (1, .construct false)] ⟨some 0, [.inside true, .inside false]⟩ (by decide +kernel) 0 1 _ _ rfl rfl
    ⟨_, rfl⟩ ⟨_, rfl⟩
  cases this

theorem C103_interrupted_refuted :
    fileRun (files0 2) [(0, .construct true), (0, .granted), (1, .construct true), (1, .interrupted)] = some ⟨some 0, [.inside true, .inside true]⟩ := by
  decide +kernel

end Alaya.Locks
