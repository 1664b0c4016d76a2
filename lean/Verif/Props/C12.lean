import Verif.Lemmas.RecoveryRun

/-! C12: acknowledged writes survive any number of crash/recover cycles. -/
namespace Alaya.Recovery
open Wal

/-- The history is within the 64-bit ranges of the format and the clock moves between snapshots. -/
structure HistoryOk (ms : Nat) (evs : List Event) : Prop where
  ids : evs.length < 2 ^ 64
  clock : ms + (evs.map Event.dt).sum < 2 ^ 64
  ticks : ∀ e ∈ evs, e.ticks = true

instance (ms : Nat) (evs : List Event) : Decidable (HistoryOk ms evs) :=
  decidable_of_iff (evs.length < 2 ^ 64 ∧ ms + (evs.map Event.dt).sum < 2 ^ 64 ∧ ∀ e ∈ evs, e.ticks = true)
    ⟨fun h => ⟨h.1, h.2.1, h.2.2⟩, fun h => ⟨h.1, h.2, h.3⟩⟩

/-- The full statement: after every history recovery succeeds and the content is an outcome the specification allows
(every returned operation has taken effect). -/
def C12Statement : Prop :=
  ∀ (σ : Type) (sem : Sem σ), SemOk sem → ∀ (s : σ) (ms : Nat) (evs : List Event), HistoryOk ms evs →
    ∃ y q, run sem (afterFit s ms) evs = some y ∧ SpecRun sem (s, true) evs q ∧ Content sem y q.1

/-- Example index: an append-only list; an empty payload throws, a repeated payload starting with `!` is refused. -/
def listSem : Sem (List Bytes) where
  refuse s _ p := p.head? == some 33 && s.contains p
  exec s _ p := if p = [] then none else some (s ++ [p])
  replay s _ p := if p = [] then none else some (s ++ [p])

theorem listSem_ok : SemOk listSem := fun _ _ _ _ h => h

/-- A torn append, a recovery with nothing to replay, an acknowledged insert, another crash. -/
def lostHistory : List Event :=
  [.opCrash .insert (str "a") 10, .recover 1, .op .insert (str "b"), .crash 0, .recover 1]

set_option maxRecDepth 100000 in
theorem lostHistory_run : (run listSem (afterFit [] 5) lostHistory).map (fun y => y.mem.map Mem.state) = some (some []) := by
  decide

/-- The unchanged code does not satisfy the full statement: `load` leaves the torn bytes of an earlier crash in the log
when it has nothing to replay, later frames are appended behind them and no scan reaches them. -/
theorem C12_torn_tail_refuted : ¬ C12Statement := by
  intro h
  obtain ⟨y, q, h1, h2, h3⟩ := h _ listSem listSem_ok [] 5 lostHistory (by decide)
  have hr := lostHistory_run
  rw [h1] at hr
  simp only [Option.map_some, Option.some.injEq] at hr
  have hq : str "b" ∈ q.1 := by
    simp only [lostHistory, SpecRun, specNext] at h2
    obtain ⟨r1, hr1, r2, hr2, r3, hr3, r4, hr4, r5, hr5, rfl⟩ := h2
    simp only [if_true, List.mem_cons, List.not_mem_nil, or_false] at hr1 hr2 hr4 hr5
    subst hr2
    simp only [if_true, List.mem_singleton] at hr3
    subst hr3 hr4 hr5
    rcases hr1 with rfl | rfl <;> decide
  unfold Content at h3
  cases hm : y.mem with
  | none => rw [hm] at hr; simp at hr
  | some m =>
    rw [hm] at hr h3
    simp only [Option.map_some, Option.some.injEq] at hr
    simp only at h3
    rw [← h3, hr] at hq
    simp at hq

/-- Partial (missing: recoveries that leave a torn tail in the log because nothing is replayed): for every index content,
every history of calls, crashes at any byte, snapshots, and recoveries (also crashed ones), recovery always succeeds and
every returned operation is part of the content. -/
theorem C12_acked_survive_partial {σ : Type} (sem : Sem σ) (hsem : SemOk sem) (s : σ) (ms : Nat) (evs : List Event)
    (h : HistoryOk ms evs) (hclean : CleanRecoveries sem (afterFit s ms) evs = true) :
    ∃ y q, run sem (afterFit s ms) evs = some y ∧ SpecRun sem (s, true) evs q ∧ Content sem y q.1 := by
  have hms : ms < 2 ^ 64 := by have := h.clock; omega
  obtain ⟨y, q, G, h1, h2, h3, _⟩ := run_inv hsem evs (afterFit_inv sem s ms hms) (by have := h.ids; omega) h.clock h.ticks hclean
  exact ⟨y, q, h1, h2, h3.content (by have := h.ids; omega)⟩

/-- Two torn appends with replay in between, a failed call, a crash inside the checkpoint of `save`. -/
def sampleHistory : List Event :=
  [.op .insert (str "a"), .opCrash .insert (str "b") 150, .recover 1, .op .insert [], .op .upsert (str "c"),
   .checkpointCrash 2 3 0, .recoverCrash 1 5 0, .recover 7, .op .insert (str "d"), .crash 0]

set_option maxRecDepth 100000 in
example : HistoryOk 5 sampleHistory ∧ CleanRecoveries listSem (afterFit [] 5) sampleHistory = true := by decide

theorem clean_of_no_recover {σ : Type} (sem : Sem σ) (y : Sys σ) (evs : List Event)
    (hno : ∀ e ∈ evs, ∀ dt, e ≠ .recover dt) : CleanRecoveries sem y evs = true := by
  induction evs generalizing y with
  | nil => rfl
  | cons e es ih =>
    unfold CleanRecoveries
    rw [Bool.and_eq_true]
    refine ⟨?_, ?_⟩
    · cases e with
      | recover dt => exact absurd rfl (hno (.recover dt) (by simp) dt)
      | _ => rfl
    · cases step sem y e with
      | none => rfl
      | some y' => exact ih y' (fun x hx => hno x (by simp [hx]))

/-- As `C12_acked_survive_partial`, also telling whether the index runs. -/
theorem acked_survive_mem {σ : Type} (sem : Sem σ) (hsem : SemOk sem) (s : σ) (ms : Nat) (evs : List Event)
    (h : HistoryOk ms evs) (hclean : CleanRecoveries sem (afterFit s ms) evs = true) :
    ∃ y q, run sem (afterFit s ms) evs = some y ∧ SpecRun sem (s, true) evs q ∧ Content sem y q.1 ∧
      (q.2 = false → y.mem = none) := by
  have hms : ms < 2 ^ 64 := by have := h.clock; omega
  obtain ⟨y, q, G, h1, h2, h3, _⟩ := run_inv hsem evs (afterFit_inv sem s ms hms) (by have := h.ids; omega) h.clock h.ticks hclean
  exact ⟨y, q, h1, h2, h3.content (by have := h.ids; omega), h3.stopped⟩

/-- Up to the first completed recovery no condition is needed: after any calls, snapshots and one crash anywhere (and
further crashes inside `load`), the next `load` succeeds and finds every returned operation. -/
theorem C12_single_recovery {σ : Type} (sem : Sem σ) (hsem : SemOk sem) (s : σ) (ms : Nat) (evs : List Event)
    (h : HistoryOk ms evs) (hno : ∀ e ∈ evs, ∀ dt, e ≠ .recover dt) :
    ∃ y q, run sem (afterFit s ms) evs = some y ∧ SpecRun sem (s, true) evs q ∧ Content sem y q.1 :=
  C12_acked_survive_partial sem hsem s ms evs h (clean_of_no_recover sem _ evs hno)

example : ∀ e ∈ [Event.op .insert (str "a"), .checkpoint 1, .op .upsert (str "b"), .opCrash .insert (str "c") 12],
    ∀ dt, e ≠ .recover dt := by
  intro e he dt
  simp only [List.mem_cons, List.not_mem_nil, or_false] at he
  rcases he with rfl | rfl | rfl | rfl <;> simp

end Alaya.Recovery
