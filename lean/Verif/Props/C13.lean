import Verif.Props.C12

/-! C13: snapshot publication is crash-atomic. -/
namespace Alaya.Recovery
open Wal

/-- `save` on any reachable running index, interrupted after any number `j` of its file-system steps (and losing
unsynced log bytes beyond any cut): the next `load` finds exactly the content before `save`. Hypotheses: the clock has
advanced since the last snapshot and earlier recoveries were clean (see C12). -/
theorem C13_save_atomic {σ : Type} (sem : Sem σ) (hsem : SemOk sem) (s : σ) (ms : Nat) (evs : List Event) (y : Sys σ)
    (m : Mem σ) (dt j cut : Nat) (h : HistoryOk ms (evs ++ [.checkpointCrash dt j cut]))
    (hclean : CleanRecoveries sem (afterFit s ms) evs = true)
    (hy : run sem (afterFit s ms) evs = some y) (hm : y.mem = some m) :
    ∃ y', step sem y (.checkpointCrash dt j cut) = some y' ∧ y'.mem = none ∧ Content sem y' m.state := by
  have hms : ms < 2 ^ 64 := by have := h.clock; omega
  have hids := h.ids
  have hcl := h.clock
  have htk := h.ticks (.checkpointCrash dt j cut) (by simp)
  simp only [List.length_append, List.length_singleton, List.map_append, List.map_cons, List.map_nil, List.sum_append,
    List.sum_cons, List.sum_nil, Event.dt] at hids hcl
  obtain ⟨y1, q, G, h1, _, h3, _, _, hck⟩ := run_inv hsem evs (afterFit_inv sem s ms hms) (by omega)
    (show ms + _ < _ by omega) (fun e he => h.ticks e (by simp [he])) hclean
  rw [hy] at h1
  injection h1 with h1
  subst h1
  have hck' : y.clock ≤ ms + (evs.map Event.dt).sum := hck
  obtain ⟨y2, r, G2, g1, g2, g3, _⟩ := step_inv hsem h3 (.checkpointCrash dt j cut) (by omega)
    (by simp only [Event.dt]; omega) htk trivial
  have hq : q.1 = m.state := by
    unfold Inv at h3
    rw [hm] at h3
    exact h3.2.1.symm
  have hr : r = (m.state, false) := by
    simp only [specNext, List.mem_singleton] at g2
    rw [g2, hq]
  have hcont := g3.content (by omega)
  rw [hr] at hcont
  refine ⟨y2, g1, ?_, hcont⟩
  simp only [step, hm, Option.some.injEq] at g1
  rw [← g1]

/-- The same for the checkpoint that ends `load`: a crash inside it, repeated any number of times, changes nothing. -/
theorem C13_load_atomic {σ : Type} (sem : Sem σ) (hsem : SemOk sem) (s : σ) (ms : Nat) (evs : List Event) (y : Sys σ)
    (m : Mem σ) (b : Bool) (dt j cut : Nat) (h : HistoryOk ms (evs ++ [.recoverCrash dt j cut]))
    (hclean : CleanRecoveries sem (afterFit s ms) evs = true)
    (hy : run sem (afterFit s ms) evs = some y) (hm : y.mem = none) (hl : loadMem sem y.disk = some (m, b)) :
    ∃ y', step sem y (.recoverCrash dt j cut) = some y' ∧ y'.mem = none ∧ Content sem y' m.state := by
  have hms : ms < 2 ^ 64 := by have := h.clock; omega
  have hids := h.ids
  have hcl := h.clock
  have htk := h.ticks (.recoverCrash dt j cut) (by simp)
  simp only [List.length_append, List.length_singleton, List.map_append, List.map_cons, List.map_nil, List.sum_append,
    List.sum_cons, List.sum_nil, Event.dt] at hids hcl
  obtain ⟨y1, q, G, h1, _, h3, _, _, hck⟩ := run_inv hsem evs (afterFit_inv sem s ms hms) (by omega)
    (show ms + _ < _ by omega) (fun e he => h.ticks e (by simp [he])) hclean
  rw [hy] at h1
  injection h1 with h1
  subst h1
  have hck' : y.clock ≤ ms + (evs.map Event.dt).sum := hck
  obtain ⟨y2, r, G2, g1, g2, g3, _⟩ := step_inv hsem h3 (.recoverCrash dt j cut) (by omega)
    (by simp only [Event.dt]; omega) htk trivial
  have hq : q = (m.state, false) := by
    have hc := h3.content (by omega)
    unfold Content at hc
    rw [hm] at hc
    obtain ⟨m', b', e1, e2⟩ := hc
    rw [hl] at e1
    injection e1 with e1
    injection e1 with e1 _
    subst e1
    unfold Inv at h3
    rw [hm] at h3
    obtain ⟨qa, qb⟩ := q
    simp only at e2 h3
    rw [← e2, h3.1]
  have hr : r = (m.state, false) := by
    simp only [specNext, List.mem_singleton] at g2
    rw [g2, hq]
  have hcont := g3.content (by omega)
  rw [hr] at hcont
  refine ⟨y2, g1, ?_, hcont⟩
  simp only [step, hm, hl] at g1
  split at g1 <;>
  · simp only [Option.some.injEq] at g1
    rw [← g1]

-- the hypotheses are met, e.g. after two inserts and a failed one, crashing after five steps
example : HistoryOk 5 ([.op .insert (str "a"), .op .upsert (str "b"), .op .insert []] ++ [.checkpointCrash 3 5 0]) ∧
    CleanRecoveries listSem (afterFit [] 5) [.op .insert (str "a"), .op .upsert (str "b"), .op .insert []] = true := by
  decide

/-- A completed `save` leaves no log and the same content, both in memory and for a process that starts afterwards. -/
theorem C13_save_complete {σ : Type} (sem : Sem σ) (hsem : SemOk sem) (s : σ) (ms : Nat) (evs : List Event) (y : Sys σ)
    (m : Mem σ) (dt : Nat) (h : HistoryOk ms (evs ++ [.checkpoint dt]))
    (hclean : CleanRecoveries sem (afterFit s ms) evs = true)
    (hy : run sem (afterFit s ms) evs = some y) (hm : y.mem = some m) :
    ∃ y', step sem y (.checkpoint dt) = some y' ∧ y'.mem = some m ∧ walBytes y'.disk = [] ∧
      ∃ m', loadMem sem y'.disk = some (m', false) ∧ m'.state = m.state := by
  have hms : ms < 2 ^ 64 := by have := h.clock; omega
  have hids := h.ids
  have hcl := h.clock
  have htk := h.ticks (.checkpoint dt) (by simp)
  simp only [List.length_append, List.length_singleton, List.map_append, List.map_cons, List.map_nil, List.sum_append,
    List.sum_cons, List.sum_nil, Event.dt] at hids hcl
  obtain ⟨y1, q, G, h1, _, h3, _, _, hck⟩ := run_inv hsem evs (afterFit_inv sem s ms hms) (by omega)
    (show ms + _ < _ by omega) (fun e he => h.ticks e (by simp [he])) hclean
  rw [hy] at h1
  injection h1 with h1
  subst h1
  have hck' : y.clock ≤ ms + (evs.map Event.dt).sum := hck
  unfold Inv at h3
  rw [hm] at h3
  obtain ⟨_, hst, _, ms1, a, s1, os1, os2, hg, hmo⟩ := h3
  rw [← hst] at hg
  simp only [Event.ticks, decide_eq_true_eq] at htk
  have hlast : m.lastCommitted ≤ 0 + evs.length := by have := hmo.lastLt; have := hmo.nextHi; omega
  obtain ⟨_, g⟩ := ckpt_good (ms' := y.clock + dt) hg (by omega) (by omega) hlast (by omega) hmo.aLe hmo.doneLe
    hmo.lastEq (str "manual_save") (by simp)
  refine ⟨_, by simp only [step, hm]; rfl, rfl, ?_, ?_⟩
  · have := g.log.bytes
    simpa [opsBytes] using this
  · obtain ⟨m', e1, e2, _⟩ := load_good (by omega) g
    exact ⟨m', e1, e2⟩

/-- Without an advancing clock publication is not atomic: a second snapshot in the same millisecond gets the name of the
current one and rewrites its files in place; a crash then leaves no usable snapshot. -/
def sameMs : List Event := [.op .insert (str "a"), .checkpointCrash 0 2 0]

set_option maxRecDepth 100000 in
theorem C13_same_millisecond_refuted :
    (run listSem (afterFit [] 5) sameMs).map (fun y => (y.mem.isSome, (loadMem listSem y.disk).isSome))
      = some (false, false) := by decide

end Alaya.Recovery
