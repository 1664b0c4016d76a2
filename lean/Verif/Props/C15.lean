import Verif.Props.C12

/-! C15: operation ids. -/
namespace Alaya.Recovery
open Wal

/-- For every disk, however it came about: the next id after `load` is greater than the id of every complete frame in the
log and greater than the snapshot's applied_through id. -/
theorem C15_next_fresh {σ : Type} (sem : Sem σ) (d : Disk σ) (m : Mem σ) (b : Bool) (h : loadMem sem d = some (m, b)) :
    (∀ f ∈ scan (walBytes d), f.record.opId < m.next) ∧
    ∃ mf, currentSnapshot d = some mf ∧ mf.appliedThrough < m.next ∧ m.lastCommitted < m.next := by
  unfold loadMem at h
  cases hc : currentSnapshot d with
  | none => rw [hc] at h; simp at h
  | some mf =>
    rw [hc] at h
    simp only at h
    cases hd : findDir mf.snapshotId d.snaps with
    | none => rw [hd] at h; simp at h
    | some dir =>
      rw [hd] at h
      simp only at h
      cases hs : dir.state with
      | none => rw [hs] at h; simp at h
      | some s =>
        rw [hs] at h
        simp only at h
        cases hr : replayAll sem s (replayable d.wal mf.appliedThrough).1 with
        | none => rw [hr] at h; simp at h
        | some s' =>
          rw [hr] at h
          simp only [Option.some.injEq, Prod.mk.injEq] at h
          obtain ⟨rfl, _⟩ := h
          simp only
          rw [replayable_bytes d mf.appliedThrough]
          have hm0 : (replayable (some (walBytes d)) mf.appliedThrough).2
              = ((scan (walBytes d)).map (fun f => f.record.opId)).foldl max mf.appliedThrough :=
            (replayFrames_spec mf.appliedThrough _).2
          have hsp := foldl_max_spec ((scan (walBytes d)).map (fun f => f.record.opId)) mf.appliedThrough
          rw [hm0]
          have hmc := maxCommitted_spec mf.appliedThrough (replayable (some (walBytes d)) mf.appliedThrough).1
          refine ⟨?_, mf, rfl, by omega, ?_⟩
          · intro f hf
            have := hsp.2.1 _ (List.mem_map.2 ⟨f, hf, rfl⟩)
            omega
          · rcases hmc.2.2 with e | ⟨r, hr, e⟩
            · rw [e]; omega
            · rw [e]
              have hr1 : r ∈ (replayFrames mf.appliedThrough (scan (walBytes d))).committed :=
                (sortRecs_perm _).subset hr
              rw [(replayFrames_spec mf.appliedThrough _).1, List.mem_filter] at hr1
              have hmem : ∀ (fs before : List Frame), (∀ f ∈ before, f ∈ scan (walBytes d)) → (∀ f ∈ fs, f ∈ scan (walBytes d)) →
                  ∀ r ∈ committedFrom before fs, ∃ f ∈ scan (walBytes d), f.record = r := by
                intro fs
                induction fs with
                | nil => intro before _ _ r hr; simp [committedFrom] at hr
                | cons f fs ih =>
                  intro before hb hf r hr
                  simp only [committedFrom] at hr
                  rcases List.mem_append.1 hr with hr | hr
                  · rw [Option.mem_toList] at hr
                    unfold commits at hr
                    split at hr
                    · cases hlw : lastWith f.record.opId before with
                      | none => rw [hlw] at hr; simp at hr
                      | some p =>
                        rw [hlw] at hr
                        simp only at hr
                        split at hr
                        · simp only [Option.some.injEq] at hr
                          refine ⟨p, hb p ?_, hr⟩
                          unfold lastWith at hlw
                          exact (List.mem_filter.1 (List.mem_of_getLast? hlw)).1
                        · simp at hr
                    · simp at hr
                  · refine ih (before ++ [f]) ?_ (fun x hx => hf x (by simp [hx])) r hr
                    intro x hx
                    rcases List.mem_append.1 hx with hx | hx
                    · exact hb x hx
                    · simp only [List.mem_singleton] at hx
                      subst hx; exact hf x (by simp)
              obtain ⟨f, hf, he⟩ := hmem _ [] (by simp) (fun _ h => h) r hr1.1
              have := hsp.2.1 _ (List.mem_map.2 ⟨f, hf, rfl⟩)
              rw [he] at this
              omega

set_option maxRecDepth 100000 in
-- a crashed index with a snapshot through id 2 and an uncommitted id 3 in the log
example : ((run listSem (afterFit [] 5) [.op .insert (str "a"), .op .insert (str "b"), .checkpoint 1, .op .insert [],
    .crash 1000]).map (fun y => (loadMem listSem y.disk).map (fun p => (p.1.next, p.1.lastCommitted)))) = some (some (4, 2)) := by
  decide

/-- Operations that returned have strictly increasing ids over the life of the index, across crashes, snapshots and
recoveries (clean ones, see C12). -/
theorem C15_returned_ids_increase {σ : Type} (sem : Sem σ) (hsem : SemOk sem) (s : σ) (ms : Nat) (evs : List Event)
    (h : HistoryOk ms evs) (hclean : CleanRecoveries sem (afterFit s ms) evs = true) :
    (returnedIds sem (afterFit s ms) evs).Pairwise (· < ·) := by
  have hms : ms < 2 ^ 64 := by have := h.clock; omega
  obtain ⟨y, q, G, _, _, _, h4, _⟩ := run_inv hsem evs (afterFit_inv sem s ms hms) (by have := h.ids; omega) h.clock h.ticks hclean
  exact h4

set_option maxRecDepth 100000 in
example : returnedIds listSem (afterFit [] 5) sampleHistory = [1, 4, 5] := by decide

/-- The full statement (every id handed out, also to a call that threw, is new). -/
def C15Statement : Prop :=
  ∀ (σ : Type) (sem : Sem σ), SemOk sem → ∀ (s : σ) (ms : Nat) (evs : List Event), HistoryOk ms evs →
    ∀ pre post y y', evs = pre ++ post → run sem (afterFit s ms) pre = some y → run sem (afterFit s ms) evs = some y' →
      ∀ m m', y.mem = some m → y'.mem = some m' → m.next ≤ m'.next

/-- It fails: the id of a call that threw is handed out again after `save` (which drops the log with its prepare frame)
and a restart. -/
theorem C15_aborted_id_reused_refuted : ¬ C15Statement := by
  intro h
  have e1 : (run listSem (afterFit [] 5) [.op .insert []]).bind (fun y => y.mem) = some ⟨[], 2, 0⟩ := by decide
  have e2 : (run listSem (afterFit [] 5) [.op .insert [], .checkpoint 1, .crash 0, .recover 1]).bind (fun y => y.mem)
      = some ⟨[], 1, 0⟩ := by
    set_option maxRecDepth 100000 in decide
  cases h1 : run listSem (afterFit [] 5) [.op .insert []] with
  | none => rw [h1] at e1; simp at e1
  | some y =>
    cases h2 : run listSem (afterFit [] 5) [.op .insert [], .checkpoint 1, .crash 0, .recover 1] with
    | none => rw [h2] at e2; simp at e2
    | some y' =>
      rw [h1] at e1; rw [h2] at e2
      have := h _ listSem listSem_ok [] 5 [.op .insert [], .checkpoint 1, .crash 0, .recover 1] (by decide)
        [.op .insert []] [.checkpoint 1, .crash 0, .recover 1] y y' rfl h1 h2 _ _ e1 e2
      simp at this

/-- `RecoveryManager::next_operation_id` (documented to respect the snapshot) forgets it: after a `save` covering ids 1
and 2 it answers 1. The index itself does not call it (see `C15_next_fresh`). -/
theorem C15_next_operation_id_refuted :
    ((run listSem (afterFit [] 5) [.op .insert (str "a"), .op .insert (str "b"), .checkpoint 1]).map
      (fun y => (nextOperationId y.disk, (currentSnapshot y.disk).map SnapManifest.appliedThrough)))
      = some (1, some 2) := by
  set_option maxRecDepth 100000 in decide

end Alaya.Recovery
