import Verif.Model.PyReindex
import Verif.Lemmas.PyIndex
import Verif.Lemmas.RecoveryRun

namespace Alaya.Recovery
open Wal
variable {σ : Type}

/-- A checkpoint that writes new content `abs'` under the `applied` number of the snapshot it replaces. Before CURRENT
is replaced the old content is recovered; once the log is removed, the new one; in between, the new content with the
pending operations replayed on top of it (if they can be). -/
theorem stale_ckpt {sem : Sem σ} {d : Disk σ} {clock n ms a : Nat} {s : σ} {os1 os2 : List LoggedOp} {tail : Bytes}
    {abs : σ} (h : Good sem d clock n ms a s os1 os2 tail abs) {ms' : Nat} (hms : clock < ms') (hms64 : ms' < 2 ^ 64)
    (hn : n < 2 ^ 64) (abs' : σ)
    (reason : Bytes) (hreason : reason ∈ [str "manual_save", str "post_recovery", str "post_load", str "post_fit"]) :
    (∀ j, j ≤ 4 → Good sem (runSteps d ((ckptSteps ms' a reason abs' d).take j)) ms' n ms a s os1 os2 tail abs) ∧
    (∀ j, 6 ≤ j → Good sem (runSteps d ((ckptSteps ms' a reason abs' d).take j)) ms' n ms' a abs' [] [] [] abs') ∧
    Good sem (runSteps d (ckptSteps ms' a reason abs' d)) ms' n ms' a abs' [] [] [] abs' ∧
    (∀ abs'', replayAll sem abs' (pend (os1 ++ os2) a) = some abs'' →
      Good sem (runSteps d ((ckptSteps ms' a reason abs' d).take 5)) ms' n ms' a abs' os1 os2 tail abs'') := by
  have hne : ms' ≠ ms := by have := h.fresh; omega
  have hv := C14_index_manifest_valid ms' a reason hms64 (by have := h.an; omega) hreason
  have hrt := C14_round_trip _ hv
  have hpub := harmless_steps (snapshotName ms) _ (pubSteps_harmless (σ := σ) hne a reason abs') d
  have hdir := pubSteps_dir ms' a reason abs' d
  have g1 : Good sem (runSteps d (pubSteps ms' a reason abs')) ms' n ms a s os1 os2 tail abs :=
    good_of_same h (by omega) hpub.1 hpub.2.1 hpub.2.2.1 hpub.2.2.2
  generalize hd1 : runSteps d (pubSteps ms' a reason abs') = d1 at g1 hdir
  have g3 : Good sem (CkStep.run (CkStep.run d1 (.current (snapshotName ms' ++ [chNL]))) .truncate) ms' n ms' a abs'
      [] [] [] abs' := by
    refine ⟨⟨rfl, _, _, hdir, hrt, rfl, rfl⟩, Nat.le_refl _, ?_, h.an, rfl⟩
    exact ⟨rfl, readFrame_nil, by simp, by simp, by simp, by simp [opsBytes], by simp [CkStep.run]⟩
  have hrem : ∀ (ss : List (CkStep σ)), (∀ st ∈ ss, Harmless (snapshotName ms') st) →
      Good sem (runSteps (CkStep.run (CkStep.run d1 (.current (snapshotName ms' ++ [chNL]))) .truncate) ss) ms' n ms' a
        abs' [] [] [] abs' := by
    intro ss hss
    have hh := harmless_steps (snapshotName ms') ss hss (CkStep.run (CkStep.run d1 (.current (snapshotName ms' ++ [chNL]))) .truncate)
    exact good_of_same g3 (Nat.le_refl _) hh.1 hh.2.1 hh.2.2.1 hh.2.2.2
  have hlen : (pubSteps ms' a reason abs').length = 4 := rfl
  refine ⟨?_, ?_, ?_, ?_⟩
  · intro j hj
    rw [ckptSteps_eq, List.take_append_of_le_length (by rw [hlen]; exact hj)]
    have hh := harmless_steps (snapshotName ms) ((pubSteps ms' a reason abs').take j)
      (fun st hst => pubSteps_harmless hne a reason abs' st (List.mem_of_mem_take hst)) d
    exact good_of_same h (by omega) hh.1 hh.2.1 hh.2.2.1 hh.2.2.2
  · intro j hj
    obtain ⟨k, rfl⟩ : ∃ k, j = k + 6 := ⟨j - 6, by omega⟩
    have := hrem ((removeSteps (snapshotName ms') d.snaps).take k)
      (fun st hst => removeSteps_harmless _ _ st (List.mem_of_mem_take hst))
    rw [ckptSteps_eq, List.take_append, List.take_of_length_le (by rw [hlen]; omega), runSteps_append, hd1, hlen,
      show k + 6 - 4 = k + 2 by omega]
    simpa [runSteps] using this
  · have := hrem (removeSteps (snapshotName ms') d.snaps) (removeSteps_harmless _ _)
    rw [ckptSteps_eq, runSteps_append, hd1]
    simpa [runSteps] using this
  · intro abs'' hr
    have g2 : Good sem (CkStep.run d1 (.current (snapshotName ms' ++ [chNL]))) ms' n ms' a abs' os1 os2 tail abs'' := by
      refine ⟨⟨rfl, _, _, hdir, hrt, rfl, rfl⟩, Nat.le_refl _, ?_, h.an, hr⟩
      have := g1.log
      exact ⟨this.bytes, this.torn, this.inc, this.ok, this.undone, this.durLo, this.durHi⟩
    rw [ckptSteps_eq, List.take_append, List.take_of_length_le (by rw [hlen]; omega), runSteps_append, hd1, hlen]
    simpa [runSteps] using g2

/-- Whatever replays, the snapshot of the window is the new one: a pending log that cannot be replayed on it makes
`load` throw. -/
theorem stale_ckpt_window {sem : Sem σ} {d : Disk σ} {clock n ms a : Nat} {s : σ} {os1 os2 : List LoggedOp} {tail : Bytes}
    {abs : σ} (h : Good sem d clock n ms a s os1 os2 tail abs) {ms' : Nat} (hms64 : ms' < 2 ^ 64)
    (hn : n < 2 ^ 64) (abs' : σ)
    (reason : Bytes) (hreason : reason ∈ [str "manual_save", str "post_recovery", str "post_load", str "post_fit"])
    (hms : clock < ms')
    (hr : replayAll sem abs' (pend (os1 ++ os2) a) = none) (cut : Nat) :
    loadMem sem ((runSteps d ((ckptSteps ms' a reason abs' d).take 5)).crash cut) = none := by
  have hne : ms' ≠ ms := by have := h.fresh; omega
  have hv := C14_index_manifest_valid ms' a reason hms64 (by have := h.an; omega) hreason
  have hrt := C14_round_trip _ hv
  have hpub := harmless_steps (snapshotName ms) _ (pubSteps_harmless (σ := σ) hne a reason abs') d
  have hdir := pubSteps_dir ms' a reason abs' d
  have g1 : Good sem (runSteps d (pubSteps ms' a reason abs')) ms' n ms a s os1 os2 tail abs :=
    good_of_same h (by omega) hpub.1 hpub.2.1 hpub.2.2.1 hpub.2.2.2
  have hstep : runSteps d ((ckptSteps ms' a reason abs' d).take 5)
      = CkStep.run (runSteps d (pubSteps ms' a reason abs')) (.current (snapshotName ms' ++ [chNL])) := by
    rw [ckptSteps_eq, List.take_append, List.take_of_length_le (Nat.le_succ 4 : (pubSteps ms' a reason abs').length ≤ 5),
      runSteps_append]
    rfl
  rw [hstep]
  generalize runSteps d (pubSteps ms' a reason abs') = d1 at g1 hdir
  have hl : LogOk (CkStep.run d1 (.current (snapshotName ms' ++ [chNL]))) n os1 os2 tail := by
    have := g1.log
    exact ⟨this.bytes, this.torn, this.inc, this.ok, this.undone, this.durLo, this.durHi⟩
  obtain ⟨os2', tail', hl', hund⟩ := crash_log hn hl cut
  have hsnap : SnapOk ((CkStep.run d1 (.current (snapshotName ms' ++ [chNL]))).crash cut) ms' a abs' := by
    refine ⟨?_, ?_⟩
    · rw [(crash_snaps _ cut).2]; rfl
    · rw [(crash_snaps _ cut).1]; exact ⟨_, _, hdir, hrt, rfl, rfl⟩
  generalize (CkStep.run d1 (.current (snapshotName ms' ++ [chNL]))).crash cut = d2 at hl' hsnap
  obtain ⟨mf, hm, hid, ha⟩ := hsnap.currentSnapshot
  obtain ⟨_, raw, m', hdir2, _, _, _⟩ := hsnap
  unfold loadMem
  rw [hm]
  simp only
  rw [hid, hdir2]
  simp only
  rw [ha, replayable_log hn hl' a]
  simp only
  rw [pend_undone _ _ hl.undone] at hr
  rw [pend_undone _ _ hl'.undone, hr]

end Alaya.Recovery

namespace Alaya.Py
open Recovery Wal

theorem range_filterMap {α β : Type} (l : List (Option α)) (g : Option α → Option β) :
    (List.range l.length).filterMap (fun i => g (l[i]?).join) = l.filterMap g := by
  induction l with
  | nil => rfl
  | cons o l ih =>
    rw [List.length_cons, List.range_succ_eq_map, List.filterMap_cons, List.filterMap_map, List.filterMap_cons, ← ih]
    rfl

theorem collect_eq (s : Index) :
    s.collect = s.slots.filterMap (fun o => o.bind fun r => if r.2.itemId = [] then none else some r) := by
  rw [← range_filterMap]
  unfold Index.collect Index.scalarAt Index.vectorAt
  apply congrArg (fun f => List.filterMap f _)
  funext i
  cases (s.slots[i]?).join with
  | none => rfl
  | some r => rfl

theorem mem_collect {s : Index} {r : Row} : r ∈ s.collect ↔ some r ∈ s.slots ∧ r.2.itemId ≠ [] := by
  rw [collect_eq, List.mem_filterMap]
  constructor
  · rintro ⟨o, ho, h⟩
    cases o with
    | none => simp at h
    | some r' =>
      simp only [Option.bind_some] at h
      split at h
      · cases h
      · cases h; exact ⟨ho, by assumption⟩
  · rintro ⟨h1, h2⟩
    exact ⟨some r, h1, by simp [h2]⟩

/-- Every slot of the rebuilt index holds a collected row. -/
theorem rebuilt_slot {norm : Bytes → Bytes} {s : Index} {i : Nat} {o : Option Row} :
    (s.rebuilt norm).slots[i]? = some o ↔ ∃ r, s.collect[i]? = some r ∧ o = some (norm r.1, r.2) := by
  unfold Index.rebuilt
  simp only [List.getElem?_map, Option.map_eq_some_iff]
  constructor
  · rintro ⟨r, h1, h2⟩; exact ⟨r, h1, h2.symm⟩
  · rintro ⟨r, h1, h2⟩; exact ⟨r, h1, h2.symm⟩

/-- Distinct item ids, as a list. -/
theorem uniq_pairwise {l : List (Option Row)} (h : Uniq l) :
    l.Pairwise fun o o' => ∀ r r' : Row, o = some r → o' = some r' → r.2.itemId ≠ [] → r.2.itemId ≠ r'.2.itemId := by
  rw [List.pairwise_iff_getElem]
  intro i j hi hj hij r r' h1 h2 hne he
  have := h i j r r' (by rw [List.getElem?_eq_getElem hi, h1]) (by rw [List.getElem?_eq_getElem hj, h2]) he hne
  omega

theorem collect_pairwise {s : Index} (h : Uniq s.slots) :
    s.collect.Pairwise fun r r' => r.2.itemId ≠ r'.2.itemId := by
  rw [collect_eq, List.pairwise_filterMap]
  refine (uniq_pairwise h).imp ?_
  intro o o' hoo b hb b' hb'
  cases o with
  | none => cases hb
  | some r =>
    cases o' with
    | none => cases hb'
    | some r' =>
      simp only [Option.bind_some] at hb hb'
      split at hb
      · cases hb
      · split at hb'
        · cases hb'
        · cases hb; cases hb'
          exact hoo _ _ rfl rfl (by assumption)

theorem rebuilt_uniq {norm : Bytes → Bytes} {s : Index} (h : Uniq s.slots) : Uniq (s.rebuilt norm).slots := by
  intro i j r r' hi hj he hne
  obtain ⟨q, h1, h2⟩ := rebuilt_slot.1 hi
  obtain ⟨q', h3, h4⟩ := rebuilt_slot.1 hj
  cases h2; cases h4
  have hp := List.pairwise_iff_getElem.1 (collect_pairwise h)
  obtain ⟨li, e1⟩ := List.getElem?_eq_some_iff.1 h1
  obtain ⟨lj, e2⟩ := List.getElem?_eq_some_iff.1 h3
  simp only at he
  rcases Nat.lt_trichotomy i j with hlt | heq | hlt
  · have := hp i j li lj hlt
    rw [e1, e2] at this
    exact absurd he this
  · exact heq
  · have := hp j i lj li hlt
    rw [e1, e2] at this
    exact absurd he.symm this

theorem rebuilt_get {norm : Bytes → Bytes} {s : Index} (h : Uniq s.slots) (item : Bytes) :
    (s.rebuilt norm).get item = (s.get item).map fun r => (norm r.1, r.2) := by
  apply Option.ext
  intro r
  rw [get_some_iff (rebuilt_uniq h), Option.map_eq_some_iff]
  constructor
  · rintro ⟨h1, h2, h3⟩
    unfold Index.rebuilt at h2
    simp only [List.mem_map] at h2
    obtain ⟨q, hq, e⟩ := h2
    cases e
    exact ⟨q, (get_some_iff h).2 ⟨h1, (mem_collect.1 hq).1, h3⟩, rfl⟩
  · rintro ⟨q, hq, rfl⟩
    obtain ⟨h1, h2, h3⟩ := (get_some_iff h).1 hq
    refine ⟨h1, ?_, h3⟩
    unfold Index.rebuilt
    simp only [List.mem_map]
    exact ⟨q, mem_collect.2 ⟨h2, by rw [h3]; exact h1⟩, rfl⟩

theorem freshMem_eq {d : Disk Index} {clock n ms a : Nat} {s abs : Index} {os1 os2 : List LoggedOp} {tail : Bytes}
    (hn : n < 2 ^ 64) (h : Good sem d clock n ms a s os1 os2 tail abs) (s' : Index) :
    (freshMem d s').lastCommitted = a ∧ (freshMem d s').state = s' ∧ a < (freshMem d s').next ∧
      (freshMem d s').next ≤ n + 1 ∧ ∀ o ∈ os1 ++ os2, o.record.opId < (freshMem d s').next := by
  obtain ⟨mf, hm, _, ha⟩ := h.snap.currentSnapshot
  have hids := frames_ids (os1 ++ os2) n (fun o ho => (h.log.ok o ho).1)
  have m0 := foldl_max_spec (((os1 ++ os2).flatMap LoggedOp.frames).map (fun f => f.record.opId)) 0
  unfold freshMem
  rw [hm, replayable_log hn h.log 0]
  simp only [Option.map_some, Option.getD_some, ha]
  refine ⟨trivial, trivial, by omega, ?_, ?_⟩
  · have := h.an
    rcases m0.2.2 with e | e
    · omega
    · obtain ⟨f, hf, e⟩ := List.mem_map.1 e
      have := hids _ (List.mem_map.2 ⟨f, hf, rfl⟩)
      omega
  · intro o ho
    have := m0.2.1 _ (mem_frames_ids ho)
    omega

/-- The good disk behind a running or stopped index. -/
theorem inv_good {y : Sys Index} {p : Index × Bool} {n G : Nat} (h : Recovery.Inv sem y p n G) :
    ∃ ms a s os1 os2 tail, Good sem y.disk y.clock n ms a s os1 os2 tail p.1 := by
  unfold Recovery.Inv at h
  cases hm : y.mem with
  | some m => rw [hm] at h; obtain ⟨_, _, _, ms, a, s, os1, os2, hg, _⟩ := h; exact ⟨ms, a, s, os1, os2, [], hg⟩
  | none => rw [hm] at h; obtain ⟨_, ms, a, s, os1, os2, tail, hg, _⟩ := h; exact ⟨ms, a, s, os1, os2, tail, hg⟩

/-- A fit over the recovery directory of a running index starts a new history with the new content. -/
theorem fitNew_inv {y : Sys Index} {p : Index × Bool} {n G : Nat} (h : Recovery.Inv sem y p n G) (hn : n < 2 ^ 64) {dt : Nat}
    (hdt : 0 < dt) (hc : y.clock + dt < 2 ^ 64) (s' : Index) :
    ∃ G', Recovery.Inv sem (fitNew y dt s') (s', true) n G' := by
  obtain ⟨ms, a, s, os1, os2, tail, hg⟩ := inv_good h
  obtain ⟨f1, f2, f3, f4, _⟩ := freshMem_eq hn hg s'
  obtain ⟨_, _, g, _⟩ := stale_ckpt hg (ms' := y.clock + dt) (by omega) hc hn s' (str "post_fit") (by simp)
  refine ⟨a, ?_⟩
  unfold Recovery.Inv fitNew fitSteps
  rw [f1]
  refine ⟨rfl, f2, f1, y.clock + dt, a, s', [], [], g, ?_⟩
  exact ⟨f4, by rw [f1]; exact f3, by simp, by rw [f1]; exact Nat.le_refl _, by simp, by rw [f1]; rfl⟩

theorem inv_running {y : Sys Index} {p : Index × Bool} {n G : Nat} (h : Recovery.Inv sem y p n G) {m : Mem Index}
    (hm : y.mem = some m) : p = (m.state, true) := by
  unfold Recovery.Inv at h
  rw [hm] at h
  exact Prod.ext h.2.1.symm h.1

theorem effect_uniq {s : Index} (hu : Uniq s.slots) (kind : Mutation) (payload : Bytes) :
    Uniq (effect sem s kind payload).slots := by
  unfold effect
  split
  · exact hu
  · split
    · exact hu
    · cases hd : decode s.vecLen kind payload with
      | none => simp only [sem, hd, Option.bind_none]; exact hu
      | some c =>
        simp only [sem, hd, Option.bind_some]
        cases he : s.exec c with
        | none => exact hu
        | some s' => exact exec_uniq hu he

theorem specRun_uniq {p q : Index × Bool} (evs : List Event) (hu : Uniq p.1.slots) (h : SpecRun sem p evs q) :
    Uniq q.1.slots := by
  induction evs generalizing p with
  | nil => rw [show q = p from h]; exact hu
  | cons e es ih =>
    obtain ⟨r, h1, h2⟩ := h
    refine ih ?_ h2
    cases e with
    | op kind payload =>
      simp only [specNext] at h1
      split at h1
      · rw [List.mem_singleton] at h1; subst h1; exact effect_uniq hu _ _
      · rw [List.mem_singleton] at h1; subst h1; exact hu
    | opCrash kind payload cut =>
      simp only [specNext] at h1
      split at h1
      · rcases List.mem_cons.1 h1 with h1 | h1
        · subst h1; exact hu
        · rw [List.mem_singleton] at h1; subst h1; exact effect_uniq hu _ _
      · rw [List.mem_singleton] at h1; subst h1; exact hu
    | _ =>
      simp only [specNext, List.mem_singleton] at h1
      subst h1
      exact hu

/-- What a completed `save` leaves: an empty log and the running content in the snapshot. -/
theorem saved_good {y : Sys Index} {p : Index × Bool} {n G : Nat} (h : Recovery.Inv sem y p n G) (hn : n < 2 ^ 64)
    {m : Mem Index} (hm : y.mem = some m) {dt : Nat} (hdt : 0 < dt) (hc : y.clock + dt < 2 ^ 64) :
    ∃ y1, step sem y (.checkpoint dt) = some y1 ∧ y1.mem = some m ∧ y1.clock = y.clock + dt ∧
      Good sem y1.disk y1.clock n (y.clock + dt) m.lastCommitted m.state [] [] [] m.state ∧ MemOk m n m.lastCommitted [] := by
  have hp := inv_running h hm
  unfold Recovery.Inv at h
  rw [hm] at h
  obtain ⟨_, hst, _, ms, a, s, os1, os2, hg, hmo⟩ := h
  rw [← hst] at hg
  have hlast : m.lastCommitted ≤ n := by have := hmo.lastLt; have := hmo.nextHi; omega
  obtain ⟨_, h2⟩ := ckpt_good (ms' := y.clock + dt) hg (by omega) hc hlast hn hmo.aLe hmo.doneLe hmo.lastEq
    (str "manual_save") (by simp)
  refine ⟨_, by simp only [step, hm]; rfl, rfl, rfl, h2, ?_⟩
  exact ⟨hmo.nextHi, hmo.lastLt, by simp, Nat.le_refl _, by simp, rfl⟩

/-- One successful call after a `save`: exactly that call is pending. -/
theorem one_pending {d : Disk Index} {clock n ms a : Nat} {s : Index} {m : Mem Index}
    (hg : Good sem d clock n ms a s [] [] [] m.state) (hmo : MemOk m n a []) {kind : Mutation} {payload : Bytes} {s' : Index}
    (hr : ¬ sem.refuse m.state kind payload = true) (hp : ¬ payload.length > 2 ^ 30)
    (he : sem.exec m.state kind payload = some s') :
    Good sem (opCall sem d m kind payload).1 clock (n + 1) ms a s [⟨⟨m.next, kind, payload⟩, true⟩] [] [] s' ∧
      (opCall sem d m kind payload).2.state = s' ∧ pend ([⟨⟨m.next, kind, payload⟩, true⟩] ++ []) a = [⟨m.next, kind, payload⟩] := by
  have ha : a < m.next := by have := hmo.aLe; have := hmo.lastLt; omega
  have hpend : pend ([⟨⟨m.next, kind, payload⟩, true⟩] ++ []) a = [⟨m.next, kind, payload⟩] := by
    have := pend_snoc [] ⟨m.next, kind, payload⟩ a ha
    simpa [pend] using this
  rw [opCall_some sem _ m kind hr hp he]
  refine ⟨⟨⟨hg.snap.current, hg.snap.dir⟩, hg.fresh, ?_, by have := hg.an; omega, ?_⟩, rfl, hpend⟩
  · have hl := (hg.mono (Nat.le_refl _) (show n ≤ n + 1 by omega)).log
    have := append_done_log (r := ⟨m.next, kind, payload⟩) hl (by simp) (by have := hmo.nextHi; simp only; omega)
      (by simp only; omega)
    simpa using this
  · rw [hpend]
    have h0 : s = m.state := by
      have := hg.repl
      simp only [List.append_nil, pend, List.filter_nil, List.map_nil, replayAll, Option.some.injEq] at this
      exact this
    simp only [replayAll]
    rw [h0, sem_ok _ _ _ _ he]

end Alaya.Py
