import Verif.Spec.Recovery
import Verif.Lemmas.Wal
import Verif.Lemmas.SnapshotManifest
import Verif.Props.C14

namespace Alaya.Recovery
open Wal

variable {σ : Type}

/-! ### directories -/

theorem findDir_setDir (id id' : Bytes) (d : SnapDir σ) (l : List (Bytes × SnapDir σ)) :
    findDir id' (setDir id d l) = if id = id' then some d else findDir id' l := by
  induction l with
  | nil => simp [setDir, findDir]
  | cons e l ih =>
    simp only [setDir]
    by_cases he : e.1 = id
    · rw [if_pos he]
      simp only [findDir]
      by_cases h : id = id'
      · rw [if_pos h, if_pos h]
      · rw [if_neg h, if_neg h, if_neg (by rw [he]; exact h)]
    · rw [if_neg he]
      simp only [findDir]
      by_cases h : e.1 = id'
      · rw [if_pos h, if_pos h, if_neg (by rw [← h]; exact fun x => he x.symm)]
      · rw [if_neg h, if_neg h, ih]

theorem findDir_filter (id id' : Bytes) (l : List (Bytes × SnapDir σ)) (h : id' ≠ id) :
    findDir id' (l.filter (fun e => decide (e.1 ≠ id))) = findDir id' l := by
  induction l with
  | nil => rfl
  | cons e l ih =>
    by_cases he : e.1 = id
    · rw [List.filter_cons_of_neg (by simp [he]), ih]
      simp only [findDir]
      rw [if_neg (by rw [he]; exact fun x => h x.symm)]
    · rw [List.filter_cons_of_pos (by simp [he])]
      simp only [findDir, ih]

/-! ### CURRENT -/

theorem decStr_no_ws (n : Nat) : ∀ c ∈ decStr n, (c == chNL || c == chCR || c == 32) = false := by
  intro c hc
  have := (decStr_isDecimal n).2.1 c hc
  have h10 : c ≠ chNL := by rintro rfl; exact absurd this (by decide)
  have h13 : c ≠ chCR := by rintro rfl; exact absurd this (by decide)
  have h32 : c ≠ 32 := by rintro rfl; exact absurd this (by decide)
  simp [h10, h13, h32]

theorem trim_name (ms : Nat) : trim (snapshotName ms ++ [chNL]) = snapshotName ms := by
  unfold trim trimEnd snapshotName
  have hne := decStr_ne_nil ms
  have hlast : (((str "snapshot-" ++ decStr ms) ++ [chNL]).reverse.dropWhile
      (fun c => c == chNL || c == chCR || c == 32)) = (str "snapshot-" ++ decStr ms).reverse := by
    rw [List.reverse_append, List.reverse_singleton, List.singleton_append, List.dropWhile_cons_of_pos (by simp)]
    rw [List.reverse_append]
    cases hd : (decStr ms).reverse with
    | nil => simp at hd; exact absurd hd hne
    | cons c cs =>
      rw [List.cons_append, List.dropWhile_cons_of_neg]
      have : c ∈ decStr ms := by
        rw [← List.mem_reverse, hd]; simp
      rw [decStr_no_ws ms c this]; simp
  rw [hlast, List.reverse_reverse]
  have : str "snapshot-" ++ decStr ms = 115 :: (str "napshot-" ++ decStr ms) := rfl
  rw [this, List.dropWhile_cons_of_neg (by decide)]

theorem name_ne_nil (ms : Nat) : snapshotName ms ≠ [] := by
  unfold snapshotName str; simp

theorem name_inj {a b : Nat} (h : snapshotName a = snapshotName b) : a = b := by
  unfold snapshotName at h
  exact decStr_inj (List.append_cancel_left h)

theorem manifestFor_eq (ms applied : Nat) (reason : Bytes) :
    manifestFor ms applied reason = indexManifest ms applied reason := rfl

/-- The published snapshot of a disk. -/
structure SnapOk (d : Disk σ) (ms a : Nat) (s : σ) : Prop where
  current : d.current = some (snapshotName ms ++ [chNL])
  dir : ∃ raw m, findDir (snapshotName ms) d.snaps = some ⟨some s, some raw⟩ ∧
    SnapManifest.deserialize raw = some m ∧ m.snapshotId = snapshotName ms ∧ m.appliedThrough = a

theorem SnapOk.currentSnapshot {d : Disk σ} {ms a : Nat} {s : σ} (h : SnapOk d ms a s) :
    ∃ m, Recovery.currentSnapshot d = some m ∧ m.snapshotId = snapshotName ms ∧ m.appliedThrough = a := by
  obtain ⟨hc, raw, m, h1, h2, h3, h4⟩ := h
  refine ⟨m, ?_, h3, h4⟩
  unfold Recovery.currentSnapshot
  rw [hc]
  simp only
  rw [trim_name, if_neg (name_ne_nil ms), h1]
  exact h2

/-! ### the log -/

/-- Operations not yet in the snapshot. -/
def pend (os : List LoggedOp) (a : Nat) : List Record :=
  ((os.filter LoggedOp.done).map LoggedOp.record).filter (fun r => decide (r.opId > a))

/-- Bytes of a list of operations. -/
def opsBytes (os : List LoggedOp) : Bytes := ((os.flatMap LoggedOp.frames).map frameBytes).flatten

theorem opsBytes_append (a b : List LoggedOp) : opsBytes (a ++ b) = opsBytes a ++ opsBytes b := by
  simp [opsBytes]

theorem opsBytes_single (o : LoggedOp) : opsBytes [o] = o.bytes := by
  simp [opsBytes, LoggedOp.bytes]

theorem opsBytes_cons (o : LoggedOp) (os : List LoggedOp) : opsBytes (o :: os) = o.bytes ++ opsBytes os := by
  rw [← List.singleton_append, opsBytes_append, opsBytes_single]

/-- The log consists of the operations `os1` (all on stable storage) and `os2` (none of them committed) and bytes
that are not the start of a frame. `n` bounds the operation ids. -/
structure LogOk (d : Disk σ) (n : Nat) (os1 os2 : List LoggedOp) (tail : Bytes) : Prop where
  bytes : walBytes d = opsBytes (os1 ++ os2) ++ tail
  torn : readFrame tail = none
  inc : (os1 ++ os2).Pairwise (fun a b => a.record.opId < b.record.opId)
  ok : ∀ o ∈ os1 ++ os2, o.record.opId ≤ n ∧ o.record.payload.length ≤ 2 ^ 30
  undone : ∀ o ∈ os2, o.done = false
  durLo : (opsBytes os1).length ≤ d.durable
  durHi : d.durable ≤ (walBytes d).length

theorem frames_ok {os : List LoggedOp} {n : Nat} (hn : n < 2 ^ 64)
    (h : ∀ o ∈ os, o.record.opId ≤ n ∧ o.record.payload.length ≤ 2 ^ 30) :
    ∀ f ∈ os.flatMap LoggedOp.frames, f.Ok := by
  intro f hf
  rw [List.mem_flatMap] at hf
  obtain ⟨o, ho, hfo⟩ := hf
  have := h o ho
  unfold LoggedOp.frames at hfo
  rcases List.mem_cons.1 hfo with rfl | hfo
  · exact ⟨by simp only [prepareFrame]; omega, this.2⟩
  · by_cases hd : o.done = true
    · rw [if_pos hd] at hfo
      simp only [List.mem_singleton] at hfo
      subst hfo
      exact ⟨by simp only [commitFrame]; omega, by simp [commitFrame]⟩
    · rw [if_neg hd] at hfo; simp at hfo

theorem scan_log {os : List LoggedOp} {n : Nat} (hn : n < 2 ^ 64)
    (h : ∀ o ∈ os, o.record.opId ≤ n ∧ o.record.payload.length ≤ 2 ^ 30) {tail : Bytes}
    (ht : readFrame tail = none) : scan (opsBytes os ++ tail) = os.flatMap LoggedOp.frames := by
  unfold opsBytes
  rw [scan_frames _ (frames_ok hn h), scan_none ht, List.append_nil]

theorem replayable_bytes (d : Disk σ) (a : Nat) : replayable d.wal a = replayable (some (walBytes d)) a := by
  unfold walBytes
  cases d.wal with
  | none => rfl
  | some bs => rfl

theorem frames_ids (os : List LoggedOp) (n : Nat) (h : ∀ o ∈ os, o.record.opId ≤ n) :
    ∀ x ∈ (os.flatMap LoggedOp.frames).map (fun f => f.record.opId), x ≤ n := by
  intro x hx
  rw [List.mem_map] at hx
  obtain ⟨f, hf, rfl⟩ := hx
  rw [List.mem_flatMap] at hf
  obtain ⟨o, ho, hfo⟩ := hf
  have := h o ho
  unfold LoggedOp.frames at hfo
  rcases List.mem_cons.1 hfo with rfl | hfo
  · exact this
  · by_cases hd : o.done = true
    · rw [if_pos hd] at hfo
      simp only [List.mem_singleton] at hfo
      subst hfo; exact this
    · rw [if_neg hd] at hfo; simp at hfo

theorem mem_frames_ids {os : List LoggedOp} {o : LoggedOp} (h : o ∈ os) :
    o.record.opId ∈ (os.flatMap LoggedOp.frames).map (fun f => f.record.opId) := by
  rw [List.mem_map]
  refine ⟨prepareFrame o.record, ?_, rfl⟩
  rw [List.mem_flatMap]
  exact ⟨o, h, by simp [LoggedOp.frames]⟩

theorem pend_pairwise {os : List LoggedOp} (hinc : os.Pairwise (fun a b => a.record.opId < b.record.opId)) (a : Nat) :
    (pend os a).Pairwise (fun x y => x.opId < y.opId) := by
  unfold pend
  apply List.Pairwise.filter
  rw [List.pairwise_map]
  exact List.Pairwise.filter _ hinc

/-- What replay returns on such a log. -/
theorem replayable_log {d : Disk σ} {n : Nat} {os1 os2 : List LoggedOp} {tail : Bytes} (hn : n < 2 ^ 64)
    (h : LogOk d n os1 os2 tail) (a : Nat) :
    replayable d.wal a = (pend (os1 ++ os2) a,
      (((os1 ++ os2).flatMap LoggedOp.frames).map (fun f => f.record.opId)).foldl max a) := by
  rw [replayable_bytes, h.bytes]
  unfold replayable
  simp only
  rw [scan_log hn h.ok h.torn, (replayFrames_spec a _).1, (replayFrames_spec a _).2]
  congr 1
  have hc : (committed ((os1 ++ os2).flatMap LoggedOp.frames)).filter (fun r => decide (r.opId > a))
      = pend (os1 ++ os2) a := by
    unfold committed pend
    rw [committedFrom_ops]
  rw [hc]
  exact sortedResult_unique (pend_pairwise h.inc a) (sortRecs_result _)

theorem pend_undone (os1 os2 : List LoggedOp) (h : ∀ o ∈ os2, o.done = false) (a : Nat) :
    pend (os1 ++ os2) a = pend os1 a := by
  unfold pend
  rw [List.filter_append]
  have : os2.filter LoggedOp.done = [] := by
    rw [List.filter_eq_nil_iff]
    intro o ho; rw [h o ho]; simp
  rw [this, List.append_nil]

theorem replayAll_append (sem : Sem σ) (s : σ) (a b : List Record) :
    replayAll sem s (a ++ b) = match replayAll sem s a with
      | none => none
      | some s' => replayAll sem s' b := by
  induction a generalizing s with
  | nil => rfl
  | cons r a ih =>
    simp only [List.cons_append, replayAll]
    cases sem.replay s r.kind r.payload with
    | none => rfl
    | some s' => exact ih s'

/-! ### crash consistency of the disk -/

/-- Everything needed to recover the content `abs`. -/
structure Good (sem : Sem σ) (d : Disk σ) (clock n : Nat) (ms a : Nat) (s : σ) (os1 os2 : List LoggedOp) (tail : Bytes)
    (abs : σ) : Prop where
  snap : SnapOk d ms a s
  fresh : ms ≤ clock
  log : LogOk d n os1 os2 tail
  an : a ≤ n
  repl : replayAll sem s (pend (os1 ++ os2) a) = some abs

theorem readFrame_prefix_none {a b : Bytes} (h : readFrame (a ++ b) = none) : readFrame a = none := by
  cases hr : readFrame a with
  | none => rfl
  | some p =>
    obtain ⟨f, rest⟩ := p
    obtain ⟨c, hc, he⟩ := (readFrame_iff _ _ _).1 hr
    rw [he, List.append_assoc, readFrame_frame hc] at h
    simp at h

theorem readFrame_nil : readFrame [] = none := rfl

/-- Cutting uncommitted operations anywhere. -/
theorem cut_undone {n : Nat} (hn : n < 2 ^ 64) (os : List LoggedOp) (tail : Bytes) (ht : readFrame tail = none)
    (hok : ∀ o ∈ os, o.record.opId ≤ n ∧ o.record.payload.length ≤ 2 ^ 30)
    (hu : ∀ o ∈ os, o.done = false) (k : Nat) :
    ∃ os' tail', os' <+: os ∧ (opsBytes os ++ tail).take k = opsBytes os' ++ tail' ∧ readFrame tail' = none := by
  induction os generalizing k with
  | nil =>
    refine ⟨[], tail.take k, List.prefix_rfl, by simp [opsBytes], ?_⟩
    apply readFrame_prefix_none (b := tail.drop k)
    rw [List.take_append_drop]; exact ht
  | cons o os ih =>
    rw [opsBytes_cons, List.append_assoc]
    by_cases hk : o.bytes.length ≤ k
    · obtain ⟨os', tail', h1, h2, h3⟩ := ih (fun x hx => hok x (by simp [hx])) (fun x hx => hu x (by simp [hx]))
        (k - o.bytes.length)
      refine ⟨o :: os', tail', List.cons_prefix_cons.2 ⟨rfl, h1⟩, ?_, h3⟩
      rw [List.take_append, List.take_of_length_le hk, h2, opsBytes_cons, List.append_assoc]
    · refine ⟨[], o.bytes.take k, List.nil_prefix, ?_, ?_⟩
      · rw [List.take_append_of_le_length (by omega)]; rfl
      · have hb : o.bytes = frameBytes (prepareFrame o.record) := by
          unfold LoggedOp.bytes LoggedOp.frames
          rw [if_neg (by rw [hu o (by simp)]; simp)]; simp
        have hfr : IsFrame (frameBytes (prepareFrame o.record)) (prepareFrame o.record) := by
          have := hok o (by simp)
          exact frameBytes_isFrame ⟨by simp only [prepareFrame]; omega, this.2⟩
        rw [hb] at hk ⊢
        apply readFrame_torn hfr (List.take_append_drop k _).symm
        intro he
        rw [List.drop_eq_nil_iff] at he
        omega

theorem crash_log {d : Disk σ} {n : Nat} (hn : n < 2 ^ 64) {os1 os2 : List LoggedOp} {tail : Bytes}
    (h : LogOk d n os1 os2 tail) (cut : Nat) :
    ∃ os2' tail', LogOk (d.crash cut) n os1 os2' tail' ∧ os2' <+: os2 := by
  have hlo := h.durLo
  have hb := h.bytes
  have hw : walBytes (d.crash cut) = (walBytes d).take (max d.durable cut) ∧
      (d.crash cut).durable = ((walBytes d).take (max d.durable cut)).length := by
    unfold Disk.crash walBytes
    cases hdw : d.wal with
    | none => simp
    | some bs => simp
  obtain ⟨os2', tail', h1, h2, h3⟩ := cut_undone hn os2 tail h.torn (fun o ho => h.ok o (by simp [ho])) h.undone
    (max d.durable cut - (opsBytes os1).length)
  have hbytes : (walBytes d).take (max d.durable cut) = opsBytes (os1 ++ os2') ++ tail' := by
    rw [hb, opsBytes_append, List.append_assoc, List.take_append,
      List.take_of_length_le (by omega), h2, opsBytes_append, List.append_assoc]
  have hsub : (os1 ++ os2').Sublist (os1 ++ os2) := List.Sublist.append (List.Sublist.refl _) h1.sublist
  refine ⟨os2', tail', ⟨?_, h3, h.inc.sublist hsub, fun o ho => h.ok o (hsub.subset ho),
    fun o ho => h.undone o (h1.subset ho), ?_, ?_⟩, h1⟩
  · rw [hw.1, hbytes]
  · rw [hw.2, hbytes, opsBytes_append]; simp
  · rw [hw.1, hw.2]; exact Nat.le_refl _

theorem crash_snaps (d : Disk σ) (cut : Nat) : (d.crash cut).snaps = d.snaps ∧ (d.crash cut).current = d.current := by
  unfold Disk.crash; cases d.wal <;> simp

theorem crash_good {sem : Sem σ} {d : Disk σ} {clock n ms a : Nat} {s : σ} {os1 os2 : List LoggedOp} {tail : Bytes}
    {abs : σ} (hn : n < 2 ^ 64) (h : Good sem d clock n ms a s os1 os2 tail abs) (cut : Nat) :
    ∃ os2' tail', Good sem (d.crash cut) clock n ms a s os1 os2' tail' abs := by
  obtain ⟨os2', tail', h1, h2⟩ := crash_log hn h.log cut
  refine ⟨os2', tail', ⟨⟨?_, ?_⟩, h.fresh, h1, h.an, ?_⟩⟩
  · rw [(crash_snaps d cut).2]; exact h.snap.current
  · rw [(crash_snaps d cut).1]; exact h.snap.dir
  · have := h.repl
    rw [pend_undone _ _ h.log.undone] at this
    rw [pend_undone _ _ h1.undone]; exact this

/-! ### load -/

theorem maxCommitted_spec (a : Nat) (rs : List Record) :
    a ≤ maxCommitted a rs ∧ (∀ r ∈ rs, r.opId ≤ maxCommitted a rs) ∧
      (maxCommitted a rs = a ∨ ∃ r ∈ rs, maxCommitted a rs = r.opId) := by
  have := foldl_max_spec (rs.map Record.opId) a
  refine ⟨this.1, ?_, ?_⟩
  · intro r hr; exact this.2.1 _ (List.mem_map.2 ⟨r, hr, rfl⟩)
  · rcases this.2.2 with h | h
    · exact Or.inl h
    · obtain ⟨r, hr, he⟩ := List.mem_map.1 h
      exact Or.inr ⟨r, hr, he.symm⟩

/-- Numbering of a running index relative to its log. -/
structure MemOk (m : Mem σ) (n a : Nat) (os : List LoggedOp) : Prop where
  nextHi : m.next ≤ n + 1
  lastLt : m.lastCommitted < m.next
  idsLt : ∀ o ∈ os, o.record.opId < m.next
  aLe : a ≤ m.lastCommitted
  doneLe : ∀ o ∈ os, o.done = true → o.record.opId ≤ m.lastCommitted
  lastEq : m.lastCommitted = maxCommitted a (pend os a)

theorem mem_pend {os : List LoggedOp} {a : Nat} {r : Record} (h : r ∈ pend os a) :
    ∃ o ∈ os, o.done = true ∧ o.record = r ∧ r.opId > a := by
  unfold pend at h
  rw [List.mem_filter, List.mem_map] at h
  obtain ⟨⟨o, ho, rfl⟩, h2⟩ := h
  rw [List.mem_filter] at ho
  exact ⟨o, ho.1, ho.2, rfl, by simpa using h2⟩

theorem load_good {sem : Sem σ} {d : Disk σ} {clock n ms a : Nat} {s : σ} {os1 os2 : List LoggedOp} {tail : Bytes}
    {abs : σ} (hn : n < 2 ^ 64) (h : Good sem d clock n ms a s os1 os2 tail abs) :
    ∃ m, loadMem sem d = some (m, !(pend (os1 ++ os2) a).isEmpty) ∧ m.state = abs ∧ MemOk m n a (os1 ++ os2) := by
  obtain ⟨mf, hm, hid, ha⟩ := h.snap.currentSnapshot
  obtain ⟨_, raw, m', hdir, _, _, _⟩ := h.snap
  unfold loadMem
  rw [hm]
  simp only
  rw [hid, hdir]
  simp only
  rw [ha, replayable_log hn h.log a, replayable_log hn h.log 0]
  simp only
  rw [h.repl]
  refine ⟨_, rfl, rfl, ?_⟩
  have hids := frames_ids (os1 ++ os2) n (fun o ho => (h.log.ok o ho).1)
  have m0 := foldl_max_spec (((os1 ++ os2).flatMap LoggedOp.frames).map (fun f => f.record.opId)) 0
  have ma := foldl_max_spec (((os1 ++ os2).flatMap LoggedOp.frames).map (fun f => f.record.opId)) a
  have mc := maxCommitted_spec a (pend (os1 ++ os2) a)
  have han := h.an
  generalize hM0 : (((os1 ++ os2).flatMap LoggedOp.frames).map (fun f => f.record.opId)).foldl max 0 = M0 at m0 ⊢
  generalize hMa : (((os1 ++ os2).flatMap LoggedOp.frames).map (fun f => f.record.opId)).foldl max a = Ma at ma ⊢
  have hM0n : M0 ≤ n := by
    rcases m0.2.2 with h | h
    · omega
    · exact hids _ h
  have hMan : Ma ≤ n := by
    rcases ma.2.2 with h | h
    · omega
    · exact hids _ h
  refine ⟨?_, ?_, ?_, mc.1, ?_, rfl⟩
  · simp only; omega
  · simp only
    rcases mc.2.2 with h | ⟨r, hr, h⟩
    · omega
    · obtain ⟨o, ho, _, e1, _⟩ := mem_pend hr
      have := ma.2.1 _ (mem_frames_ids ho)
      rw [e1] at this
      omega
  · intro o ho
    have := ma.2.1 _ (mem_frames_ids ho)
    simp only; omega
  · intro o ho hd
    simp only
    by_cases hx : o.record.opId > a
    · apply mc.2.1
      unfold pend
      rw [List.mem_filter, List.mem_map]
      exact ⟨⟨o, List.mem_filter.2 ⟨ho, hd⟩, rfl⟩, by simpa using hx⟩
    · omega

/-! ### checkpoint -/

/-- A step that leaves the directory `id`, the CURRENT file and the log alone. -/
def Harmless (id : Bytes) : CkStep σ → Prop
  | .mkdir x => x ≠ id
  | .filesPartial x => x ≠ id
  | .filesDone x _ => x ≠ id
  | .manifest x _ => x ≠ id
  | .removePartial x => x ≠ id
  | .remove x => x ≠ id
  | .current _ => False
  | .truncate => False

theorem harmless_run (id : Bytes) (d : Disk σ) (st : CkStep σ) (h : Harmless id st) :
    findDir id (st.run d).snaps = findDir id d.snaps ∧ (st.run d).current = d.current ∧
      (st.run d).wal = d.wal ∧ (st.run d).durable = d.durable := by
  cases st with
  | current t => exact absurd h (by simp [Harmless])
  | truncate => exact absurd h (by simp [Harmless])
  | remove x =>
    simp only [Harmless] at h
    unfold CkStep.run
    simp only
    rw [findDir_filter _ _ _ (fun e => h e.symm)]; simp
  | _ x =>
    simp only [Harmless] at h
    unfold CkStep.run
    simp only
    split
    all_goals simp [findDir_setDir, h]

theorem harmless_steps (id : Bytes) (ss : List (CkStep σ)) (h : ∀ st ∈ ss, Harmless id st) (d : Disk σ) :
    findDir id (runSteps d ss).snaps = findDir id d.snaps ∧ (runSteps d ss).current = d.current ∧
      (runSteps d ss).wal = d.wal ∧ (runSteps d ss).durable = d.durable := by
  induction ss generalizing d with
  | nil => simp [runSteps]
  | cons st ss ih =>
    have h1 := harmless_run id d st (h st (by simp))
    have h2 := ih (fun x hx => h x (by simp [hx])) (st.run d)
    unfold runSteps at h2 ⊢
    simp only [List.foldl_cons]
    rw [h2.1, h2.2.1, h2.2.2.1, h2.2.2.2]
    exact h1

theorem good_of_same {sem : Sem σ} {d d' : Disk σ} {clock clock' n ms a : Nat} {s : σ} {os1 os2 : List LoggedOp}
    {tail : Bytes} {abs : σ} (h : Good sem d clock n ms a s os1 os2 tail abs) (hc : clock ≤ clock')
    (h1 : findDir (snapshotName ms) d'.snaps = findDir (snapshotName ms) d.snaps) (h2 : d'.current = d.current)
    (h3 : d'.wal = d.wal) (h4 : d'.durable = d.durable) : Good sem d' clock' n ms a s os1 os2 tail abs := by
  obtain ⟨⟨c1, c2⟩, hf, hl, han, hr⟩ := h
  refine ⟨⟨by rw [h2]; exact c1, by rw [h1]; exact c2⟩, by omega, ?_, han, hr⟩
  have hw : walBytes d' = walBytes d := by unfold walBytes; rw [h3]
  exact ⟨by rw [hw]; exact hl.bytes, hl.torn, hl.inc, hl.ok, hl.undone, by rw [h4]; exact hl.durLo,
    by rw [h4, hw]; exact hl.durHi⟩

/-- The four steps before CURRENT is replaced. -/
def pubSteps (ms applied : Nat) (reason : Bytes) (s : σ) : List (CkStep σ) :=
  [.mkdir (snapshotName ms), .filesPartial (snapshotName ms), .filesDone (snapshotName ms) s,
    .manifest (snapshotName ms) (manifestFor ms applied reason).serialize]

theorem pubSteps_dir (ms applied : Nat) (reason : Bytes) (s : σ) (d : Disk σ) :
    findDir (snapshotName ms) (runSteps d (pubSteps ms applied reason s)).snaps
      = some ⟨some s, some (manifestFor ms applied reason).serialize⟩ := by
  have key : ∀ (d : Disk σ), (∃ dir, findDir (snapshotName ms) d.snaps = some dir) →
      findDir (snapshotName ms) (runSteps d [.filesPartial (snapshotName ms), .filesDone (snapshotName ms) s,
    .manifest (snapshotName ms) (manifestFor ms applied reason).serialize]).snaps
      = some ⟨some s, some (manifestFor ms applied reason).serialize⟩ := by
    rintro d ⟨dir, hd⟩
    simp only [runSteps, List.foldl_cons, List.foldl_nil]
    have e1 : CkStep.run d (.filesPartial (snapshotName ms))
        = { d with snaps := setDir (snapshotName ms) { dir with state := none } d.snaps } := by
      unfold CkStep.run; simp only [hd]
    rw [e1]
    have f1 : findDir (snapshotName ms) (setDir (snapshotName ms) { dir with state := none } d.snaps)
        = some { dir with state := none } := by rw [findDir_setDir, if_pos rfl]
    generalize setDir (snapshotName ms) { dir with state := none } d.snaps = sn1 at f1 ⊢
    have e2 : CkStep.run { d with snaps := sn1 } (.filesDone (snapshotName ms) s)
        = { d with snaps := setDir (snapshotName ms) ⟨some s, dir.manifest⟩ sn1 } := by
      unfold CkStep.run; simp only [f1]
    rw [e2]
    have f2 : findDir (snapshotName ms) (setDir (snapshotName ms) ⟨some s, dir.manifest⟩ sn1)
        = some ⟨some s, dir.manifest⟩ := by rw [findDir_setDir, if_pos rfl]
    generalize setDir (snapshotName ms) ⟨some s, dir.manifest⟩ sn1 = sn2 at f2 ⊢
    unfold CkStep.run
    simp only [f2]
    rw [findDir_setDir, if_pos rfl]
  have hmk : ∃ dir, findDir (snapshotName ms) (CkStep.run d (.mkdir (snapshotName ms))).snaps = some dir := by
    unfold CkStep.run
    simp only
    split
    · rename_i dir hf; exact ⟨dir, hf⟩
    · exact ⟨⟨none, none⟩, by rw [findDir_setDir, if_pos rfl]⟩
  have := key _ hmk
  simpa [runSteps, pubSteps] using this

theorem ckptSteps_eq (ms applied : Nat) (reason : Bytes) (s : σ) (d : Disk σ) :
    ckptSteps ms applied reason s d = pubSteps ms applied reason s ++ ([.current (snapshotName ms ++ [chNL]), .truncate]
      ++ removeSteps (snapshotName ms) d.snaps) := rfl

theorem pubSteps_harmless {ms ms' : Nat} (h : ms ≠ ms') (applied : Nat) (reason : Bytes) (s : σ) :
    ∀ st ∈ pubSteps ms applied reason s, Harmless (snapshotName ms') st := by
  have hne : snapshotName ms ≠ snapshotName ms' := fun e => h (name_inj e)
  intro st hst
  unfold pubSteps at hst
  simp only [List.mem_cons, List.not_mem_nil, or_false] at hst
  rcases hst with rfl | rfl | rfl | rfl <;> simpa [Harmless] using hne

theorem removeSteps_harmless (id : Bytes) (snaps : List (Bytes × SnapDir σ)) :
    ∀ st ∈ removeSteps id snaps, Harmless id st := by
  intro st hst
  unfold removeSteps at hst
  rw [List.mem_flatMap] at hst
  obtain ⟨e, he, hst⟩ := hst
  rw [List.mem_filter] at he
  have hne : e.1 ≠ id := by simpa using he.2
  simp only [List.mem_cons, List.not_mem_nil, or_false] at hst
  rcases hst with rfl | rfl <;> simpa [Harmless] using hne

theorem take_append_cases {α : Type} (j : Nat) (a b : List α) :
    (∃ i, (a ++ b).take j = a.take i) ∨ ∃ i, (a ++ b).take j = a ++ b.take i := by
  by_cases h : j ≤ a.length
  · exact Or.inl ⟨j, List.take_append_of_le_length h⟩
  · right
    refine ⟨j - a.length, ?_⟩
    rw [List.take_append, List.take_of_length_le (by omega)]

theorem runSteps_append (d : Disk σ) (a b : List (CkStep σ)) : runSteps d (a ++ b) = runSteps (runSteps d a) b := by
  simp [runSteps]

/-- A checkpoint of the recovered/running content, interrupted after any number of steps, leaves a recoverable disk;
completed, it leaves an empty log. -/
theorem ckpt_good {sem : Sem σ} {d : Disk σ} {clock n ms a : Nat} {s : σ} {os1 os2 : List LoggedOp} {tail : Bytes}
    {abs : σ} (h : Good sem d clock n ms a s os1 os2 tail abs) {ms' L : Nat} (hms : clock < ms') (hms64 : ms' < 2 ^ 64)
    (hL : L ≤ n) (hn : n < 2 ^ 64) (haL : a ≤ L) (hdone : ∀ o ∈ os1 ++ os2, o.done = true → o.record.opId ≤ L)
    (hLeq : L = maxCommitted a (pend (os1 ++ os2) a))
    (reason : Bytes) (hreason : reason ∈ [str "manual_save", str "post_recovery", str "post_load", str "post_fit"]) :
    (∀ j, ∃ ms2 a2 s2 os1' os2' tail', Good sem (runSteps d ((ckptSteps ms' L reason abs d).take j)) ms' n ms2 a2 s2
        os1' os2' tail' abs ∧ maxCommitted a2 (pend (os1' ++ os2') a2) = L) ∧
    Good sem (runSteps d (ckptSteps ms' L reason abs d)) ms' n ms' L abs [] [] [] abs := by
  have hne : ms' ≠ ms := by have := h.fresh; omega
  have hv := C14_index_manifest_valid ms' L reason hms64 (by omega) hreason
  have hrt := C14_round_trip _ hv
  have hpendL : pend (os1 ++ os2) L = [] := by
    cases hp : pend (os1 ++ os2) L with
    | nil => rfl
    | cons r rs =>
      obtain ⟨o, ho, hd, e1, e2⟩ := mem_pend (os := os1 ++ os2) (a := L) (r := r) (by rw [hp]; simp)
      have := hdone o ho hd
      rw [e1] at this; omega
  -- after the four publishing steps
  have hpub := harmless_steps (snapshotName ms) _ (pubSteps_harmless (σ := σ) hne L reason abs) d
  have hdir := pubSteps_dir ms' L reason abs d
  have g1 : Good sem (runSteps d (pubSteps ms' L reason abs)) ms' n ms a s os1 os2 tail abs :=
    good_of_same h (by omega) hpub.1 hpub.2.1 hpub.2.2.1 hpub.2.2.2
  generalize hd1 : runSteps d (pubSteps ms' L reason abs) = d1 at g1 hdir
  -- CURRENT
  have g2 : Good sem (CkStep.run d1 (.current (snapshotName ms' ++ [chNL]))) ms' n ms' L abs os1 os2 tail abs := by
    refine ⟨⟨rfl, _, _, hdir, hrt, rfl, rfl⟩, Nat.le_refl _, ?_, by omega, by rw [hpendL]; rfl⟩
    have := g1.log
    exact ⟨this.bytes, this.torn, this.inc, this.ok, this.undone, this.durLo, this.durHi⟩
  have g3 : Good sem (CkStep.run (CkStep.run d1 (.current (snapshotName ms' ++ [chNL]))) .truncate) ms' n ms' L abs
      [] [] [] abs := by
    refine ⟨⟨rfl, _, _, hdir, hrt, rfl, rfl⟩, Nat.le_refl _, ?_, by omega, rfl⟩
    exact ⟨rfl, readFrame_nil, by simp, by simp, by simp, by simp [opsBytes], by simp [CkStep.run]⟩
  have hrem : ∀ (ss : List (CkStep σ)), (∀ st ∈ ss, Harmless (snapshotName ms') st) →
      Good sem (runSteps (CkStep.run (CkStep.run d1 (.current (snapshotName ms' ++ [chNL]))) .truncate) ss) ms' n ms' L
        abs [] [] [] abs := by
    intro ss hss
    have hh := harmless_steps (snapshotName ms') ss hss (CkStep.run (CkStep.run d1 (.current (snapshotName ms' ++ [chNL]))) .truncate)
    exact good_of_same g3 (Nat.le_refl _) hh.1 hh.2.1 hh.2.2.1 hh.2.2.2
  constructor
  · intro j
    rw [ckptSteps_eq]
    rcases take_append_cases j (pubSteps ms' L reason abs) ([.current (snapshotName ms' ++ [chNL]), .truncate]
      ++ removeSteps (snapshotName ms') d.snaps) with ⟨i, hi⟩ | ⟨i, hi⟩
    · rw [hi]
      have hh := harmless_steps (snapshotName ms) ((pubSteps ms' L reason abs).take i)
        (fun st hst => pubSteps_harmless hne L reason abs st (List.mem_of_mem_take hst)) d
      exact ⟨ms, a, s, os1, os2, tail, good_of_same h (by omega) hh.1 hh.2.1 hh.2.2.1 hh.2.2.2, hLeq.symm⟩
    · rw [hi, runSteps_append, hd1]
      match i with
      | 0 => exact ⟨ms, a, s, os1, os2, tail, g1, hLeq.symm⟩
      | 1 => exact ⟨ms', L, abs, os1, os2, tail, g2, by rw [hpendL]; rfl⟩
      | i + 2 =>
        refine ⟨ms', L, abs, [], [], [], ?_, rfl⟩
        have := hrem ((removeSteps (snapshotName ms') d.snaps).take i)
          (fun st hst => removeSteps_harmless _ _ st (List.mem_of_mem_take hst))
        simpa [runSteps] using this
  · rw [ckptSteps_eq, runSteps_append, hd1]
    have := hrem (removeSteps (snapshotName ms') d.snaps) (removeSteps_harmless _ _)
    simpa [runSteps] using this

end Alaya.Recovery
