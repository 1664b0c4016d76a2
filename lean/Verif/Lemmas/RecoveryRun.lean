import Verif.Lemmas.Recovery

namespace Alaya.Recovery
open Wal

variable {σ : Type}

theorem Good.mono {sem : Sem σ} {d : Disk σ} {clock clock' n n' ms a : Nat} {s : σ} {os1 os2 : List LoggedOp} {tail : Bytes}
    {abs : σ} (h : Good sem d clock n ms a s os1 os2 tail abs) (hc : clock ≤ clock') (hn : n ≤ n') :
    Good sem d clock' n' ms a s os1 os2 tail abs := by
  obtain ⟨hs, hf, hl, han, hr⟩ := h
  refine ⟨hs, by omega, ⟨hl.bytes, hl.torn, hl.inc, ?_, hl.undone, hl.durLo, hl.durHi⟩, by omega, hr⟩
  intro o ho
  have := hl.ok o ho
  exact ⟨by omega, this.2⟩

theorem MemOk.mono {m : Mem σ} {n n' a : Nat} {os : List LoggedOp} (h : MemOk m n a os) (hn : n ≤ n') :
    MemOk m n' a os := ⟨by have := h.nextHi; omega, h.lastLt, h.idsLt, h.aLe, h.doneLe, h.lastEq⟩

/-- Invariant of a history: `p` is the specification state, `n` bounds the op ids used, `G` is the largest
committed op id. -/
def Inv (sem : Sem σ) (y : Sys σ) (p : σ × Bool) (n G : Nat) : Prop :=
  match y.mem with
  | some m => p.2 = true ∧ m.state = p.1 ∧ m.lastCommitted = G ∧ ∃ ms a s os1 os2,
      Good sem y.disk y.clock n ms a s os1 os2 [] p.1 ∧ MemOk m n a (os1 ++ os2)
  | none => p.2 = false ∧ ∃ ms a s os1 os2 tail, Good sem y.disk y.clock n ms a s os1 os2 tail p.1 ∧
      maxCommitted a (pend (os1 ++ os2) a) = G

theorem restFuel_log {os : List Frame} (h : ∀ f ∈ os, f.Ok) {tail : Bytes} (ht : readFrame tail = none) (k : Nat)
    (hk : os.length ≤ k) : restFuel k ((os.map frameBytes).flatten ++ tail) = tail := by
  induction os generalizing k with
  | nil =>
    cases k with
    | zero => rfl
    | succ k => simp only [List.map_nil, List.flatten_nil, List.nil_append, restFuel, ht]
  | cons f os ih =>
    cases k with
    | zero => simp at hk
    | succ k =>
      simp only [List.map_cons, List.flatten_cons, List.append_assoc, restFuel]
      rw [readFrame_frame (frameBytes_isFrame (h f (by simp)))]
      exact ih (fun x hx => h x (by simp [hx])) k (by simpa using hk)

theorem frames_len {os : List Frame} (h : ∀ f ∈ os, f.Ok) : os.length ≤ (os.map frameBytes).flatten.length := by
  induction os with
  | nil => simp
  | cons f os ih =>
    simp only [List.map_cons, List.flatten_cons, List.length_append, List.length_cons]
    have h1 := ih (fun x hx => h x (by simp [hx]))
    have h2 := isFrame_length (frameBytes_isFrame (h f (by simp)))
    omega

/-- The bytes after the frames are the torn tail. -/
theorem scanRest_log {d : Disk σ} {n : Nat} {os1 os2 : List LoggedOp} {tail : Bytes} (hn : n < 2 ^ 64)
    (h : LogOk d n os1 os2 tail) : scanRest (walBytes d) = tail := by
  unfold scanRest
  rw [h.bytes]
  unfold opsBytes
  have hf := frames_ok hn h.ok
  apply restFuel_log hf h.torn
  have := frames_len hf
  rw [List.length_append]; omega

/-! ### one operation -/

theorem prepare_bytes (r : Record) : opsBytes [⟨r, false⟩] = frameBytes (prepareFrame r) := by
  simp [opsBytes, LoggedOp.frames]

theorem done_bytes (r : Record) : opsBytes [⟨r, true⟩]
    = frameBytes (prepareFrame r) ++ frameBytes (commitFrame r.opId r.kind) := by
  simp [opsBytes, LoggedOp.frames]

/-- Appending a prepare frame (no sync). -/
theorem append_prepare_log {d : Disk σ} {n : Nat} {os1 os2 : List LoggedOp} {r : Record}
    (h : LogOk d n os1 os2 []) (hid : ∀ o ∈ os1 ++ os2, o.record.opId < r.opId) (hr : r.opId ≤ n)
    (hp : r.payload.length ≤ 2 ^ 30) :
    LogOk (appendBytes d (frameBytes (prepareFrame r)) false) n os1 (os2 ++ [⟨r, false⟩]) [] := by
  have hw : walBytes (appendBytes d (frameBytes (prepareFrame r)) false) = walBytes d ++ frameBytes (prepareFrame r) := rfl
  have hb := h.bytes
  rw [List.append_nil] at hb
  refine ⟨?_, readFrame_nil, ?_, ?_, ?_, ?_, ?_⟩
  · rw [hw, hb, ← List.append_assoc, opsBytes_append _ [_], prepare_bytes, List.append_nil]
  · rw [← List.append_assoc, List.pairwise_append]
    refine ⟨h.inc, by simp, ?_⟩
    intro a ha b hb
    simp only [List.mem_singleton] at hb
    subst hb; exact hid a ha
  · intro o ho
    rw [← List.append_assoc] at ho
    rcases List.mem_append.1 ho with ho | ho
    · exact h.ok o ho
    · simp only [List.mem_singleton] at ho
      subst ho; exact ⟨hr, hp⟩
  · intro o ho
    rcases List.mem_append.1 ho with ho | ho
    · exact h.undone o ho
    · simp only [List.mem_singleton] at ho
      subst ho; rfl
  · exact h.durLo
  · rw [hw]; have := h.durHi; simp only [appendBytes, List.length_append]; simp; omega

/-- Appending prepare and commit with the final sync. -/
theorem append_done_log {d : Disk σ} {n : Nat} {os1 os2 : List LoggedOp} {r : Record}
    (h : LogOk d n os1 os2 []) (hid : ∀ o ∈ os1 ++ os2, o.record.opId < r.opId) (hr : r.opId ≤ n)
    (hp : r.payload.length ≤ 2 ^ 30) :
    LogOk (appendBytes (appendBytes d (frameBytes (prepareFrame r)) false) (frameBytes (commitFrame r.opId r.kind)) true)
      n (os1 ++ os2 ++ [⟨r, true⟩]) [] [] := by
  have hw : walBytes (appendBytes (appendBytes d (frameBytes (prepareFrame r)) false)
      (frameBytes (commitFrame r.opId r.kind)) true)
      = walBytes d ++ (frameBytes (prepareFrame r) ++ frameBytes (commitFrame r.opId r.kind)) := by
    simp [appendBytes, walBytes]
  have hd : (appendBytes (appendBytes d (frameBytes (prepareFrame r)) false)
      (frameBytes (commitFrame r.opId r.kind)) true).durable
      = (walBytes (appendBytes (appendBytes d (frameBytes (prepareFrame r)) false)
      (frameBytes (commitFrame r.opId r.kind)) true)).length := by
    simp [appendBytes, walBytes]
  have hb := h.bytes
  rw [List.append_nil] at hb
  have hbytes : walBytes d ++ (frameBytes (prepareFrame r) ++ frameBytes (commitFrame r.opId r.kind))
      = opsBytes (os1 ++ os2 ++ [⟨r, true⟩]) := by
    rw [hb, opsBytes_append _ [_], done_bytes]
  refine ⟨?_, readFrame_nil, ?_, ?_, by simp, ?_, ?_⟩
  · rw [hw, hbytes]; simp
  · rw [List.append_nil, List.pairwise_append]
    refine ⟨h.inc, by simp, ?_⟩
    intro a ha b hb
    simp only [List.mem_singleton] at hb
    subst hb; exact hid a ha
  · intro o ho
    rw [List.append_nil] at ho
    rcases List.mem_append.1 ho with ho | ho
    · exact h.ok o ho
    · simp only [List.mem_singleton] at ho
      subst ho; exact ⟨hr, hp⟩
  · rw [hd, hw, hbytes]; exact Nat.le_refl _
  · rw [hd]; exact Nat.le_refl _

theorem pend_snoc (os : List LoggedOp) (r : Record) (a : Nat) (h : a < r.opId) :
    pend (os ++ [⟨r, true⟩]) a = pend os a ++ [r] := by
  unfold pend
  rw [List.filter_append, List.map_append, List.filter_append]
  simp [h]

theorem opCall_refused (sem : Sem σ) (d : Disk σ) (m : Mem σ) (kind : Mutation) {payload : Bytes}
    (hr : sem.refuse m.state kind payload = true) : opCall sem d m kind payload = (d, m) := by
  unfold opCall
  exact if_pos hr

theorem opCall_big (sem : Sem σ) (d : Disk σ) (m : Mem σ) (kind : Mutation) {payload : Bytes}
    (hr : ¬ sem.refuse m.state kind payload = true)
    (h : payload.length > 2 ^ 30) : opCall sem d m kind payload = (d, { m with next := m.next + 1 }) := by
  unfold opCall
  rw [if_neg hr]
  exact if_pos h

theorem opCall_none (sem : Sem σ) (d : Disk σ) (m : Mem σ) (kind : Mutation) {payload : Bytes}
    (hr : ¬ sem.refuse m.state kind payload = true)
    (h : ¬ payload.length > 2 ^ 30) (he : sem.exec m.state kind payload = none) :
    opCall sem d m kind payload = (appendBytes d (frameBytes (prepareFrame ⟨m.next, kind, payload⟩)) false,
      { m with next := m.next + 1 }) := by
  unfold opCall
  have h' : ¬ payload.length > maxPayload := h
  rw [if_neg hr, if_neg h']
  simp only [he]

theorem opCall_some (sem : Sem σ) (d : Disk σ) (m : Mem σ) (kind : Mutation) {payload : Bytes} {s' : σ}
    (hr : ¬ sem.refuse m.state kind payload = true)
    (h : ¬ payload.length > 2 ^ 30) (he : sem.exec m.state kind payload = some s') :
    opCall sem d m kind payload = (appendBytes (appendBytes d (frameBytes (prepareFrame ⟨m.next, kind, payload⟩)) false)
      (frameBytes (commitFrame m.next kind)) true, ⟨s', m.next + 1, m.next⟩) := by
  unfold opCall
  have h' : ¬ payload.length > maxPayload := h
  rw [if_neg hr, if_neg h']
  simp only [he]

theorem maxCommitted_snoc (a : Nat) (rs : List Record) (r : Record) :
    maxCommitted a (rs ++ [r]) = max (maxCommitted a rs) r.opId := by
  simp [maxCommitted]

/-- The call with its content effect. -/
theorem opCall_good {sem : Sem σ} (hsem : SemOk sem) {d : Disk σ} {clock n ms a : Nat} {s : σ} {os1 os2 : List LoggedOp}
    {m : Mem σ} (hg : Good sem d clock n ms a s os1 os2 [] m.state) (hm : MemOk m n a (os1 ++ os2))
    (kind : Mutation) (payload : Bytes) :
    (opCall sem d m kind payload).2.state = effect sem m.state kind payload ∧
    ∃ os1' os2', Good sem (opCall sem d m kind payload).1 clock (n + 1) ms a s os1' os2' []
        (effect sem m.state kind payload) ∧
      MemOk (opCall sem d m kind payload).2 (n + 1) a (os1' ++ os2') := by
  by_cases hr : sem.refuse m.state kind payload = true
  · unfold effect
    rw [if_pos hr, opCall_refused sem d m kind hr]
    exact ⟨rfl, os1, os2, hg.mono (Nat.le_refl _) (by omega), hm.mono (by omega)⟩
  unfold effect
  rw [if_neg hr]
  by_cases hp : payload.length > 2 ^ 30
  · rw [if_pos hp, opCall_big sem d m kind hr hp]
    refine ⟨rfl, os1, os2, hg.mono (Nat.le_refl _) (by omega), ?_⟩
    refine ⟨?_, ?_, ?_, hm.aLe, hm.doneLe, hm.lastEq⟩
    · have := hm.nextHi; simp only; omega
    · have := hm.lastLt; simp only; omega
    · intro o ho; have := hm.idsLt o ho; simp only; omega
  · rw [if_neg hp]
    have hg' := hg.mono (Nat.le_refl _) (Nat.le_succ n)
    have hnext : m.next ≤ n + 1 := hm.nextHi
    cases he : sem.exec m.state kind payload with
    | none =>
      rw [opCall_none sem d m kind hr hp he]
      simp only
      have hlog := append_prepare_log (r := ⟨m.next, kind, payload⟩) hg'.log hm.idsLt hnext (by simp only; omega)
      refine ⟨trivial, os1, os2 ++ [⟨⟨m.next, kind, payload⟩, false⟩], ⟨⟨hg.snap.current, hg.snap.dir⟩, hg.fresh, hlog,
        hg'.an, ?_⟩, ⟨?_, ?_, ?_, hm.aLe, ?_, ?_⟩⟩
      · have := hg.repl
        rw [pend_undone _ _ hg.log.undone] at this
        rw [pend_undone _ _ hlog.undone]; exact this
      · simp only; omega
      · have := hm.lastLt; simp only; omega
      · intro o ho
        rw [← List.append_assoc] at ho
        rcases List.mem_append.1 ho with ho | ho
        · have := hm.idsLt o ho; simp only; omega
        · simp only [List.mem_singleton] at ho
          subst ho; simp
      · intro o ho hd
        rw [← List.append_assoc] at ho
        rcases List.mem_append.1 ho with ho | ho
        · exact hm.doneLe o ho hd
        · simp only [List.mem_singleton] at ho
          subst ho; simp at hd
      · have := hm.lastEq
        rw [pend_undone _ _ hg.log.undone] at this
        rw [pend_undone _ _ hlog.undone]; exact this
    | some s' =>
      rw [opCall_some sem d m kind hr hp he]
      simp only
      have hlog := append_done_log (r := ⟨m.next, kind, payload⟩) hg'.log hm.idsLt hnext (by simp only; omega)
      have ha : a < m.next := by have := hm.aLe; have := hm.lastLt; omega
      refine ⟨trivial, os1 ++ os2 ++ [⟨⟨m.next, kind, payload⟩, true⟩], [], ⟨⟨hg.snap.current, hg.snap.dir⟩, hg.fresh, hlog,
        hg'.an, ?_⟩, ⟨?_, ?_, ?_, ?_, ?_, ?_⟩⟩
      · rw [List.append_nil, pend_snoc _ _ _ ha, replayAll_append, hg.repl]
        simp only [replayAll, hsem _ _ _ _ he]
      · simp only; omega
      · simp only; omega
      · intro o ho
        rw [List.append_nil] at ho
        rcases List.mem_append.1 ho with ho | ho
        · have := hm.idsLt o ho; simp only; omega
        · simp only [List.mem_singleton] at ho
          subst ho; simp
      · simp only; omega
      · intro o ho hd
        rw [List.append_nil] at ho
        simp only
        rcases List.mem_append.1 ho with ho | ho
        · have := hm.idsLt o ho; omega
        · simp only [List.mem_singleton] at ho
          subst ho; simp
      · rw [List.append_nil, pend_snoc _ _ _ ha, maxCommitted_snoc, ← hm.lastEq]
        have := hm.lastLt
        simp only; omega

/-- A crash inside the call: the content is the old or the new one. -/
theorem opCrash_good {sem : Sem σ} (hsem : SemOk sem) {d : Disk σ} {clock n ms a : Nat} {s : σ} {os1 os2 : List LoggedOp}
    {m : Mem σ} (hn : n + 1 < 2 ^ 64) (hg : Good sem d clock n ms a s os1 os2 [] m.state) (hm : MemOk m n a (os1 ++ os2))
    (kind : Mutation) (payload : Bytes) (cut : Nat) :
    ∃ abs, (abs = m.state ∨ abs = effect sem m.state kind payload) ∧
    ∃ os1' os2' tail, Good sem (({ (opCall sem d m kind payload).1 with durable := d.durable } : Disk σ).crash cut)
      clock (n + 1) ms a s os1' os2' tail abs ∧ m.lastCommitted ≤ maxCommitted a (pend (os1' ++ os2') a) := by
  have hlast := hm.lastEq
  rw [pend_undone _ _ hg.log.undone] at hlast
  have hg' := hg.mono (Nat.le_refl _) (Nat.le_succ n)
  have hnext : m.next ≤ n + 1 := hm.nextHi
  -- the log with only the prepare frame
  have hprep : ∀ (hp : payload.length ≤ 2 ^ 30), Good sem (appendBytes d (frameBytes (prepareFrame ⟨m.next, kind, payload⟩)) false) clock (n + 1) ms a s os1
      (os2 ++ [⟨⟨m.next, kind, payload⟩, false⟩]) [] m.state := by
    intro hp
    have hlog := append_prepare_log (r := ⟨m.next, kind, payload⟩) hg'.log hm.idsLt hnext hp
    refine ⟨⟨hg.snap.current, hg.snap.dir⟩, hg.fresh, hlog, hg'.an, ?_⟩
    have := hg.repl
    rw [pend_undone _ _ hg.log.undone] at this
    rw [pend_undone _ _ hlog.undone]; exact this
  by_cases hr : sem.refuse m.state kind payload = true
  · rw [opCall_refused sem d m kind hr]
    obtain ⟨o2, t, h⟩ := crash_good hn hg' cut
    exact ⟨m.state, Or.inl rfl, os1, o2, t, h, by rw [pend_undone _ _ h.log.undone, ← hlast]; exact Nat.le_refl _⟩
  unfold effect
  rw [if_neg hr]
  by_cases hp : payload.length > 2 ^ 30
  · rw [if_pos hp, opCall_big sem d m kind hr hp]
    obtain ⟨o2, t, h⟩ := crash_good hn hg' cut
    exact ⟨m.state, Or.inl rfl, os1, o2, t, h, by rw [pend_undone _ _ h.log.undone, ← hlast]; exact Nat.le_refl _⟩
  · rw [if_neg hp]
    have hpr := hprep (by omega)
    cases he : sem.exec m.state kind payload with
    | none =>
      rw [opCall_none sem d m kind hr hp he]
      simp only
      obtain ⟨o2, t, h⟩ := crash_good hn hpr cut
      exact ⟨m.state, Or.inl rfl, os1, o2, t, h, by rw [pend_undone _ _ h.log.undone, ← hlast]; exact Nat.le_refl _⟩
    | some s' =>
      rw [opCall_some sem d m kind hr hp he]
      simp only
      generalize hP : frameBytes (prepareFrame ⟨m.next, kind, payload⟩) = P at hpr
      have hdone := append_done_log (r := ⟨m.next, kind, payload⟩) hg'.log hm.idsLt hnext (by simp only; omega)
      have hC : IsFrame (frameBytes (commitFrame m.next kind)) (commitFrame m.next kind) := by
        apply frameBytes_isFrame
        exact ⟨by simp only [commitFrame]; omega, by simp [commitFrame]⟩
      simp only [hP] at hdone
      generalize hCb : frameBytes (commitFrame m.next kind) = C at hC hdone
      -- the crashed file
      have hcr : (({ (appendBytes (appendBytes d P false) C true) with durable := d.durable } : Disk σ).crash cut)
          = { d with wal := some ((walBytes d ++ P ++ C).take (max d.durable cut)),
                     durable := ((walBytes d ++ P ++ C).take (max d.durable cut)).length } := by
        simp [Disk.crash, appendBytes, walBytes]
      have hcr1 : ((appendBytes d P false).crash cut)
          = { d with wal := some ((walBytes d ++ P).take (max d.durable cut)),
                     durable := ((walBytes d ++ P).take (max d.durable cut)).length } := by
        simp [Disk.crash, appendBytes, walBytes]
      rw [hcr]
      generalize hk : max d.durable cut = k at hcr1 ⊢
      by_cases hfull : (walBytes d ++ P ++ C).length ≤ k
      · -- everything arrived
        rw [List.take_of_length_le hfull]
        have ha : a < m.next := by have := hm.aLe; have := hm.lastLt; omega
        refine ⟨s', Or.inr rfl, os1 ++ os2 ++ [⟨⟨m.next, kind, payload⟩, true⟩], [], [], ⟨⟨hg.snap.current, hg.snap.dir⟩, hg.fresh,
          ?_, hg'.an, ?_⟩, ?_⟩
        · refine ⟨?_, readFrame_nil, hdone.inc, hdone.ok, by simp, ?_, ?_⟩
          · have := hdone.bytes
            simpa [appendBytes, walBytes] using this
          · have := hdone.durLo
            simpa [appendBytes, walBytes] using this
          · simp [walBytes]
        · rw [List.append_nil, pend_snoc _ _ _ ha, replayAll_append, hg.repl]
          simp only [replayAll, hsem _ _ _ _ he]
        · rw [List.append_nil, pend_snoc _ _ _ ha, maxCommitted_snoc, ← hm.lastEq]; omega
      · refine ⟨m.state, Or.inl rfl, ?_⟩
        by_cases hshort : k ≤ (walBytes d ++ P).length
        · obtain ⟨o2, t, h⟩ := crash_good hn hpr cut
          refine ⟨os1, o2, t, ?_, by rw [pend_undone _ _ h.log.undone, ← hlast]; exact Nat.le_refl _⟩
          rw [hcr1] at h
          rw [List.take_append_of_le_length hshort]
          exact h
        · -- part of the commit frame
          have htk : (walBytes d ++ P ++ C).take k = walBytes d ++ P ++ C.take (k - (walBytes d ++ P).length) := by
            rw [List.take_append, List.take_of_length_le (by omega)]
          rw [htk]
          have htorn : readFrame (C.take (k - (walBytes d ++ P).length)) = none := by
            apply readFrame_torn hC (List.take_append_drop _ _).symm
            intro e
            rw [List.drop_eq_nil_iff] at e
            rw [List.length_append] at hfull
            omega
          have hl := hpr.log
          refine ⟨os1, os2 ++ [⟨⟨m.next, kind, payload⟩, false⟩], C.take (k - (walBytes d ++ P).length),
            ⟨⟨hg.snap.current, hg.snap.dir⟩, hg.fresh, ?_, hg'.an, hpr.repl⟩, by rw [pend_undone _ _ hl.undone, ← hlast]; exact Nat.le_refl _⟩
          refine ⟨?_, htorn, hl.inc, hl.ok, hl.undone, ?_, ?_⟩
          · have := hl.bytes
            rw [List.append_nil] at this
            rw [← this]
            simp [walBytes, appendBytes]
          · have := hg.log.durLo
            have := hg.log.durHi
            simp only [List.length_append]; omega
          · simp [walBytes]

/-! ### histories -/

/-- The cleanliness condition of one event. -/
def CleanStep (sem : Sem σ) (y : Sys σ) (e : Event) : Prop :=
  match e with
  | .recover _ => y.mem = none → scanRest (walBytes y.disk) = [] ∨ ∀ p, loadMem sem y.disk = some p → p.2 = true
  | _ => True

theorem cleanStep_of {sem : Sem σ} {y : Sys σ} {e : Event} {es : List Event} (h : CleanRecoveries sem y (e :: es) = true) :
    CleanStep sem y e := by
  unfold CleanRecoveries at h
  rw [Bool.and_eq_true] at h
  unfold CleanStep
  cases e with
  | recover dt =>
    intro hm
    have h1 := h.1
    simp only [hm, Option.isSome_none, Bool.false_or, cleanRecovery, Bool.or_eq_true, List.isEmpty_iff] at h1
    rcases h1 with h1 | h1
    · exact Or.inl h1
    · right
      intro p hp
      rw [hp] at h1; exact h1
  | _ => trivial

theorem step_inv {sem : Sem σ} (hsem : SemOk sem) {y : Sys σ} {p : σ × Bool} {n G : Nat} (h : Inv sem y p n G) (e : Event)
    (hn : n + 1 < 2 ^ 64) (hc : y.clock + e.dt < 2 ^ 64) (ht : e.ticks = true) (hcl : CleanStep sem y e) :
    ∃ y' r G', step sem y e = some y' ∧ r ∈ specNext sem p e ∧ Inv sem y' r (n + 1) G' ∧ y'.clock ≤ y.clock + e.dt ∧
      G ≤ G' ∧ ∀ i, returnedId sem y e = some i → G < i ∧ i ≤ G' := by
  have hn' : n < 2 ^ 64 := by omega
  unfold Inv at h
  cases hm : y.mem with
  | some m =>
    rw [hm] at h
    obtain ⟨hp2, hst, hG, ms, a, s, os1, os2, hg, hmo⟩ := h
    obtain ⟨abs, up⟩ := p
    simp only at hp2 hst hg
    subst hp2 hst hG
    have hlastEq := hmo.lastEq
    have hlastEq1 := hlastEq
    rw [pend_undone _ _ hg.log.undone] at hlastEq1
    have hlast : m.lastCommitted ≤ n := by have := hmo.lastLt; have := hmo.nextHi; omega
    have same : Inv sem y (m.state, true) (n + 1) m.lastCommitted := by
      unfold Inv
      rw [hm]
      exact ⟨rfl, rfl, rfl, ms, a, s, os1, os2, hg.mono (Nat.le_refl _) (by omega), hmo.mono (by omega)⟩
    cases e with
    | op kind payload =>
      obtain ⟨h1, os1', os2', h2, h3⟩ := opCall_good hsem hg hmo kind payload
      refine ⟨_, (effect sem m.state kind payload, true), (opCall sem y.disk m kind payload).2.lastCommitted,
        by simp only [step, hm]; rfl, by simp [specNext], ?_, by simp, ?_, ?_⟩
      · unfold Inv
        exact ⟨rfl, h1, rfl, ms, a, s, os1', os2', h2, h3⟩
      · have hlt := hmo.lastLt
        by_cases hr : sem.refuse m.state kind payload = true
        · rw [opCall_refused sem _ m kind hr]; exact Nat.le_refl _
        by_cases hp : payload.length > 2 ^ 30
        · rw [opCall_big sem _ m kind hr hp]; exact Nat.le_refl _
        · cases he : sem.exec m.state kind payload with
          | none => rw [opCall_none sem _ m kind hr hp he]; exact Nat.le_refl _
          | some s' => rw [opCall_some sem _ m kind hr hp he]; simp only; omega
      · intro i hi
        have hlt := hmo.lastLt
        simp only [returnedId, hm] at hi
        by_cases hr : sem.refuse m.state kind payload = true
        · rw [if_pos hr] at hi; simp at hi
        rw [if_neg hr] at hi
        by_cases hp : payload.length > 2 ^ 30
        · rw [if_pos hp] at hi; simp at hi
        · rw [if_neg hp] at hi
          cases he : sem.exec m.state kind payload with
          | none => rw [he] at hi; simp at hi
          | some s' =>
            rw [he] at hi
            simp only [Option.some.injEq] at hi
            rw [opCall_some sem _ m kind hr hp he]
            simp only; omega
    | opCrash kind payload cut =>
      obtain ⟨abs, h1, os1', os2', tail, h2, h3⟩ := opCrash_good hsem hn hg hmo kind payload cut
      refine ⟨_, (abs, false), maxCommitted a (pend (os1' ++ os2') a), by simp only [step, hm]; rfl, ?_, ?_, by simp, h3,
        by simp [returnedId]⟩
      · rcases h1 with rfl | rfl <;> simp [specNext]
      · unfold Inv
        exact ⟨rfl, ms, a, s, os1', os2', tail, h2, rfl⟩
    | crash cut =>
      obtain ⟨o2, t, h2⟩ := crash_good hn' hg cut
      refine ⟨_, (m.state, false), m.lastCommitted, by simp only [step, hm]; rfl, by simp [specNext], ?_, by simp,
        Nat.le_refl _, by simp [returnedId]⟩
      unfold Inv
      exact ⟨rfl, ms, a, s, os1, o2, t, h2.mono (Nat.le_refl _) (by omega),
        by rw [pend_undone _ _ h2.log.undone]; exact hlastEq1.symm⟩
    | checkpoint dt =>
      simp only [Event.ticks, decide_eq_true_eq] at ht
      simp only [Event.dt] at hc
      obtain ⟨_, h2⟩ := ckpt_good (ms' := y.clock + dt) hg (by omega) hc hlast hn' hmo.aLe hmo.doneLe hlastEq
        (str "manual_save") (by simp)
      refine ⟨_, (m.state, true), m.lastCommitted, by simp only [step, hm]; rfl, by simp [specNext], ?_, by simp [Event.dt],
        Nat.le_refl _, by simp [returnedId]⟩
      unfold Inv
      refine ⟨rfl, rfl, rfl, y.clock + dt, m.lastCommitted, m.state, [], [], h2.mono (Nat.le_refl _) (by omega), ?_⟩
      exact ⟨by have := hmo.nextHi; omega, hmo.lastLt, by simp, Nat.le_refl _, by simp, rfl⟩
    | checkpointCrash dt j cut =>
      simp only [Event.ticks, decide_eq_true_eq] at ht
      simp only [Event.dt] at hc
      obtain ⟨h1, _⟩ := ckpt_good (ms' := y.clock + dt) hg (by omega) hc hlast hn' hmo.aLe hmo.doneLe hlastEq
        (str "manual_save") (by simp)
      obtain ⟨ms2, a2, s2, o1, o2, t, h3, h3'⟩ := h1 j
      obtain ⟨o2', t', h4⟩ := crash_good hn' h3 cut
      rw [pend_undone _ _ h3.log.undone] at h3'
      refine ⟨_, (m.state, false), m.lastCommitted, by simp only [step, hm]; rfl, by simp [specNext], ?_, by simp [Event.dt],
        Nat.le_refl _, by simp [returnedId]⟩
      unfold Inv
      exact ⟨rfl, ms2, a2, s2, o1, o2', t', h4.mono (Nat.le_refl _) (by omega),
        by rw [pend_undone _ _ h4.log.undone]; exact h3'⟩
    | recover dt =>
      exact ⟨y, (m.state, true), m.lastCommitted, by simp only [step, hm], by simp [specNext], same, by simp,
        Nat.le_refl _, by simp [returnedId]⟩
    | recoverCrash dt j cut =>
      exact ⟨y, (m.state, true), m.lastCommitted, by simp only [step, hm], by simp [specNext], same, by simp,
        Nat.le_refl _, by simp [returnedId]⟩
  | none =>
    rw [hm] at h
    obtain ⟨hp2, ms, a, s, os1, os2, tail, hg, hG⟩ := h
    obtain ⟨abs, up⟩ := p
    simp only at hp2 hg
    subst hp2
    have same : Inv sem y (abs, false) (n + 1) G := by
      unfold Inv
      rw [hm]
      exact ⟨rfl, ms, a, s, os1, os2, tail, hg.mono (Nat.le_refl _) (by omega), hG⟩
    cases e with
    | op kind payload =>
      exact ⟨y, (abs, false), G, by simp only [step, hm], by simp [specNext], same, by simp, Nat.le_refl _,
        by simp [returnedId, hm]⟩
    | opCrash kind payload cut =>
      exact ⟨y, (abs, false), G, by simp only [step, hm], by simp [specNext], same, by simp, Nat.le_refl _,
        by simp [returnedId]⟩
    | crash cut =>
      exact ⟨y, (abs, false), G, by simp only [step, hm], by simp [specNext], same, by simp, Nat.le_refl _,
        by simp [returnedId]⟩
    | checkpoint dt =>
      exact ⟨y, (abs, false), G, by simp only [step, hm], by simp [specNext], same, by simp, Nat.le_refl _,
        by simp [returnedId]⟩
    | checkpointCrash dt j cut =>
      exact ⟨y, (abs, false), G, by simp only [step, hm], by simp [specNext], same, by simp, Nat.le_refl _,
        by simp [returnedId]⟩
    | recover dt =>
      simp only [Event.ticks, decide_eq_true_eq] at ht
      simp only [Event.dt] at hc
      obtain ⟨m, hl, hst, hmo⟩ := load_good hn' hg
      subst hst
      rw [← hmo.lastEq] at hG
      have hlast : m.lastCommitted ≤ n := by have := hmo.lastLt; have := hmo.nextHi; omega
      obtain ⟨_, h2⟩ := ckpt_good (ms' := y.clock + dt) hg (by omega) hc hlast hn' hmo.aLe hmo.doneLe hmo.lastEq
        (str "post_recovery") (by simp)
      cases hb : !(pend (os1 ++ os2) a).isEmpty with
      | true =>
        refine ⟨_, (m.state, true), G, by simp only [step, hm, hl, hb, if_true]; rfl, by simp [specNext], ?_,
          by simp [Event.dt], Nat.le_refl _, by simp [returnedId]⟩
        unfold Inv
        refine ⟨rfl, rfl, hG, y.clock + dt, m.lastCommitted, m.state, [], [], h2.mono (Nat.le_refl _) (by omega), ?_⟩
        exact ⟨by have := hmo.nextHi; omega, hmo.lastLt, by simp, Nat.le_refl _, by simp, rfl⟩
      | false =>
        have htail : tail = [] := by
          have := hcl hm
          rw [scanRest_log hn' hg.log] at this
          rcases this with h | h
          · exact h
          · have := h _ hl
            simp only at this
            rw [hb] at this; simp at this
        subst htail
        refine ⟨_, (m.state, true), G, by simp only [step, hm, hl, hb]; rfl, by simp [specNext], ?_, by simp [Event.dt],
          Nat.le_refl _, by simp [returnedId]⟩
        unfold Inv
        exact ⟨rfl, rfl, hG, ms, a, s, os1, os2, hg.mono (by simp) (by omega), hmo.mono (by omega)⟩
    | recoverCrash dt j cut =>
      simp only [Event.ticks, decide_eq_true_eq] at ht
      simp only [Event.dt] at hc
      obtain ⟨m, hl, hst, hmo⟩ := load_good hn' hg
      subst hst
      have hlast : m.lastCommitted ≤ n := by have := hmo.lastLt; have := hmo.nextHi; omega
      obtain ⟨h1, _⟩ := ckpt_good (ms' := y.clock + dt) hg (by omega) hc hlast hn' hmo.aLe hmo.doneLe hmo.lastEq
        (str "post_recovery") (by simp)
      obtain ⟨ms2, a2, s2, o1, o2, t, h3, h3'⟩ := h1 j
      obtain ⟨o2', t', h4⟩ := crash_good hn' h3 cut
      rw [pend_undone _ _ h3.log.undone] at h3'
      have hG' := hG
      rw [← hmo.lastEq] at hG'
      cases hb : !(pend (os1 ++ os2) a).isEmpty with
      | true =>
        refine ⟨_, (m.state, false), G, by simp only [step, hm, hl, hb, if_true]; rfl, by simp [specNext], ?_,
          by simp [Event.dt], Nat.le_refl _, by simp [returnedId]⟩
        unfold Inv
        exact ⟨rfl, ms2, a2, s2, o1, o2', t', h4.mono (Nat.le_refl _) (by omega),
          by rw [pend_undone _ _ h4.log.undone, h3', hG']⟩
      | false =>
        refine ⟨_, (m.state, false), G, by simp only [step, hm, hl, hb]; rfl, by simp [specNext], ?_, by simp [Event.dt],
          Nat.le_refl _, by simp [returnedId]⟩
        unfold Inv
        exact ⟨rfl, ms, a, s, os1, os2, tail, hg.mono (by simp) (by omega), hG⟩

theorem run_inv {sem : Sem σ} (hsem : SemOk sem) (evs : List Event) : ∀ {y : Sys σ} {p : σ × Bool} {n G : Nat},
    Inv sem y p n G → n + evs.length < 2 ^ 64 → y.clock + (evs.map Event.dt).sum < 2 ^ 64 →
    (∀ e ∈ evs, e.ticks = true) → CleanRecoveries sem y evs = true →
    ∃ y' q G', run sem y evs = some y' ∧ SpecRun sem p evs q ∧ Inv sem y' q (n + evs.length) G' ∧
      (returnedIds sem y evs).Pairwise (· < ·) ∧ (∀ i ∈ returnedIds sem y evs, G < i) ∧
      y'.clock ≤ y.clock + (evs.map Event.dt).sum := by
  induction evs with
  | nil => intro y p n G h _ _ _ _; exact ⟨y, p, G, rfl, rfl, h, List.Pairwise.nil, by simp [returnedIds], by simp⟩
  | cons e es ih =>
    intro y p n G h hn hc ht hcl
    simp only [List.map_cons, List.sum_cons, List.length_cons] at hn hc ⊢
    obtain ⟨y1, r, G1, h1, h2, h3, h4, h5, h6⟩ := step_inv hsem h e (by omega) (by omega) (ht e (by simp)) (cleanStep_of hcl)
    have hcl2 : CleanRecoveries sem y1 es = true := by
      unfold CleanRecoveries at hcl
      rw [Bool.and_eq_true, h1] at hcl
      exact hcl.2
    obtain ⟨y2, q, G2, g1, g2, g3, g4, g5, g6⟩ := ih h3 (by omega) (by omega) (fun x hx => ht x (by simp [hx])) hcl2
    refine ⟨y2, q, G2, ?_, ⟨r, h2, g2⟩, ?_, ?_, ?_, by omega⟩
    · simp only [run, h1]; exact g1
    · rw [show n + (es.length + 1) = n + 1 + es.length by omega]; exact g3
    · simp only [returnedIds, h1]
      rw [List.pairwise_append]
      refine ⟨?_, g4, ?_⟩
      · cases returnedId sem y e <;> simp
      · intro a ha b hb
        rw [Option.mem_toList] at ha
        have := h6 a ha
        have := g5 b hb
        omega
    · intro i hi
      simp only [returnedIds, h1] at hi
      rcases List.mem_append.1 hi with hi | hi
      · rw [Option.mem_toList] at hi
        exact (h6 i hi).1
      · have := g5 i hi; omega

theorem Inv.content {sem : Sem σ} {y : Sys σ} {p : σ × Bool} {n G : Nat} (h : Inv sem y p n G) (hn : n < 2 ^ 64) :
    Content sem y p.1 := by
  unfold Inv at h
  unfold Content
  cases hm : y.mem with
  | some m => rw [hm] at h; exact h.2.1
  | none =>
    rw [hm] at h
    obtain ⟨_, ms, a, s, os1, os2, tail, hg, _⟩ := h
    obtain ⟨m, h1, h2, _⟩ := load_good hn hg
    exact ⟨m, _, h1, h2⟩

theorem Inv.stopped {sem : Sem σ} {y : Sys σ} {p : σ × Bool} {n G : Nat} (h : Inv sem y p n G) (hp : p.2 = false) :
    y.mem = none := by
  unfold Inv at h
  cases hm : y.mem with
  | none => rfl
  | some m => rw [hm] at h; rw [h.1] at hp; cases hp

theorem afterFit_inv (sem : Sem σ) (s : σ) (ms : Nat) (hms : ms < 2 ^ 64) : Inv sem (afterFit s ms) (s, true) 0 0 := by
  have hv := C14_index_manifest_valid ms 0 (str "post_fit") hms (by decide) (by simp)
  have hrt := C14_round_trip _ hv
  have hdir := pubSteps_dir ms 0 (str "post_fit") s (⟨none, 0, none, []⟩ : Disk σ)
  have heq : runSteps (⟨none, 0, none, []⟩ : Disk σ) (ckptSteps ms 0 (str "post_fit") s ⟨none, 0, none, []⟩)
      = { (runSteps (⟨none, 0, none, []⟩ : Disk σ) (pubSteps ms 0 (str "post_fit") s)) with
          current := some (snapshotName ms ++ [chNL]), wal := none, durable := 0 } := by
    rw [ckptSteps_eq, runSteps_append]
    simp [runSteps, removeSteps, CkStep.run]
  unfold Inv afterFit
  refine ⟨rfl, rfl, rfl, ms, 0, s, [], [], ?_, ⟨by simp, by simp, by simp, by simp, by simp, rfl⟩⟩
  simp only
  rw [heq]
  refine ⟨⟨rfl, _, _, hdir, hrt, rfl, rfl⟩, Nat.le_refl _, ?_, by omega, rfl⟩
  exact ⟨rfl, readFrame_nil, by simp, by simp, by simp, by simp [opsBytes], by simp⟩

end Alaya.Recovery
