import Verif.Lemmas.DiskCollectionHist

/-! C33: labels are unique across the published segments of a DiskCollection. -/
namespace Alaya.DiskColl2
open Alaya Alaya.DiskFlat Alaya.DiskManifest

/-- The labels stored in the files of a segment directory. -/
def segLabels (d : Disk) (n : Bytes) : List Nat := ((loadSegment (d.dir n)).map Segment.labels).getD []

/-- All labels of the segments a manifest lists. -/
def published (d : Disk) (m : ColMan) : List Nat := m.segs.flatMap (segLabels d)

/-- The state after creating a collection. -/
def start (D : Nat) (metric : Metric) (cap : Nat) : St := ⟨(create D metric cap).1, some (create D metric cap).2⟩

/-- No allocation failure in the two `push_back` calls after publication. -/
def NoPush : Op → Prop
  | .flush _ (.push _) => False
  | _ => True

/-- The full statement: after every history no label occurs twice in the published segments. -/
def UniqueFull (Allowed : Op → Prop) : Prop :=
  ∀ (K : Kernel) (D : Nat) (metric : Metric) (cap : Nat) (ops : List Op), KernelOk K → 0 < D → D < 2 ^ 32 → cap < 2 ^ 64 →
    (∀ op ∈ ops, OpOk D op) → (∀ op ∈ ops, Allowed op) →
    ∀ m : ColMan, m.Valid → (runOps K (start D metric cap) ops).disk.man = some m.save →
      (∀ n ∈ m.segs, ∃ s, loadSegment ((runOps K (start D metric cap) ops).disk.dir n) = some s) ∧
      (published (runOps K (start D metric cap) ops).disk m).Nodup

/-- The invariant with unique labels and the segments in memory. -/
structure InvU (D : Nat) (s : St) (m : ColMan) : Prop where
  inv : InvM D s m
  uniq : (published s.disk m).Nodup
  dirs : ∀ mm, s.mem = some mm → mm.dirs = m.segs

theorem published_same {d d' : Disk} {m : ColMan} (h : ∀ n ∈ m.segs, d'.dir n = d.dir n) : published d' m = published d m := by
  unfold published
  rw [List.flatMap_def, List.flatMap_def]
  refine congrArg List.flatten (List.map_congr_left (fun n hn => ?_))
  unfold segLabels; rw [h n hn]

theorem allIds_eq {d : Disk} : ∀ (ns : List Bytes), (∀ n ∈ ns, ∃ s, loadSegment (d.dir n) = some s) →
    allIds d ns = some (ns.flatMap (segLabels d))
  | [], _ => rfl
  | n :: ns, h => by
    obtain ⟨s, hs⟩ := h n (by simp)
    have ih := allIds_eq ns (fun x hx => h x (by simp [hx]))
    unfold allIds
    rw [idsView_of_load hs, ih]
    simp only [List.flatMap_cons]
    unfold segLabels
    rw [hs]; rfl

theorem publish_uniq {K : Kernel} {D : Nat} {d d' : Disk} {m : ColMan} {mm : Mem} {tmp name : Bytes} {s : Segment}
    (h : DiskInv D d m) (hmm : MemInv D m mm) (hdirs : mm.dirs = m.segs) (hu : (published d m).Nodup) (ht : ¬ SegName tmp)
    (pl : Planned K d mm name s) (hp : PublishedTo tmp name s (nextMan mm name).save d d') :
    (published d' (nextMan mm name)).Nodup := by
  have hseg : (nextMan mm name).segs = m.segs ++ [name] := by unfold nextMan; simp only; rw [hmm.manEq.2.2.2.1]
  have e : published d' (nextMan mm name) = published d m ++ mm.pendL := by
    unfold published
    rw [hseg, List.flatMap_append]
    have e1 : m.segs.flatMap (segLabels d') = m.segs.flatMap (segLabels d) := published_same (h.other_dirs ht pl.fresh hp.2.2)
    rw [e1]
    congr 1
    simp only [List.flatMap_cons, List.flatMap_nil, List.append_nil]
    unfold segLabels
    rw [load_complete hp.2.1 pl.valid pl.opens]
    exact pl.labels
  rw [e, List.nodup_append]
  refine ⟨hu, pl.nodup, ?_⟩
  intro a ha b hb hab
  subst hab
  obtain ⟨ls, hls, hdis⟩ := pl.ids
  rw [hdirs, allIds_eq _ h.segs] at hls
  injection hls with hls
  exact hdis a hb (hls ▸ ha)

theorem uniq_step {K : Kernel} (hK : KernelOk K) {D : Nat} (hD : D < 2 ^ 32) {s : St} {m : ColMan} (h : InvU D s m) (op : Op)
    (hop : OpOk D op) (hnp : NoPush op) : ∃ m', InvU D (step K s op) m' := by
  obtain ⟨hi, hu, hdirs⟩ := h
  cases op with
  | add v l a =>
    simp only [step]
    cases hm : s.mem with
    | none => exact ⟨m, hi, hu, hdirs⟩
    | some mm =>
      simp only
      cases ha : addBatch mm l.length v l a with
      | none => exact ⟨m, hi, hu, hdirs⟩
      | some mm' =>
        obtain ⟨g1, g2, _⟩ := add_memInv hD hi.disk (hi.mem mm hm) hop ha
        refine ⟨m, ⟨hi.disk, ?_⟩, hu, ?_⟩
        · intro x hx; injection hx with hx; subst hx; exact g1
        · intro x hx; injection hx with hx; subst hx; rw [g2]; exact hdirs mm hm
  | reopen sf =>
    refine ⟨m, ⟨hi.disk, ?_⟩, hu, ?_⟩
    · intro mm hmm
      obtain ⟨cap, hc, e⟩ := open_some hi.disk hmm
      rw [e]; exact open_memInv hi.disk sf hc
    · intro mm hmm
      obtain ⟨cap, hc, e⟩ := open_some hi.disk hmm
      rw [e]; rfl
  | flush tmp f =>
    obtain ⟨m', hm'⟩ := inv_step (K := K) hK hD hi (.flush tmp f) hop
    simp only [step] at hm' ⊢
    cases hm : s.mem with
    | none => exact ⟨m, hi, hu, hdirs⟩
    | some mm =>
      rw [hm] at hm'
      have hmm := hi.mem mm hm
      have hdm := hdirs mm hm
      have hout := flush_outcome hK hop f s.disk (hmm.pendOk hD hi.disk.dim)
      simp only at hm' ⊢
      generalize flush K tmp f s.disk mm = r at hout hm'
      have same : ∀ x, some mm = some x → x.dirs = m.segs := by intro x hx; injection hx with hx; subst hx; exact hdm
      have samem : ∀ x, some mm = some x → MemInv D m x := by intro x hx; injection hx with hx; subst hx; exact hmm
      cases hout with
      | idle h0 => exact ⟨m, ⟨hi.disk, samem⟩, hu, same⟩
      | refused d' h0 hf =>
        have hs := hi.disk.frame_dirs hop hf
        exact ⟨m, ⟨hi.disk.same hf.1 hs, samem⟩, by rw [published_same hs]; exact hu, same⟩
      | crashed d' i h0 hf _ =>
        have hs := hi.disk.frame_dirs hop hf
        exact ⟨m, ⟨hi.disk.same hf.1 hs, by intro x hx; cases hx⟩, by rw [published_same hs]; exact hu, by intro x hx; cases hx⟩
      | builtSearcher d' name sg pl hb _ =>
        have hs := hi.disk.other_dirs hop pl.fresh hb.2.2
        exact ⟨m, ⟨hi.disk.same hb.1 hs, samem⟩, by rw [published_same hs]; exact hu, same⟩
      | builtPublish d' name sg i pl hb _ =>
        have hs := hi.disk.other_dirs hop pl.fresh hb.2.2
        have hd1 := hi.disk.same hb.1 hs
        have : m' = m := by
          have h1 := hm'.disk.man
          rw [hd1.man] at h1
          injection h1 with h1
          exact (save_inj hd1.valid hm'.disk.valid h1).symm
        subst this
        refine ⟨m', hm', by rw [published_same hs]; exact hu, ?_⟩
        intro x hx; injection hx with hx; subst hx; exact hdm
      | builtCrash d' name sg i pl hb _ =>
        have hs := hi.disk.other_dirs hop pl.fresh hb.2.2
        exact ⟨m, ⟨hi.disk.same hb.1 hs, by intro x hx; cases hx⟩, by rw [published_same hs]; exact hu, by intro x hx; cases hx⟩
      | done d' name sg pl hp _ =>
        have hd1 := hi.disk.publish hmm hop pl hp
        have : m' = nextMan mm name := by
          have h1 := hm'.disk.man
          rw [hd1.man] at h1
          injection h1 with h1
          exact (save_inj hd1.valid hm'.disk.valid h1).symm
        subst this
        refine ⟨_, hm', publish_uniq hi.disk hmm hdm hu hop pl hp, ?_⟩
        intro x hx
        injection hx with hx
        subst hx
        show mm.dirs ++ [name] = mm.man.segs ++ [name]
        rw [hdm, hmm.manEq.2.2.2.1]
      | donePush d' name sg i pl hp hf => rw [hf] at hnp; exact absurd hnp id
      | doneCrash d' name sg i pl hp _ =>
        exact ⟨_, ⟨hi.disk.publish hmm hop pl hp, by intro x hx; cases hx⟩, publish_uniq hi.disk hmm hdm hu hop pl hp,
          by intro x hx; cases hx⟩

theorem uniq_run {K : Kernel} (hK : KernelOk K) {D : Nat} (hD : D < 2 ^ 32) : ∀ (ops : List Op) {s : St} {m : ColMan},
    InvU D s m → (∀ op ∈ ops, OpOk D op) → (∀ op ∈ ops, NoPush op) → ∃ m', InvU D (runOps K s ops) m'
  | [], _, m, h, _, _ => ⟨m, h⟩
  | op :: ops, s, m, h, ho, hn => by
    obtain ⟨m', h'⟩ := uniq_step hK hD h op (ho op (by simp)) (hn op (by simp))
    exact uniq_run hK hD ops h' (fun o hx => ho o (by simp [hx])) (fun o hx => hn o (by simp [hx]))

theorem start_uniq (D : Nat) (h0 : 0 < D) (hD : D < 2 ^ 32) (metric : Metric) (cap : Nat) (hc : cap < 2 ^ 64) :
    InvU D (start D metric cap) (create D metric cap).2.man :=
  ⟨create_inv D h0 hD metric cap hc, List.nodup_nil, by intro mm hmm; injection hmm with hmm; subst hmm; rfl⟩

/-- After any history of add_batch, flush (with a crash or an error at any point but the two `push_back` calls after
publication) and reopen, every listed segment is complete and no label occurs twice.  Missing for the full statement: those
two calls failing, for which it is false (`C33_push_failure_refuted`). -/
theorem C33_labels_unique_partial : UniqueFull NoPush := by
  intro K D metric cap ops hK h0 hD hc ho hn m hv hman
  obtain ⟨m', h⟩ := uniq_run (K := K) hK hD ops (start_uniq D h0 hD metric cap hc) ho hn
  have e := h.inv.disk.man
  rw [hman] at e
  injection e with e
  have := save_inj hv h.inv.disk.valid e
  subst this
  exact ⟨h.inv.disk.segs, h.uniq⟩

/-- A flush that would introduce a duplicate (inside the pending rows or against the published ones) throws and changes
nothing, on disk or in memory, whatever fault was to come. -/
theorem C33_duplicate_refused {K : Kernel} (D : Nat) (metric : Metric) (cap : Nat) (ops : List Op) (hK : KernelOk K) (h0 : 0 < D)
    (hD : D < 2 ^ 32) (hc : cap < 2 ^ 64) (ho : ∀ op ∈ ops, OpOk D op) (hn : ∀ op ∈ ops, NoPush op)
    (m : ColMan) (hv : m.Valid) (hman : (runOps K (start D metric cap) ops).disk.man = some m.save) (mm : Mem)
    (hm : (runOps K (start D metric cap) ops).mem = some mm)
    (hdup : ¬ (published (runOps K (start D metric cap) ops).disk m ++ mm.pendL).Nodup) (tmp : Bytes) (f : Fault) :
    flush K tmp f (runOps K (start D metric cap) ops).disk mm = ((runOps K (start D metric cap) ops).disk, some mm, .err) := by
  obtain ⟨m', h⟩ := uniq_run (K := K) hK hD ops (start_uniq D h0 hD metric cap hc) ho hn
  generalize runOps K (start D metric cap) ops = s at *
  have e := h.inv.disk.man
  rw [hman] at e
  injection e with e
  have := save_inj hv h.inv.disk.valid e
  subst this
  have hp : plan K s.disk mm = none := by
    unfold plan
    by_cases h1 : mm.pendL.Nodup
    · rw [if_neg (by simp [h1]), h.dirs mm hm, allIds_eq _ h.inv.disk.segs]
      simp only
      rw [if_pos]
      rw [List.any_eq_true]
      rw [List.nodup_append] at hdup
      apply Decidable.byContradiction
      intro hno
      apply hdup
      refine ⟨h.uniq, h1, ?_⟩
      intro a ha b hb hab
      subst hab
      exact hno ⟨a, hb, List.contains_iff_mem.2 ha⟩
    · rw [if_pos (by simp [h1])]
  unfold flush
  have hne : mm.pendL ≠ [] := by
    intro hnil
    apply hdup
    rw [hnil, List.append_nil]; exact h.uniq
  rw [if_neg hne, hp]

/-! ### `push_back` failing after publication -/

/-- A kernel for examples. -/
def kern0 : Kernel := ⟨fun r => r, fun _ _ _ => 0⟩

def pushOps : List Op := [.add [0] [7] false, .flush (str ".tmp_1") (.push 0), .flush (str ".tmp_2") .none]

/-- The manifest after `pushOps`. -/
def pushMan : ColMan :=
  { dim := 1, metric := .l2, engine := .flat, next := 3, segs := [formatSegmentId 1, formatSegmentId 2],
    extras := [(str "x_max_pending_bytes", decStr 1000)] }

/-- The full statement is false: when `segments_.push_back` throws (out of memory) after the manifest was published, the
pending rows stay and `segment_dirs_` lacks the new segment, so the next flush publishes the same labels again. -/
theorem C33_push_failure_refuted : ¬ UniqueFull (fun _ => True) := by
  intro h
  have := h kern0 1 .l2 1000 pushOps (fun _ => rfl) (by decide) (by decide) (by decide)
    (by
      intro op hop
      simp only [pushOps, List.mem_cons, List.not_mem_nil, or_false] at hop
      rcases hop with rfl | rfl | rfl
      · exact ⟨by decide, by decide, by decide⟩
      · intro hs; exact absurd ((validSegmentId_iff _).2 hs) (by decide)
      · intro hs; exact absurd ((validSegmentId_iff _).2 hs) (by decide))
    (fun _ _ => trivial) pushMan
    { version := rfl, dim := by decide, next := by decide,
      segNames := by
        intro s hs
        simp only [pushMan, List.mem_cons, List.not_mem_nil, or_false] at hs
        rcases hs with rfl | rfl
        · exact formatSegmentId_name (by decide)
        · exact formatSegmentId_name (by decide)
      extrasAsc := List.pairwise_singleton _ _
      extras := by
        intro e he
        rw [List.mem_singleton.1 he]
        exact ⟨⟨⟨str "max_pending_bytes", by decide⟩, by decide, by decide⟩, decStr_lineValue 1000⟩ }
    (by decide +kernel)
  exact absurd this.2 (by decide +kernel)

/-- Non-trivial histories meet the hypotheses: two flushes, with a crash and a reopen between them, and two segments. -/
example : ∃ ops : List Op, (∀ op ∈ ops, OpOk 1 op) ∧ (∀ op ∈ ops, NoPush op) ∧
    (runOps kern0 (start 1 .l2 1000) ops).disk.man = some pushMan.save ∧
    published (runOps kern0 (start 1 .l2 1000) ops).disk pushMan = [7, 8] := by
  refine ⟨[.add [0] [7] false, .flush (str ".tmp_1") .none, .add [0] [8] false, .flush (str ".tmp_2") (.crash 3), .reopen false,
    .add [0] [8] false, .flush (str ".tmp_3") .none], ?_, ?_, ?_, ?_⟩
  · intro op hop
    simp only [List.mem_cons, List.not_mem_nil, or_false] at hop
    rcases hop with rfl | rfl | rfl | rfl | rfl | rfl | rfl
    · exact ⟨by decide, by decide, by decide⟩
    · intro hs; exact absurd ((validSegmentId_iff _).2 hs) (by decide)
    · exact ⟨by decide, by decide, by decide⟩
    · intro hs; exact absurd ((validSegmentId_iff _).2 hs) (by decide)
    · trivial
    · exact ⟨by decide, by decide, by decide⟩
    · intro hs; exact absurd ((validSegmentId_iff _).2 hs) (by decide)
  · intro op hop
    simp only [List.mem_cons, List.not_mem_nil, or_false] at hop
    rcases hop with rfl | rfl | rfl | rfl | rfl | rfl | rfl <;> trivial
  · decide +kernel
  · decide +kernel

end Alaya.DiskColl2
