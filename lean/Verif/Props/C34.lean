import Verif.Props.C33

/-! C34: flush is crash-atomic and segment ids are never reused. -/
namespace Alaya.DiskColl2
open Alaya Alaya.DiskFlat Alaya.DiskManifest

theorem start_inv (D : Nat) (h0 : 0 < D) (hD : D < 2 ^ 32) (metric : Metric) (cap : Nat) (hc : cap < 2 ^ 64) :
    InvM D (start D metric cap) (create D metric cap).2.man := create_inv D h0 hD metric cap hc

/-- What opening the collection shows: the listed segments with their contents; `none` = it cannot be opened. -/
def shows (d : Disk) : Option (List (Bytes × Option Segment)) :=
  (openC false d).map (fun mm => mm.dirs.map (fun n => (n, loadSegment (d.dir n))))

theorem shows_eq {D : Nat} {d : Disk} {m : ColMan} (h : DiskInv D d m) (hsz : m.save.length ≤ 2 ^ 20) :
    shows d = some (m.segs.map (fun n => (n, loadSegment (d.dir n)))) := by
  obtain ⟨cap, _, e⟩ := open_eq h hsz false
  unfold shows
  rw [e]; rfl

theorem shows_same {D : Nat} {d d' : Disk} {m : ColMan} (h : DiskInv D d m) (hsz : m.save.length ≤ 2 ^ 20) (hm : d'.man = d.man)
    (hs : ∀ n ∈ m.segs, d'.dir n = d.dir n) : shows d' = shows d := by
  rw [shows_eq h hsz, shows_eq (h.same hm hs) hsz]
  congr 1
  refine List.map_congr_left (fun n hn => ?_)
  rw [hs n hn]

theorem shows_publish {K : Kernel} {D : Nat} {d d' : Disk} {m : ColMan} {mm : Mem} {tmp name : Bytes} {s : Segment}
    (h : DiskInv D d m) (hmm : MemInv D m mm) (ht : ¬ SegName tmp) (pl : Planned K d mm name s)
    (hp : PublishedTo tmp name s (nextMan mm name).save d d') (hsz : (nextMan mm name).save.length ≤ 2 ^ 20) :
    shows d' = some (m.segs.map (fun n => (n, loadSegment (d.dir n))) ++ [(name, some s)]) := by
  have hd := h.publish hmm ht pl hp
  rw [shows_eq hd hsz]
  have hseg : (nextMan mm name).segs = m.segs ++ [name] := by unfold nextMan; simp only; rw [hmm.manEq.2.2.2.1]
  rw [hseg, List.map_append]
  congr 2
  · refine List.map_congr_left (fun n hn => ?_)
    rw [h.other_dirs ht pl.fresh hp.2.2 n hn]
  · simp only [List.map_cons, List.map_nil]
    rw [load_complete hp.2.1 pl.valid pl.opens]

/-- The manifest a flush would publish. -/
def wouldPublish (mm : Mem) : ColMan := nextMan mm (formatSegmentId mm.man.next)

/-- Any history (any crash, any error), then a flush hit by any fault: opening the collection afterwards shows what it showed
before, or one more segment that holds exactly the pending rows; a flush that reports success with rows pending shows the
latter.  Missing for the full statement: collections whose manifest exceeds 1 MiB, now or after the flush
(`C34_reopen_refuted`). -/
theorem C34_flush_atomic_partial {K : Kernel} (hK : KernelOk K) (D : Nat) (h0 : 0 < D) (hD : D < 2 ^ 32) (metric : Metric) (cap : Nat)
    (hc : cap < 2 ^ 64) (ops : List Op) (ho : ∀ op ∈ ops, OpOk D op) (mm : Mem)
    (hm : (runOps K (start D metric cap) ops).mem = some mm)
    (hopen : (shows (runOps K (start D metric cap) ops).disk).isSome = true)
    (hsz' : (wouldPublish mm).save.length ≤ 2 ^ 20) (tmp : Bytes) (ht : ¬ SegName tmp) (f : Fault) :
    ∃ before, shows (runOps K (start D metric cap) ops).disk = some before ∧ (∀ e ∈ before, e.2.isSome = true) ∧
      ((shows (flush K tmp f (runOps K (start D metric cap) ops).disk mm).1 = some before ∧
          ((flush K tmp f (runOps K (start D metric cap) ops).disk mm).2.2 = .ok → mm.pendL = [])) ∨
        (mm.pendL ≠ [] ∧ ∃ name s, shows (flush K tmp f (runOps K (start D metric cap) ops).disk mm).1 = some (before ++ [(name, some s)]) ∧
          s.labels = mm.pendL ∧ s.dim = D ∧ s.metric = metric ∧ (∀ e ∈ before, e.1 ≠ name))) := by
  obtain ⟨m, h⟩ := inv_run (K := K) hK hD ops (start_inv D h0 hD metric cap hc) ho
  have hmet : ∀ (ops : List Op) (s : St), (∀ mm, s.mem = some mm → mm.man.metric = metric) →
      (∀ m, InvM D s m → m.metric = metric) → (∀ op ∈ ops, OpOk D op) → ∀ m, InvM D s m →
      ∀ m', InvM D (runOps K s ops) m' → m'.metric = metric := by
    intro ops
    induction ops with
    | nil => intro s _ h2 _ m hm m' hm'; exact h2 m' hm'
    | cons op ops ih =>
      intro s h1 h2 hoo m hm m' hm'
      obtain ⟨m1, hm1⟩ := inv_step (K := K) hK hD hm op (hoo op (by simp))
      have key : m1.metric = metric ∧ ∀ mm, (step K s op).mem = some mm → mm.man.metric = metric := by
        have fin : m1.metric = metric → ∀ mm, (step K s op).mem = some mm → mm.man.metric = metric := by
          intro e mm hmm
          rw [(hm1.mem mm hmm).manEq.2.1]; exact e
        have base := h2 m hm
        have hm1' : m1.metric = metric := by
          cases op with
          | add v l a =>
            have : (step K s (.add v l a)).disk = s.disk := by
              simp only [step]
              cases s.mem with
              | none => rfl
              | some mm => simp only; cases addBatch mm l.length v l a <;> rfl
            have e := hm1.disk.man
            rw [this, hm.disk.man] at e
            injection e with e
            rw [← save_inj hm.disk.valid hm1.disk.valid e]; exact base
          | reopen sf =>
            have e := hm1.disk.man
            simp only [step] at e
            rw [hm.disk.man] at e
            injection e with e
            rw [← save_inj hm.disk.valid hm1.disk.valid e]; exact base
          | flush tmp f =>
            have e := hm1.disk.man
            simp only [step] at e
            cases hmem : s.mem with
            | none =>
              rw [hmem] at e
              simp only at e
              rw [hm.disk.man] at e
              injection e with e
              rw [← save_inj hm.disk.valid hm1.disk.valid e]; exact base
            | some mm =>
              rw [hmem] at e
              simp only at e
              have hmm := hm.mem mm hmem
              have hout := flush_outcome hK (hoo (.flush tmp f) (by simp)) f s.disk (hmm.pendOk hD hm.disk.dim)
              generalize flush K tmp f s.disk mm = r at hout e
              have old : ∀ d' : Disk, d'.man = s.disk.man → d'.man = some m1.save → m1.metric = metric := by
                intro d' g1 g2
                rw [g1, hm.disk.man] at g2
                injection g2 with g2
                rw [← save_inj hm.disk.valid hm1.disk.valid g2]; exact base
              have new : ∀ (d' : Disk) (name : Bytes) (sg : Segment), Planned K s.disk mm name sg →
                  PublishedTo tmp name sg (nextMan mm name).save s.disk d' → d'.man = some m1.save → m1.metric = metric := by
                intro d' name sg pl hp g2
                have hd := hm.disk.publish hmm (hoo (.flush tmp f) (by simp)) pl hp
                rw [hd.man] at g2
                injection g2 with g2
                rw [← save_inj hd.valid hm1.disk.valid g2]
                show mm.man.metric = metric
                exact h1 mm hmem
              cases hout with
              | idle _ => exact old _ rfl e
              | refused d' _ hf => exact old d' hf.1 e
              | crashed d' i _ hf _ => exact old d' hf.1 e
              | builtSearcher d' name sg pl hb _ => exact old d' hb.1 e
              | builtPublish d' name sg i pl hb _ => exact old d' hb.1 e
              | builtCrash d' name sg i pl hb _ => exact old d' hb.1 e
              | done d' name sg pl hp _ => exact new d' name sg pl hp e
              | donePush d' name sg i pl hp _ => exact new d' name sg pl hp e
              | doneCrash d' name sg i pl hp _ => exact new d' name sg pl hp e
        exact ⟨hm1', fin hm1'⟩
      refine ih (step K s op) key.2 ?_ (fun o hx => hoo o (by simp [hx])) m1 hm1 m' hm'
      intro m2 hm2
      have e := hm2.disk.man
      rw [hm1.disk.man] at e
      injection e with e
      rw [← save_inj hm1.disk.valid hm2.disk.valid e]; exact key.1
  have hmetric : m.metric = metric := by
    refine hmet ops (start D metric cap) ?_ ?_ ho _ (start_inv D h0 hD metric cap hc) m h
    · intro mm hmm; injection hmm with hmm; subst hmm; rfl
    · intro m0 hm0
      have e := hm0.disk.man
      have hc0 := start_inv D h0 hD metric cap hc
      rw [show (start D metric cap).disk.man = some (create D metric cap).2.man.save from rfl] at e
      injection e with e
      rw [← save_inj hc0.disk.valid hm0.disk.valid e]; rfl
  clear hmet
  generalize runOps K (start D metric cap) ops = s at *
  have hmm := h.mem mm hm
  have hszm : m.save.length ≤ 2 ^ 20 := by
    obtain ⟨x, hx⟩ := Option.isSome_iff_exists.1 hopen
    unfold shows openC at hx
    rw [h.disk.man] at hx
    simp only at hx
    cases hl : ColMan.load m.save with
    | none => rw [hl] at hx; cases hx
    | some y => exact ((col_load_iff _ y).1 hl).1
  refine ⟨_, shows_eq h.disk hszm, ?_, ?_⟩
  · intro e he
    obtain ⟨n, hn, rfl⟩ := List.mem_map.1 he
    obtain ⟨sg, hsg⟩ := h.disk.segs n hn
    simp only; rw [hsg]; rfl
  have hout := flush_outcome hK ht f s.disk (hmm.pendOk hD h.disk.dim)
  generalize flush K tmp f s.disk mm = r at hout
  have old : ∀ d' : Disk, d'.man = s.disk.man → (∀ n ∈ m.segs, d'.dir n = s.disk.dir n) →
      shows d' = some (m.segs.map (fun n => (n, loadSegment (s.disk.dir n)))) := by
    intro d' g1 g2
    rw [shows_same h.disk hszm g1 g2, shows_eq h.disk hszm]
  have new : ∀ (d' : Disk) (name : Bytes) (sg : Segment), Planned K s.disk mm name sg →
      PublishedTo tmp name sg (nextMan mm name).save s.disk d' →
      mm.pendL ≠ [] ∧ ∃ name sg, shows d' = some (m.segs.map (fun n => (n, loadSegment (s.disk.dir n))) ++ [(name, some sg)]) ∧
        sg.labels = mm.pendL ∧ sg.dim = D ∧ sg.metric = metric ∧
        (∀ e ∈ m.segs.map (fun n => (n, loadSegment (s.disk.dir n))), e.1 ≠ name) := by
    intro d' name sg pl hp
    have hname : nextMan mm name = wouldPublish mm := by unfold wouldPublish; rw [← pl.named]
    refine ⟨?_, name, sg, shows_publish h.disk hmm ht pl hp (by rw [hname]; exact hsz'), pl.labels,
      pl.dim.trans (hmm.manEq.1.trans h.disk.dim), pl.metric.trans (hmm.manEq.2.1.trans hmetric), ?_⟩
    · intro hnil
      have := pl.opens
      have hlab := pl.labels
      unfold Segment.opens at this
      simp only [Bool.and_eq_true, decide_eq_true_eq] at this
      have hl : sg.labels.length = sg.count := by unfold Segment.labels labelsOf; simp
      rw [hlab, hnil] at hl
      exact this.1.1.1.1.1.1.2 hl.symm
    · intro e he
      obtain ⟨n, hn, rfl⟩ := List.mem_map.1 he
      intro hh
      exact h.disk.fresh_not_mem pl.fresh (hh ▸ hn)
  cases hout with
  | idle hnil => exact Or.inl ⟨old _ rfl (fun _ _ => rfl), fun _ => hnil⟩
  | refused d' _ hf => exact Or.inl ⟨old d' hf.1 (h.disk.frame_dirs ht hf), by intro hh; cases hh⟩
  | crashed d' i _ hf _ => exact Or.inl ⟨old d' hf.1 (h.disk.frame_dirs ht hf), by intro hh; cases hh⟩
  | builtSearcher d' name sg pl hb _ =>
    exact Or.inl ⟨old d' hb.1 (h.disk.other_dirs ht pl.fresh hb.2.2), by intro hh; cases hh⟩
  | builtPublish d' name sg i pl hb _ =>
    exact Or.inl ⟨old d' hb.1 (h.disk.other_dirs ht pl.fresh hb.2.2), by intro hh; cases hh⟩
  | builtCrash d' name sg i pl hb _ =>
    exact Or.inl ⟨old d' hb.1 (h.disk.other_dirs ht pl.fresh hb.2.2), by intro hh; cases hh⟩
  | done d' name sg pl hp _ => exact Or.inr (new d' name sg pl hp)
  | donePush d' name sg i pl hp _ => exact Or.inr (new d' name sg pl hp)
  | doneCrash d' name sg i pl hp _ => exact Or.inr (new d' name sg pl hp)

/-- After any history (every crash and error, without exception) the published manifest lists only complete segments, and
each once. -/
theorem C34_listed_complete {K : Kernel} (hK : KernelOk K) (D : Nat) (h0 : 0 < D) (hD : D < 2 ^ 32) (metric : Metric) (cap : Nat)
    (hc : cap < 2 ^ 64) (ops : List Op) (ho : ∀ op ∈ ops, OpOk D op) :
    ∃ m : ColMan, m.Valid ∧ (runOps K (start D metric cap) ops).disk.man = some m.save ∧ m.segs.Nodup ∧
      ∀ n ∈ m.segs, ∃ s, loadSegment ((runOps K (start D metric cap) ops).disk.dir n) = some s := by
  obtain ⟨m, h⟩ := inv_run (K := K) hK hD ops (start_inv D h0 hD metric cap hc) ho
  exact ⟨m, h.disk.valid, h.disk.man, h.disk.nodup, h.disk.segs⟩

/-- No step ever changes a segment directory that exists, listed or orphaned. -/
theorem C34_never_overwritten {K : Kernel} (hK : KernelOk K) (D : Nat) (h0 : 0 < D) (hD : D < 2 ^ 32) (metric : Metric) (cap : Nat)
    (hc : cap < 2 ^ 64) (ops : List Op) (ho : ∀ op ∈ ops, OpOk D op) (op : Op) (hop : OpOk D op) (n : Bytes) (hn : SegName n)
    (c : KV) (hd : (runOps K (start D metric cap) ops).disk.dir n = some c) :
    (step K (runOps K (start D metric cap) ops) op).disk.dir n = some c := by
  obtain ⟨m, h⟩ := inv_run (K := K) hK hD ops (start_inv D h0 hD metric cap hc) ho
  generalize runOps K (start D metric cap) ops = s at *
  cases op with
  | add v l a =>
    simp only [step]
    cases hm : s.mem with
    | none => exact hd
    | some mm => simp only; cases addBatch mm l.length v l a <;> exact hd
  | reopen sf => exact hd
  | flush tmp f =>
    simp only [step]
    cases hm : s.mem with
    | none => exact hd
    | some mm =>
      simp only
      have hout := flush_outcome hK hop f s.disk ((h.mem mm hm).pendOk hD h.disk.dim)
      generalize flush K tmp f s.disk mm = r at hout
      have hnt : n ≠ tmp := fun e => hop (e ▸ hn)
      have frame : ∀ d', Frame tmp s.disk d' → d'.dir n = some c := fun d' hf => (hf.2 n hnt).trans hd
      have other : ∀ (d' : Disk) (name : Bytes), s.disk.dir name = none → (∀ x, x ≠ tmp → x ≠ name → d'.dir x = s.disk.dir x) →
          d'.dir n = some c := by
        intro d' name hf ho
        exact (ho n hnt (fun e => by rw [e, hf] at hd; cases hd)).trans hd
      cases hout with
      | idle _ => exact hd
      | refused d' _ hf => exact frame d' hf
      | crashed d' i _ hf _ => exact frame d' hf
      | builtSearcher d' name sg pl hb _ => exact other d' name pl.fresh hb.2.2
      | builtPublish d' name sg i pl hb _ => exact other d' name pl.fresh hb.2.2
      | builtCrash d' name sg i pl hb _ => exact other d' name pl.fresh hb.2.2
      | done d' name sg pl hp _ => exact other d' name pl.fresh hp.2.2
      | donePush d' name sg i pl hp _ => exact other d' name pl.fresh hp.2.2
      | doneCrash d' name sg i pl hp _ => exact other d' name pl.fresh hp.2.2

/-! ### Ids are not picked again -/

/-- The next id is above every segment directory on disk. -/
def Fresh (s : St) : Prop :=
  ∀ mm, s.mem = some mm → ∀ n, SegName n → (s.disk.dir n).isSome = true → idNum n < mm.man.next

/-- No failure to construct the searcher of a segment just renamed into place, and no failure to list the directory. -/
def NoScanFault : Op → Prop
  | .flush _ .searcher => False
  | .reopen true => False
  | _ => True

/-- The full statement: the id the next flush picks names no directory on disk. -/
def PickFull (Allowed : Op → Prop) : Prop :=
  ∀ (K : Kernel) (D : Nat) (metric : Metric) (cap : Nat) (ops : List Op), KernelOk K → 0 < D → D < 2 ^ 32 → cap < 2 ^ 64 →
    (∀ op ∈ ops, OpOk D op) → (∀ op ∈ ops, Allowed op) → ∀ mm, (runOps K (start D metric cap) ops).mem = some mm →
    (runOps K (start D metric cap) ops).disk.dir (formatSegmentId mm.man.next) = none

theorem fresh_step {K : Kernel} (hK : KernelOk K) {D : Nat} (hD : D < 2 ^ 32) {s : St} {m : ColMan} (h : InvM D s m) (hf : Fresh s)
    (op : Op) (hop : OpOk D op) (hns : NoScanFault op) : Fresh (step K s op) := by
  cases op with
  | add v l a =>
    simp only [step]
    cases hm : s.mem with
    | none => exact hf
    | some mm =>
      simp only
      cases ha : addBatch mm l.length v l a with
      | none => exact hf
      | some mm' =>
        intro x hx n hn hd
        injection hx with hx
        subst hx
        rw [(addBatch_keeps ha).1]
        exact hf mm hm n hn hd
  | reopen sf =>
    cases sf with
    | true => exact absurd hns id
    | false =>
      intro mm hmm n hn hd
      obtain ⟨cap, hc, e⟩ := open_some h.disk hmm
      have := maxOnDisk_ge s.disk hn hd
      rw [e]
      show idNum n < max m.next (maxOnDisk s.disk + 1)
      omega
  | flush tmp f =>
    simp only [step]
    cases hm : s.mem with
    | none => exact hf
    | some mm =>
      simp only
      have hout := flush_outcome hK hop f s.disk ((h.mem mm hm).pendOk hD h.disk.dim)
      generalize flush K tmp f s.disk mm = r at hout
      have frame : ∀ d', Frame tmp s.disk d' → Fresh ⟨d', some mm⟩ := by
        intro d' hfr x hx n hn hd
        injection hx with hx
        subst hx
        have hnt : n ≠ tmp := fun e => hop (e ▸ hn)
        refine hf mm hm n hn ?_
        rw [← hfr.2 n hnt]; exact hd
      have other : ∀ (d' : Disk) (name : Bytes) (x : Mem), name = formatSegmentId mm.man.next → SegName name →
          (∀ y, y ≠ tmp → y ≠ name → d'.dir y = s.disk.dir y) → x.man.next = mm.man.next + 1 → Fresh ⟨d', some x⟩ := by
        intro d' name x hname hv ho hnx y hy n hn hd
        injection hy with hy
        subst hy
        rw [hnx]
        by_cases e : n = name
        · rw [e, hname, idNum_format (next_lt (hname ▸ hv))]; omega
        · have hnt : n ≠ tmp := fun e => hop (e ▸ hn)
          have := hf mm hm n hn (by rw [← ho n hnt e]; exact hd)
          omega
      have none : ∀ d', Fresh ⟨d', none⟩ := by intro d' x hx; cases hx
      cases hout with
      | idle _ => intro x hx; injection hx with hx; subst hx; exact hf mm hm
      | refused d' _ hfr => exact frame d' hfr
      | crashed d' i _ hfr _ => exact none d'
      | builtSearcher d' name sg pl hb e => rw [e] at hns; exact absurd hns id
      | builtPublish d' name sg i pl hb _ => exact other d' name _ pl.named pl.valid hb.2.2 rfl
      | builtCrash d' name sg i pl hb _ => exact none d'
      | done d' name sg pl hp _ => exact other d' name _ pl.named pl.valid hp.2.2 rfl
      | donePush d' name sg i pl hp _ => exact other d' name _ pl.named pl.valid hp.2.2 rfl
      | doneCrash d' name sg i pl hp _ => exact none d'

theorem fresh_run {K : Kernel} (hK : KernelOk K) {D : Nat} (hD : D < 2 ^ 32) : ∀ (ops : List Op) {s : St} {m : ColMan},
    InvM D s m → Fresh s → (∀ op ∈ ops, OpOk D op) → (∀ op ∈ ops, NoScanFault op) → Fresh (runOps K s ops)
  | [], _, _, _, hf, _, _ => hf
  | op :: ops, s, m, h, hf, ho, hn => by
    obtain ⟨m', h'⟩ := inv_step (K := K) hK hD h op (ho op (by simp))
    exact fresh_run hK hD ops h' (fresh_step hK hD h hf op (ho op (by simp)) (hn op (by simp)))
      (fun o hx => ho o (by simp [hx])) (fun o hx => hn o (by simp [hx]))

theorem start_fresh (D : Nat) (metric : Metric) (cap : Nat) : Fresh (start D metric cap) := by
  intro mm _ n _ hd
  cases hd

theorem fresh_pick {s : St} (hf : Fresh s) {mm : Mem} (hm : s.mem = some mm) (hle : mm.man.next < 10 ^ 8) :
    s.disk.dir (formatSegmentId mm.man.next) = none := by
  cases hd : s.disk.dir (formatSegmentId mm.man.next) with
  | none => rfl
  | some c =>
    have := hf mm hm _ (formatSegmentId_name hle) (by rw [hd]; rfl)
    rw [idNum_format hle] at this
    omega

/-- Once constructing a searcher and listing the directory do not fail, the next flush picks an id no directory on disk has,
listed or orphaned, after any history of crashes and other errors.  (From id 10^8 on the name is refused.)  Missing for the
full statement: those two failures (`C34_searcher_failure_refuted`). -/
theorem C34_ids_not_reused_partial {K : Kernel} (hK : KernelOk K) (D : Nat) (h0 : 0 < D) (hD : D < 2 ^ 32) (metric : Metric) (cap : Nat)
    (hc : cap < 2 ^ 64) (ops : List Op) (ho : ∀ op ∈ ops, OpOk D op) (hn : ∀ op ∈ ops, NoScanFault op) (mm : Mem)
    (hm : (runOps K (start D metric cap) ops).mem = some mm) (n : Bytes) (hsn : SegName n)
    (hd : ((runOps K (start D metric cap) ops).disk.dir n).isSome = true) : idNum n < mm.man.next ∧ formatSegmentId mm.man.next ≠ n := by
  have hf := fresh_run (K := K) hK hD ops (start_inv D h0 hD metric cap hc) (start_fresh D metric cap) ho hn
  refine ⟨hf mm hm n hsn hd, ?_⟩
  intro e
  have hlt : mm.man.next < 10 ^ 8 := next_lt (e ▸ hsn)
  have := fresh_pick hf hm hlt
  rw [e] at this
  rw [this] at hd; cases hd

def searcherOps : List Op := [.add [0] [7] false, .flush (str ".tmp_1") .searcher]

theorem searcherOps_ok : ∀ op ∈ searcherOps, OpOk 1 op := by
  intro op hop
  simp only [searcherOps, List.mem_cons, List.not_mem_nil, or_false] at hop
  rcases hop with rfl | rfl
  · exact ⟨by decide, by decide, by decide⟩
  · intro hs; exact absurd ((validSegmentId_iff _).2 hs) (by decide)

/-- The full statement is false: when opening the searcher of the segment just renamed into place throws, `next_segment_id` is
not advanced; the next flush picks the id of the orphan, and fails, as every later flush does until the collection is opened
again. -/
theorem C34_searcher_failure_refuted : ¬ PickFull (fun _ => True) ∧
    ∃ mm, (runOps kern0 (start 1 .l2 1000) searcherOps).mem = some mm ∧ mm.pendL = [7] ∧
      flush kern0 (str ".tmp_2") .none (runOps kern0 (start 1 .l2 1000) searcherOps).disk mm =
        ((runOps kern0 (start 1 .l2 1000) searcherOps).disk, some mm, .err) := by
  have hmem : ∃ mm, (runOps kern0 (start 1 .l2 1000) searcherOps).mem = some mm ∧ mm.pendL = [7] ∧ mm.man.next = 1 ∧
      flush kern0 (str ".tmp_2") .none (runOps kern0 (start 1 .l2 1000) searcherOps).disk mm =
        ((runOps kern0 (start 1 .l2 1000) searcherOps).disk, some mm, .err) :=
    ⟨{ man := { dim := 1, metric := .l2, engine := .flat, next := 1, segs := [], extras := [(str "x_max_pending_bytes", decStr 1000)] },
       dirs := [], pendV := [0], pendL := [7], cap := 1000 }, by decide +kernel, rfl, rfl, by decide +kernel⟩
  obtain ⟨mm, h1, h2, h3, h4⟩ := hmem
  refine ⟨?_, mm, h1, h2, h4⟩
  intro h
  have := h kern0 1 .l2 1000 searcherOps (fun _ => rfl) (by decide) (by decide) (by decide) searcherOps_ok (fun _ _ => trivial) mm h1
  rw [h3] at this
  exact absurd this (by decide +kernel)

/-! ### A collection too large to be opened -/

/-- The full statement: after any history the collection can be opened. -/
def ReopenFull : Prop :=
  ∀ (K : Kernel) (D : Nat) (metric : Metric) (cap : Nat) (ops : List Op), KernelOk K → 0 < D → D < 2 ^ 32 → cap < 2 ^ 64 →
    (∀ op ∈ ops, OpOk D op) → (openC false (runOps K (start D metric cap) ops).disk).isSome = true

/-- One row added and flushed. -/
def growOps (k : Nat) : List Op := [.add [0] [k] false, .flush (str ".tmp_1") .none]

theorem growOps_ok {k : Nat} (hk : k < 10 ^ 8) : ∀ op ∈ growOps k, OpOk 1 op := by
  intro op hop
  simp only [growOps, List.mem_cons, List.not_mem_nil, or_false] at hop
  rcases hop with rfl | rfl
  · refine ⟨by rfl, ?_, by show 1 < 2 ^ 64; decide⟩
    intro x hx
    rw [List.mem_singleton.1 hx]; omega
  · intro hs; exact absurd ((validSegmentId_iff _).2 hs) (by decide)

/-- The state after `k` rounds. -/
structure Grown (k : Nat) (s : St) (m : ColMan) : Prop where
  inv : InvU 1 s m
  fresh : Fresh s
  len : m.segs.length = k
  metric : m.metric = .l2
  below : ∀ x ∈ published s.disk m, x < k
  mem : ∃ mm, s.mem = some mm ∧ mm.man.next = k + 1 ∧ mm.pendV = [] ∧ mm.pendL = [] ∧ mm.cap = 1000

theorem grow_step {k : Nat} (hk : k + 1 < 10 ^ 8) {s : St} {m : ColMan} (h : Grown k s m) :
    ∃ m', Grown (k + 1) (runOps kern0 s (growOps k)) m' := by
  obtain ⟨mm, hm, hnext, hpv, hpl, hcap⟩ := h.mem
  have hmm := h.inv.inv.mem mm hm
  have hdim : mm.man.dim = 1 := hmm.manEq.1.trans h.inv.inv.disk.dim
  have hen : mm.man.engine = .flat := hmm.manEq.2.2.1.trans h.inv.inv.disk.engine
  have hK : KernelOk kern0 := fun _ => rfl
  let mm1 : Mem := { mm with pendV := [0], pendL := [k] }
  have hadd : addBatch mm 1 [0] [k] false = some mm1 := by
    rw [C35_add_batch_exact_partial mm mm1 1 [0] [k] false (by rw [hdim]; decide) (by decide) (by decide) (by rw [hcap]; decide) rfl
      (by rw [hdim]; rfl)]
    refine ⟨by rw [hen]; decide, rfl, by rw [hdim, hpl, hcap]; decide, ?_⟩
    rw [hpv, hpl]; rfl
  have hs1 : step kern0 s (.add [0] [k] false) = ⟨s.disk, some mm1⟩ := by
    simp only [step, hm]
    rw [show ([k] : List Nat).length = 1 from rfl, hadd]
  have ok1 := growOps_ok (k := k) (by omega) (.add [0] [k] false) (by simp [growOps])
  have ok2 := growOps_ok (k := k) (by omega) (.flush (str ".tmp_1") .none) (by simp [growOps])
  have i1 : InvU 1 ⟨s.disk, some mm1⟩ m := by
    refine ⟨⟨h.inv.inv.disk, ?_⟩, h.inv.uniq, ?_⟩
    · intro x hx
      injection hx with hx
      rw [← hx]
      exact (add_memInv (by decide) h.inv.inv.disk hmm ok1 hadd).1
    · intro x hx
      injection hx with hx
      rw [← hx]
      exact h.inv.dirs mm hm
  have f1 : Fresh ⟨s.disk, some mm1⟩ := by
    have := fresh_step (K := kern0) hK (by decide) h.inv.inv h.fresh _ ok1 trivial
    rw [hs1] at this; exact this
  have hfree : s.disk.dir (formatSegmentId (k + 1)) = none := by
    have := fresh_pick f1 (mm := mm1) rfl (by show mm.man.next < 10 ^ 8; omega)
    rw [show mm1.man.next = k + 1 from hnext] at this
    exact this
  have hsn : SegName (formatSegmentId (k + 1)) := formatSegmentId_name hk
  have hmet : mm.man.metric = .l2 := hmm.manEq.2.1.trans h.metric
  obtain ⟨b, sg, hplan⟩ : ∃ b sg, plan kern0 s.disk mm1 = some (formatSegmentId (k + 1), b, some sg) := by
    unfold plan
    rw [if_neg (by show ¬ (!decide ([k] : List Nat).Nodup) = true; simp)]
    rw [show mm1.dirs = m.segs from h.inv.dirs mm hm, allIds_eq _ h.inv.inv.disk.segs]
    simp only
    rw [if_neg (by
      intro hh
      obtain ⟨x, hx, hc⟩ := List.any_eq_true.1 hh
      have hx' : x = k := List.mem_singleton.1 hx
      have := h.below x (List.contains_iff_mem.1 hc)
      omega)]
    rw [show mm1.man.next = k + 1 from hnext, show mm1.man.dim = 1 from hdim, if_neg (by decide)]
    have hb : Builder.addBatch ⟨1 % 4294967296, mm1.man.metric, [], [], false⟩ mm1.pendV mm1.pendL =
        some ⟨1, .l2, [0], [k], false⟩ := by
      rw [show mm1.man.metric = .l2 from hmet]
      show Builder.addBatch ⟨1, .l2, [], [], false⟩ [0] [k] = _
      unfold Builder.addBatch
      have hU : ¬ U64 ≤ ([k] : List Nat).length * 1 := by rw [U64_eq]; show ¬ 2 ^ 64 ≤ 1 * 1; decide
      rw [if_neg (by simp), if_neg (by simp), if_neg hU, if_pos (by decide)]
      rfl
    rw [hb]
    simp only
    rw [if_neg (by rw [(validSegmentId_iff _).2 hsn]; simp), hfree, if_neg (by simp)]
    exact ⟨_, ⟨1, 1, .l2, [k].flatMap (leBytes 8), [0].flatMap (leBytes 4)⟩, rfl⟩
  have hfl : flush kern0 (str ".tmp_1") .none s.disk mm1 =
      (s.disk.run (segSteps (str ".tmp_1") (formatSegmentId (k + 1)) sg ++ [FStep.tmpMan, FStep.pub (nextMan mm1 (formatSegmentId (k + 1))).save]),
        some (committed mm1 (formatSegmentId (k + 1))), .ok) := by
    unfold flush
    rw [if_neg (by show ¬ [k] = []; simp), hplan]
  have hrun : runOps kern0 s (growOps k) = step kern0 ⟨s.disk, some mm1⟩ (.flush (str ".tmp_1") .none) := by
    simp only [runOps, growOps, List.foldl_cons, List.foldl_nil]
    rw [hs1]
  obtain ⟨m', i2⟩ := uniq_step (K := kern0) hK (by decide) i1 _ ok2 trivial
  have f2 := fresh_step (K := kern0) hK (by decide) i1.inv f1 _ ok2 trivial
  have hpo : PendOk mm1 := (i1.inv.mem mm1 rfl).pendOk (by decide) i1.inv.disk.dim
  have pl := plan_some hK hpo.dim hpo.vlen hpo.labs hpo.acc hplan
  have hstep : step kern0 ⟨s.disk, some mm1⟩ (.flush (str ".tmp_1") .none) =
      ⟨s.disk.run (segSteps (str ".tmp_1") (formatSegmentId (k + 1)) sg ++ [FStep.tmpMan, FStep.pub (nextMan mm1 (formatSegmentId (k + 1))).save]),
        some (committed mm1 (formatSegmentId (k + 1)))⟩ := by
    simp only [step, hfl]
  rw [hrun]
  have hall := run_all s.disk (str ".tmp_1") (formatSegmentId (k + 1)) sg (nextMan mm1 (formatSegmentId (k + 1))).save
    (fun e => ok2 (e ▸ hsn)) hfree
  rw [hstep] at i2 f2 ⊢
  have hpub := i1.inv.disk.publish (i1.inv.mem mm1 rfl) ok2 pl hall
  have em : m' = nextMan mm1 (formatSegmentId (k + 1)) := by
    have e := i2.inv.disk.man
    rw [hpub.man] at e
    injection e with e
    exact (save_inj hpub.valid i2.inv.disk.valid e).symm
  subst em
  have hseg : (nextMan mm1 (formatSegmentId (k + 1))).segs = m.segs ++ [formatSegmentId (k + 1)] := by
    show mm.man.segs ++ _ = _
    rw [hmm.manEq.2.2.2.1]
  refine ⟨_, i2, f2, by rw [hseg]; simp [h.len], hmet, ?_, ?_⟩
  · intro x hx
    unfold published at hx
    rw [hseg, List.flatMap_append] at hx
    rcases List.mem_append.1 hx with hx | hx
    · have e := published_same (m := m) (i1.inv.disk.other_dirs ok2 hfree hall.2.2)
      unfold published at e
      rw [e] at hx
      have := h.below x hx
      omega
    · simp only [List.flatMap_cons, List.flatMap_nil, List.append_nil] at hx
      unfold segLabels at hx
      rw [load_complete hall.2.1 hsn pl.opens] at hx
      have : x ∈ sg.labels := hx
      rw [pl.labels] at this
      have : x = k := List.mem_singleton.1 this
      omega
  · refine ⟨_, rfl, ?_, rfl, rfl, hcap⟩
    show mm.man.next + 1 = k + 1 + 1
    rw [hnext]

theorem grown (k : Nat) (hk : k < 10 ^ 8) : ∃ ops m, (∀ op ∈ ops, OpOk 1 op) ∧ Grown k (runOps kern0 (start 1 .l2 1000) ops) m := by
  induction k with
  | zero =>
    refine ⟨[], (create 1 .l2 1000).2.man, by simp, start_uniq 1 (by decide) (by decide) .l2 1000 (by decide), start_fresh _ _ _, rfl, rfl, ?_, ?_⟩
    · intro x hx; cases hx
    · exact ⟨_, rfl, rfl, rfl, rfl, rfl⟩
  | succ k ih =>
    obtain ⟨ops, m, ho, h⟩ := ih (by omega)
    obtain ⟨m', h'⟩ := grow_step (k := k) hk h
    refine ⟨ops ++ growOps k, m', ?_, ?_⟩
    · intro op hop
      rcases List.mem_append.1 hop with hop | hop
      · exact ho op hop
      · exact growOps_ok (by omega) op hop
    · unfold runOps at *
      rw [List.foldl_append]; exact h'

/-- The full statement is false: after 50 000 successful add-and-flush rounds, with no fault at all, the collection cannot be
opened again, since its manifest is longer than `load` accepts. -/
theorem C34_reopen_refuted : ¬ ReopenFull := by
  intro hall
  obtain ⟨n, hn, hn2⟩ : ∃ n, 50000 ≤ n ∧ n < 10 ^ 8 := ⟨50000, by omega, by omega⟩
  obtain ⟨ops, m, ho, h⟩ := grown n hn2
  have := hall kern0 1 .l2 1000 ops (fun _ => rfl) (by decide) (by decide) (by decide) ho
  obtain ⟨mm, hmm⟩ := Option.isSome_iff_exists.1 this
  have hsz : m.save.length ≤ 1048576 := by
    unfold openC at hmm
    rw [h.inv.inv.disk.man] at hmm
    simp only at hmm
    cases hl : ColMan.load m.save with
    | none => rw [hl] at hmm; cases hmm
    | some x => exact ((col_load_iff _ x).1 hl).1
  unfold ColMan.save at hsz
  rw [List.length_append, List.length_append, segLines_length _ h.inv.inv.disk.valid.segNames, h.len] at hsz
  omega

/-- The hypotheses are met: a crash in the middle of the second flush, then the flush again. -/
example : ∃ ops mm, (∀ op ∈ ops, OpOk 1 op) ∧ (∀ op ∈ ops, NoScanFault op) ∧
    (runOps kern0 (start 1 .l2 1000) ops).mem = some mm ∧ mm.man.next = 3 ∧
    (shows (runOps kern0 (start 1 .l2 1000) ops).disk).isSome = true ∧
    (wouldPublish mm).save.length ≤ 2 ^ 20 := by
  refine ⟨[.add [0] [7] false, .flush (str ".tmp_1") .none, .add [0] [8] false, .flush (str ".tmp_2") (.crash 146), .reopen false],
    { man := { dim := 1, metric := .l2, engine := .flat, next := 3, segs := [formatSegmentId 1], extras := [(str "x_max_pending_bytes", decStr 1000)] },
      dirs := [formatSegmentId 1], pendV := [], pendL := [], cap := 1000 }, ?_, ?_, ?_, ?_, ?_, ?_⟩
  · intro op hop
    simp only [List.mem_cons, List.not_mem_nil, or_false] at hop
    rcases hop with rfl | rfl | rfl | rfl | rfl
    · exact ⟨by decide, by decide, by decide⟩
    · intro hs; exact absurd ((validSegmentId_iff _).2 hs) (by decide)
    · exact ⟨by decide, by decide, by decide⟩
    · intro hs; exact absurd ((validSegmentId_iff _).2 hs) (by decide)
    · trivial
  · intro op hop
    simp only [List.mem_cons, List.not_mem_nil, or_false] at hop
    rcases hop with rfl | rfl | rfl | rfl | rfl <;> trivial
  · decide +kernel
  · decide +kernel
  · decide +kernel
  · decide +kernel

end Alaya.DiskColl2
