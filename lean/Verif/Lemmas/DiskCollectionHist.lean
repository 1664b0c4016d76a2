import Verif.Lemmas.DiskCollectionInv
import Verif.Lemmas.RocksKeys

/-! The invariant of disk collections over histories. -/
namespace Alaya.DiskColl2
open Alaya Alaya.DiskFlat Alaya.DiskManifest

/-- The disk outcome "segment built, manifest as before". -/
def BuiltTo (tmp name : Bytes) (s : Segment) (d d' : Disk) : Prop :=
  d'.man = d.man ∧ Complete d' name s ∧ ∀ x, x ≠ tmp → x ≠ name → d'.dir x = d.dir x

/-- The disk outcome "segment built and listed". -/
def PublishedTo (tmp name : Bytes) (s : Segment) (c : Bytes) (d d' : Disk) : Prop :=
  d'.man = some c ∧ Complete d' name s ∧ ∀ x, x ≠ tmp → x ≠ name → d'.dir x = d.dir x

/-- All outcomes of a flush. -/
inductive Outcome (K : Kernel) (tmp : Bytes) (f : Fault) (d : Disk) (m : Mem) : Disk × Option Mem × Res → Prop where
  | idle : m.pendL = [] → Outcome K tmp f d m (d, some m, .ok)
  | refused (d' : Disk) : m.pendL ≠ [] → Frame tmp d d' → Outcome K tmp f d m (d', some m, .err)
  | crashed (d' : Disk) (i : Nat) : m.pendL ≠ [] → Frame tmp d d' → f = .crash i → Outcome K tmp f d m (d', none, .crashed)
  | builtSearcher (d' : Disk) (name : Bytes) (s : Segment) : Planned K d m name s → BuiltTo tmp name s d d' → f = .searcher →
      Outcome K tmp f d m (d', some m, .err)
  | builtPublish (d' : Disk) (name : Bytes) (s : Segment) (i : Nat) : Planned K d m name s → BuiltTo tmp name s d d' →
      f = .publish i → Outcome K tmp f d m (d', some { m with man := { m.man with next := m.man.next + 1 } }, .err)
  | builtCrash (d' : Disk) (name : Bytes) (s : Segment) (i : Nat) : Planned K d m name s → BuiltTo tmp name s d d' →
      f = .crash i → Outcome K tmp f d m (d', none, .crashed)
  | done (d' : Disk) (name : Bytes) (s : Segment) : Planned K d m name s → PublishedTo tmp name s (nextMan m name).save d d' →
      (f = .none ∨ ∃ i l, f = .seg i l) → Outcome K tmp f d m (d', some (committed m name), .ok)
  | donePush (d' : Disk) (name : Bytes) (s : Segment) (i : Nat) : Planned K d m name s →
      PublishedTo tmp name s (nextMan m name).save d d' → f = .push i →
      Outcome K tmp f d m (d', some { m with man := nextMan m name }, .err)
  | doneCrash (d' : Disk) (name : Bytes) (s : Segment) (i : Nat) : Planned K d m name s →
      PublishedTo tmp name s (nextMan m name).save d d' → f = .crash i → Outcome K tmp f d m (d', none, .crashed)

/-- What a collection in memory must satisfy for a flush to be described by `Outcome`. -/
structure PendOk (m : Mem) : Prop where
  dim : m.man.dim < 2 ^ 32
  vlen : m.pendV.length = m.pendL.length * m.man.dim
  labs : ∀ x ∈ m.pendL, x < 2 ^ 64
  acc : accounted m.man.dim m.pendL.length < 2 ^ 64

theorem flush_outcome {K : Kernel} (hK : KernelOk K) {tmp : Bytes} (ht : ¬ SegName tmp) (f : Fault) (d : Disk) {m : Mem}
    (hm : PendOk m) : Outcome K tmp f d m (flush K tmp f d m) := by
  unfold flush
  by_cases h0 : m.pendL = []
  · rw [if_pos h0]; exact .idle h0
  rw [if_neg h0]
  cases hp : plan K d m with
  | none => exact .refused d h0 (Frame.refl _ _)
  | some p =>
    obtain ⟨name, b, os⟩ := p
    cases os with
    | none =>
      simp only
      have hpre : ∀ s ∈ FStep.mkdir tmp :: writeSteps tmp idsName (b.labels.flatMap (leBytes 8)), TmpStep tmp s := by
        intro s hs
        rcases List.mem_cons.1 hs with rfl | hs
        · exact Or.inl rfl
        · exact writeSteps_tmp _ _ _ s hs
      cases f with
      | crash i => exact .crashed _ i h0 (frame_run _ d (fun s hs => hpre s (List.mem_of_mem_take hs))) rfl
      | seg i left => exact .refused _ h0 (frame_leave tmp d left)
      | none => exact .refused _ h0 (frame_rm tmp d)
      | searcher => exact .refused _ h0 (frame_rm tmp d)
      | publish i => exact .refused _ h0 (frame_rm tmp d)
      | push i => exact .refused _ h0 (frame_rm tmp d)
    | some s =>
      have pl := plan_some hK hm.dim hm.vlen hm.labs hm.acc hp
      have hne : tmp ≠ name := fun e => ht (e ▸ pl.valid)
      have hseg := run_seg d tmp name s hne pl.fresh
      have hall := run_all d tmp name s (nextMan m name).save hne pl.fresh
      simp only
      cases f with
      | none => exact .done _ name s pl hall (Or.inl rfl)
      | crash i =>
        simp only
        cases run_prefix d tmp name s (nextMan m name).save hne pl.fresh i with
        | none hf => exact .crashed _ i h0 hf rfl
        | built a b c => exact .builtCrash _ name s i pl ⟨a, b, c⟩ rfl
        | published a b c => exact .doneCrash _ name s i pl ⟨a, b, c⟩ rfl
      | seg i left =>
        simp only
        by_cases hi : i < (segSteps tmp name s).length
        · rw [if_pos hi]
          refine .refused _ h0 (Frame.trans ?_ (frame_leave tmp _ left))
          rw [segSteps_eq, List.length_append] at hi
          simp only [List.length_cons, List.length_nil] at hi
          rw [segSteps_eq, List.take_append, show i - (preSteps tmp name s).length = 0 by omega, List.take_zero, List.append_nil]
          exact frame_run _ d (fun x hx => preSteps_tmp tmp name s x (List.mem_of_mem_take hx))
        · rw [if_neg hi]
          exact .done _ name s pl hall (Or.inr ⟨i, left, rfl⟩)
      | searcher => exact .builtSearcher _ name s pl hseg rfl
      | publish i =>
        simp only
        refine .builtPublish _ name s i pl ?_ rfl
        rw [run_append]
        have : ∀ k, k ≤ 1 → ∀ c, (d.run (segSteps tmp name s)).run ([FStep.tmpMan, FStep.pub c].take k) = d.run (segSteps tmp name s) := by
          intro k hk c
          match k, hk with
          | 0, _ => rfl
          | 1, _ => rfl
        rw [this _ (Nat.min_le_right i 1)]
        exact hseg
      | push i =>
        cases i with
        | zero => exact .donePush _ name s 0 pl hall rfl
        | succ i => exact .donePush _ name s (i + 1) pl hall rfl

/-! ### The invariant -/

/-- The published manifest and the listed segments. -/
structure DiskInv (D : Nat) (d : Disk) (m : ColMan) : Prop where
  man : d.man = some m.save
  valid : m.Valid
  engine : m.engine = .flat
  dim : m.dim = D
  cap : ∃ cap, m.extras = [(str "x_max_pending_bytes", decStr cap)] ∧ cap < 2 ^ 64
  next : m.next ≤ 10 ^ 8
  nodup : m.segs.Nodup
  segs : ∀ n ∈ m.segs, ∃ s, loadSegment (d.dir n) = some s

structure MemInv (D : Nat) (m : ColMan) (mm : Mem) : Prop where
  man : mm.man = { m with next := mm.man.next }
  next : mm.man.next ≤ 10 ^ 8
  dirs : ∀ x ∈ mm.dirs, x ∈ m.segs
  vlen : mm.pendV.length = mm.pendL.length * D
  labs : ∀ x ∈ mm.pendL, x < 2 ^ 64
  cap : mm.cap < 2 ^ 64
  acc : accounted D mm.pendL.length ≤ mm.cap ∨ mm.pendL = []

theorem MemInv.manEq {D : Nat} {m : ColMan} {mm : Mem} (h : MemInv D m mm) :
    mm.man.dim = m.dim ∧ mm.man.metric = m.metric ∧ mm.man.engine = m.engine ∧ mm.man.segs = m.segs ∧ mm.man.extras = m.extras ∧
      mm.man.version = m.version := by
  rw [h.man]; exact ⟨rfl, rfl, rfl, rfl, rfl, rfl⟩

theorem MemInv.pendOk {D : Nat} {m : ColMan} {mm : Mem} (h : MemInv D m mm) (hD : D < 2 ^ 32) (hm : m.dim = D) : PendOk mm := by
  have hd : mm.man.dim = D := h.manEq.1.trans hm
  refine ⟨by rw [hd]; exact hD, by rw [hd]; exact h.vlen, h.labs, ?_⟩
  rw [hd]
  rcases h.acc with ha | ha
  · exact Nat.lt_of_le_of_lt ha h.cap
  · rw [ha]; unfold accounted; simp

theorem DiskInv.same {D : Nat} {d d' : Disk} {m : ColMan} (h : DiskInv D d m) (hm : d'.man = d.man)
    (hs : ∀ n ∈ m.segs, d'.dir n = d.dir n) : DiskInv D d' m :=
  { man := hm.trans h.man, valid := h.valid, engine := h.engine, dim := h.dim, cap := h.cap, next := h.next, nodup := h.nodup,
    segs := fun n hn => by rw [hs n hn]; exact h.segs n hn }

theorem DiskInv.frame_dirs {D : Nat} {d d' : Disk} {m : ColMan} {tmp : Bytes} (h : DiskInv D d m) (ht : ¬ SegName tmp)
    (hf : Frame tmp d d') : ∀ n ∈ m.segs, d'.dir n = d.dir n := by
  intro n hn
  exact hf.2 n (fun e => ht (e ▸ h.valid.segNames n hn))

theorem DiskInv.fresh_not_mem {D : Nat} {d : Disk} {m : ColMan} {name : Bytes} (h : DiskInv D d m) (hn : d.dir name = none) :
    name ∉ m.segs := by
  intro hm
  obtain ⟨s, hs⟩ := h.segs name hm
  have := loadSegment_dir hs
  rw [hn] at this; cases this

theorem DiskInv.other_dirs {D : Nat} {d d' : Disk} {m : ColMan} {tmp name : Bytes} (h : DiskInv D d m) (ht : ¬ SegName tmp)
    (hn : d.dir name = none) (hf : ∀ x, x ≠ tmp → x ≠ name → d'.dir x = d.dir x) : ∀ n ∈ m.segs, d'.dir n = d.dir n := by
  intro n hm
  exact hf n (fun e => ht (e ▸ h.valid.segNames n hm)) (fun e => h.fresh_not_mem hn (e ▸ hm))

theorem next_lt {n : Nat} (h : SegName (formatSegmentId n)) : n < 10 ^ 8 :=
  Nat.lt_of_not_le (fun hh => formatSegmentId_invalid hh h)

theorem DiskInv.publish {K : Kernel} {D : Nat} {d d' : Disk} {m : ColMan} {mm : Mem} {tmp name : Bytes} {s : Segment}
    (h : DiskInv D d m) (hmm : MemInv D m mm) (ht : ¬ SegName tmp) (pl : Planned K d mm name s)
    (hp : PublishedTo tmp name s (nextMan mm name).save d d') : DiskInv D d' (nextMan mm name) := by
  obtain ⟨e1, e2, e3, e4, e5, e6⟩ := hmm.manEq
  have hlt : mm.man.next < 10 ^ 8 := next_lt (pl.named ▸ pl.valid)
  have hseg : (nextMan mm name).segs = m.segs ++ [name] := by unfold nextMan; simp only; rw [e4]
  exact {
    man := hp.1
    valid := {
      version := by unfold nextMan; simp only; rw [e6]; exact h.valid.version
      dim := by unfold nextMan; simp only; rw [e1]; exact h.valid.dim
      next := by unfold nextMan; simp only; omega
      segNames := by
        intro n hn
        rw [hseg] at hn
        rcases List.mem_append.1 hn with hn | hn
        · exact h.valid.segNames n hn
        · rw [List.mem_singleton.1 hn]; exact pl.valid
      extrasAsc := by unfold nextMan; simp only; rw [e5]; exact h.valid.extrasAsc
      extras := by unfold nextMan; simp only; rw [e5]; exact h.valid.extras }
    engine := by unfold nextMan; simp only; rw [e3]; exact h.engine
    dim := by unfold nextMan; simp only; rw [e1]; exact h.dim
    cap := by unfold nextMan; simp only; rw [e5]; exact h.cap
    next := by unfold nextMan; simp only; omega
    nodup := by
      rw [hseg, List.nodup_append]
      refine ⟨h.nodup, by simp, ?_⟩
      intro a ha b hb e
      rw [List.mem_singleton] at hb
      subst hb; subst e
      exact h.fresh_not_mem pl.fresh ha
    segs := by
      intro n hn
      rw [hseg] at hn
      rcases List.mem_append.1 hn with hn | hn
      · rw [h.other_dirs ht pl.fresh hp.2.2 n hn]; exact h.segs n hn
      · rw [List.mem_singleton.1 hn]; exact ⟨s, load_complete hp.2.1 pl.valid pl.opens⟩ }

/-! ### Opening -/

theorem idNum_format {n : Nat} (h : n < 10 ^ 8) : idNum (formatSegmentId n) = n := by
  unfold idNum
  rw [formatSegmentId_eq h, List.drop_append, List.drop_eq_nil_of_le (by decide), List.nil_append,
    show 4 - (str "seg_").length = 0 by decide, List.drop_zero]
  have := parseDigits_fixedDigits (B := 10) (dig := decDigit) (by decide) decVal_decDigit 8 n 0 []
  rw [List.append_nil] at this
  rw [this, Nat.mod_eq_of_lt h]
  simp [parseDigits]

theorem decimalValue_lt : ∀ (s : Bytes), (∀ c ∈ s, 48 ≤ c.toNat ∧ c.toNat ≤ 57) → decimalValue s < 10 ^ s.length
  | [], _ => by simp [decimalValue]
  | c :: s, h => by
    have hc := h c (by simp)
    have ih := decimalValue_lt s (fun x hx => h x (by simp [hx]))
    simp only [decimalValue, List.length_cons]
    have : (c.toNat - 48) * 10 ^ s.length ≤ 9 * 10 ^ s.length := Nat.mul_le_mul_right _ (by omega)
    rw [Nat.pow_succ]
    omega

theorem idNum_lt {n : Bytes} (h : SegName n) : idNum n < 10 ^ 8 := by
  obtain ⟨ds, rfl, h8, hd⟩ := h
  unfold idNum
  rw [List.drop_append, List.drop_eq_nil_of_le (by decide), List.nil_append,
    show 4 - (str "seg_").length = 0 by decide, List.drop_zero, parseDigits_value ds 0 hd]
  have := decimalValue_lt ds hd
  rw [h8] at this
  omega

/-- `maxOnDisk` bounds every id on disk and is itself the id of a directory (or 0). -/
theorem maxOnDisk_ge (d : Disk) {n : Bytes} (hn : SegName n) (hd : (d.dir n).isSome = true) : idNum n ≤ maxOnDisk d := by
  obtain ⟨c, hc⟩ := Option.isSome_iff_exists.1 hd
  have hm := dir_some_mem hc
  unfold maxOnDisk
  have mono : ∀ (l : List (Bytes × KV)) (a : Nat),
      a ≤ l.foldl (fun mx e => if validSegmentId e.1 then max mx (idNum e.1) else mx) a := by
    intro l
    induction l with
    | nil => intro a; exact Nat.le_refl a
    | cons e l ih =>
      intro a
      rw [List.foldl_cons]
      refine Nat.le_trans ?_ (ih _)
      split
      · omega
      · exact Nat.le_refl a
  have key : ∀ (l : List (Bytes × KV)) (a : Nat), (n, c) ∈ l →
      idNum n ≤ l.foldl (fun mx e => if validSegmentId e.1 then max mx (idNum e.1) else mx) a := by
    intro l
    induction l with
    | nil => intro a h; cases h
    | cons e l ih =>
      intro a h
      rw [List.foldl_cons]
      rcases List.mem_cons.1 h with h | h
      · rw [← h, if_pos ((validSegmentId_iff n).2 hn)]
        exact Nat.le_trans (Nat.le_max_right _ _) (mono l _)
      · exact ih _ h
  exact key _ 0 hm

theorem maxOnDisk_lt (d : Disk) : maxOnDisk d < 10 ^ 8 := by
  unfold maxOnDisk
  have key : ∀ (l : List (Bytes × KV)) (a : Nat), a < 10 ^ 8 →
      l.foldl (fun mx e => if validSegmentId e.1 then max mx (idNum e.1) else mx) a < 10 ^ 8 := by
    intro l
    induction l with
    | nil => intro a h; exact h
    | cons e l ih =>
      intro a h
      rw [List.foldl_cons]
      apply ih
      split
      · next hv => have := idNum_lt ((validSegmentId_iff _).1 hv); omega
      · exact h
  exact key _ 0 (by decide)

/-- The collection in memory right after `open`. -/
def opened (scanFail : Bool) (d : Disk) (m : ColMan) (cap : Nat) : Mem :=
  { man := { m with next := if scanFail then m.next else max m.next (maxOnDisk d + 1) }, dirs := m.segs, pendV := [], pendL := [],
    cap := cap }

theorem open_eq {D : Nat} {d : Disk} {m : ColMan} (h : DiskInv D d m) (hsz : m.save.length ≤ 2 ^ 20) (sf : Bool) :
    ∃ cap, cap < 2 ^ 64 ∧ openC sf d = some (opened sf d m cap) := by
  obtain ⟨cap, hx, hc⟩ := h.cap
  refine ⟨cap, hc, ?_⟩
  unfold openC
  rw [h.man]
  simp only [C36_collection_roundtrip_partial m h.valid hsz]
  rw [if_neg (by rw [h.engine]; simp)]
  have hg : m.extras.get (str "x_max_pending_bytes") = some (decStr cap) := by rw [hx]; simp [KV.get]
  rw [hg]
  simp only [stoullAll_decStr hc]
  rw [if_neg]
  · rfl
  · rw [show m.segs.all (fun s => (loadSegment (d.dir s)).isSome) = true from ?_]
    · simp
    · rw [List.all_eq_true]
      intro n hn
      obtain ⟨s, hs⟩ := h.segs n hn
      rw [hs]; rfl

theorem open_some {D : Nat} {d : Disk} {m : ColMan} (h : DiskInv D d m) {sf : Bool} {mm : Mem} (ho : openC sf d = some mm) :
    ∃ cap, cap < 2 ^ 64 ∧ mm = opened sf d m cap := by
  have hsz : m.save.length ≤ 2 ^ 20 := by
    unfold openC at ho
    rw [h.man] at ho
    simp only at ho
    cases hl : ColMan.load m.save with
    | none => rw [hl] at ho; cases ho
    | some x => exact ((col_load_iff _ x).1 hl).1
  obtain ⟨cap, hc, e⟩ := open_eq h hsz sf
  rw [e] at ho
  injection ho with ho
  exact ⟨cap, hc, ho.symm⟩

theorem open_memInv {D : Nat} {d : Disk} {m : ColMan} (h : DiskInv D d m) (sf : Bool) {cap : Nat} (hc : cap < 2 ^ 64) :
    MemInv D m (opened sf d m cap) := by
  have := maxOnDisk_lt d
  have := h.next
  exact {
    man := rfl
    next := by
      unfold opened
      simp only
      split
      · exact h.next
      · omega
    dirs := fun x hx => hx
    vlen := by simp [opened]
    labs := by intro x hx; cases hx
    cap := hc
    acc := Or.inr rfl }

/-! ### Histories -/

/-- Arguments the C++ types allow: buffers of the stated sizes, 64-bit labels; temporary names are not segment names. -/
def OpOk (D : Nat) : Op → Prop
  | .add v l _ => v.length = l.length * D ∧ (∀ x ∈ l, x < 2 ^ 64) ∧ l.length < 2 ^ 64
  | .flush tmp _ => ¬ SegName tmp
  | .reopen _ => True

/-- The invariant, with the published manifest. -/
structure InvM (D : Nat) (s : St) (m : ColMan) : Prop where
  disk : DiskInv D s.disk m
  mem : ∀ mm, s.mem = some mm → MemInv D m mm

theorem add_memInv {D : Nat} {d : Disk} {m : ColMan} {mm mm' : Mem} {v l : List Nat} {a : Bool} (hD : D < 2 ^ 32) (h : DiskInv D d m)
    (hm : MemInv D m mm) (hop : OpOk D (.add v l a)) (ha : addBatch mm l.length v l a = some mm') :
    MemInv D m mm' ∧ mm'.dirs = mm.dirs ∧ mm'.man = mm.man := by
  obtain ⟨k1, k2, k3⟩ := addBatch_keeps ha
  by_cases h0 : l.length = 0
  · rw [h0] at ha
    rw [C35_empty mm mm' v l a ha]; exact ⟨hm, rfl, rfl⟩
  · have hd : mm.man.dim = D := hm.manEq.1.trans h.dim
    obtain ⟨o1, o2, o3⟩ := hop
    obtain ⟨_, _, g3, g4⟩ := (C35_add_batch_exact_partial mm mm' l.length v l a (by omega) o3 (by omega) hm.cap rfl
      (by rw [hd]; exact o1)).1 ha
    refine ⟨?_, k3, k1⟩
    have hp : mm'.pendL = mm.pendL ++ l := by rw [g4]
    have hv : mm'.pendV = mm.pendV ++ v := by rw [g4]
    exact {
      man := by rw [k1]; exact hm.man
      next := by rw [k1]; exact hm.next
      dirs := by rw [k3]; exact hm.dirs
      vlen := by rw [hp, hv, List.length_append, List.length_append, hm.vlen, o1, Nat.add_mul]
      labs := by
        intro x hx
        rw [hp] at hx
        rcases List.mem_append.1 hx with hx | hx
        · exact hm.labs x hx
        · exact o2 x hx
      cap := by rw [k2]; exact hm.cap
      acc := by left; rw [hp, k2, List.length_append, ← hd]; exact g3 }

/-- A step keeps the invariant, with the same published manifest or the one a flush published. -/
theorem inv_step {K : Kernel} (hK : KernelOk K) {D : Nat} (hD : D < 2 ^ 32) {s : St} {m : ColMan} (h : InvM D s m) (op : Op)
    (hop : OpOk D op) : ∃ m', InvM D (step K s op) m' := by
  cases op with
  | add v l a =>
    refine ⟨m, ?_⟩
    simp only [step]
    cases hm : s.mem with
    | none => exact h
    | some mm =>
      simp only
      cases ha : addBatch mm l.length v l a with
      | none => exact h
      | some mm' =>
        refine ⟨h.disk, ?_⟩
        intro x hx
        injection hx with hx
        subst hx
        exact (add_memInv hD h.disk (h.mem mm hm) hop ha).1
  | reopen sf =>
    refine ⟨m, h.disk, ?_⟩
    intro mm hmm
    obtain ⟨cap, hc, e⟩ := open_some h.disk hmm
    rw [e]; exact open_memInv h.disk sf hc
  | flush tmp f =>
    simp only [step]
    cases hm : s.mem with
    | none => exact ⟨m, h⟩
    | some mm =>
      have hmm := h.mem mm hm
      have hout := flush_outcome hK hop f s.disk (hmm.pendOk hD h.disk.dim)
      simp only
      generalize flush K tmp f s.disk mm = r at hout
      have memsame : ∀ x, some mm = some x → MemInv D m x := by intro x hx; injection hx with hx; subst hx; exact hmm
      cases hout with
      | idle h0 => exact ⟨m, h.disk, memsame⟩
      | refused d' h0 hf => exact ⟨m, h.disk.same hf.1 (h.disk.frame_dirs hop hf), memsame⟩
      | crashed d' i h0 hf _ => exact ⟨m, h.disk.same hf.1 (h.disk.frame_dirs hop hf), by intro x hx; cases hx⟩
      | builtSearcher d' name sg pl hb _ => exact ⟨m, h.disk.same hb.1 (h.disk.other_dirs hop pl.fresh hb.2.2), memsame⟩
      | builtPublish d' name sg i pl hb _ =>
        refine ⟨m, h.disk.same hb.1 (h.disk.other_dirs hop pl.fresh hb.2.2), ?_⟩
        intro x hx
        injection hx with hx
        subst hx
        have hlt : mm.man.next < 10 ^ 8 := next_lt (pl.named ▸ pl.valid)
        exact {
          man := by
            have := hmm.man
            show { mm.man with next := mm.man.next + 1 } = _
            rw [this]
          next := by show mm.man.next + 1 ≤ 10 ^ 8; omega
          dirs := hmm.dirs
          vlen := hmm.vlen
          labs := hmm.labs
          cap := hmm.cap
          acc := hmm.acc }
      | builtCrash d' name sg i pl hb _ =>
        exact ⟨m, h.disk.same hb.1 (h.disk.other_dirs hop pl.fresh hb.2.2), by intro x hx; cases hx⟩
      | done d' name sg pl hp _ =>
        refine ⟨nextMan mm name, h.disk.publish hmm hop pl hp, ?_⟩
        intro x hx
        injection hx with hx
        subst hx
        have hlt : mm.man.next < 10 ^ 8 := next_lt (pl.named ▸ pl.valid)
        exact {
          man := rfl
          next := by show mm.man.next + 1 ≤ 10 ^ 8; omega
          dirs := by
            intro x hx
            show x ∈ mm.man.segs ++ [name]
            rw [hmm.manEq.2.2.2.1]
            rcases List.mem_append.1 (show x ∈ mm.dirs ++ [name] from hx) with hx | hx
            · exact List.mem_append.2 (Or.inl (hmm.dirs x hx))
            · exact List.mem_append.2 (Or.inr hx)
          vlen := by simp [committed]
          labs := by intro x hx; cases hx
          cap := hmm.cap
          acc := Or.inr rfl }
      | donePush d' name sg i pl hp _ =>
        refine ⟨nextMan mm name, h.disk.publish hmm hop pl hp, ?_⟩
        intro x hx
        injection hx with hx
        subst hx
        have hlt : mm.man.next < 10 ^ 8 := next_lt (pl.named ▸ pl.valid)
        exact {
          man := rfl
          next := by show mm.man.next + 1 ≤ 10 ^ 8; omega
          dirs := by
            intro x hx
            show x ∈ mm.man.segs ++ [name]
            rw [hmm.manEq.2.2.2.1]
            exact List.mem_append.2 (Or.inl (hmm.dirs x hx))
          vlen := hmm.vlen
          labs := hmm.labs
          cap := hmm.cap
          acc := hmm.acc }
      | doneCrash d' name sg i pl hp _ =>
        exact ⟨nextMan mm name, h.disk.publish hmm hop pl hp, by intro x hx; cases hx⟩

theorem create_inv (D : Nat) (h0 : 0 < D) (hD : D < 2 ^ 32) (metric : Metric) (cap : Nat) (hc : cap < 2 ^ 64) :
    InvM D ⟨(create D metric cap).1, some (create D metric cap).2⟩ (create D metric cap).2.man := by
  have hx : ExtKey (str "x_max_pending_bytes") := by
    refine ⟨⟨str "max_pending_bytes", by decide⟩, by decide, by decide⟩
  refine ⟨{
    man := rfl
    valid := {
      version := rfl
      dim := ⟨h0, by show D < 2 ^ 64; omega⟩
      next := by show 1 < 2 ^ 64; decide
      segNames := by intro n hn; cases hn
      extrasAsc := List.pairwise_singleton _ _
      extras := by
        intro e he
        rw [List.mem_singleton.1 he]
        exact ⟨hx, decStr_lineValue cap⟩ }
    engine := rfl
    dim := rfl
    cap := ⟨cap, rfl, hc⟩
    next := by show 1 ≤ 10 ^ 8; decide
    nodup := List.nodup_nil
    segs := by intro n hn; cases hn }, ?_⟩
  intro mm hmm
  injection hmm with hmm
  subst hmm
  exact {
    man := rfl
    next := by show 1 ≤ 10 ^ 8; decide
    dirs := fun x hx => hx
    vlen := by simp [create]
    labs := by intro x hx; cases hx
    cap := hc
    acc := Or.inr rfl }

theorem inv_run {K : Kernel} (hK : KernelOk K) {D : Nat} (hD : D < 2 ^ 32) : ∀ (ops : List Op) {s : St} {m : ColMan},
    InvM D s m → (∀ op ∈ ops, OpOk D op) → ∃ m', InvM D (runOps K s ops) m'
  | [], _, m, h, _ => ⟨m, h⟩
  | op :: ops, s, m, h, ho => by
    obtain ⟨m', h'⟩ := inv_step hK hD h op (ho op (by simp))
    exact inv_run hK hD ops h' (fun o hx => ho o (by simp [hx]))

/-! ### The text determines the manifest -/

theorem save_inj {m m' : ColMan} (h : m.Valid) (h' : m'.Valid) (e : m.save = m'.save) : m = m' := by
  have t := text_of_entries _ h.lineEntries
  have t' := text_of_entries _ h'.lineEntries
  rw [← m.save_eq] at t
  rw [← m'.save_eq, ← e] at t'
  have he := C36_text_unambiguous _ _ _ t t'
  unfold ColMan.entries at he
  rw [List.append_assoc, List.append_assoc] at he
  obtain ⟨h1, h2⟩ := List.append_inj he rfl
  injection h1 with v h1
  injection h1 with d h1
  injection h1 with mt h1
  injection h1 with en h1
  injection h1 with nx _
  injection v with _ v
  injection d with _ d
  injection mt with _ mt
  injection en with _ en
  injection nx with _ nx
  have key : ∀ x : ColMan, x.Valid → (x.segs.map (fun s => (str "segment", s)) ++ x.extras).filter (fun e => e.1 == str "segment") =
      x.segs.map (fun s => (str "segment", s)) ∧
      (x.segs.map (fun s => (str "segment", s)) ++ x.extras).filter (fun e => !(e.1 == str "segment")) = x.extras := by
    intro x hx
    have ne : ∀ e ∈ x.extras, (e.1 == str "segment") = false := by
      intro e he
      obtain ⟨⟨r, hr⟩, _⟩ := (hx.extras e he).1
      rw [hr]
      simp [str]
    rw [List.filter_append, List.filter_append]
    constructor
    · rw [List.filter_eq_self.2 (by intro e he; obtain ⟨y, _, rfl⟩ := List.mem_map.1 he; simp),
        List.filter_eq_nil_iff.2 (by intro e he; rw [ne e he]; simp), List.append_nil]
    · rw [List.filter_eq_nil_iff.2 (by intro e he; obtain ⟨y, _, rfl⟩ := List.mem_map.1 he; simp),
        List.filter_eq_self.2 (by intro e he; rw [ne e he]; rfl), List.nil_append]
  have k1 := key m h
  have k2 := key m' h'
  rw [h2] at k1
  have hs : m.segs = m'.segs := by
    have := k1.1.symm.trans k2.1
    have h3 := congrArg (List.map (·.2)) this
    rw [List.map_map, List.map_map] at h3
    simpa [Function.comp_def] using h3
  have hx : m.extras = m'.extras := k1.2.symm.trans k2.2
  have hv := decStr_inj v
  have hd := decStr_inj d
  have hn := decStr_inj nx
  have hmt : m.metric = m'.metric := by
    revert mt; cases m.metric <;> cases m'.metric <;> decide
  have hen : m.engine = m'.engine := by
    revert en; cases m.engine <;> cases m'.engine <;> decide
  cases m; cases m'
  simp only at hv hd hn hmt hen hs hx
  subst hv; subst hd; subst hn; subst hmt; subst hen; subst hs; subst hx
  rfl

end Alaya.DiskColl2
