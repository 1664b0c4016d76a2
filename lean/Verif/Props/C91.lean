import Verif.Lemmas.LaserSegHist

/-! C91: LASER segments of a disk collection. -/
namespace Alaya.LaserSeg
open Alaya Alaya.DiskFlat Alaya.DiskManifest Alaya.DiskColl2 Alaya.Spec

/-- What opening the collection shows: the listed segments and what their searchers hold; `none` = it cannot be opened. -/
def shows (E : Env) (d : Disk) : Option (List (Bytes × LSeg)) :=
  match openC E false d with
  | some (some (m, l)) => some (m.dirs.zip l)
  | _ => none

/-- The manifest an import would publish. -/
def wouldPublish (m : Mem) : ColMan := nextMan m (formatSegmentId m.man.next)

theorem loadNative_index {E : Env} {files : KV} {pre : Bytes} {R md dim count b : Nat} {nat : Native}
    (h : loadNative E files pre R md dim count b = some (some nat)) : files.get (indexName pre R md) = some nat.index := by
  unfold loadNative at h
  by_cases c : (!([64, 128, 256, 512, 1024, 2048].contains md)) = true
  · rw [if_pos c] at h; cases h
  rw [if_neg c] at h
  simp only at h
  cases hf : files.get (indexName pre R md) with
  | none => rw [hf] at h; cases h
  | some f =>
  rw [hf] at h
  simp only at h
  cases h1 : loadMedoids files pre dim with
  | none => rw [h1] at h; cases h
  | some o1 =>
  rw [h1] at h
  cases o1 with
  | none => cases h
  | some x =>
  obtain ⟨ms, mv⟩ := x
  simp only at h
  cases h2 : loadPca files pre with
  | none => rw [h2] at h; cases h
  | some o2 =>
  rw [h2] at h
  cases o2 with
  | none => cases h
  | some pca =>
  simp only at h
  cases h3 : loadCache E files (indexName pre R md) ((32 * dim + 128 * R + R * md) / 8) count b with
  | none => rw [h3] at h; cases h
  | some cached =>
  rw [h3] at h
  injection h with h
  injection h with h
  rw [← h]

theorem some_inj : ∀ (l l' : List LSeg), l.map (fun s => some (some s)) = l'.map (fun s => some (some s)) → l = l'
  | [], [], _ => rfl
  | [], _ :: _, h => by simp at h
  | _ :: _, [], h => by simp at h
  | a :: l, b :: l', h => by
    rw [List.map_cons, List.map_cons] at h
    injection h with h1 h2
    injection h1 with h1
    injection h1 with h1
    rw [h1, some_inj l l' h2]

section
variable {E : Env} {D : Nat} {M : Metric} {X : KV} {cap : Nat}

theorem shows_eq (hX : ExtrasOk X cap) {d : Disk} {m : ColMan} (h : DiskInv E D M X d m) (hsz : m.save.length ≤ 2 ^ 20) {l : List LSeg}
    (hl : m.segs.map (fun n => openSeg E (d.dir n)) = l.map (fun s => some (some s))) : shows E d = some (m.segs.zip l) := by
  obtain ⟨l', hl', e⟩ := open_eq h hsz hX.limit hX.small false
  have : l = l' := by
    rw [hl'] at hl
    exact some_inj l l' hl.symm
  unfold shows
  rw [e, this]
  rfl

theorem shows_small {d : Disk} {m : ColMan} (h : DiskInv E D M X d m) (hs : (shows E d).isSome = true) : m.save.length ≤ 2 ^ 20 := by
  refine Decidable.byContradiction (fun hsz => ?_)
  unfold shows at hs
  rw [open_large h hsz] at hs
  cases hs

variable (hE : TextOk E) (h0 : 0 < D) (hD : D < 2 ^ 32) (hX : ExtrasOk X cap)
include hE h0 hD hX

/-- Any history (any crash, any error), then an import hit by any fault: opening the collection afterwards shows what it showed
before, or one more segment under a new name, which has exactly the given labels and searches the index file of the source with what
the loader reads from the source; an import that reports success shows the latter.  Missing for the full statement: manifests above 1 MiB (as for flat segments, C34),
and sources on which loading is undefined (`importSeg` is `none`; see `C91_defined`). -/
theorem C91_import_atomic_partial (ops : List Op) (ho : ∀ op ∈ ops, OpOk op) (s : St) (hs : runOps E (start D M X cap) ops = some s)
    (mm : Mem) (hm : s.mem = some mm) (hopen : (shows E s.disk).isSome = true) (hsz : (wouldPublish mm).save.length ≤ 2 ^ 20)
    (src : KV) (labels : List Nat) (tmp : Bytes) (f : Fault) (hop : OpOk (.imp src labels tmp f)) (d' : Disk) (o : Option Mem) (r : Res)
    (hr : importSeg E src labels tmp f s.disk mm = some (d', o, r)) :
    ∃ before, shows E s.disk = some before ∧
      ((shows E d' = some before ∧ r ≠ .ok) ∨
        (labels ≠ [] ∧ ∃ name w, shows E d' = some (before ++ [(name, w)]) ∧ (∀ e ∈ before, e.1 ≠ name) ∧ w.labels = labels ∧
          w.dim = D ∧ w.count = labels.length ∧ w.mainDim = D ∧ src.get (indexName (prefixOf name) w.R D) = some w.nat.index ∧
          ∃ b, loadNative E src (prefixOf name) w.R D D labels.length b = some (some w.nat))) := by
  obtain ⟨m, h⟩ := inv_run hE hX.limit hX.small (U := False) ops (start_inv h0 (by omega) hX False) ho (fun hf => hf.elim) hs
  obtain ⟨hmm, _⟩ := h.mem mm hm
  have hszm := shows_small h.disk hopen
  obtain ⟨l, hl⟩ := segs_list m.segs h.disk.segs
  have hlen : m.segs.length = l.length := by have := congrArg List.length hl; simpa using this
  refine ⟨_, shows_eq hX h.disk hszm hl, ?_⟩
  have old : ∀ d' : Disk, d'.man = s.disk.man → (∀ n ∈ m.segs, d'.dir n = s.disk.dir n) → shows E d' = some (m.segs.zip l) := by
    intro d' g1 g2
    refine shows_eq hX (h.disk.same g1 g2) hszm ?_
    rw [← hl]
    exact List.map_congr_left (fun n hn => by rw [g2 n hn])
  have hdim : mm.man.dim % 4294967296 = D := by
    rw [hmm.manEq.1, h.disk.dim]; exact Nat.mod_eq_of_lt hD
  have hout := import_outcome hop.1 f s.disk hr
  cases hout with
  | same _ _ _ hr' _ hf => exact Or.inl ⟨old d' hf.1 (h.disk.frame_dirs hop.1 hf), hr'⟩
  | built _ p _ _ hr' _ pl hman _ hoth => exact Or.inl ⟨old d' hman (h.disk.other_dirs hop.1 pl.fresh hoth), hr'⟩
  | done _ p w _ _ _ pl hman hcomp hoth hw =>
    obtain ⟨b, nat, _, hwe, hnat⟩ := open_is hE pl hcomp hw
    refine Or.inr ⟨pl.ne, nextName mm, w, ?_, ?_, ?_, ?_, ?_, ?_, ?_⟩
    · have hd := h.disk.publish hmm hop.1 pl hman hoth hw
      have hseg : (nextMan mm (nextName mm)).segs = m.segs ++ [nextName mm] := by unfold nextMan; simp only; rw [hmm.manEq.2.2.2.1]
      rw [shows_eq hX hd hsz (l := l ++ [w]), hseg, List.zip_append hlen]
      · rfl
      · rw [hseg, List.map_append, List.map_append, ← hl]
        congr 1
        · exact List.map_congr_left (fun n hn => by rw [h.disk.other_dirs hop.1 pl.fresh hoth n hn])
        · simp only [List.map_cons, List.map_nil]; rw [hw]
    · intro e he hh
      have hin := (List.of_mem_zip he).1
      rw [hh] at hin
      exact h.disk.fresh_not_mem pl.fresh hin
    · rw [hwe]; exact segOf_labels hop.2 _ _ _
    · rw [hwe]; exact hdim
    · rw [hwe]; rfl
    · rw [hwe]; exact hdim
    · rw [hwe]
      refine ⟨?_, b, by rw [hdim] at hnat; exact hnat⟩
      have := loadNative_index hnat
      rw [hdim] at this
      exact this

/-- After any history, without exception, the published manifest lists only segments that open, each once. -/
theorem C91_listed_complete (ops : List Op) (ho : ∀ op ∈ ops, OpOk op) (s : St) (hs : runOps E (start D M X cap) ops = some s) :
    ∃ m : ColMan, s.disk.man = some m.save ∧ m.Valid ∧ m.segs.Nodup ∧ ∀ n ∈ m.segs, ∃ v, openSeg E (s.disk.dir n) = some (some v) := by
  obtain ⟨m, h⟩ := inv_run hE hX.limit hX.small (U := False) ops (start_inv h0 (by omega) hX False) ho (fun hf => hf.elim) hs
  exact ⟨m, h.disk.man, h.disk.valid, h.disk.nodup, h.disk.segs⟩

/-- No label occurs twice in the published segments.  Missing for the full statement: the two `push_back` calls after
publication throw (then the open object does not know a published segment, as in C84). -/
theorem C91_labels_unique_partial (ops : List Op) (ho : ∀ op ∈ ops, OpOk op) (hn : ∀ op ∈ ops, NoPush op) (s : St)
    (hs : runOps E (start D M X cap) ops = some s) (m : ColMan) (hv : m.Valid) (hman : s.disk.man = some m.save) :
    (published E s.disk m).Nodup := by
  obtain ⟨m', h⟩ := inv_run hE hX.limit hX.small (U := True) ops (start_inv h0 (by omega) hX True) ho (fun _ => hn) hs
  have e := h.disk.man
  rw [hman] at e
  injection e with e
  have := save_inj hv h.disk.valid e
  subst this
  exact h.uniq trivial

omit hE h0 hD hX in
/-- No step ever changes a segment directory that exists, listed or orphaned, whatever the state. -/
theorem C91_never_overwritten (s s' : St) (op : Op) (hop : OpOk op) (hs' : step E s op = some s') (n : Bytes) (hn : SegName n) (hd : (s.disk.dir n).isSome = true) :
    s'.disk.dir n = s.disk.dir n := by
  cases op with
  | add v l a =>
    simp only [step] at hs'
    cases hm : s.mem with
    | none => rw [hm] at hs'; injection hs' with hs'; rw [← hs']
    | some m =>
      rw [hm] at hs'
      simp only at hs'
      cases ha : addBatch m l.length v l a with
      | none => rw [ha] at hs'; injection hs' with hs'; rw [← hs']
      | some m' => rw [ha] at hs'; injection hs' with hs'; rw [← hs']
  | reopen sf =>
    simp only [step] at hs'
    cases ho : openC E sf s.disk with
    | none => rw [ho] at hs'; cases hs'
    | some x =>
      rw [ho] at hs'
      cases x with
      | none => injection hs' with hs'; rw [← hs']
      | some x => obtain ⟨x1, x2⟩ := x; injection hs' with hs'; rw [← hs']
  | imp src labels tmp f =>
    simp only [step] at hs'
    cases hm : s.mem with
    | none => rw [hm] at hs'; injection hs' with hs'; rw [← hs']
    | some m =>
      rw [hm] at hs'
      simp only at hs'
      cases hi : importSeg E src labels tmp f s.disk m with
      | none => rw [hi] at hs'; cases hs'
      | some r =>
        rw [hi] at hs'
        injection hs' with hs'
        subst hs'
        have hout := import_outcome hop.1 f s.disk hi
        have ht : n ≠ tmp := fun e => hop.1 (e ▸ hn)
        cases hout with
        | same _ _ _ _ _ hf => exact hf.2 n ht
        | built _ p _ _ _ _ pl _ _ hoth =>
          exact hoth n ht (fun e => by rw [e, pl.fresh] at hd; cases hd)
        | done _ p w _ _ _ pl _ _ hoth _ =>
          exact hoth n ht (fun e => by rw [e, pl.fresh] at hd; cases hd)

/-- After any history reopening is defined; if the manifest is not above 1 MiB it brings back every listed segment, and the next
id is above all directories (if they can be listed). -/
theorem C91_reopen (ops : List Op) (ho : ∀ op ∈ ops, OpOk op) (s : St) (hs : runOps E (start D M X cap) ops = some s) (sf : Bool) :
    ∃ m : ColMan, s.disk.man = some m.save ∧ m.Valid ∧ (openC E sf s.disk = some none ↔ 2 ^ 20 < m.save.length) ∧
      (m.save.length ≤ 2 ^ 20 → ∃ mm l, openC E sf s.disk = some (some (mm, l)) ∧ mm.dirs = m.segs ∧
        m.segs.map (fun n => openSeg E (s.disk.dir n)) = l.map (fun w => some (some w)) ∧ mm.pendL = [] ∧ mm.cap = cap ∧
        (sf = false → ∀ n, SegName n → (s.disk.dir n).isSome = true → idNum n < mm.man.next)) := by
  obtain ⟨m, h⟩ := inv_run hE hX.limit hX.small (U := False) ops (start_inv h0 (by omega) hX False) ho (fun hf => hf.elim) hs
  refine ⟨m, h.disk.man, h.disk.valid, ?_, ?_⟩
  · constructor
    · intro hn
      refine Nat.lt_of_not_le (fun hle => ?_)
      obtain ⟨l, _, e⟩ := open_eq h.disk hle hX.limit hX.small sf
      rw [e] at hn; cases hn
    · intro hlt
      exact open_large h.disk (by omega) sf
  · intro hle
    obtain ⟨l, hl, e⟩ := open_eq h.disk hle hX.limit hX.small sf
    refine ⟨_, l, e, rfl, hl, rfl, rfl, ?_⟩
    intro hsf n hn hd
    have := maxOnDisk_ge s.disk hn hd
    subst hsf
    show idNum n < max m.next (maxOnDisk s.disk + 1)
    omega

/-! ### When an import succeeds -/

end

theorem pow2_iff {n : Nat} (h : n < 2 ^ 32) : pow2 n = true ↔ ∃ k, n = 2 ^ k := by
  unfold pow2
  rw [List.any_eq_true]
  constructor
  · rintro ⟨k, _, e⟩
    exact ⟨k, by simpa using e⟩
  · rintro ⟨k, e⟩
    refine ⟨k, List.mem_range.2 ?_, by simpa using e⟩
    rw [e] at h
    exact (Nat.pow_lt_pow_iff_right (by decide)).1 h

/-- What an import needs: `m` is the published manifest, `next` the next id, `nat` what the native loader reads from the source. -/
structure Importable (E : Env) (src : KV) (labels : List Nat) (tmp : Bytes) (d : Disk) (m : ColMan) (next : Nat) (p : Params) (b : Nat)
    (nat : Native) : Prop where
  ne : labels ≠ []
  fresh : (published E d m ++ labels).Nodup
  count : labels.length < 2 ^ 32
  metric : m.metric = .l2
  dim : 128 ≤ m.dim ∧ ∃ k, m.dim = 2 ^ k
  params : loadParams E m.extras = some p
  R : p.R ≠ 0
  mainDim : p.mainDim = 0 ∨ p.mainDim = m.dim
  id : next < 10 ^ 8
  free : d.dir (formatSegmentId next) = none
  tmp : d.dir tmp = none
  required : ∀ a ∈ required (indexName (prefixOf (formatSegmentId next)) p.R m.dim), ∃ c, src.get a.1 = some c ∧ c ≠ []
  optional : ∀ a ∈ optional (prefixOf (formatSegmentId next)), src.get a.1 ≠ some []
  head : headCount (src.get (indexName (prefixOf (formatSegmentId next)) p.R m.dim)) = some labels.length
  budget : E.parse (E.print p.budget) = some b
  native : loadNative E src (prefixOf (formatSegmentId next)) p.R m.dim m.dim labels.length b = some (some nat)

section
variable {E : Env} {D : Nat} {M : Metric} {X : KV} {cap : Nat}
variable (hE : TextOk E) (h0 : 0 < D) (hD : D < 2 ^ 32) (hX : ExtrasOk X cap)
include hE h0 hD hX

/-- Exactly when an import without faults succeeds, and what it publishes: the labels with the native data of the source. -/
theorem C91_import (ops : List Op) (ho : ∀ op ∈ ops, OpOk op) (hn : ∀ op ∈ ops, NoPush op) (s : St)
    (hs : runOps E (start D M X cap) ops = some s) (m : ColMan) (hv : m.Valid) (hman : s.disk.man = some m.save) (mm : Mem)
    (hm : s.mem = some mm) (src : KV) (labels : List Nat) (tmp : Bytes) (hop : OpOk (.imp src labels tmp .none)) :
    ((∃ d' o, importSeg E src labels tmp .none s.disk mm = some (d', o, .ok)) ↔
      ∃ p b nat, Importable E src labels tmp s.disk m mm.man.next p b nat) ∧
    ∀ p b nat, Importable E src labels tmp s.disk m mm.man.next p b nat →
      ∃ d', importSeg E src labels tmp .none s.disk mm = some (d', some (pushed mm (formatSegmentId mm.man.next)), .ok) ∧
        d'.man = some (wouldPublish mm).save ∧ (wouldPublish mm).segs = m.segs ++ [formatSegmentId mm.man.next] ∧
        openSeg E (d'.dir (formatSegmentId mm.man.next)) = some (some ⟨D, labels.length, p.R, D, labels.flatMap (leBytes 8), nat⟩) := by
  obtain ⟨m', h⟩ := inv_run hE hX.limit hX.small (U := True) ops (start_inv h0 (by omega) hX True) ho (fun _ => hn) hs
  have e := h.disk.man
  rw [hman] at e
  injection e with e
  have := save_inj hv h.disk.valid e
  subst this
  obtain ⟨hmm, hdirs⟩ := h.mem mm hm
  obtain ⟨e1, e2, e3, e4, e5, _⟩ := hmm.manEq
  have hdirs := hdirs trivial
  have hids : allIds s.disk mm.dirs = some (published E s.disk m) := by rw [hdirs]; exact allIds_eq _ h.disk.segs
  have hdim : mm.man.dim % 4294967296 = D := by rw [e1, h.disk.dim]; exact Nat.mod_eq_of_lt hD
  have hmd := h.disk.dim
  have key : ∀ p b nat, Importable E src labels tmp s.disk m mm.man.next p b nat →
      ∃ d', importSeg E src labels tmp .none s.disk mm = some (d', some (pushed mm (formatSegmentId mm.man.next)), .ok) ∧
        d'.man = some (wouldPublish mm).save ∧ (wouldPublish mm).segs = m.segs ++ [formatSegmentId mm.man.next] ∧
        openSeg E (d'.dir (formatSegmentId mm.man.next)) = some (some ⟨D, labels.length, p.R, D, labels.flatMap (leBytes 8), nat⟩) := by
    intro p b nat hi
    have hfr := List.nodup_append.1 hi.fresh
    have pl : Planned E src labels tmp s.disk mm p := {
      engine := e3.trans h.disk.engine
      ne := hi.ne
      nodup := hfr.2.1
      ids := ⟨_, hids, fun x hx hc => hfr.2.2 x hc x hx rfl⟩
      params := by rw [e5]; exact hi.params
      pow := by rw [hdim]; exact (pow2_iff hD).2 (hmd ▸ hi.dim.2)
      dim := by rw [hdim, ← hmd]; exact hi.dim.1
      mainDim := by rw [hdim, ← hmd]; exact hi.mainDim
      valid := formatSegmentId_name hi.id
      fresh := hi.free
      metric := e2.trans hi.metric
      size := by have := hi.count; rw [U64_eq]; omega
      files := by rw [hdim, ← hmd]; exact hi.required
      head := by rw [hdim, ← hmd]; exact hi.head
      tmp := hi.tmp }
    have hpl := (plan_iff E src labels tmp s.disk mm _).2 ⟨p, pl, rfl⟩
    have hne : tmp ≠ nextName mm := fun e => hop.1 (by rw [e]; exact pl.valid)
    obtain ⟨s1, s2, s3⟩ := run_seg s.disk tmp pl.tmp (planOf E src labels mm p) hne pl.fresh
    have hopen := open_built hE pl s2 hi.count hi.R hi.optional hi.budget
    rw [hdim, ← hmd, hi.native] at hopen
    simp only [Option.map_some] at hopen
    obtain ⟨b1, b2⟩ := run_pub (s.disk.run (segSteps tmp (planOf E src labels mm p))) (nextMan mm (nextName mm)).save
    rw [← run_append] at b1 b2
    refine ⟨_, ?_, b1, ?_, ?_⟩
    · unfold importSeg
      rw [hpl]
      simp only
      rw [show (planOf E src labels mm p).name = formatSegmentId mm.man.next from rfl, hopen]
    · unfold wouldPublish nextMan; simp only; rw [e4]
    · rw [b2, hopen, hmd]
  refine ⟨⟨?_, fun ⟨p, b, nat, hi⟩ => ?_⟩, key⟩
  · rintro ⟨d', o, hr⟩
    have hout := import_outcome hop.1 .none s.disk hr
    cases hout with
    | same _ _ _ hr' _ _ => exact absurd rfl hr'
    | built _ _ _ _ hr' _ _ _ _ _ => exact absurd rfl hr'
    | done _ p w _ _ _ pl _ hcomp _ hw =>
      obtain ⟨n1, n2, n3, _, _⟩ := open_needs hE pl hcomp (by rw [hw]; simp)
      obtain ⟨b, nat, hb, _, hnat⟩ := open_is hE pl hcomp hw
      rw [hdim, ← hmd] at hnat
      obtain ⟨ls, hls, hdis⟩ := pl.ids
      rw [hids] at hls
      injection hls with hls
      have hpow := pl.pow
      have hd128 := pl.dim
      rw [hdim] at hpow hd128
      exact ⟨p, b, nat, {
        ne := pl.ne
        fresh := List.nodup_append.2 ⟨h.uniq trivial, pl.nodup, fun a ha b hb hab => hdis b hb (hls ▸ hab ▸ ha)⟩
        count := n1
        metric := e2 ▸ pl.metric
        dim := hmd ▸ ⟨hd128, (pow2_iff hD).1 hpow⟩
        params := e5 ▸ pl.params
        R := n2
        mainDim := by have := pl.mainDim; rw [hdim, ← hmd] at this; exact this
        id := next_lt pl.valid
        free := pl.fresh
        tmp := pl.tmp
        required := by have := pl.files; rw [hdim, ← hmd] at this; exact this
        optional := n3
        head := by have := pl.head; rw [hdim, ← hmd] at this; exact this
        budget := hb
        native := hnat }⟩
  · obtain ⟨d', g, _⟩ := key p b nat hi
    exact ⟨d', _, g⟩

end

end Alaya.LaserSeg
