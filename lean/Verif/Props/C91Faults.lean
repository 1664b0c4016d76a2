import Verif.Props.C91Native

/-! C91: what is left behind by imports that fail, and what the searcher does not look at. -/
namespace Alaya.LaserSeg
open Alaya Alaya.DiskFlat Alaya.DiskManifest Alaya.DiskColl2 Alaya.Spec

/-! ### Stuck -/

/-- No reopening. -/
def NoReopen : Op → Prop
  | .reopen _ => False
  | _ => True

theorem plan_free {E : Env} {src : KV} {labels : List Nat} {tmp : Bytes} {d : Disk} {m : Mem}
    (h : (d.dir (formatSegmentId m.man.next)).isSome = true) : plan E src labels tmp d m = none := by
  cases hp : plan E src labels tmp d m with
  | none => rfl
  | some q =>
    obtain ⟨p, pl, _⟩ := (plan_iff _ _ _ _ _ _ _).1 hp
    rw [pl.fresh] at h
    cases h

theorem import_refused {E : Env} {src : KV} {labels : List Nat} {tmp : Bytes} {d : Disk} {m : Mem} (h : plan E src labels tmp d m = none)
    (f : Fault) : importSeg E src labels tmp f d m = some (d, some m, .err) := by
  unfold importSeg
  rw [h]

theorem add_man {m m' : Mem} {n : Nat} {v l : List Nat} {a : Bool} (h : addBatch m n v l a = some m') : m'.man = m.man ∧ m'.dirs = m.dirs := by
  unfold addBatch at h
  simp only at h
  repeat' split at h
  all_goals first
    | (cases h; done)
    | (injection h with h; subst h; exact ⟨rfl, rfl⟩)

/-- While the directory of the next segment exists, every import of every source raises and changes nothing, until the
collection is opened again. -/
theorem C91_stuck (E : Env) : ∀ (ops : List Op) (s : St) (m : Mem), s.mem = some m →
    (s.disk.dir (formatSegmentId m.man.next)).isSome = true → (∀ op ∈ ops, NoReopen op) →
    ∃ m', runOps E s ops = some ⟨s.disk, some m'⟩ ∧ m'.man = m.man ∧
      ∀ src labels tmp f, importSeg E src labels tmp f s.disk m' = some (s.disk, some m', .err)
  | [], s, m, hm, hd, _ => ⟨m, by rw [← hm]; rfl, rfl, fun _ _ _ f => import_refused (plan_free hd) f⟩
  | op :: ops, s, m, hm, hd, hn => by
    have key : ∃ m1, step E s op = some ⟨s.disk, some m1⟩ ∧ m1.man = m.man := by
      cases op with
      | reopen sf => exact (hn (.reopen sf) (by simp)).elim
      | add v l a =>
        unfold step
        rw [hm]
        simp only
        cases ha : addBatch m l.length v l a with
        | none => exact ⟨m, by rw [← hm], rfl⟩
        | some m1 => exact ⟨m1, rfl, (add_man ha).1⟩
      | imp src l tmp f =>
        unfold step
        rw [hm]
        simp only
        rw [import_refused (plan_free hd) f]
        exact ⟨m, rfl, rfl⟩
    obtain ⟨m1, h1, h2⟩ := key
    obtain ⟨m', g1, g2, g3⟩ := C91_stuck E ops ⟨s.disk, some m1⟩ m1 rfl (by rw [h2]; exact hd) (fun o ho => hn o (by simp [ho]))
    refine ⟨m', ?_, g2.trans h2, g3⟩
    unfold runOps
    rw [h1]
    exact g1

/-! ### Collections that take no segment -/

/-- A LASER collection can be created with every metric and every positive dimension. -/
theorem C91_create (D cap : Nat) (M : Metric) (h : D ≠ 0) :
    ∃ m, create D M cap = some (⟨some m.man.save, []⟩, m) ∧ m.man.metric = M ∧ m.man.dim = D ∧
      start D M [(str "x_max_pending_bytes", decStr cap)] cap = ⟨⟨some m.man.save, []⟩, some m⟩ := by
  refine ⟨⟨man0 D M [(str "x_max_pending_bytes", decStr cap)], [], [], [], cap⟩, ?_, rfl, rfl, rfl⟩
  unfold create
  rw [if_neg h]
  rfl

/-- With another metric than l2, or a dimension that is below 128 or no power of two, no import ever succeeds, whatever the
source, the faults and the history; no segment is ever listed. -/
theorem C91_useless {E : Env} (hE : TextOk E) {D cap : Nat} {M : Metric} {X : KV} (h0 : 0 < D) (hD : D < 2 ^ 32) (hX : ExtrasOk X cap)
    (hbad : M ≠ .l2 ∨ D < 128 ∨ ∀ k, D ≠ 2 ^ k) (ops : List Op) (ho : ∀ op ∈ ops, OpOk op) (s : St)
    (hs : runOps E (start D M X cap) ops = some s) (mm : Mem) (hm : s.mem = some mm) (src : KV) (labels : List Nat) (tmp : Bytes) (f : Fault) :
    importSeg E src labels tmp f s.disk mm = some (s.disk, some mm, .err) := by
  obtain ⟨m, hi⟩ := inv_run (U := False) hE hX.limit hX.small ops (start_inv h0 (by omega) hX False) ho (fun h => h.elim) hs
  refine import_refused ?_ f
  cases hp : plan E src labels tmp s.disk mm with
  | none => rfl
  | some q =>
    exfalso
    obtain ⟨p, pl, _⟩ := (plan_iff _ _ _ _ _ _ _).1 hp
    have mi := (hi.mem mm hm).1
    have e1 : mm.man.metric = M := by rw [mi.manEq.2.1, hi.disk.metric]
    have e2 : mm.man.dim = D := by rw [mi.manEq.1, hi.disk.dim]
    have e3 : mm.man.dim % 4294967296 = D := by rw [e2]; exact Nat.mod_eq_of_lt (by omega)
    rcases hbad with h | h | h
    · exact h (by rw [← e1]; exact pl.metric)
    · have := pl.dim; rw [e3] at this; omega
    · have := pl.pow
      rw [e3] at this
      obtain ⟨k, hk⟩ := (pow2_iff hD).1 this
      exact h k hk

/-! ### Examples -/

/-- Floats printed as the decimal number of their bits, a budget that allows every node. -/
def E0 : Env := ⟨fun b => decStr (b % 2 ^ 32), stoull10, fun _ _ n => some n⟩

theorem E0_ok : TextOk E0 := by
  refine ⟨fun b => ?_⟩
  have hb : b % 2 ^ 32 < 2 ^ 64 := by omega
  exact ⟨(VamanaSeg.dec_line hb).1, (VamanaSeg.dec_line hb).2, decStr_ne_nil _⟩

def X0 : KV := [(str "x_max_pending_bytes", str "1000")]

/-- Native files for the segment `id` with `n` rows: an index of one sector with entry point 1, one cached node. -/
def src0 (id n : Nat) (extra : KV) : KV :=
  let pre := prefixOf (formatSegmentId id)
  let idx := indexName pre 64 128
  [(idx, leBytes 8 n ++ leBytes 8 128 ++ leBytes 8 1 ++ List.replicate 4072 0), (idx ++ str "_rotator", List.replicate 512 7),
    (idx ++ str "_cache_ids", LaserFiles.cacheIds [1]), (idx ++ str "_cache_nodes", LaserFiles.cacheNodes 2560 [List.replicate 2560 5])] ++ extra

theorem X0_ok : ExtrasOk X0 1000 := by
  refine ⟨by simp [X0], ?_, by decide +kernel, by decide⟩
  intro e he
  have he : e = (str "x_max_pending_bytes", str "1000") := by simpa [X0] using he
  subst he
  exact ⟨⟨⟨str "max_pending_bytes", by decide⟩, by decide, by decide⟩, (VamanaSeg.dec_line (n := 1000) (by decide)).1⟩

def start0 : St := start 128 .l2 X0 1000

/-- What a segment of `src0` shows. -/
def seg0 (labels : List Nat) : LSeg :=
  ⟨128, labels.length, 64, 128, labels.flatMap (leBytes 8), ⟨1, 2560, leBytes 8 labels.length ++ leBytes 8 128 ++ leBytes 8 1 ++ List.replicate 4072 0,
    List.replicate 512 7, [], [], none, [(1, List.replicate 2560 5)]⟩⟩

/-- An import, an import that crashes, a reopening, and the second import again. -/
def ops0 : List Op :=
  [.imp (src0 1 2 []) [7, 8] (str ".tmp_1") .none, .imp (src0 2 1 []) [9] (str ".tmp_2") (.crash 5), .reopen false,
    .imp (src0 2 1 []) [9] (str ".tmp_3") .none]

theorem of_any {α : Type} {o : Option α} {p : α → Bool} (h : o.any p = true) : ∃ s, o = some s ∧ p s = true := by
  cases o with
  | none => cases h
  | some s => exact ⟨s, rfl, h⟩

set_option maxRecDepth 100000 in
theorem ops0_shows : (runOps E0 start0 ops0).any (fun s => s.mem.any (fun mm => decide ((wouldPublish mm).save.length ≤ 2 ^ 20)) &&
    shows E0 s.disk == some [(formatSegmentId 1, seg0 [7, 8]), (formatSegmentId 2, seg0 [9])]) = true := by decide +kernel

/-- The hypotheses of the theorems on histories hold for `ops0`, which publishes both imports. -/
example : (∀ op ∈ ops0, OpOk op) ∧ (∀ op ∈ ops0, NoPush op) ∧ TextOk E0 ∧ ExtrasOk X0 1000 ∧
    ∃ s mm, runOps E0 start0 ops0 = some s ∧ s.mem = some mm ∧ (wouldPublish mm).save.length ≤ 2 ^ 20 ∧
      shows E0 s.disk = some [(formatSegmentId 1, seg0 [7, 8]), (formatSegmentId 2, seg0 [9])] := by
  have nt : ∀ t, validSegmentId t = false → ¬ SegName t := fun t h hs => by rw [(validSegmentId_iff t).2 hs] at h; cases h
  refine ⟨?_, ?_, E0_ok, X0_ok, ?_⟩
  · intro op hop
    simp only [ops0, List.mem_cons, List.not_mem_nil, or_false] at hop
    rcases hop with rfl | rfl | rfl | rfl
    · exact ⟨nt _ (by decide), by decide⟩
    · exact ⟨nt _ (by decide), by decide⟩
    · trivial
    · exact ⟨nt _ (by decide), by decide⟩
  · intro op hop
    simp only [ops0, List.mem_cons, List.not_mem_nil, or_false] at hop
    rcases hop with rfl | rfl | rfl | rfl <;> trivial
  · obtain ⟨s, h1, h2⟩ := of_any ops0_shows
    rw [Bool.and_eq_true] at h2
    obtain ⟨mm, h3, h4⟩ := of_any h2.1
    exact ⟨s, mm, h1, h3, of_decide_eq_true h4, eq_of_beq h2.2⟩

theorem get_head (k v : Bytes) (kv : KV) : KV.get ((k, v) :: kv) k = some v := by simp [KV.get]

/-- The files of `src0`, with a medoid and a PCA, meet the hypotheses of `C91_native`. -/
example : Written (src0 1 2 [(prefixOf (formatSegmentId 1) ++ str "_medoids", LaserFiles.fbin 1 128 (List.replicate 512 3)),
    (prefixOf (formatSegmentId 1) ++ str "_medoids_indices", LaserFiles.medoidIds [1]),
    (prefixOf (formatSegmentId 1) ++ str "_pca.bin", LaserFiles.pca 1 [1, 2, 3, 4] [5, 6, 7, 8])]) (prefixOf (formatSegmentId 1)) 64 128 128 1
    (leBytes 8 2 ++ leBytes 8 128 ++ leBytes 8 1 ++ List.replicate 4072 0) (List.replicate 512 7) (some ([1], List.replicate 512 3))
    (some ⟨1, [1, 2, 3, 4], [5, 6, 7, 8]⟩) [1] [List.replicate 2560 5] where
  hIndex := get_head _ _ _
  hSector := by rw [List.length_append, List.length_replicate]; simp [leBytes_length]
  hEntry := ⟨by decide +kernel, by decide⟩
  hRot := ⟨by decide +kernel, by rw [List.length_replicate]⟩
  hMedIds := by decide +kernel
  hMedRows := by decide +kernel
  hMed := by
    intro x hx
    injection hx with hx
    subst hx
    exact ⟨by decide, by decide, by rw [List.length_replicate]; rfl⟩
  hPcaFile := by decide +kernel
  hPca := by
    intro x hx
    injection hx with hx
    subst hx
    exact ⟨by decide, by decide, by decide⟩
  hCacheIds := by decide +kernel
  hIds := ⟨by decide, by decide⟩
  hCacheNodes := by decide +kernel
  hNodes := ⟨by decide, by intro x hx; simp only [List.mem_singleton] at hx; subst hx; rw [List.length_replicate]⟩

/-! ### Sources that leave something behind -/

/-- A small source: everything the importer looks at, `extra` in front. -/
def src1 (id n : Nat) (extra : KV) : KV :=
  let idx := indexName (prefixOf (formatSegmentId id)) 64 128
  extra ++ [(idx, leBytes 8 n), (idx ++ str "_rotator", [1]), (idx ++ str "_cache_ids", leBytes 8 0), (idx ++ str "_cache_nodes", leBytes 8 0)]

/-- A medoid file of another dimension. -/
def badMedoids : KV :=
  [(prefixOf (formatSegmentId 1) ++ str "_medoids", LaserFiles.fbin 1 64 []), (prefixOf (formatSegmentId 1) ++ str "_medoids_indices", LaserFiles.medoidIds [1])]

def mem0 : Mem := ⟨man0 128 .l2 X0, [], [], [], 1000⟩

/-- The same state, with another next id in memory. -/
def memNext (n : Nat) : Mem := ⟨{ man0 128 .l2 X0 with next := n }, [], [], [], 1000⟩

set_option maxRecDepth 100000 in
theorem bad_import : (importSeg E0 (src1 1 2 badMedoids) [7, 8] (str ".tmp_1") .none start0.disk mem0).any (fun r =>
    r.2.1 == some mem0 && r.2.2 == .err && r.1.man == start0.disk.man && (r.1.dir (formatSegmentId 1)).isSome &&
    openC E0 false r.1 == some (some (memNext 2, [])) &&
    (importSeg E0 (src1 1 2 []) [7, 8] (str ".tmp_3") .none r.1 (memNext 2)).any (fun x => x.2.2 == .err) &&
    (importSeg E0 (src1 2 2 []) [7, 8] (str ".tmp_3") .none r.1 (memNext 2)).any (fun x => x.2.2 == .ok)) = true := by decide +kernel

set_option maxRecDepth 100000 in
theorem good_import : (importSeg E0 (src1 1 2 []) [7, 8] (str ".tmp_1") .none start0.disk mem0).any (fun r => r.2.2 == .ok) = true := by
  decide +kernel

/-- A source that the searcher refuses leaves the directory of the segment: the corrected source is refused as well, by every
call, until the collection is opened again.  After that it is still refused, because the id has moved on and the names of the
files contain the id of the segment; only with renamed files does the import succeed. -/
theorem C91_retry_refuted : (∃ d o, importSeg E0 (src1 1 2 []) [7, 8] (str ".tmp_1") .none start0.disk mem0 = some (d, o, .ok)) ∧
    ∃ d, importSeg E0 (src1 1 2 badMedoids) [7, 8] (str ".tmp_1") .none start0.disk mem0 = some (d, some mem0, .err) ∧
      d.man = start0.disk.man ∧
      (∀ ops, (∀ op ∈ ops, NoReopen op) → ∃ m', runOps E0 ⟨d, some mem0⟩ ops = some ⟨d, some m'⟩ ∧
        ∀ src labels tmp f, importSeg E0 src labels tmp f d m' = some (d, some m', .err)) ∧
      openC E0 false d = some (some (memNext 2, [])) ∧
      (∃ d' o, importSeg E0 (src1 1 2 []) [7, 8] (str ".tmp_3") .none d (memNext 2) = some (d', o, .err)) ∧
      ∃ d' o, importSeg E0 (src1 2 2 []) [7, 8] (str ".tmp_3") .none d (memNext 2) = some (d', o, .ok) := by
  have get : ∀ {o : Option (Disk × Option Mem × Res)} {x : Res}, o.any (fun r => r.2.2 == x) = true → ∃ d' q, o = some (d', q, x) := by
    intro o x h
    obtain ⟨r, h1, h2⟩ := of_any h
    exact ⟨r.1, r.2.1, by rw [h1, ← eq_of_beq h2]⟩
  refine ⟨get good_import, ?_⟩
  obtain ⟨⟨d, o, x⟩, h1, h2⟩ := of_any bad_import
  simp only [Bool.and_eq_true, beq_iff_eq] at h2
  obtain ⟨⟨⟨⟨⟨⟨h2, h3⟩, h4⟩, h5⟩, h6⟩, h7⟩, h8⟩ := h2
  refine ⟨d, by rw [h1, h2, h3], h4, ?_, h6, get h7, get h8⟩
  intro ops hops
  obtain ⟨m', g1, _, g3⟩ := C91_stuck E0 ops ⟨d, some mem0⟩ mem0 rfl h5 hops
  exact ⟨m', g1, g3⟩

set_option maxRecDepth 100000 in
theorem publish_import : (importSeg E0 (src1 1 2 []) [7, 8] (str ".tmp_1") (.publish 0) start0.disk mem0).any (fun r =>
    r.2.1 == some (memNext 2) && r.2.2 == .err && r.1.man == start0.disk.man &&
    (importSeg E0 (src1 1 2 []) [7, 8] (str ".tmp_2") .none r.1 (memNext 2)).any (fun x => x.2.2 == .err)) = true := by decide +kernel

/-- After an import that could not write the manifest of the collection, the same source no longer fits: the id is used up. -/
theorem C91_publish_retry_refuted : ∃ d, importSeg E0 (src1 1 2 []) [7, 8] (str ".tmp_1") (.publish 0) start0.disk mem0 = some (d, some (memNext 2), .err) ∧
    d.man = start0.disk.man ∧ ∃ d' o, importSeg E0 (src1 1 2 []) [7, 8] (str ".tmp_2") .none d (memNext 2) = some (d', o, .err) := by
  obtain ⟨⟨d, o, x⟩, h1, h2⟩ := of_any publish_import
  simp only [Bool.and_eq_true, beq_iff_eq] at h2
  obtain ⟨⟨⟨h2, h3⟩, h4⟩, h5⟩ := h2
  obtain ⟨r, g1, g2⟩ := of_any h5
  exact ⟨d, by rw [h1, h2, h3], h4, r.1, r.2.1, by rw [g1, ← eq_of_beq g2]⟩

set_option maxRecDepth 100000 in
/-- A cache file of three bytes passes every check and is then read without testing the stream: undefined behaviour. -/
theorem C91_short_cache_refuted :
    importSeg E0 (src1 1 2 [(indexName (prefixOf (formatSegmentId 1)) 64 128 ++ str "_cache_ids", [1, 2, 3])]) [7, 8] (str ".tmp_1") .none
      start0.disk mem0 = none := by decide +kernel

/-! ### What the searcher does not look at -/

/-- An index of eight bytes, a PCA of one dimension, and a cache that names row 99 and holds no node. -/
def odd : KV :=
  [(prefixOf (formatSegmentId 1) ++ str "_pca.bin", LaserFiles.pca 1 [1, 2, 3, 4] [5, 6, 7, 8]),
    (indexName (prefixOf (formatSegmentId 1)) 64 128 ++ str "_cache_ids", LaserFiles.cacheIds [99]),
    (indexName (prefixOf (formatSegmentId 1)) 64 128 ++ str "_cache_nodes", leBytes 8 1)]

set_option maxRecDepth 100000 in
theorem odd_import : (importSeg E0 (src1 1 2 odd) [7, 8] (str ".tmp_1") .none start0.disk mem0).any (fun r => r.2.2 == .ok &&
    shows E0 r.1 == some [(formatSegmentId 1, ⟨128, 2, 64, 128, [7, 8].flatMap (leBytes 8), ⟨0, 2560, leBytes 8 2, [1], [], [],
      some ⟨1, [1, 2, 3, 4], [5, 6, 7, 8]⟩, [(99, List.replicate 2560 0)]⟩⟩)]) = true := by decide +kernel

/-- An import publishes an index without any node, one byte of 512 for the signs, a PCA of another dimension and a cached node
that is not in the segment and was never written. -/
theorem C91_unchecked_refuted : ∃ d o, importSeg E0 (src1 1 2 odd) [7, 8] (str ".tmp_1") .none start0.disk mem0 = some (d, o, .ok) ∧
    shows E0 d = some [(formatSegmentId 1, ⟨128, 2, 64, 128, [7, 8].flatMap (leBytes 8), ⟨0, 2560, leBytes 8 2, [1], [], [],
      some ⟨1, [1, 2, 3, 4], [5, 6, 7, 8]⟩, [(99, List.replicate 2560 0)]⟩⟩)] := by
  obtain ⟨r, h1, h2⟩ := of_any odd_import
  rw [Bool.and_eq_true] at h2
  exact ⟨r.1, r.2.1, by rw [h1, ← eq_of_beq h2.1], eq_of_beq h2.2⟩

/-- A directory whose manifest names another file for the signs. -/
def renamed : KV :=
  let idx := indexName (prefixOf (formatSegmentId 1)) 64 128
  let man := manOf E0 ⟨64, 0, 200, 4, 1, true⟩ (src1 1 2 []) (formatSegmentId 1) 128 2
  [(manName, { man with extras := man.extras.put (str "x_laser_rotator_file") (str "other") }.save), (idsName, [7, 8].flatMap (leBytes 8)),
    (idx, leBytes 8 2), (str "other", List.replicate 512 9), (idx ++ str "_cache_ids", leBytes 8 0), (idx ++ str "_cache_nodes", leBytes 8 0)]

set_option maxRecDepth 100000 in
/-- The manifest is checked for the file it names, but the file loaded is the one with the derived name: the segment opens
without its signs. -/
theorem C91_names_refuted : renamed.get (str "other") = some (List.replicate 512 9) ∧
    openSeg E0 (some renamed) = some (some ⟨128, 2, 64, 128, [7, 8].flatMap (leBytes 8), ⟨0, 2560, leBytes 8 2, [], [], [], none, []⟩⟩) := by
  refine ⟨by decide +kernel, by decide +kernel⟩

end Alaya.LaserSeg
