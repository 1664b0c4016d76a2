import Verif.Props.C91
import Verif.Model.LaserFiles

/-! C91: the native files of a LASER segment: what the loader reads, and where it is undefined. -/
namespace Alaya.LaserSeg
open Alaya Alaya.DiskFlat Alaya.DiskManifest Alaya.DiskColl2 Alaya.Spec

/-! ### Reading -/

theorem fill_exact {n : Nat} {b : Bytes} (h : n ≤ b.length) : fill n b = b.take n := by
  unfold fill
  rw [show n - b.length = 0 by omega]
  simp

theorem le4_length (l : List Nat) : (l.flatMap (leBytes 4)).length = 4 * l.length := by
  rw [flatMap_le_length, Nat.mul_comm]

theorem le4_take : ∀ (l : List Nat) (n : Nat), (l.flatMap (leBytes 4)).take (4 * n) = (l.take n).flatMap (leBytes 4)
  | [], n => by simp
  | a :: l, 0 => by simp
  | a :: l, n + 1 => by
    rw [List.take_succ_cons, List.flatMap_cons, List.flatMap_cons, ← le4_take l n, List.take_append,
      List.take_of_length_le (by rw [leBytes_length]; omega), leBytes_length]
    congr 2

theorem words_le : ∀ (l : List Nat), (∀ x ∈ l, x < 2 ^ 32) → words l.length (l.flatMap (leBytes 4)) = l
  | [], _ => rfl
  | a :: l, h => by
    have ih := words_le l (fun x hx => h x (by simp [hx]))
    unfold words at ih ⊢
    rw [List.length_cons, List.range_succ_eq_map, List.map_cons, List.map_map]
    congr 1
    · rw [List.flatMap_cons, Nat.mul_zero, List.drop_zero, List.take_append, List.take_of_length_le (by rw [leBytes_length]; omega),
        leBytes_length, Nat.sub_self, List.take_zero, List.append_nil]
      exact leNat_leBytes_of_lt (h a (by simp))

theorem blocks_length : ∀ (l : List Bytes) (n : Nat), (∀ x ∈ l, x.length = n) → l.flatten.length = l.length * n
  | [], n, _ => by simp
  | a :: l, n, h => by
    rw [List.flatten_cons, List.length_append, h a (by simp), blocks_length l n (fun x hx => h x (by simp [hx])), List.length_cons,
      Nat.succ_mul]
    omega

theorem blocks_get : ∀ (l : List Bytes) (n : Nat), (∀ x ∈ l, x.length = n) → ∀ (rest : Bytes),
    (List.range l.length).map (fun j => (((l.flatten ++ rest).drop (j * n)).take n)) = l
  | [], _, _, _ => rfl
  | a :: l, n, h, rest => by
    have ih := blocks_get l n (fun x hx => h x (by simp [hx])) rest
    have ha := h a (by simp)
    rw [List.length_cons, List.range_succ_eq_map, List.map_cons, List.map_map]
    congr 1
    · rw [List.flatten_cons, Nat.zero_mul, List.drop_zero, List.append_assoc, List.take_append, List.take_of_length_le (by omega), ha,
        Nat.sub_self, List.take_zero, List.append_nil]
    · refine Eq.trans (List.map_congr_left (fun i _ => ?_)) ih
      show ((((a :: l).flatten ++ rest).drop ((i + 1) * n)).take n) = _
      rw [List.flatten_cons, List.append_assoc, List.drop_append, List.drop_of_length_le (by rw [ha, Nat.succ_mul]; omega), ha,
        List.nil_append]
      congr 2
      rw [Nat.succ_mul]; omega

theorem blocks_take : ∀ (l : List Bytes) (n k : Nat), (∀ x ∈ l, x.length = n) → l.flatten.take (k * n) = (l.take k).flatten
  | [], n, k, _ => by simp
  | a :: l, n, 0, _ => by simp
  | a :: l, n, k + 1, h => by
    have ha := h a (by simp)
    rw [List.take_succ_cons, List.flatten_cons, List.flatten_cons, ← blocks_take l n k (fun x hx => h x (by simp [hx])),
      List.take_append, List.take_of_length_le (by rw [ha, Nat.succ_mul]; omega), ha]
    congr 2
    rw [Nat.succ_mul]; omega

theorem le_take {w n : Nat} (h : n < 256 ^ w) (rest : Bytes) : leNat ((leBytes w n ++ rest).take w) = n := by
  rw [List.take_append, List.take_of_length_le (by rw [leBytes_length]; omega), leBytes_length, Nat.sub_self, List.take_zero, List.append_nil]
  exact leNat_leBytes_of_lt h

theorem le_drop {w n : Nat} (rest : Bytes) : (leBytes w n ++ rest).drop w = rest := by
  rw [List.drop_append, List.drop_of_length_le (by rw [leBytes_length]; omega), leBytes_length, Nat.sub_self, List.drop_zero, List.nil_append]

/-- The medoid files, as written. -/
theorem loadMedoids_files {files : KV} {pre : Bytes} {dim : Nat} {ids : List Nat} {rows : Bytes} (hd : dim < 2 ^ 20)
    (hi : ∀ x ∈ ids, x < 2 ^ 32) (hn : ids.length < 2 ^ 31) (hr : rows.length = 4 * (ids.length * dim))
    (h1 : files.get (pre ++ str "_medoids") = some (LaserFiles.fbin ids.length dim rows))
    (h2 : files.get (pre ++ str "_medoids_indices") = some (LaserFiles.medoidIds ids)) :
    loadMedoids files pre dim = some (some (ids, rows)) := by
  unfold loadMedoids
  rw [h1, h2]
  simp only
  unfold LaserFiles.fbin LaserFiles.medoidIds
  have e1 : sext ids.length = ids.length := by unfold sext; rw [if_pos hn]
  have e2 : sext 1 = 1 := by decide
  have hmul : ids.length * dim < 2 ^ 51 := by
    have : ids.length * dim < 2 ^ 31 * 2 ^ 20 := Nat.mul_lt_mul'' hn hd
    simpa using this
  rw [if_neg (by simp only [List.length_append, leBytes_length]; omega), List.append_assoc, List.append_assoc,
    le_take (by omega), le_drop, le_take (by decide), e1, e2, Nat.mul_one, Nat.mod_eq_of_lt (by rw [U64_eq]; omega),
    if_neg (by unfold maxSize; omega), if_neg (by simp only [List.length_append, leBytes_length]; omega), le_take (by omega), le_drop]
  rw [if_neg (by omega)]
  have e3 : leNat (fill 4 (leBytes 4 dim ++ rows)) = dim := by
    rw [fill_exact (by simp only [List.length_append, leBytes_length]; omega)]
    exact le_take (by omega) _
  rw [e3, if_neg (by omega), e1, Nat.mod_eq_of_lt (by rw [U64_eq]; omega), if_neg (by unfold maxSize; omega)]
  have e4 : (leBytes 4 ids.length ++ (leBytes 4 1 ++ ids.flatMap (leBytes 4))).drop 8 = ids.flatMap (leBytes 4) := by
    rw [show 8 = 4 + 4 from rfl, ← List.drop_drop, le_drop, le_drop]
  have e5 : (leBytes 4 ids.length ++ (leBytes 4 dim ++ rows)).drop 8 = rows := by
    rw [show 8 = 4 + 4 from rfl, ← List.drop_drop, le_drop, le_drop]
  rw [e4, e5, fill_exact (by rw [le4_length]; omega), List.take_of_length_le (by rw [le4_length]; omega), words_le ids hi,
    fill_exact (by omega), List.take_of_length_le (by omega)]

/-- The PCA file, as written. -/
theorem loadPca_file {files : KV} {pre : Bytes} {n : Nat} {mean matrix : Bytes} (hn : n < 2 ^ 20) (hm : mean.length = 4 * n)
    (hx : matrix.length = 4 * (n * n)) (h : files.get (pre ++ str "_pca.bin") = some (LaserFiles.pca n mean matrix)) :
    loadPca files pre = some (some (some ⟨n, mean, matrix⟩)) := by
  unfold loadPca
  rw [h]
  simp only
  unfold LaserFiles.pca
  have hmul : n * n < 2 ^ 40 := by
    have : n * n < 2 ^ 20 * 2 ^ 20 := Nat.mul_lt_mul'' hn hn
    simpa using this
  rw [if_neg (by simp only [List.length_append, leBytes_length]; omega), List.append_assoc, le_take (by omega), le_drop,
    if_neg (by unfold maxSize; omega), Nat.mod_eq_of_lt (by rw [U64_eq]; omega), if_neg (by unfold maxSize; omega),
    fill_exact (by simp only [List.length_append]; omega), List.take_append, List.take_of_length_le (by omega), hm, Nat.sub_self,
    List.take_zero, List.append_nil, List.drop_append, List.drop_of_length_le (by omega), hm, Nat.sub_self, List.drop_zero, List.nil_append,
    fill_exact (by omega), List.take_of_length_le (by omega)]

theorem zip_range : ∀ (l : List Nat) (bs : List Bytes), l.length = bs.length →
    (List.range l.length).map (fun j => (l.getD j 0, bs.getD j [])) = l.zip bs
  | [], [], _ => rfl
  | [], _ :: _, h => by simp at h
  | _ :: _, [], h => by simp at h
  | a :: l, b :: bs, h => by
    rw [List.length_cons, List.range_succ_eq_map, List.map_cons, List.map_map]
    congr 1
    exact zip_range l bs (by simpa using h)

/-- The cache files, as written: the first nodes that the budget allows. -/
theorem loadCache_files {E : Env} {files : KV} {idx : Bytes} {nodeLen count budget j : Nat} {ids : List Nat} {nodes : List Bytes}
    (hj : E.online budget nodeLen count = some j) (hi : ∀ x ∈ ids, x < 2 ^ 32) (hk : ids.length < 2 ^ 64) (hl : nodes.length = ids.length)
    (hn : ∀ x ∈ nodes, x.length = nodeLen) (h1 : files.get (idx ++ str "_cache_ids") = some (LaserFiles.cacheIds ids))
    (h2 : files.get (idx ++ str "_cache_nodes") = some (LaserFiles.cacheNodes nodeLen nodes)) :
    loadCache E files idx nodeLen count budget = some ((ids.zip nodes).take j) := by
  unfold loadCache
  rw [hj, h1, h2]
  simp only
  unfold LaserFiles.cacheIds LaserFiles.cacheNodes
  rw [if_neg (by simp only [List.length_append, leBytes_length]; omega), List.append_assoc, le_take (by omega), le_take (by omega), le_drop, hl,
    Nat.min_self]
  have e4 : (leBytes 8 ids.length ++ (leBytes 8 nodeLen ++ nodes.flatten)).drop 16 = nodes.flatten := by
    rw [show 16 = 8 + 8 from rfl, ← List.drop_drop, le_drop, le_drop]
  rw [e4]
  generalize hnum : min j ids.length = num
  have hb := blocks_length nodes nodeLen hn
  have hle : num * nodeLen ≤ nodes.flatten.length := by rw [hb]; exact Nat.mul_le_mul_right _ (by omega)
  rw [fill_exact (by rw [le4_length]; omega), fill_exact hle, le4_take, blocks_take nodes nodeLen num hn]
  have t1 : (ids.take num).length = num := by rw [List.length_take]; omega
  have t2 : (nodes.take num).length = num := by rw [List.length_take]; omega
  have w := words_le (ids.take num) (fun x hx => hi x (List.mem_of_mem_take hx))
  rw [t1] at w
  rw [w]
  have g := blocks_get (nodes.take num) nodeLen (fun x hx => hn x (List.mem_of_mem_take hx)) []
  rw [t2, List.append_nil] at g
  have hz : (ids.zip nodes).take j = (ids.take num).zip (nodes.take num) := by
    show (List.zipWith Prod.mk ids nodes).take j = List.zipWith Prod.mk (ids.take num) (nodes.take num)
    rw [← hnum, List.take_zipWith]
    by_cases hj : j ≤ ids.length
    · rw [Nat.min_eq_left hj]
    · rw [Nat.min_eq_right (by omega), List.take_of_length_le (by omega), List.take_of_length_le (by omega),
        List.take_of_length_le (by omega), List.take_of_length_le (by omega)]
  rw [hz, ← zip_range _ _ (by rw [t1, t2]), t1]
  congr 1
  refine List.map_congr_left (fun i hi' => ?_)
  have hi' := List.mem_range.1 hi'
  congr 1
  have := congrArg (fun l : List Bytes => l.getD i []) g
  rw [← this, List.getD_eq_getElem?_getD, List.getElem?_map, List.getElem?_range hi']
  rfl

/-- Native files in the layouts of their writers. -/
structure Written (files : KV) (pre : Bytes) (R md dim entry : Nat) (index rot : Bytes) (med : Option (List Nat × Bytes)) (pca : Option Pca)
    (ids : List Nat) (nodes : List Bytes) : Prop where
  hIndex : files.get (indexName pre R md) = some index
  hSector : 4096 ≤ index.length
  hEntry : (index.drop 16).take 8 = leBytes 8 entry ∧ entry < 2 ^ 32
  hRot : files.get (indexName pre R md ++ str "_rotator") = some rot ∧ rot.length = 4 * md
  hMedIds : files.get (pre ++ str "_medoids_indices") = med.map (fun x => LaserFiles.medoidIds x.1)
  hMedRows : files.get (pre ++ str "_medoids") = med.map (fun x => LaserFiles.fbin x.1.length dim x.2)
  hMed : ∀ x, med = some x → (∀ i ∈ x.1, i < 2 ^ 32) ∧ x.1.length < 2 ^ 31 ∧ x.2.length = 4 * (x.1.length * dim)
  hPcaFile : files.get (pre ++ str "_pca.bin") = pca.map (fun x => LaserFiles.pca x.dim x.mean x.matrix)
  hPca : ∀ x, pca = some x → x.dim < 2 ^ 20 ∧ x.mean.length = 4 * x.dim ∧ x.matrix.length = 4 * (x.dim * x.dim)
  hCacheIds : files.get (indexName pre R md ++ str "_cache_ids") = some (LaserFiles.cacheIds ids)
  hIds : (∀ i ∈ ids, i < 2 ^ 32) ∧ ids.length < 2 ^ 64
  hCacheNodes : files.get (indexName pre R md ++ str "_cache_nodes") = some (LaserFiles.cacheNodes ((32 * dim + 128 * R + R * md) / 8) nodes)
  hNodes : nodes.length = ids.length ∧ ∀ x ∈ nodes, x.length = (32 * dim + 128 * R + R * md) / 8

/-- Files as their writers leave them are loaded exactly: the entry point, the signs, medoids, PCA, and the first cached nodes
that the memory budget allows. -/
theorem C91_native (E : Env) (files : KV) (pre : Bytes) (R md dim entry count b j : Nat) (index rot : Bytes)
    (med : Option (List Nat × Bytes)) (pca : Option Pca) (ids : List Nat) (nodes : List Bytes)
    (hmd : md ∈ [64, 128, 256, 512, 1024, 2048]) (hd : dim < 2 ^ 20) (hw : Written files pre R md dim entry index rot med pca ids nodes)
    (hj : E.online b ((32 * dim + 128 * R + R * md) / 8) count = some j) :
    loadNative E files pre R md dim count b = some (some ⟨entry, (32 * dim + 128 * R + R * md) / 8, index, rot, (med.map (·.1)).getD [],
      (med.map (·.2)).getD [], pca, (ids.zip nodes).take j⟩) := by
  have e1 : loadMedoids files pre dim = some (some ((med.map (·.1)).getD [], (med.map (·.2)).getD [])) := by
    cases hmed : med with
    | none =>
      have h1 := hw.hMedIds
      have h2 := hw.hMedRows
      rw [hmed] at h1 h2
      unfold loadMedoids
      rw [h1, h2]
      rfl
    | some x =>
      have h1 := hw.hMedIds
      have h2 := hw.hMedRows
      rw [hmed] at h1 h2
      obtain ⟨g1, g2, g3⟩ := hw.hMed x hmed
      exact loadMedoids_files hd g1 g2 g3 h2 h1
  have e2 : loadPca files pre = some (some pca) := by
    cases hp : pca with
    | none =>
      have h1 := hw.hPcaFile
      rw [hp] at h1
      unfold loadPca
      rw [h1]
      rfl
    | some x =>
      have h1 := hw.hPcaFile
      rw [hp] at h1
      obtain ⟨g1, g2, g3⟩ := hw.hPca x hp
      exact loadPca_file g1 g2 g3 h1
  have e3 := loadCache_files (files := files) (idx := indexName pre R md) hj hw.hIds.1 hw.hIds.2 hw.hNodes.1 hw.hNodes.2 hw.hCacheIds hw.hCacheNodes
  unfold loadNative
  rw [if_neg (by rw [List.contains_iff_mem.2 hmd]; simp)]
  simp only
  rw [hw.hIndex]
  simp only
  rw [e1]
  simp only
  rw [e2]
  simp only
  rw [e3]
  simp only
  have hs := hw.hSector
  have e4 : ((fill 4096 index).drop 16).take 8 = leBytes 8 entry := by
    rw [fill_exact hs, List.drop_take, List.take_take, ← hw.hEntry.1]
    rfl
  have he := hw.hEntry.2
  rw [e4, leNat_leBytes_of_lt (by omega), Nat.mod_eq_of_lt he, hw.hRot.1]
  simp only [Option.getD_some]
  rw [List.take_of_length_le (by rw [hw.hRot.2]; omega)]

/-! ### Undefined behaviour -/

/-- The loader is defined on sources without files of one to seven bytes. -/
theorem loadNative_defined {E : Env} {files : KV} {pre : Bytes} {R md dim count b : Nat}
    (h8 : ∀ n c, files.get n = some c → c = [] ∨ 8 ≤ c.length) (hE : (E.online b ((32 * dim + 128 * R + R * md) / 8) count).isSome = true)
    (hr : ∀ a ∈ required (indexName pre R md), ∃ c, files.get a.1 = some c ∧ c ≠ []) (ho : OptionalOk files pre) :
    loadNative E files pre R md dim count b ≠ none := by
  have len8 : ∀ n c, files.get n = some c → c ≠ [] → 8 ≤ c.length := by
    intro n c h1 h2
    rcases h8 n c h1 with h | h
    · exact absurd h h2
    · exact h
  have h1 : loadMedoids files pre dim ≠ none := by
    unfold loadMedoids
    cases hv : files.get (pre ++ str "_medoids") with
    | none => simp
    | some v =>
      cases hi : files.get (pre ++ str "_medoids_indices") with
      | none => simp
      | some i =>
        have := len8 _ i hi (by
          rintro rfl
          exact ho (pre ++ str "_medoids_indices", str "x_laser_medoids_indices_file") (by simp [optional]) hi)
        simp only
        rw [if_neg (by omega)]
        split
        · simp
        · split
          · simp
          · split
            · simp
            · split
              · simp
              · split <;> simp
  have h2 : loadPca files pre ≠ none := by
    unfold loadPca
    cases hv : files.get (pre ++ str "_pca.bin") with
    | none => simp
    | some v =>
      have := len8 _ v hv (by
        rintro rfl
        exact ho (pre ++ str "_pca.bin", str "x_laser_pca_file") (by simp [optional]) hv)
      simp only
      rw [if_neg (by omega)]
      split
      · simp
      · split <;> simp
  have h3 : loadCache E files (indexName pre R md) ((32 * dim + 128 * R + R * md) / 8) count b ≠ none := by
    obtain ⟨k, hk⟩ := Option.isSome_iff_exists.1 hE
    obtain ⟨i, hi, hi0⟩ := hr (indexName pre R md ++ str "_cache_ids", str "x_laser_cache_ids_file") (by simp [required])
    obtain ⟨n, hn, hn0⟩ := hr (indexName pre R md ++ str "_cache_nodes", str "x_laser_cache_nodes_file") (by simp [required])
    have := len8 _ i hi hi0
    have := len8 _ n hn hn0
    unfold loadCache
    simp only at hi hn
    rw [hk, hi, hn]
    simp only
    rw [if_neg (by omega)]
    simp
  unfold loadNative
  split
  · simp
  · simp only
    split
    · simp
    · split
      · rename_i h; exact absurd h h1
      · simp
      · split
        · rename_i h; exact absurd h h2
        · simp
        · split
          · rename_i h; exact absurd h h3
          · simp

/-- An import from a source without files of one to seven bytes, with a memory budget that converts, is defined, whatever the
fault and whatever else the files hold. -/
theorem C91_defined {E : Env} (hE : TextOk E) (src : KV) (labels : List Nat) (tmp : Bytes) (ht : ¬ SegName tmp) (f : Fault) (d : Disk)
    (m : Mem) (h8 : ∀ n c, src.get n = some c → c = [] ∨ 8 ≤ c.length) (hb : ∀ b len n, (E.online b len n).isSome = true) :
    importSeg E src labels tmp f d m ≠ none := by
  unfold importSeg
  cases hpl : plan E src labels tmp d m with
  | none => simp
  | some q =>
    obtain ⟨p, pl, hq⟩ := (plan_iff _ _ _ _ _ _ _).1 hpl
    have hname : q.name = nextName m := by rw [hq]; rfl
    have hne : tmp ≠ q.name := fun e => ht (by rw [e, hname]; exact pl.valid)
    obtain ⟨_, s2, _⟩ := run_seg d tmp pl.tmp q hne (by rw [hname]; exact pl.fresh)
    have hopen : openSeg E ((d.run (segSteps tmp q)).dir q.name) ≠ none := by
      intro hn
      have s2' : Complete (planOf E src labels m p) (d.run (segSteps tmp q)) := by
        have h := s2
        rw [hq] at h ⊢
        exact h
      rw [hname] at hn
      obtain ⟨n1, n2, n3, b, n4⟩ := open_needs hE pl s2' (by rw [hn]; simp)
      rw [open_built hE pl s2' n1 n2 n3 n4] at hn
      have hl := loadNative_defined (E := E) (dim := m.man.dim % 4294967296) (count := labels.length) (b := b) h8 (hb _ _ _) pl.files n3
      cases ho : loadNative E src (prefixOf (formatSegmentId m.man.next)) p.R (m.man.dim % 4294967296) (m.man.dim % 4294967296) labels.length b with
      | none => exact hl ho
      | some x => rw [ho] at hn; cases hn
    simp only
    split
    · simp
    · split
      · rename_i h; exact absurd h hopen
      · simp
      · split <;> simp

end Alaya.LaserSeg
