import Verif.Lemmas.LaserBuildFile
import Verif.Props.C91Native

/-! C92: the out-of-core build of a native LASER index. -/
namespace Alaya.LaserBuild
open Alaya Alaya.Spec

/-- What the file holds for a node: nothing for a node without neighbours. -/
def imageOf (G : Geo) (Q : Quant) (vecs : Nat → Bytes) (g : List (List Nat)) (i : Nat) : Bytes :=
  let nbs := g.getD i []
  if nbs = [] then List.replicate G.nodeLen 0
  else nodeImage G.R (G.R * (G.md / 8)) (vecs i) (Q.codes (vecs i) (nbs.map vecs)) (Q.triple (vecs i) (nbs.map vecs)) (Q.dq (vecs i) (nbs.map vecs))
    (Q.vq (vecs i) (nbs.map vecs)) nbs

theorem vec_length (dim : Nat) (base : Bytes) (i : Nat) : (vec dim base i).length = 4 * dim := by
  unfold vec
  simp only [List.length_append, List.length_replicate, List.length_take]
  omega

theorem nodeImage_length {G : Geo} (hG : GeoOk G) {Q : Quant} (hQ : QuantOk G Q) {c : Bytes} (hc : c.length = 4 * G.dim) {xs : List Bytes} {nbs : List Nat}
    (hx : xs.length = nbs.length) (hR : nbs.length ≤ G.R) :
    (nodeImage G.R (G.R * (G.md / 8)) c (Q.codes c xs) (Q.triple c xs) (Q.dq c xs) (Q.vq c xs) nbs).length = G.nodeLen := by
  obtain ⟨q, g1, g2, _⟩ := geo_eqs hG
  have h1 : (Q.codes c xs).length ≤ G.R * (G.md / 8) := by
    rw [hQ.codes]
    refine Nat.mul_le_mul_right _ ?_
    have := hG.hR
    omega
  unfold nodeImage
  simp only [List.length_append]
  rw [pad_length h1, pad_length (by rw [hQ.triple]; omega), pad_length (by rw [hQ.dq]; omega), pad_length (by rw [hQ.vq]; omega),
    pad_length (by rw [le4_len]; omega)]
  omega

theorem imageOf_length {G : Geo} (hG : GeoOk G) {Q : Quant} (hQ : QuantOk G Q) {vecs : Nat → Bytes} {g : List (List Nat)} {i : Nat}
    (hv : (vecs i).length = 4 * G.dim) (hg : (g.getD i []).length ≤ G.R) : (imageOf G Q vecs g i).length = G.nodeLen := by
  unfold imageOf
  simp only
  split
  · rw [List.length_replicate]
  · exact nodeImage_length hG hQ hv (by rw [List.length_map]) hg

theorem getD_mem {g : List (List Nat)} {P : List Nat → Prop} (h : ∀ a ∈ g, P a) (h0 : P []) (i : Nat) : P (g.getD i []) := by
  rw [List.getD_eq_getElem?_getD]
  cases hx : g[i]? with
  | none => exact h0
  | some a => exact h a (List.mem_of_getElem? hx)

def metas (G : Geo) (start : Nat) : List Nat := [G.n, G.md, start, G.nodeLen, G.perPage, 0, 0, 0, G.pageSize * G.pages + 4096]

theorem header_eq (G : Geo) (start : Nat) : header G start = pad 4096 ((metas G start).flatMap (leBytes 8)) := by
  unfold header pad metas sector
  congr 2

theorem header_length (G : Geo) (start : Nat) : (header G start).length = sector := by
  rw [header_eq, pad_length] <;> simp [metas, sector]

/-- The build on any base file with the right dimension, with any graph of at most `n` nodes. -/
theorem build_any {G : Geo} (hG : GeoOk G) {Q : Quant} (hQ : QuantOk G Q) {g : List (List Nat)} {maxDeg start frozen : Nat} (hn : G.n < 2 ^ 32)
    (hgn : g.length ≤ G.n) (hs : start < 2 ^ 32) (hR : G.R < 2 ^ 32) (hg : ∀ a ∈ g, a.length ≤ G.R ∧ ∀ x ∈ a, x < G.n)
    (hsz : 24 + (g.flatMap Vamana.encRec).length < 2 ^ 64) {base : Bytes} (hb : 8 ≤ base.length) (hd : leNat ((base.drop 4).take 4) = G.dim)
    {ord : List Nat} (ho : ord.Perm (List.range G.n)) (rot : Bytes) {order : List Nat} {cached : Nat} (hc : ∀ x ∈ order.take cached, x < G.n) :
    build G Q (Vamana.graphFile g maxDeg start frozen) base rot ord order cached =
      some (some ⟨indexImage G.n G.perPage G.pageSize (metas G start) (imageOf G Q (vec G.dim base) g), rot, LaserFiles.cacheIds (order.take cached),
        LaserFiles.cacheNodes G.nodeLen ((order.take cached).map (imageOf G Q (vec G.dim base) g))⟩) := by
  have hv := vec_length G.dim base
  have hlen : ∀ i < G.n, (imageOf G Q (vec G.dim base) g i).length = G.nodeLen := fun i _ =>
    imageOf_length hG hQ (hv i) (getD_mem (fun a ha => (hg a ha).1) (Nat.zero_le _) i)
  unfold build
  rw [init_file hn hgn hs (fun a ha => ⟨by have := (hg a ha).1; omega, (hg a ha).2⟩) hsz]
  simp only
  rw [if_neg (by rw [hd]; simp; omega)]
  have hnl := nodeLen_pos hG
  obtain ⟨s, h1, h2⟩ := pages_file hnl hlen (header_length G start) ho
  have hcongr : loop G (fun i => nodeBytes G Q (vec G.dim base) i (((List.range G.n).map (fun i => g.getD i [])).getD i [])) ord ⟨header G start, []⟩ =
      loop G (fun i => some (imageOf G Q (vec G.dim base) g i)) ord ⟨header G start, []⟩ := by
    refine loop_congr _ _ (fun i hi => ?_)
    have hi : i < G.n := List.mem_range.1 (ho.mem_iff.1 hi)
    have e : ((List.range G.n).map (fun i => g.getD i [])).getD i [] = g.getD i [] := by
      rw [List.getD_eq_getElem?_getD, List.getElem?_map, List.getElem?_range hi]
      rfl
    rw [e]
    unfold imageOf
    simp only
    by_cases h0 : g.getD i [] = []
    · rw [if_pos h0]
      unfold nodeBytes
      rw [if_pos h0]
    · rw [if_neg h0]
      exact node_image hG hQ hv h0 (getD_mem (fun a ha => (hg a ha).1) (Nat.zero_le _) i) i
  rw [hcongr, h1]
  simp only
  rw [h2]
  have hcut : (order.take cached).map (cutNode G (header G start ++ (List.range G.pages).flatMap
      (pageImage G.n G.perPage G.pageSize (imageOf G Q (vec G.dim base) g)))) = (order.take cached).map (imageOf G Q (vec G.dim base) g) :=
    List.map_congr_left (fun i hi => cut_node hnl hlen (header_length G start) (hc i hi))
  rw [hcut, header_eq]
  rfl

/-! ### The claim -/

/-- Inputs of a build: a graph over `n` points in which every node has between one and `R` neighbours, and as many vectors. -/
structure Inputs (G : Geo) (g : List (List Nat)) (start : Nat) (vs : List Bytes) : Prop where
  hn : 0 < G.n ∧ G.n < 2 ^ 32
  hR : G.R < 2 ^ 32
  hd : G.dim < 2 ^ 32
  hlen : g.length = G.n
  hstart : start < G.n
  hg : ∀ a ∈ g, a ≠ [] ∧ a.length ≤ G.R ∧ ∀ x ∈ a, x < G.n
  hsize : 24 + (g.flatMap Vamana.encRec).length < 2 ^ 64
  hvs : vs.length = G.n ∧ ∀ v ∈ vs, v.length = 4 * G.dim

/-- A node of the finished index. -/
def nodeOf (G : Geo) (Q : Quant) (g : List (List Nat)) (vs : List Bytes) (i : Nat) : Bytes :=
  let v := vs.getD i []
  let nbs := g.getD i []
  let xs := nbs.map (fun j => vs.getD j [])
  nodeImage G.R (G.R * (G.md / 8)) v (Q.codes v xs) (Q.triple v xs) (Q.dq v xs) (Q.vq v xs) nbs

theorem flatten_cut {w : Nat} : ∀ {vs : List Bytes}, (∀ v ∈ vs, v.length = w) → ∀ {i : Nat}, i < vs.length → (vs.flatten.drop (w * i)).take w = vs.getD i []
  | [], _, i, h => by simp at h
  | v :: vs, hv, 0, _ => by
    have := hv v (by simp)
    rw [List.flatten_cons, Nat.mul_zero, List.drop_zero, List.take_append, List.take_of_length_le (by omega), this, Nat.sub_self, List.take_zero,
      List.append_nil]
    rfl
  | v :: vs, hv, i + 1, h => by
    have h1 := hv v (by simp)
    rw [List.flatten_cons, List.drop_append, List.drop_of_length_le (by rw [h1, Nat.mul_succ]; omega), List.nil_append, h1,
      show w * (i + 1) - w = w * i by rw [Nat.mul_succ]; omega]
    exact flatten_cut (fun v hv' => hv v (by simp [hv'])) (by simpa using h)

theorem vec_file {dim n : Nat} {vs : List Bytes} (hv : ∀ v ∈ vs, v.length = 4 * dim) {i : Nat} (hi : i < vs.length) :
    vec dim (LaserFiles.fbin n dim vs.flatten) i = vs.getD i [] := by
  unfold vec LaserFiles.fbin
  have e : (leBytes 4 n ++ leBytes 4 dim ++ vs.flatten).drop (8 + 4 * dim * i) = vs.flatten.drop (4 * dim * i) := by
    rw [← List.drop_drop, List.drop_left' (by simp only [List.length_append, leBytes_length])]
  rw [e]
  simp only
  rw [flatten_cut hv hi]
  have : (vs.getD i []).length = 4 * dim := by
    rw [List.getD_eq_getElem?_getD, List.getElem?_eq_getElem hi]
    exact hv _ (List.getElem_mem hi)
  rw [this, Nat.sub_self, List.replicate_zero, List.append_nil]

theorem base_head {n dim : Nat} (hd : dim < 2 ^ 32) (rows : Bytes) :
    8 ≤ (LaserFiles.fbin n dim rows).length ∧ leNat (((LaserFiles.fbin n dim rows).drop 4).take 4) = dim := by
  unfold LaserFiles.fbin
  refine ⟨by simp only [List.length_append, leBytes_length]; omega, ?_⟩
  rw [List.append_assoc, List.drop_left' (leBytes_length 4 _), List.take_left' (leBytes_length 4 _), leNat_leBytes_of_lt (by omega)]

theorem image_eq {G : Geo} {Q : Quant} {g : List (List Nat)} {start : Nat} {vs : List Bytes} (h : Inputs G g start vs) {i : Nat} (hi : i < G.n) :
    imageOf G Q (vec G.dim (LaserFiles.fbin G.n G.dim vs.flatten)) g i = nodeOf G Q g vs i := by
  have hmem : g.getD i [] ∈ g := by
    rw [List.getD_eq_getElem?_getD, List.getElem?_eq_getElem (by rw [h.hlen]; exact hi)]
    exact List.getElem_mem _
  obtain ⟨h1, h2, h3⟩ := h.hg _ hmem
  unfold imageOf nodeOf
  simp only
  rw [if_neg h1, vec_file h.hvs.2 (by rw [h.hvs.1]; exact hi)]
  have e : (g.getD i []).map (vec G.dim (LaserFiles.fbin G.n G.dim vs.flatten)) = (g.getD i []).map (fun j => vs.getD j []) :=
    List.map_congr_left (fun j hj => vec_file h.hvs.2 (by rw [h.hvs.1]; exact h3 j hj))
  rw [e]

/-- The build ends with the file that the layout prescribes, whatever the order in which the threads hand their nodes over. -/
theorem C92_build {G : Geo} (hG : GeoOk G) {Q : Quant} (hQ : QuantOk G Q) {g : List (List Nat)} {start : Nat} {vs : List Bytes}
    (h : Inputs G g start vs) (maxDeg frozen : Nat) (rot : Bytes) {ord order : List Nat} (ho : ord.Perm (List.range G.n))
    (hs : order.Perm (List.range G.n)) (cached : Nat) :
    build G Q (Vamana.graphFile g maxDeg start frozen) (LaserFiles.fbin G.n G.dim vs.flatten) rot ord order cached =
      some (some ⟨indexImage G.n G.perPage G.pageSize [G.n, G.md, start, G.nodeLen, G.perPage, 0, 0, 0, G.pageSize * G.pages + 4096] (nodeOf G Q g vs), rot,
        LaserFiles.cacheIds (order.take cached), LaserFiles.cacheNodes G.nodeLen ((order.take cached).map (nodeOf G Q g vs))⟩) := by
  have hlt : ∀ x ∈ order.take cached, x < G.n := fun x hx => List.mem_range.1 (hs.mem_iff.1 (List.mem_of_mem_take hx))
  obtain ⟨b1, b2⟩ := base_head (n := G.n) h.hd vs.flatten
  have hst := h.hstart
  have hn := h.hn
  rw [build_any hG hQ h.hn.2 (by rw [h.hlen]; omega) (by omega) h.hR (fun a ha => (h.hg a ha).2) h.hsize b1 b2 ho rot hlt]
  have e1 : (order.take cached).map (imageOf G Q (vec G.dim (LaserFiles.fbin G.n G.dim vs.flatten)) g) = (order.take cached).map (nodeOf G Q g vs) :=
    List.map_congr_left (fun i hi => image_eq h (hlt i hi))
  have e2 : indexImage G.n G.perPage G.pageSize (metas G start) (imageOf G Q (vec G.dim (LaserFiles.fbin G.n G.dim vs.flatten)) g) =
      indexImage G.n G.perPage G.pageSize (metas G start) (nodeOf G Q g vs) := by
    have key : ∀ p, pageImage G.n G.perPage G.pageSize (imageOf G Q (vec G.dim (LaserFiles.fbin G.n G.dim vs.flatten)) g) p =
        pageImage G.n G.perPage G.pageSize (nodeOf G Q g vs) p := by
      intro p
      unfold pageImage
      congr 1
      rw [List.flatMap_def, List.flatMap_def]
      congr 1
      refine List.map_congr_left (fun j hj => image_eq h ?_)
      have := Nat.lt_min.1 (List.mem_range.1 hj)
      omega
    unfold indexImage
    congr 1
    rw [List.flatMap_def, List.flatMap_def]
    congr 1
    exact List.map_congr_left (fun p _ => key p)
  rw [e1, e2]
  rfl

theorem nodeOf_length {G : Geo} (hG : GeoOk G) {Q : Quant} (hQ : QuantOk G Q) {g : List (List Nat)} {start : Nat} {vs : List Bytes}
    (h : Inputs G g start vs) {i : Nat} (hi : i < G.n) : (nodeOf G Q g vs i).length = G.nodeLen := by
  rw [← image_eq h hi]
  refine imageOf_length hG hQ (vec_length _ _ _) (getD_mem (fun a ha => (h.hg a ha).2.1) (Nat.zero_le _) i)

/-- Nodes that fit into a sector share one, as many as it holds; larger ones have a page of their own, the least number of sectors. -/
theorem C92_pages {G : Geo} (h : 0 < G.nodeLen) : (G.nodeLen ≤ 4096 → G.pageSize = 4096 ∧ G.perPage = 4096 / G.nodeLen) ∧
    (4096 < G.nodeLen → G.perPage = 1 ∧ G.nodeLen ≤ G.pageSize ∧ G.pageSize < G.nodeLen + 4096 ∧ 4096 ∣ G.pageSize) := by
  unfold Geo.pageSize Geo.perPage sector
  constructor
  · intro hs
    have h1 : 1 ≤ 4096 / G.nodeLen := (Nat.one_le_div_iff h).mpr hs
    have h2 : 4096 / G.nodeLen * G.nodeLen ≤ 4096 := Nat.div_mul_le_self _ _
    have h3 : 0 < 4096 / G.nodeLen * G.nodeLen := Nat.mul_pos h1 h
    rw [Nat.max_eq_right h1]
    omega
  · intro hs
    rw [Nat.div_eq_of_lt hs, Nat.max_eq_left (by decide)]
    refine ⟨rfl, by omega, by omega, Nat.dvd_mul_left _ _⟩

/-- The file has the size that its first sector records. -/
theorem C92_size {G : Geo} (hG : GeoOk G) {Q : Quant} (hQ : QuantOk G Q) {g : List (List Nat)} {start : Nat} {vs : List Bytes}
    (h : Inputs G g start vs) (ms : List Nat) (hm : ms.length ≤ 512) :
    (indexImage G.n G.perPage G.pageSize ms (nodeOf G Q g vs)).length = G.pageSize * G.pages + 4096 := by
  unfold indexImage
  have e : (ms.flatMap (leBytes 8)).length = 8 * ms.length := by rw [Alaya.DiskColl2.flatMap_le_length, Nat.mul_comm]
  rw [List.length_append, pad_length (by rw [e]; omega), Nat.add_comm, Nat.mul_comm G.pageSize]
  congr 1
  exact range_length (fun p _ => pageImage_length (fun i hi => nodeOf_length hG hQ h hi) p)

/-- Reading the page of a node and cutting it at the slot gives that node. -/
theorem C92_node {G : Geo} (hG : GeoOk G) {Q : Quant} (hQ : QuantOk G Q) {g : List (List Nat)} {start : Nat} {vs : List Bytes}
    (h : Inputs G g start vs) (ms : List Nat) (hm : ms.length ≤ 512) {i : Nat} (hi : i < G.n) :
    cutNode G (indexImage G.n G.perPage G.pageSize ms (nodeOf G Q g vs)) i = nodeOf G Q g vs i := by
  have e : (ms.flatMap (leBytes 8)).length = 8 * ms.length := by rw [Alaya.DiskColl2.flatMap_le_length, Nat.mul_comm]
  exact cut_node (nodeLen_pos hG) (fun i hi => nodeOf_length hG hQ h hi) (pad_length (w := 4096) (by rw [e]; omega)) hi

/-- A node decoded: its vector, and `R` ids, the neighbours first and zeros after them. -/
theorem C92_decode {G : Geo} (hG : GeoOk G) {Q : Quant} (hQ : QuantOk G Q) {g : List (List Nat)} {start : Nat} {vs : List Bytes}
    (h : Inputs G g start vs) {i : Nat} (hi : i < G.n) : (nodeOf G Q g vs i).take (4 * G.dim) = vs.getD i [] ∧
      Vamana.decU32s G.R ((nodeOf G Q g vs i).drop G.nbOff) = g.getD i [] ++ List.replicate (G.R - (g.getD i []).length) 0 := by
  obtain ⟨q, g1, g2, g3, g4⟩ := geo_eqs hG
  have hv : (vs.getD i []).length = 4 * G.dim := by
    rw [List.getD_eq_getElem?_getD, List.getElem?_eq_getElem (by rw [h.hvs.1]; exact hi)]
    exact h.hvs.2 _ (List.getElem_mem _)
  have hmem : g.getD i [] ∈ g := by
    rw [List.getD_eq_getElem?_getD, List.getElem?_eq_getElem (by rw [h.hlen]; exact hi)]
    exact List.getElem_mem _
  obtain ⟨h1, h2, h3⟩ := h.hg _ hmem
  have hn := h.hn
  unfold nodeOf nodeImage
  simp only
  refine ⟨List.take_left' hv, ?_⟩
  generalize hxs : (g.getD i []).map (fun j => vs.getD j []) = xs
  have hx : xs.length = (g.getD i []).length := by rw [← hxs, List.length_map]
  have hc : (Q.codes (vs.getD i []) xs).length ≤ G.R * (G.md / 8) := by
    rw [hQ.codes]
    refine Nat.mul_le_mul_right _ ?_
    have := hG.hR
    omega
  have hnb : G.nbOff = 4 * G.dim + (8 * q + (4 * G.R + (4 * G.R + 4 * G.R))) := by unfold Geo.nbOff; rw [g3]; omega
  rw [hnb, ← List.drop_drop, List.drop_left' hv, ← List.drop_drop, List.drop_left' (by rw [pad_length hc, g1]), ← List.drop_drop,
    List.drop_left' (pad_length (by rw [hQ.triple]; omega)), ← List.drop_drop, List.drop_left' (pad_length (by rw [hQ.dq]; omega)),
    List.drop_left' (pad_length (by rw [hQ.vq]; omega))]
  have hz : ∀ k, List.replicate (4 * k) (0 : UInt8) = Vamana.encU32s (List.replicate k 0) := by
    intro k
    induction k with
    | zero => rfl
    | succ k ih =>
      rw [List.replicate_succ]
      unfold Vamana.encU32s at ih ⊢
      rw [List.flatMap_cons, ← ih, show 4 * (k + 1) = 4 + 4 * k by omega, List.replicate_add]
      rfl
  have hp : pad (4 * G.R) ((g.getD i []).flatMap (leBytes 4)) = Vamana.encU32s (g.getD i [] ++ List.replicate (G.R - (g.getD i []).length) 0) := by
    unfold pad
    rw [le4_len, show 4 * G.R - 4 * (g.getD i []).length = 4 * (G.R - (g.getD i []).length) by omega, hz]
    unfold Vamana.encU32s
    rw [List.flatMap_append]
  have hl : (g.getD i [] ++ List.replicate (G.R - (g.getD i []).length) 0).length = G.R := by
    rw [List.length_append, List.length_replicate]; omega
  have := Vamana.decU32s_enc (g.getD i [] ++ List.replicate (G.R - (g.getD i []).length) 0) (fun x hx => by
    rcases List.mem_append.1 hx with hx | hx
    · have := h3 x hx; omega
    · have := List.eq_of_mem_replicate hx; omega) []
  rw [hl, List.append_nil] at this
  rw [hp, this]

/-- A graph file cut short is refused. -/
theorem C92_truncated {G : Geo} (Q : Quant) {g : List (List Nat)} {start : Nat} {vs : List Bytes} (h : Inputs G g start vs) (maxDeg frozen j : Nat)
    (hj : j < (Vamana.graphFile g maxDeg start frozen).length) (base rot : Bytes) (ord order : List Nat) (cached : Nat) :
    build G Q ((Vamana.graphFile g maxDeg start frozen).take j) base rot ord order cached = some none := by
  have hR := h.hR
  have := init_short (R := maxDeg) (start := start) (frozen := frozen) (by rw [h.hlen]; exact h.hn.2)
    (fun a ha => ⟨by have := (h.hg a ha).2.1; omega, fun x hx => by rw [h.hlen]; exact (h.hg a ha).2.2 x hx⟩) h.hsize hj
  rw [h.hlen] at this
  unfold build
  rw [this]

/-- The cached nodes are distinct and none that is left out has more incoming edges. -/
theorem C92_cache {n : Nat} (g : List (List Nat)) {order : List Nat} (hp : order.Perm (List.range n))
    (hs : order.Pairwise (fun a b => inDegree g b ≤ inDegree g a)) {cached : Nat} (hc : cached ≤ n) :
    (order.take cached).length = cached ∧ (order.take cached).Nodup ∧
      ∀ x ∈ order.take cached, ∀ y < n, y ∉ order.take cached → inDegree g y ≤ inDegree g x := by
  refine ⟨by rw [List.length_take, hp.length_eq, List.length_range]; omega, ((hp.nodup_iff).2 List.nodup_range).sublist (List.take_sublist _ _), ?_⟩
  intro x hx y hy hny
  rw [← List.take_append_drop cached order, List.pairwise_append] at hs
  refine hs.2.2 x hx y ?_
  have : y ∈ order := hp.mem_iff.2 (List.mem_range.2 hy)
  rw [← List.take_append_drop cached order, List.mem_append] at this
  exact this.resolve_left hny

/-- The files of a build, in the names of a segment, are loaded with the graph's entry point, the index itself, the signs, and
cached nodes that are those of the index. -/
theorem C92_import {G : Geo} (hG : GeoOk G) {Q : Quant} (hQ : QuantOk G Q) {g : List (List Nat)} {start : Nat} {vs : List Bytes}
    (h : Inputs G g start vs) (hmd : G.md ∈ [64, 128, 256, 512, 1024, 2048]) (hdim : G.dim < 2 ^ 20) {maxDeg frozen : Nat} {rot : Bytes} (hrot : rot.length = 4 * G.md)
    {ord order : List Nat} (ho : ord.Perm (List.range G.n)) (hs : order.Perm (List.range G.n)) {cached : Nat} {b : Built}
    (hb : build G Q (Vamana.graphFile g maxDeg start frozen) (LaserFiles.fbin G.n G.dim vs.flatten) rot ord order cached = some (some b))
    (E : LaserSeg.Env) (files : KV) (pre : Bytes) (f1 : files.get (LaserSeg.indexName pre G.R G.md) = some b.index)
    (f2 : files.get (LaserSeg.indexName pre G.R G.md ++ str "_rotator") = some b.rotator)
    (f3 : files.get (LaserSeg.indexName pre G.R G.md ++ str "_cache_ids") = some b.cacheIds)
    (f4 : files.get (LaserSeg.indexName pre G.R G.md ++ str "_cache_nodes") = some b.cacheNodes)
    (f5 : files.get (pre ++ str "_medoids") = none) (f6 : files.get (pre ++ str "_medoids_indices") = none) (f7 : files.get (pre ++ str "_pca.bin") = none)
    (count budget j : Nat) (hj : E.online budget G.nodeLen count = some j) :
    ∃ nodes, LaserSeg.loadNative E files pre G.R G.md G.dim count budget = some (some ⟨start, G.nodeLen, b.index, rot, [], [], none, nodes⟩) ∧
      nodes = ((order.take cached).take j).map (fun i => (i, cutNode G b.index i)) := by
  rw [C92_build hG hQ h maxDeg frozen rot ho hs cached] at hb
  injection hb with hb
  injection hb with hb
  subst hb
  simp only at f1 f2 f3 f4
  have hst := h.hstart
  have hn := h.hn
  have hlt : ∀ x ∈ order.take cached, x < G.n := fun x hx => List.mem_range.1 (hs.mem_iff.1 (List.mem_of_mem_take hx))
  have hw : LaserSeg.Written files pre G.R G.md G.dim start (indexImage G.n G.perPage G.pageSize
      [G.n, G.md, start, G.nodeLen, G.perPage, 0, 0, 0, G.pageSize * G.pages + 4096] (nodeOf G Q g vs)) rot none none (order.take cached)
      ((order.take cached).map (nodeOf G Q g vs)) := by
    refine ⟨f1, ?_, ⟨?_, by omega⟩, ⟨f2, hrot⟩, by rw [f6]; rfl, by rw [f5]; rfl, (by simp), by rw [f7]; rfl, (by simp), f3,
      ⟨fun i hi => by have := hlt i hi; omega, ?_⟩, f4, ⟨by rw [List.length_map], ?_⟩⟩
    · rw [C92_size hG hQ h _ (by simp)]; omega
    · unfold indexImage pad
      simp only [List.flatMap_cons, List.append_assoc]
      rw [show 16 = 8 + 8 from rfl, ← List.drop_drop, List.drop_left' (leBytes_length 8 _), List.drop_left' (leBytes_length 8 _),
        List.take_left' (leBytes_length 8 _)]
    · have := List.length_take_le cached order
      have := (List.take_sublist cached order).length_le
      rw [hs.length_eq, List.length_range] at this
      omega
    · intro x hx
      obtain ⟨i, hi, rfl⟩ := List.mem_map.1 hx
      exact nodeOf_length hG hQ h (hlt i hi)
  refine ⟨_, LaserSeg.C91_native E files pre G.R G.md G.dim start count budget j _ rot none none _ _ hmd hdim hw hj, ?_⟩
  rw [List.zip_map_right, ← List.map_take]
  have : (order.take cached).zip (order.take cached) = (order.take cached).map (fun i => (i, i)) := by
    rw [← List.zip_map', List.map_id']
  rw [this, ← List.map_take, List.map_map]
  refine List.map_congr_left (fun i hi => ?_)
  show (i, nodeOf G Q g vs i) = _
  rw [C92_node hG hQ h _ (by simp) (hlt i (List.mem_of_mem_take hi))]

/-! ### Cases -/

/-- A quantiser with bytes of the right lengths. -/
def quant0 (md : Nat) : Quant where
  codes _ xs := List.replicate ((xs.length + 31) / 32 * 32 * (md / 8)) 255
  triple c xs := List.replicate (4 * xs.length) (c.getD 0 0)
  dq _ xs := List.replicate (4 * xs.length) 2
  vq _ xs := List.replicate (4 * xs.length) 3

theorem quant0_ok (G : Geo) : QuantOk G (quant0 G.md) := by
  constructor <;> intro c xs <;> exact List.length_replicate

def geo0 : Geo := ⟨6, 32, 64, 100⟩
def graph0 : List (List Nat) := [[1, 2], [0], [3, 4, 5], [0, 2], [5], [0, 1, 2, 3, 4]]
def vecs0 : List Bytes := (List.range 6).map (fun i => List.replicate 400 (UInt8.ofNat (i + 1)))

theorem geo0_ok : GeoOk geo0 := ⟨by decide, by decide, by decide⟩

theorem inputs0 : Inputs geo0 graph0 2 vecs0 := by
  refine ⟨by decide, by decide, by decide, by decide, by decide, by decide, by decide +kernel, by decide, ?_⟩
  intro v hv
  obtain ⟨i, _, rfl⟩ := List.mem_map.1 hv
  exact List.length_replicate

/-- Six points, three to a page: two pages, whatever the order. -/
example : geo0.nodeLen = 1168 ∧ geo0.perPage = 3 ∧ geo0.pages = 2 := by decide

example : ∃ b, build geo0 (quant0 64) (Vamana.graphFile graph0 32 2 0) (LaserFiles.fbin 6 100 vecs0.flatten) [] [5, 0, 3, 1, 4, 2] [2, 0, 3, 5, 4, 1] 2 =
    some (some b) ∧ b.index.length = 12288 ∧ (cutNode geo0 b.index 4).take 400 = List.replicate 400 5 ∧
      Vamana.decU32s 32 ((cutNode geo0 b.index 2).drop geo0.nbOff) = [3, 4, 5] ++ List.replicate 29 0 := by
  have h := C92_build geo0_ok (quant0_ok geo0) inputs0 32 0 [] (ord := [5, 0, 3, 1, 4, 2]) (order := [2, 0, 3, 5, 4, 1]) (by decide) (by decide) 2
  refine ⟨_, h, ?_, ?_, ?_⟩
  · simp only
    rw [C92_size geo0_ok (quant0_ok geo0) inputs0 _ (by simp)]
    decide
  · simp only
    rw [C92_node geo0_ok (quant0_ok geo0) inputs0 _ (by simp) (by decide)]
    refine (C92_decode geo0_ok (quant0_ok geo0) inputs0 (i := 4) (by decide)).1.trans rfl
  · simp only
    rw [C92_node geo0_ok (quant0_ok geo0) inputs0 _ (by simp) (by decide)]
    exact (C92_decode geo0_ok (quant0_ok geo0) inputs0 (i := 2) (by decide)).2

/-- The two nodes with most incoming edges. -/
example : [0, 2, 5, 3, 1, 4].Pairwise (fun a b => inDegree graph0 b ≤ inDegree graph0 a) := by decide

/-! ### What does not hold -/

/-- A point without neighbours in the graph loses its vector: an index over a single point holds zeros. -/
theorem C92_isolated_refuted : ¬ ∀ (G : Geo) (Q : Quant) (g : List (List Nat)) (vs : List Bytes) (b : Built), GeoOk G → QuantOk G Q → g.length = G.n →
    vs.length = G.n → (∀ v ∈ vs, v.length = 4 * G.dim) → (∀ a ∈ g, a.length ≤ G.R ∧ ∀ x ∈ a, x < G.n) →
    build G Q (Vamana.graphFile g G.R 0 0) (LaserFiles.fbin G.n G.dim vs.flatten) [] (List.range G.n) (List.range G.n) 0 = some (some b) →
    ∀ i < G.n, (cutNode G b.index i).take (4 * G.dim) = vs.getD i [] := by
  intro h
  have hG : GeoOk ⟨1, 32, 64, 64⟩ := ⟨by decide, by decide, by decide⟩
  have hQ := quant0_ok ⟨1, 32, 64, 64⟩
  obtain ⟨b1, b2⟩ := base_head (n := 1) (dim := 64) (by decide) [List.replicate 256 (1 : UInt8)].flatten
  have hb := build_any hG hQ (g := [[]]) (maxDeg := 32) (start := 0) (frozen := 0) (by decide) (by decide) (by decide) (by decide) (by decide) (by decide)
    b1 b2 (ord := List.range 1) (List.Perm.refl _) [] (order := List.range 1) (cached := 0) (by decide)
  have hx := h _ _ [[]] [List.replicate 256 1] _ hG hQ rfl rfl (by intro v hv; rw [List.mem_singleton] at hv; subst hv; exact List.length_replicate) (by decide) hb 0 (by decide)
  have hc := cut_node (G := ⟨1, 32, 64, 64⟩) (nodeLen_pos hG) (img := imageOf ⟨1, 32, 64, 64⟩ (quant0 64) (vec 64 (LaserFiles.fbin 1 64 [List.replicate 256 (1 : UInt8)].flatten)) [[]])
    (fun i _ => imageOf_length hG hQ (vec_length _ _ _) (getD_mem (P := fun a => a.length ≤ 32) (by decide) (Nat.zero_le _) i)) (header_length ⟨1, 32, 64, 64⟩ 0) (i := 0) (by decide)
  rw [header_eq] at hc
  have hx' := hx
  simp only at hx'
  unfold indexImage at hx'
  unfold Geo.pages at hc
  rw [hc] at hx'
  have : (imageOf ⟨1, 32, 64, 64⟩ (quant0 64) (vec 64 (LaserFiles.fbin 1 64 [List.replicate 256 (1 : UInt8)].flatten)) [[]] 0) = List.replicate 1024 0 := rfl
  rw [this] at hx'
  have := congrArg (fun l : Bytes => l.head?) hx'
  revert this
  decide

/-- The ids that a search reads for a node are not its neighbours: the unused slots lead to point 0. -/
theorem C92_edges_refuted : ¬ ∀ (G : Geo) (Q : Quant) (g : List (List Nat)) (start : Nat) (vs : List Bytes) (b : Built), GeoOk G → QuantOk G Q →
    Inputs G g start vs →
    build G Q (Vamana.graphFile g G.R start 0) (LaserFiles.fbin G.n G.dim vs.flatten) [] (List.range G.n) (List.range G.n) 0 = some (some b) →
    ∀ i < G.n, ∀ x ∈ Vamana.decU32s G.R ((cutNode G b.index i).drop G.nbOff), x ∈ g.getD i [] := by
  intro h
  have hb := C92_build geo0_ok (quant0_ok geo0) inputs0 32 0 [] (List.Perm.refl _) (List.Perm.refl _) 0
  have hx := h _ _ _ _ _ _ geo0_ok (quant0_ok geo0) inputs0 hb 2 (by decide)
  simp only at hx
  rw [C92_node geo0_ok (quant0_ok geo0) inputs0 _ (by simp) (by decide), (C92_decode geo0_ok (quant0_ok geo0) inputs0 (i := 2) (by decide)).2] at hx
  exact absurd (hx 0 (by decide)) (by decide)

/-- A vector file that ends early is not noticed: the missing vectors become zeros. -/
theorem C92_short_base_refuted : ¬ ∀ (G : Geo) (Q : Quant) (vamana base rot : Bytes) (ord order : List Nat) (cached : Nat) (b : Built), GeoOk G → QuantOk G Q →
    build G Q vamana base rot ord order cached = some (some b) → 8 + 4 * G.dim * G.n ≤ base.length := by
  intro h
  obtain ⟨b1, b2⟩ := base_head (n := 6) (dim := 100) (by decide) []
  have hb := build_any geo0_ok (quant0_ok geo0) (g := graph0) (maxDeg := 32) (start := 2) (frozen := 0) (by decide) (by decide) (by decide) (by decide) (by decide)
    inputs0.hsize b1 b2 (ord := List.range 6) (List.Perm.refl _) [] (order := List.range 6) (cached := 0) (by decide)
  exact absurd (h _ _ _ _ _ _ _ _ _ geo0_ok (quant0_ok geo0) hb) (by decide)

/-- A graph with fewer nodes than there are points is not noticed either. -/
theorem C92_few_nodes_refuted : ¬ ∀ (G : Geo) (Q : Quant) (g : List (List Nat)) (base rot : Bytes) (ord order : List Nat) (cached : Nat) (b : Built),
    GeoOk G → QuantOk G Q → build G Q (Vamana.graphFile g G.R 0 0) base rot ord order cached = some (some b) → g.length = G.n := by
  intro h
  obtain ⟨b1, b2⟩ := base_head (n := 6) (dim := 100) (by decide) []
  have hb := build_any geo0_ok (quant0_ok geo0) (g := [[1], [0]]) (maxDeg := 32) (start := 0) (frozen := 0) (by decide) (by decide) (by decide) (by decide) (by decide)
    (by decide) b1 b2 (ord := List.range 6) (List.Perm.refl _) [] (order := List.range 6) (cached := 0) (by decide)
  exact absurd (h _ _ _ _ _ _ _ _ _ geo0_ok (quant0_ok geo0) hb) (by decide)

/-- A graph file is not checked against the number of points: an id that is too large, a node too many and a neighbour too many
are memory errors. -/
theorem C92_graph_refuted : initFromVamana 2 (Vamana.graphFile [[1], [5]] 32 0 0) = none ∧
    initFromVamana 2 (Vamana.graphFile [[1], [0], [0]] 32 0 0) = none ∧
    ∀ (G : Geo) (Q : Quant) (vec : Nat → Bytes) (i : Nat) (nbs : List Nat), G.R < nbs.length → nodeBytes G Q vec i nbs = none := by
  refine ⟨by decide, by decide, ?_⟩
  intro G Q vec i nbs h
  unfold nodeBytes
  rw [if_neg (by rintro rfl; simp at h), if_pos h]

/-- With a degree bound that is not a multiple of 32 the codes of a node overwrite its neighbours. -/
theorem C92_degree_refuted : ¬ ∀ (G : Geo) (Q : Quant) (vec : Nat → Bytes) (i : Nat) (nbs : List Nat) (b : Bytes), G.md % 64 = 0 → 0 < G.R → 0 < G.dim →
    QuantOk G Q → (∀ i, (vec i).length = 4 * G.dim) → nbs ≠ [] → nbs.length ≤ G.R → nodeBytes G Q vec i nbs = some b →
    (Vamana.decU32s G.R (b.drop G.nbOff)).take nbs.length = nbs := by
  intro h
  have key : (nodeBytes ⟨4, 2, 64, 64⟩ (quant0 64) (fun _ => List.replicate 256 1) 0 [3]).any
      (fun b => !((Vamana.decU32s 2 (b.drop (Geo.nbOff ⟨4, 2, 64, 64⟩))).take 1 == [3])) = true := by decide +kernel
  cases hb : nodeBytes ⟨4, 2, 64, 64⟩ (quant0 64) (fun _ => List.replicate 256 1) 0 [3] with
  | none => rw [hb] at key; cases key
  | some b =>
    rw [hb] at key
    have := h _ _ _ _ _ b rfl (by decide) (by decide) (quant0_ok ⟨4, 2, 64, 64⟩) (fun _ => List.length_replicate) (by decide) (by decide) hb
    simp only [Option.any_some] at key
    rw [show [3].length = 1 from rfl] at this
    rw [this] at key
    simp at key

end Alaya.LaserBuild
