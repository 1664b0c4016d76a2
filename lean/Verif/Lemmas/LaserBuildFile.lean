import Verif.Lemmas.LaserBuild
import Verif.Spec.LaserIndex
import Verif.Lemmas.VamanaFile

/-! The file and the nodes of a LASER index, and reading the graph. -/
namespace Alaya.LaserBuild
open Alaya Alaya.Spec

theorem at_pad (w : Nat) (d : Bytes) (x : Nat) : (pad w d).getD x 0 = d.getD x 0 := by
  unfold pad
  rw [at_append, at_zeros]
  split
  · rfl
  · rw [at_ge (by omega)]

theorem pad_length {w : Nat} {d : Bytes} (h : d.length ≤ w) : (pad w d).length = w := by
  unfold pad
  rw [List.length_append, List.length_replicate]
  omega

theorem range_length {k : Nat} {f : Nat → Bytes} : ∀ {m : Nat}, (∀ i < m, (f i).length = k) → ((List.range m).flatMap f).length = m * k
  | 0, _ => by simp
  | m + 1, h => by
    rw [List.range_succ, List.flatMap_append, List.length_append, range_length (fun i hi => h i (by omega)), List.flatMap_singleton, h m (by omega),
      Nat.succ_mul]

theorem range_at {k : Nat} (hk : 0 < k) {f : Nat → Bytes} : ∀ {m : Nat}, (∀ i < m, (f i).length = k) → ∀ {x : Nat}, x < m * k →
    ((List.range m).flatMap f).getD x 0 = (f (x / k)).getD (x % k) 0
  | 0, _, x, hx => by omega
  | m + 1, h, x, hx => by
    have hl := range_length (f := f) (m := m) (k := k) (fun i hi => h i (by omega))
    rw [List.range_succ, List.flatMap_append, at_append, hl]
    rw [Nat.succ_mul] at hx
    by_cases hc : x < m * k
    · rw [if_pos hc]
      exact range_at hk (fun i hi => h i (by omega)) hc
    · rw [if_neg hc, List.flatMap_singleton]
      have e : x / k = m := Nat.div_eq_of_lt_le (by omega) (by rw [Nat.succ_mul]; omega)
      have := Nat.div_add_mod' x k
      rw [e] at this ⊢
      congr 1
      omega

theorem pageSize_pos {G : Geo} (h : 0 < G.nodeLen) : 0 < G.pageSize := by
  have := pageSize_ge G
  have := Nat.mul_pos (perPage_pos G) h
  omega

theorem pageImage_length {G : Geo} {img : Nat → Bytes} (hi : ∀ i < G.n, (img i).length = G.nodeLen) (p : Nat) :
    (pageImage G.n G.perPage G.pageSize img p).length = G.pageSize := by
  refine pad_length ?_
  rw [range_length (k := G.nodeLen) (fun j hj => hi _ (by omega))]
  refine Nat.le_trans (Nat.mul_le_mul_right _ (Nat.min_le_left _ _)) (pageSize_ge G)

theorem pageImage_at {G : Geo} (hnl : 0 < G.nodeLen) {img : Nat → Bytes} (hi : ∀ i < G.n, (img i).length = G.nodeLen) {all : List Nat}
    (hall : ∀ i, i ∈ all ↔ i < G.n) (p y : Nat) : (pageImage G.n G.perPage G.pageSize img p).getD y 0 = pageByte G img all p y := by
  unfold pageImage
  rw [at_pad]
  have hlen : ((List.range (min G.perPage (G.n - p * G.perPage))).flatMap (fun j => img (p * G.perPage + j))).length =
      min G.perPage (G.n - p * G.perPage) * G.nodeLen := range_length (fun j hj => hi _ (by omega))
  unfold pageByte
  by_cases hy : y < min G.perPage (G.n - p * G.perPage) * G.nodeLen
  · have hd : y / G.nodeLen < min G.perPage (G.n - p * G.perPage) := by rwa [Nat.div_lt_iff_lt_mul hnl]
    rw [range_at hnl (fun j hj => hi _ (by omega)) hy, if_pos ⟨(Nat.lt_min.1 hd).1, (hall _).2 (Nat.add_lt_of_lt_sub' (Nat.lt_min.1 hd).2)⟩]
  · have hd : ¬ y / G.nodeLen < min G.perPage (G.n - p * G.perPage) := by rwa [Nat.div_lt_iff_lt_mul hnl]
    rw [at_ge (by rw [hlen]; omega), if_neg (fun hc => hd (Nat.lt_min.2 ⟨hc.1, Nat.lt_sub_of_add_lt (by rw [Nat.add_comm]; exact (hall _).1 hc.2)⟩))]

/-- Whatever the order, the pages come out right. -/
theorem pages_file {G : Geo} (hnl : 0 < G.nodeLen) {img : Nat → Bytes} (hi : ∀ i < G.n, (img i).length = G.nodeLen) {hdr : Bytes} (hh : hdr.length = sector)
    {ord : List Nat} (ho : ord.Perm (List.range G.n)) : ∃ s, loop G (fun i => some (img i)) ord ⟨hdr, []⟩ = some s ∧
      flushRest G s = hdr ++ (List.range G.pages).flatMap (pageImage G.n G.perPage G.pageSize img) := by
  have hmem : ∀ i, i ∈ ord ↔ i < G.n := fun i => by rw [ho.mem_iff, List.mem_range]
  have hnd : ord.Nodup := ho.nodup_iff.2 List.nodup_range
  have hpp := perPage_pos G
  have hps := pageSize_pos hnl
  have h0 : Inv G img hdr [] ⟨hdr, []⟩ := by
    refine ⟨fun _ _ => rfl, ?_, Or.inl hh, ?_, ?_, List.nodup_nil, ?_⟩
    · intro p hp; exact absurd hp (by show 0 ≠ _; omega)
    · intro p hp; exact absurd hp (by show 0 ≠ _; omega)
    · intro a ha; cases ha
    · intro p hp; exact absurd hp (by show ¬ 0 < 0; omega)
  obtain ⟨s, h1, h2⟩ := loop_inv hnl ord [] ⟨hdr, []⟩ h0 (fun i hi' => hi i ((hmem i).1 hi')) (by simpa using hnd)
  rw [List.nil_append] at h2
  refine ⟨s, h1, ?_⟩
  have pages_lt : ∀ p, 0 < cnt G ord p ↔ p < G.pages := by
    intro p
    unfold cnt
    rw [List.length_pos_iff_exists_mem]
    unfold Geo.pages
    rw [Nat.lt_iff_add_one_le, Nat.le_div_iff_mul_le hpp, Nat.succ_mul]
    constructor
    · rintro ⟨i, hi'⟩
      rw [List.mem_filter, beq_iff_eq, hmem] at hi'
      have := Nat.div_add_mod' i G.perPage
      rw [hi'.2] at this
      omega
    · intro hp
      refine ⟨p * G.perPage, List.mem_filter.2 ⟨(hmem _).2 (by omega), ?_⟩⟩
      rw [beq_iff_eq]
      exact Nat.mul_div_cancel _ hpp
  obtain ⟨r1, r2, r3, r4, r5⟩ := rest_inv (G := G) (img := img) (hdr := hdr) (all := ord) s.asms s.file
    (fun a ha => ⟨(h2.asm a ha).1, (h2.asm a ha).2.2.2.2⟩) h2.head
  have hf : ∀ p < G.pages, (∃ a ∈ s.asms, a.page = p) ∨ cnt G ord p = G.perPage := by
    intro p hp
    by_cases hc : cnt G ord p = G.perPage
    · exact Or.inr hc
    · exact Or.inl (h2.open' p ((pages_lt p).2 hp) (by have := cnt_le (G := G) hnd p; omega))
  have hlen : (flushRest G s).length = sector + G.pages * G.pageSize := by
    have lt_le : ∀ p, p < G.pages → sector + (p + 1) * G.pageSize ≤ sector + G.pages * G.pageSize := by
      intro p hp
      have := Nat.mul_le_mul_right G.pageSize (show p + 1 ≤ G.pages from hp)
      omega
    have up : (flushRest G s).length ≤ sector + G.pages * G.pageSize := by
      unfold flushRest
      rcases r3 with r3 | ⟨a, ha, r3⟩
      · rw [r3]
        rcases h2.len' with h3 | ⟨p, h3, h4⟩
        · omega
        · rw [h4]; exact lt_le p ((pages_lt p).1 (by omega))
      · rw [r3]
        obtain ⟨_, g2, g3, _⟩ := h2.asm a ha
        exact lt_le a.page ((pages_lt _).1 (by omega))
    have low : sector + G.pages * G.pageSize ≤ (flushRest G s).length := by
      unfold flushRest
      cases hp : G.pages with
      | zero =>
        rcases h2.len' with h3 | ⟨p, h3, h4⟩
        · rw [Nat.zero_mul]; omega
        · rw [Nat.zero_mul, Nat.add_zero]; omega
      | succ q =>
        rcases hf q (by omega) with ⟨a, ha, hq⟩ | hq
        · have := r4 a ha
          rwa [hq] at this
        · have := h2.len q hq
          omega
    omega
  refine ext_at ?_ ?_
  · rw [hlen, List.length_append, hh, range_length (fun p _ => pageImage_length hi p)]
  · intro x hx
    rw [hlen] at hx
    rw [at_append, hh]
    by_cases hc : x < sector
    · rw [if_pos hc]
      exact r1 x hc
    · rw [if_neg hc]
      have hx' : x - sector < G.pages * G.pageSize := by omega
      rw [range_at hps (fun p _ => pageImage_length hi p) hx', pageImage_at hnl hi hmem]
      have hp : (x - sector) / G.pageSize < G.pages := by rwa [Nat.div_lt_iff_lt_mul hps]
      have hm := Nat.mod_lt (x - sector) hps
      have he := Nat.div_add_mod' (x - sector) G.pageSize
      have hpos : x = sector + (x - sector) / G.pageSize * G.pageSize + (x - sector) % G.pageSize := by omega
      have := r5 ((x - sector) / G.pageSize) (by
        rcases hf _ hp with h3 | h3
        · exact Or.inl h3
        · exact Or.inr (fun y hy => h2.pages _ h3 y hy)) ((x - sector) % G.pageSize) hm
      rw [← hpos] at this
      exact this

/-- A node read back from the file. -/
theorem cut_node {G : Geo} (hnl : 0 < G.nodeLen) {img : Nat → Bytes} (hi : ∀ i < G.n, (img i).length = G.nodeLen) {hdr : Bytes} (hh : hdr.length = sector)
    {i : Nat} (h : i < G.n) : cutNode G (hdr ++ (List.range G.pages).flatMap (pageImage G.n G.perPage G.pageSize img)) i = img i := by
  have hpp := perPage_pos G
  have hps := pageSize_pos hnl
  have hm := Nat.mod_lt i hpp
  have hd := Nat.div_add_mod' i G.perPage
  have hp : i / G.perPage < G.pages := by
    unfold Geo.pages
    rw [Nat.lt_iff_add_one_le, Nat.le_div_iff_mul_le hpp, Nat.succ_mul]
    omega
  have hle : (i / G.perPage + 1) * G.pageSize ≤ G.pages * G.pageSize := Nat.mul_le_mul_right _ hp
  have hsl : (i % G.perPage + 1) * G.nodeLen ≤ G.perPage * G.nodeLen := Nat.mul_le_mul_right _ hm
  have hge := pageSize_ge G
  rw [Nat.succ_mul] at hle hsl
  have hlen : (hdr ++ (List.range G.pages).flatMap (pageImage G.n G.perPage G.pageSize img)).length = sector + G.pages * G.pageSize := by
    rw [List.length_append, hh, range_length (fun p _ => pageImage_length hi p)]
  have hcomm : G.pageSize * (i / G.perPage) = i / G.perPage * G.pageSize := Nat.mul_comm _ _
  unfold cutNode Geo.pageOff Geo.slotOff
  refine ext_at ?_ ?_
  · rw [hi i h, List.length_take, List.length_drop, List.length_take, List.length_drop, hlen, hcomm]
    omega
  · intro x hx
    have hx : x < G.nodeLen := by
      have := List.length_take_le G.nodeLen ((((hdr ++ (List.range G.pages).flatMap (pageImage G.n G.perPage G.pageSize img)).drop (sector + G.pageSize * (i / G.perPage))).take G.pageSize).drop (i % G.perPage * G.nodeLen))
      omega
    rw [at_take, if_pos hx, at_drop, at_take, if_pos (by omega), at_drop, at_append, hh, if_neg (by omega), hcomm]
    have e1 : sector + i / G.perPage * G.pageSize + (i % G.perPage * G.nodeLen + x) - sector =
        i / G.perPage * G.pageSize + (i % G.perPage * G.nodeLen + x) := by omega
    rw [e1, range_at hps (fun p _ => pageImage_length hi p) (by omega)]
    have e2 : (i / G.perPage * G.pageSize + (i % G.perPage * G.nodeLen + x)) / G.pageSize = i / G.perPage :=
      Nat.div_eq_of_lt_le (by omega) (by rw [Nat.succ_mul]; omega)
    have e3 : (i / G.perPage * G.pageSize + (i % G.perPage * G.nodeLen + x)) % G.pageSize = i % G.perPage * G.nodeLen + x := by
      have := Nat.div_add_mod' (i / G.perPage * G.pageSize + (i % G.perPage * G.nodeLen + x)) G.pageSize
      rw [e2] at this
      omega
    rw [e2, e3, pageImage_at hnl hi (all := List.range G.n) (fun i => List.mem_range)]
    unfold pageByte
    have e4 : (i % G.perPage * G.nodeLen + x) / G.nodeLen = i % G.perPage := Nat.div_eq_of_lt_le (by omega) (by rw [Nat.succ_mul]; omega)
    have e5 : (i % G.perPage * G.nodeLen + x) % G.nodeLen = x := by
      have := Nat.div_add_mod' (i % G.perPage * G.nodeLen + x) G.nodeLen
      rw [e4] at this
      omega
    rw [e4, e5, hd, if_pos ⟨hm, List.mem_range.2 h⟩]

/-! ### Nodes -/

/-- A geometry in which the areas of a node line up. -/
structure GeoOk (G : Geo) : Prop where
  hR : G.R % 32 = 0
  hmd : G.md % 64 = 0
  hdim : 0 < G.dim

/-- Codes come in batches of 32, a bit for each main dimension; factors are floats. -/
structure QuantOk (G : Geo) (Q : Quant) : Prop where
  codes : ∀ c xs, (Q.codes c xs).length = (xs.length + 31) / 32 * 32 * (G.md / 8)
  triple : ∀ c xs, (Q.triple c xs).length = 4 * xs.length
  dq : ∀ c xs, (Q.dq c xs).length = 4 * xs.length
  vq : ∀ c xs, (Q.vq c xs).length = 4 * xs.length

theorem geo_eqs {G : Geo} (h : GeoOk G) : ∃ q, G.R * (G.md / 8) = 8 * q ∧ G.nodeLen = 4 * G.dim + 16 * G.R + 8 * q ∧
    G.factorOff = 4 * G.dim + 8 * q ∧ G.codeOff = 4 * G.dim := by
  obtain ⟨m, hm⟩ : ∃ m, G.md = 64 * m := ⟨G.md / 64, by have := h.hmd; omega⟩
  refine ⟨G.R * m, ?_, ?_, ?_, rfl⟩
  · rw [hm, show 64 * m / 8 = 8 * m by omega, Nat.mul_left_comm]
  · unfold Geo.nodeLen
    rw [hm, Nat.mul_left_comm]
    omega
  · unfold Geo.factorOff
    rw [hm, show 64 * m / 64 = m by omega, Nat.mul_comm (m * 2), Nat.mul_comm m 2, Nat.mul_left_comm]
    omega

theorem nodeLen_pos {G : Geo} (h : GeoOk G) : 0 < G.nodeLen := by
  obtain ⟨q, _, h2, _⟩ := geo_eqs h
  have := h.hdim
  omega

theorem le4_len (l : List Nat) : (l.flatMap (leBytes 4)).length = 4 * l.length := Vamana.encU32s_length l

/-- What the builder writes for a node with neighbours. -/
theorem node_image {G : Geo} (hG : GeoOk G) {Q : Quant} (hQ : QuantOk G Q) {vec : Nat → Bytes} (hv : ∀ i, (vec i).length = 4 * G.dim) {nbs : List Nat}
    (h0 : nbs ≠ []) (hR : nbs.length ≤ G.R) (i : Nat) : nodeBytes G Q vec i nbs = some (nodeImage G.R (G.R * (G.md / 8)) (vec i)
      (Q.codes (vec i) (nbs.map vec)) (Q.triple (vec i) (nbs.map vec)) (Q.dq (vec i) (nbs.map vec)) (Q.vq (vec i) (nbs.map vec)) nbs) := by
  obtain ⟨q, g1, g2, g3, g4⟩ := geo_eqs hG
  have hps := pageSize_ge G
  have hpp := perPage_pos G
  have hnl : G.nodeLen ≤ G.perPage * G.nodeLen := Nat.le_mul_of_pos_left _ hpp
  have hfp : G.fullPage ≤ G.pageSize := by
    unfold Geo.fullPage Geo.pageSize
    exact Nat.mul_le_mul_right _ (Nat.div_le_div_right (by unfold sector; omega))
  have hfp' : 4 * G.dim ≤ G.fullPage := by unfold Geo.fullPage sector; omega
  have hk : 4 * nbs.length ≤ 4 * G.R := by omega
  have hc : (Q.codes (vec i) (nbs.map vec)).length ≤ 8 * q := by
    rw [hQ.codes, List.length_map, ← g1]
    refine Nat.mul_le_mul_right _ ?_
    have := hG.hR
    omega
  have ht := hQ.triple (vec i) (nbs.map vec)
  have hd := hQ.dq (vec i) (nbs.map vec)
  have hvq := hQ.vq (vec i) (nbs.map vec)
  have hi := hv i
  have hids := le4_len nbs
  rw [List.length_map] at ht hd hvq
  unfold nodeBytes
  rw [if_neg h0, if_neg (by omega)]
  simp only
  rw [g1]
  have hnb : G.nbOff = 4 * G.dim + 8 * q + 12 * G.R := by unfold Geo.nbOff; rw [g3]
  rw [hnb, g3, g4]
  generalize Q.codes (vec i) (nbs.map vec) = codes at *
  generalize Q.triple (vec i) (nbs.map vec) = triple at *
  generalize Q.dq (vec i) (nbs.map vec) = dq at *
  generalize Q.vq (vec i) (nbs.map vec) = vq at *
  unfold nodeImage
  generalize nbs.flatMap (leBytes 4) = ids at *
  generalize vec i = c at *
  obtain ⟨b1, w1⟩ := write_some (buf := List.replicate G.pageSize 0) (off := 0) (d := c ++ List.replicate (G.fullPage - c.length) 0)
    (by simp only [List.length_append, List.length_replicate]; omega)
  obtain ⟨_, l1, a1⟩ := write_eq w1
  rw [List.length_replicate] at l1
  obtain ⟨b2, w2⟩ := write_some (buf := b1) (off := 4 * G.dim + 8 * q + 12 * G.R) (d := ids) (by omega)
  obtain ⟨_, l2, a2⟩ := write_eq w2
  obtain ⟨b3, w3⟩ := write_some (buf := b2) (off := 4 * G.dim) (d := codes) (by omega)
  obtain ⟨_, l3, a3⟩ := write_eq w3
  obtain ⟨b4, w4⟩ := write_some (buf := b3) (off := 4 * G.dim + 8 * q) (d := triple) (by omega)
  obtain ⟨_, l4, a4⟩ := write_eq w4
  obtain ⟨b5, w5⟩ := write_some (buf := b4) (off := 4 * G.dim + 8 * q + 4 * G.R) (d := dq) (by omega)
  obtain ⟨_, l5, a5⟩ := write_eq w5
  obtain ⟨b6, w6⟩ := write_some (buf := b5) (off := 4 * G.dim + 8 * q + 8 * G.R) (d := vq) (by omega)
  obtain ⟨_, l6, a6⟩ := write_eq w6
  rw [w1]; simp only
  rw [w2]; simp only
  rw [w3]; simp only
  rw [w4]; simp only
  rw [w5]; simp only
  rw [w6]; simp only
  congr 1
  have base : ∀ x, b1.getD x 0 = c.getD x 0 := by
    intro x
    rw [a1 x, at_zeros, at_append, at_zeros]
    by_cases hx : x < c.length
    · rw [if_pos (by simp only [List.length_append]; omega), Nat.sub_zero, if_pos hx]
    · rw [Nat.sub_zero, if_neg hx, at_ge (by omega)]
      simp
  refine ext_at ?_ (fun x hx => ?_)
  · simp only [List.length_append, List.length_take]
    rw [pad_length hc, pad_length (by omega), pad_length (by omega), pad_length (by omega), pad_length (by omega)]
    omega
  · rw [List.length_take] at hx
    have own : ∀ (d : Bytes) (off : Nat), off ≤ x → x ≥ c.length → (if off ≤ x ∧ x < off + d.length then d.getD (x - off) 0 else c.getD x 0) = d.getD (x - off) 0 := by
      intro d off h1 h2
      by_cases h3 : x < off + d.length
      · rw [if_pos ⟨h1, h3⟩]
      · rw [if_neg (by omega), at_ge h2, at_ge (by omega)]
    rw [at_take, if_pos (by omega), a6, a5, a4, a3, a2, base]
    simp only [at_append, at_pad, pad_length hc, pad_length (show triple.length ≤ 4 * G.R by omega), pad_length (show dq.length ≤ 4 * G.R by omega),
      pad_length (show vq.length ≤ 4 * G.R by omega)]
    by_cases r1 : x < 4 * G.dim
    · rw [if_pos (show x < c.length by omega), if_neg (by omega), if_neg (by omega), if_neg (by omega), if_neg (by omega), if_neg (by omega)]
    rw [if_neg (show ¬ x < c.length by omega)]
    by_cases r2 : x < 4 * G.dim + 8 * q
    · rw [if_pos (show x - c.length < 8 * q by omega), if_neg (by omega), if_neg (by omega), if_neg (by omega)]
      rw [if_neg (show ¬ (4 * G.dim + 8 * q + 12 * G.R ≤ x ∧ x < 4 * G.dim + 8 * q + 12 * G.R + ids.length) by omega), own _ _ (by omega) (by omega), hi]
    rw [if_neg (show ¬ x - c.length < 8 * q by omega)]
    by_cases r3 : x < 4 * G.dim + 8 * q + 4 * G.R
    · rw [if_pos (show x - c.length - 8 * q < 4 * G.R by omega), if_neg (by omega), if_neg (by omega)]
      rw [if_neg (show ¬ (4 * G.dim + 8 * q + 12 * G.R ≤ x ∧ x < 4 * G.dim + 8 * q + 12 * G.R + ids.length) by omega),
        if_neg (show ¬ (4 * G.dim ≤ x ∧ x < 4 * G.dim + codes.length) by omega), own _ _ (by omega) (by omega)]
      congr 1
      omega
    rw [if_neg (show ¬ x - c.length - 8 * q < 4 * G.R by omega)]
    have n3 : ¬ (4 * G.dim ≤ x ∧ x < 4 * G.dim + codes.length) := by omega
    have n4 : ¬ (4 * G.dim + 8 * q ≤ x ∧ x < 4 * G.dim + 8 * q + triple.length) := by omega
    rw [if_neg n3, if_neg n4]
    by_cases r4 : x < 4 * G.dim + 8 * q + 8 * G.R
    · rw [if_pos (show x - c.length - 8 * q - 4 * G.R < 4 * G.R by omega), if_neg (by omega)]
      rw [if_neg (show ¬ (4 * G.dim + 8 * q + 12 * G.R ≤ x ∧ x < 4 * G.dim + 8 * q + 12 * G.R + ids.length) by omega), own _ _ (by omega) (by omega)]
      congr 1
      omega
    rw [if_neg (show ¬ x - c.length - 8 * q - 4 * G.R < 4 * G.R by omega)]
    have n5 : ¬ (4 * G.dim + 8 * q + 4 * G.R ≤ x ∧ x < 4 * G.dim + 8 * q + 4 * G.R + dq.length) := by omega
    rw [if_neg n5]
    by_cases r5 : x < 4 * G.dim + 8 * q + 12 * G.R
    · rw [if_pos (show x - c.length - 8 * q - 4 * G.R - 4 * G.R < 4 * G.R by omega)]
      rw [if_neg (show ¬ (4 * G.dim + 8 * q + 12 * G.R ≤ x ∧ x < 4 * G.dim + 8 * q + 12 * G.R + ids.length) by omega), own _ _ (by omega) (by omega)]
      congr 1
      omega
    rw [if_neg (show ¬ x - c.length - 8 * q - 4 * G.R - 4 * G.R < 4 * G.R by omega)]
    have n6 : ¬ (4 * G.dim + 8 * q + 8 * G.R ≤ x ∧ x < 4 * G.dim + 8 * q + 8 * G.R + vq.length) := by omega
    rw [if_neg n6, own _ _ (by omega) (by omega)]
    congr 1
    omega

/-! ### The graph -/

/-- A graph file of at most `n` nodes with ids below `n`. -/
theorem read_nodes {n : Nat} (hn : n < 2 ^ 32) {expected : Nat} : ∀ (g : List (List Nat)) (got : List (List Nat)) (bytes fuel : Nat),
    (∀ a ∈ g, a.length < 2 ^ 32 ∧ ∀ x ∈ a, x < n) → got.length + g.length ≤ n → expected = bytes + (g.flatMap Vamana.encRec).length → g.length < fuel →
      readNodes n expected fuel bytes (g.flatMap Vamana.encRec) got = some (some (got ++ g))
  | [], got, bytes, fuel, _, _, he, hf => by
    obtain ⟨k, rfl⟩ : ∃ k, fuel = k + 1 := ⟨fuel - 1, by omega⟩
    unfold readNodes
    rw [if_pos (by simpa using he.symm)]
    simp
  | a :: g, got, bytes, fuel, hg, hl, he, hf => by
    obtain ⟨k, rfl⟩ : ∃ k, fuel = k + 1 := ⟨fuel - 1, by omega⟩
    obtain ⟨h1, h2⟩ := hg a (by simp)
    rw [List.flatMap_cons, List.length_append, Vamana.encRec_length h1] at he
    rw [List.length_cons] at hl hf
    have hr : (a :: g).flatMap Vamana.encRec = leBytes 4 a.length ++ (Vamana.encU32s a ++ g.flatMap Vamana.encRec) := by
      rw [List.flatMap_cons, Vamana.encRec_eq h1, List.append_assoc]
    rw [hr]
    unfold readNodes
    rw [if_neg (by omega), if_neg (by simp only [List.length_append, leBytes_length]; omega)]
    simp only
    rw [List.take_left' (leBytes_length 4 _), List.drop_left' (leBytes_length 4 _), leNat_leBytes_of_lt (by omega),
      if_neg (by simp only [List.length_append, Vamana.encU32s_length]; omega),
      Vamana.decU32s_enc _ (fun x hx => by have := h2 x hx; omega), List.drop_left' (Vamana.encU32s_length _)]
    rw [if_neg (by
      rw [Bool.not_eq_true, List.any_eq_false]
      intro x hx
      have := h2 x hx
      simpa using this), if_neg (by omega)]
    rw [read_nodes hn g (got ++ [a]) _ k (fun b hb => hg b (by simp [hb])) (by simp only [List.length_append, List.length_cons, List.length_nil]; omega) (by omega) (by omega)]
    simp

/-- The same file cut short. -/
theorem read_short {n : Nat} (hn : n < 2 ^ 32) {expected : Nat} : ∀ (g : List (List Nat)) (got : List (List Nat)) (bytes fuel j : Nat),
    (∀ a ∈ g, a.length < 2 ^ 32 ∧ ∀ x ∈ a, x < n) → got.length + g.length ≤ n → expected = bytes + (g.flatMap Vamana.encRec).length → j < 4 * fuel →
      j < (g.flatMap Vamana.encRec).length → readNodes n expected fuel bytes ((g.flatMap Vamana.encRec).take j) got = some none
  | [], got, bytes, fuel, j, _, _, he, hf, hj => by simp at hj
  | a :: g, got, bytes, fuel, j, hg, hl, he, hf, hj => by
    obtain ⟨k, rfl⟩ : ∃ k, fuel = k + 1 := ⟨fuel - 1, by omega⟩
    obtain ⟨h1, h2⟩ := hg a (by simp)
    rw [List.flatMap_cons, List.length_append, Vamana.encRec_length h1] at he hj
    rw [List.length_cons] at hl
    have hr : (a :: g).flatMap Vamana.encRec = leBytes 4 a.length ++ (Vamana.encU32s a ++ g.flatMap Vamana.encRec) := by
      rw [List.flatMap_cons, Vamana.encRec_eq h1, List.append_assoc]
    have hlen : (leBytes 4 a.length ++ (Vamana.encU32s a ++ g.flatMap Vamana.encRec)).length = 4 + (4 * a.length + (g.flatMap Vamana.encRec).length) := by
      simp only [List.length_append, leBytes_length, Vamana.encU32s_length]
    rw [hr]
    unfold readNodes
    rw [if_neg (by omega)]
    by_cases c1 : j < 4
    · rw [if_pos (by rw [List.length_take]; omega)]
    rw [if_neg (by rw [List.length_take]; omega)]
    simp only
    have e1 : List.take 4 (List.take j (leBytes 4 a.length ++ (Vamana.encU32s a ++ g.flatMap Vamana.encRec))) = leBytes 4 a.length := by
      rw [List.take_take, Nat.min_eq_left (by omega), List.take_left' (leBytes_length 4 _)]
    have e2 : List.drop 4 (List.take j (leBytes 4 a.length ++ (Vamana.encU32s a ++ g.flatMap Vamana.encRec))) =
        (Vamana.encU32s a ++ g.flatMap Vamana.encRec).take (j - 4) := by
      rw [List.drop_take, List.drop_left' (leBytes_length 4 _)]
    rw [e1, e2, leNat_leBytes_of_lt (by omega)]
    by_cases c2 : j - 4 < 4 * a.length
    · rw [if_pos (by rw [List.length_take]; omega)]
    rw [if_neg (by rw [List.length_take, List.length_append, Vamana.encU32s_length]; omega)]
    have e3 : (Vamana.encU32s a ++ g.flatMap Vamana.encRec).take (j - 4) = Vamana.encU32s a ++ (g.flatMap Vamana.encRec).take (j - 4 - 4 * a.length) := by
      rw [List.take_append, List.take_of_length_le (by rw [Vamana.encU32s_length]; omega), Vamana.encU32s_length]
    rw [e3, Vamana.decU32s_enc _ (fun x hx => by have := h2 x hx; omega), List.drop_left' (Vamana.encU32s_length _)]
    rw [if_neg (by
      rw [Bool.not_eq_true, List.any_eq_false]
      intro x hx
      have := h2 x hx
      simpa using this), if_neg (by omega)]
    exact read_short hn g (got ++ [a]) _ k _ (fun b hb => hg b (by simp [hb])) (by simp only [List.length_append, List.length_cons, List.length_nil]; omega)
      (by omega) (by omega) (by omega)

theorem getD_range (g : List (List Nat)) : (List.range g.length).map (fun i => g.getD i []) = g := by
  refine List.ext_getElem (by simp) (fun i h1 h2 => ?_)
  simp [h2]

/-- The graph as the Vamana builder saved it; missing nodes are without neighbours. -/
theorem init_file {n : Nat} {g : List (List Nat)} {R start frozen : Nat} (hn : n < 2 ^ 32) (hgn : g.length ≤ n) (hs : start < 2 ^ 32)
    (hg : ∀ a ∈ g, a.length < 2 ^ 32 ∧ ∀ x ∈ a, x < n) (hsz : 24 + (g.flatMap Vamana.encRec).length < 2 ^ 64) :
    initFromVamana n (Vamana.graphFile g R start frozen) = some (some ⟨start, (List.range n).map (fun i => g.getD i [])⟩) := by
  obtain ⟨f1, f2, f3, f4, f5, f6⟩ := Vamana.graphFile_fields g R start frozen
  have hlen : g.length ≤ (g.flatMap Vamana.encRec).length := by
    have := Vamana.flatMap_encRec_length g (fun a ha => ⟨(hg a ha).1, fun x hx => by have := (hg a ha).2 x hx; omega⟩)
    omega
  unfold initFromVamana
  rw [if_neg (by omega), f2, leNat_leBytes_of_lt (by omega), f6, f4, leNat_leBytes_of_lt (by omega),
    read_nodes hn g [] 24 _ hg (by simpa using hgn) rfl (by omega)]
  simp only [List.nil_append]

/-- A graph file cut short is refused. -/
theorem init_short {g : List (List Nat)} {R start frozen j : Nat} (hn : g.length < 2 ^ 32)
    (hg : ∀ a ∈ g, a.length < 2 ^ 32 ∧ ∀ x ∈ a, x < g.length) (hsz : 24 + (g.flatMap Vamana.encRec).length < 2 ^ 64)
    (hj : j < (Vamana.graphFile g R start frozen).length) :
    initFromVamana g.length ((Vamana.graphFile g R start frozen).take j) = some none := by
  obtain ⟨f1, f2, f3, f4, f5, f6⟩ := Vamana.graphFile_fields g R start frozen
  have hlen : g.length * 4 ≤ (g.flatMap Vamana.encRec).length :=
    Vamana.flatMap_encRec_length g (fun a ha => ⟨(hg a ha).1, fun x hx => by have := (hg a ha).2 x hx; omega⟩)
  unfold initFromVamana
  rw [List.length_take]
  by_cases c1 : j < 24
  · rw [if_pos (by omega)]
  rw [if_neg (by omega), List.take_take, Nat.min_eq_left (by omega), f2, leNat_leBytes_of_lt (by omega), List.drop_take, f6]
  rw [read_short hn g [] 24 _ _ hg (by simp) rfl (by omega) (by omega)]

end Alaya.LaserBuild
