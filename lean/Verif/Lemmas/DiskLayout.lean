import Verif.Model.DiskLayout
import Verif.Lemmas.SeqStorage

namespace Alaya.DiskLayout
open Alaya.DiskSlots (Out)
open Alaya.Seq (memWrite slice memWrite_eq)

/-! ### Slices -/

theorem slice_add (b : Bytes) (o m n : Nat) : slice b o (m + n) = slice b o m ++ slice b (o + m) n := by
  unfold slice
  rw [List.take_add, List.drop_drop]

theorem slice_append_left {a b : Bytes} {o n : Nat} (h : o + n ≤ a.length) : slice (a ++ b) o n = slice a o n := by
  unfold slice
  rw [List.drop_append_of_le_length (by omega), List.take_append_of_le_length (by rw [List.length_drop]; omega)]

theorem slice_append_right (a b : Bytes) (o n : Nat) : slice (a ++ b) (a.length + o) n = slice b o n := by
  unfold slice
  rw [← List.drop_drop, List.drop_append_of_le_length (Nat.le_refl _), List.drop_length, List.nil_append]

theorem slice_take {b : Bytes} {p s o n : Nat} (h : o + n ≤ s) : slice ((b.drop p).take s) o n = slice b (p + o) n := by
  unfold slice
  rw [List.drop_take, List.drop_drop, List.take_take, Nat.min_eq_left (by omega)]

/-! ### 32-bit values -/

theorem le32s_length (xs : List (BitVec 32)) : (le32s xs).length = xs.length * 4 := by
  unfold le32s
  induction xs with
  | nil => rfl
  | cons x xs ih => rw [List.flatMap_cons, List.length_append, ih, List.length_cons, leBytes_length]; omega

theorem get32s_le32s : ∀ (xs : List (BitVec 32)) (rest : Bytes), get32s xs.length (le32s xs ++ rest) = xs
  | [], _ => rfl
  | x :: xs, rest => by
    have e : le32s (x :: xs) = leBytes 4 x.toNat ++ le32s xs := by unfold le32s; rw [List.flatMap_cons]
    rw [e, List.append_assoc]
    simp only [List.length_cons, get32s]
    rw [List.take_append_of_le_length (by simp), List.drop_append_of_le_length (by simp)]
    rw [List.take_of_length_le (by simp), List.drop_of_length_le (by simp), List.nil_append, get32s_le32s xs rest]
    rw [leNat_leBytes_of_lt (by have := x.isLt; omega), BitVec.ofNat_toNat, BitVec.setWidth_eq]

/-- The bytes of a record, without the padding. -/
def recBytes (coords nbrs : List (BitVec 32)) : Bytes := le32s coords ++ (leBytes 4 nbrs.length ++ le32s nbrs)

theorem recBytes_length (coords nbrs : List (BitVec 32)) : (recBytes coords nbrs).length = coords.length * 4 + 4 + nbrs.length * 4 := by
  unfold recBytes
  simp only [List.length_append, le32s_length, leBytes_length]
  omega

/-- The record is stored at `off`. -/
def Holds (b : Bytes) (off : Nat) (coords nbrs : List (BitVec 32)) : Prop :=
  slice b off (coords.length * 4 + 4 + nbrs.length * 4) = recBytes coords nbrs

theorem Holds.prefix {b : Bytes} {off : Nat} {coords nbrs : List (BitVec 32)} (h : Holds b off coords nbrs) :
    ∃ rest, b.drop off = recBytes coords nbrs ++ rest ∧ off + (coords.length * 4 + 4 + nbrs.length * 4) ≤ b.length := by
  refine ⟨(b.drop off).drop (coords.length * 4 + 4 + nbrs.length * 4), ?_, ?_⟩
  · rw [← h]; unfold slice; rw [List.take_append_drop]
  · have := congrArg List.length h
    rw [recBytes_length] at this
    unfold slice at this
    rw [List.length_take, List.length_drop] at this
    omega

theorem views_of_holds {b : Bytes} {off dim : Nat} {coords nbrs : List (BitVec 32)} (h : Holds b off coords nbrs)
    (hd : coords.length = dim) (hdim : dim * 4 < 2 ^ 64) (hn : nbrs.length < 2 ^ 32) :
    viewCoords b off dim = .ok coords ∧ viewCount b off dim = .ok nbrs.length ∧ viewNbrs b off dim = .ok nbrs := by
  obtain ⟨rest, e, hl⟩ := h.prefix
  have hw : dim * 4 % U64 = dim * 4 := by rw [U64_eq]; exact Nat.mod_eq_of_lt hdim
  unfold recBytes at e
  have e1 : b.drop (off + dim * 4) = leBytes 4 nbrs.length ++ (le32s nbrs ++ rest) := by
    rw [← List.drop_drop, e, List.append_assoc, List.drop_append_of_le_length (by rw [le32s_length, hd]; omega),
      List.drop_of_length_le (by rw [le32s_length, hd]; omega), List.nil_append, List.append_assoc]
  have e2 : b.drop (off + dim * 4 + 4) = le32s nbrs ++ rest := by
    rw [← List.drop_drop, e1, List.drop_append_of_le_length (by simp), List.drop_of_length_le (by simp), List.nil_append]
  have hc : viewCount b off dim = .ok nbrs.length := by
    unfold viewCount
    rw [hw, if_neg (by omega), e1, List.take_append_of_le_length (by simp), List.take_of_length_le (by simp),
      leNat_leBytes_of_lt (by omega)]
  refine ⟨?_, hc, ?_⟩
  · unfold viewCoords
    rw [if_neg (by omega), e, List.append_assoc, ← hd, get32s_le32s]
  · unfold viewNbrs
    rw [hc]
    simp only
    rw [hw, if_neg (by omega), e2, get32s_le32s]

/-- Packing stores the record and changes nothing outside of it. -/
theorem packNode_spec {page : Bytes} {off dim : Nat} {coords nbrs : List (BitVec 32)} (hc : dim ≤ coords.length)
    (hdim : dim * 4 < 2 ^ 64) (h : off + (dim * 4 + 4 + nbrs.length * 4) ≤ page.length) :
    ∃ p, packNode page off coords nbrs dim = .ok p ∧ p.length = page.length ∧ Holds p off (coords.take dim) nbrs ∧
      ∀ o n, o + n ≤ off ∨ off + (dim * 4 + 4 + nbrs.length * 4) ≤ o → slice p o n = slice page o n := by
  have hw : dim * 4 % U64 = dim * 4 := by rw [U64_eq]; exact Nat.mod_eq_of_lt hdim
  have htk : (coords.take dim).length = dim := by rw [List.length_take]; omega
  have hl1 : (le32s (coords.take dim)).length = dim * 4 := by rw [le32s_length, htk]
  obtain ⟨p1, e1, l1, s1, k1⟩ := memWrite_eq (data := page) (bs := le32s (coords.take dim)) (off := off) (by rw [hl1]; omega)
  rw [hl1] at s1 k1
  obtain ⟨p2, e2, l2, s2, k2⟩ := memWrite_eq (data := p1) (bs := leBytes 4 nbrs.length) (off := off + dim * 4) (by rw [leBytes_length, l1]; omega)
  rw [leBytes_length] at s2 k2
  have hl3 := le32s_length nbrs
  obtain ⟨p3, e3, l3, s3, k3⟩ := memWrite_eq (data := p2) (bs := le32s nbrs) (off := off + dim * 4 + 4) (by rw [hl3, l2, l1]; omega)
  rw [hl3] at s3 k3
  unfold packNode
  rw [if_neg (by omega), e1]
  simp only
  rw [hw, e2]
  simp only
  by_cases hn : 0 < nbrs.length
  · rw [if_pos hn, e3]
    refine ⟨p3, rfl, by omega, ?_, ?_⟩
    · unfold Holds recBytes
      rw [htk, slice_add, slice_add, ← Nat.add_assoc, s3, k3 _ _ (Or.inl (by omega)), k3 _ _ (Or.inl (by omega)), s2,
        k2 _ _ (Or.inl (by omega)), s1, List.append_assoc]
    · intro o n ho
      rw [k3 o n (by omega), k2 o n (by omega), k1 o n (by omega)]
  · rw [if_neg hn]
    have hz : nbrs = [] := List.eq_nil_of_length_eq_zero (by omega)
    refine ⟨p2, rfl, by omega, ?_, ?_⟩
    · unfold Holds recBytes
      subst hz
      have hz0 : slice p2 (off + (dim * 4 + 4)) 0 = [] := by unfold slice; rw [List.take_zero]
      rw [htk, slice_add, slice_add, s2, k2 _ _ (Or.inl (by omega)), s1, List.append_assoc]
      show _ ++ (_ ++ slice p2 (off + (dim * 4 + 4)) 0) = _
      rw [hz0]
      rfl
    · intro o n ho
      rw [k2 o n (by omega), k1 o n (by omega)]

/-! ### Geometry -/

/-- The geometry without wrap-around. -/
structure Good (g : Geom) (dim deg : Nat) : Prop where
  hdim : g.dim = dim
  hdeg : g.deg = deg
  pos : 0 < dim
  len : g.nodeLen = dim * 4 + 4 + deg * 4
  nps : g.nps = max 1 (4096 / (dim * 4 + 4 + deg * 4))
  page : g.pageSize = (g.nps * g.nodeLen + 4095) / 4096 * 4096
  fit : dim * 4 + 4 + deg * 4 + 4095 < 2 ^ 64

theorem Good.npsPos {g : Geom} {dim deg : Nat} (h : Good g dim deg) : 0 < g.nps := by rw [h.nps]; omega

theorem nps_mul_le (L : Nat) : max 1 (4096 / L) * L ≤ max L 4096 := by
  by_cases h : 1 ≤ 4096 / L
  · rw [Nat.max_eq_right h]
    have := Nat.div_mul_le_self 4096 L
    omega
  · rw [Nat.max_eq_left (by omega)]
    omega

theorem compute_good {dim deg : Nat} (hp : 0 < dim) (hf : dim * 4 + 4 + deg * 4 + 4095 < 2 ^ 64) :
    ∃ g, compute dim deg = .ok g ∧ Good g dim deg := by
  have hw : (dim * 4 + 4 + deg * 4) % U64 = dim * 4 + 4 + deg * 4 := by rw [U64_eq]; exact Nat.mod_eq_of_lt (by omega)
  have hm := nps_mul_le (dim * 4 + 4 + deg * 4)
  unfold compute sectorLen
  rw [if_neg (by omega)]
  simp only [hw]
  rw [if_neg (by omega)]
  refine ⟨_, rfl, rfl, rfl, hp, rfl, rfl, ?_, hf⟩
  simp only
  rw [U64_eq, Nat.mod_eq_of_lt (by omega)]
  rfl

theorem Good.fits {g : Geom} {dim deg : Nat} (h : Good g dim deg) : g.nps * g.nodeLen ≤ g.pageSize := by
  rw [h.page]; omega

theorem Good.pageLt {g : Geom} {dim deg : Nat} (h : Good g dim deg) : g.pageSize < 2 ^ 64 := by
  have := nps_mul_le (dim * 4 + 4 + deg * 4)
  have hf := h.fit
  rw [← h.nps, ← h.len] at this
  rw [← h.len] at hf
  rw [h.page]
  omega

theorem Good.aligned {g : Geom} {dim deg : Nat} (h : Good g dim deg) : g.pageSize % 4096 = 0 := by
  rw [h.page]; exact Nat.mul_mod_left _ _

theorem slot_fits {g : Geom} {dim deg : Nat} (h : Good g dim deg) (id : Nat) : (id % g.nps) * g.nodeLen + g.nodeLen ≤ g.pageSize := by
  have h1 : id % g.nps + 1 ≤ g.nps := Nat.mod_lt _ h.npsPos
  have h2 := Nat.mul_le_mul_right g.nodeLen h1
  rw [Nat.add_mul, Nat.one_mul] at h2
  exact Nat.le_trans h2 h.fits

theorem Good.offset {g : Geom} {dim deg : Nat} (h : Good g dim deg) (id : Nat) : g.offsetToNode id = (id % g.nps) * g.nodeLen := by
  unfold Geom.offsetToNode
  have h1 := slot_fits h id
  have h2 := h.pageLt
  rw [U64_eq]
  exact Nat.mod_eq_of_lt (by omega)

theorem Good.pageOff {g : Geom} {id : Nat} (hid : 4096 + g.pageSize * (id / g.nps + 1) < 2 ^ 64) :
    g.pageOffset id = 4096 + g.pageSize * (id / g.nps) := by
  unfold Geom.pageOffset sectorLen
  rw [Nat.mul_add, Nat.mul_one] at hid
  rw [U64_eq]
  exact Nat.mod_eq_of_lt (by omega)

theorem Good.fileOff {g : Geom} {dim deg : Nat} (h : Good g dim deg) {id : Nat} (hid : 4096 + g.pageSize * (id / g.nps + 1) < 2 ^ 64) :
    g.fileOffset id = 4096 + g.pageSize * (id / g.nps) + (id % g.nps) * g.nodeLen := by
  unfold Geom.fileOffset
  rw [Good.pageOff hid, h.offset]
  have h1 := slot_fits h id
  have h2 := h.len
  rw [Nat.mul_add, Nat.mul_one] at hid
  rw [U64_eq]
  exact Nat.mod_eq_of_lt (by omega)

/-- Slots of one page do not overlap. -/
theorem slot_disjoint (L a b : Nat) (h : a < b) : a * L + L ≤ b * L := by
  have := Nat.mul_le_mul_right L (show a + 1 ≤ b from h)
  rw [Nat.add_mul, Nat.one_mul] at this
  exact this

theorem file_disjoint {g : Geom} {dim deg : Nat} (h : Good g dim deg) {i j : Nat} (hij : i < j) :
    4096 + g.pageSize * (i / g.nps) + (i % g.nps) * g.nodeLen + g.nodeLen ≤
      4096 + g.pageSize * (j / g.nps) + (j % g.nps) * g.nodeLen := by
  by_cases hp : i / g.nps = j / g.nps
  · have hm : i % g.nps < j % g.nps := by
      have h1 := Nat.div_add_mod i g.nps
      have h2 := Nat.div_add_mod j g.nps
      rw [hp] at h1
      omega
    have := slot_disjoint g.nodeLen _ _ hm
    rw [hp]
    omega
  · have hlt : i / g.nps < j / g.nps := Nat.lt_of_le_of_ne (Nat.div_le_div_right (Nat.le_of_lt hij)) hp
    have := slot_disjoint g.pageSize _ _ hlt
    have hs := slot_fits h i
    rw [Nat.mul_comm (i / g.nps), Nat.mul_comm (j / g.nps)] at this
    omega

/-- The pages needed for `n` nodes. -/
theorem Good.pages {g : Geom} {dim deg : Nat} (h : Good g dim deg) {n : Nat} (hn : 0 < n) (hw : n + g.nps < 2 ^ 64) :
    g.numPages n = (n - 1) / g.nps + 1 := by
  unfold Geom.numPages
  rw [if_neg (by omega), U64_eq, Nat.mod_eq_of_lt (by omega)]
  rw [show n + g.nps - 1 = (n - 1) + g.nps by omega, Nat.add_div_right _ h.npsPos]

end Alaya.DiskLayout
