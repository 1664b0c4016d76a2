/-
Lemmas about the packing of codes and the look-up table of `Verif/Model/FastScan.lean`.
-/
import Verif.Lemmas.FastScan
import Mathlib.Data.List.Forall2
import Mathlib.Algebra.Order.Floor.Ring
import Mathlib.Tactic.Linarith
import Mathlib.Tactic.FieldSimp
import Mathlib.Algebra.BigOperators.Group.List.Basic

namespace Alaya.FastScan

theorem mapM_range {α : Type} {n : Nat} {f : Nat → Option α} {g : Nat → α} (h : ∀ i < n, f i = some (g i)) :
    (List.range n).mapM f = some ((List.range n).map g) := by
  induction n with
  | zero => rfl
  | succ n ih =>
    rw [List.range_succ, List.mapM_append, ih (fun i hi => h i (by omega))]
    simp [h n (by omega)]

/-- Reading a concatenation of blocks of the same length. -/
theorem flatten_getD {g : Nat → List Nat} {L : Nat} (hL : ∀ i, (g i).length = L) (n : Nat) :
    ((List.range n).map g).flatten.length = n * L ∧
      ∀ i < n, ∀ k < L, ((List.range n).map g).flatten.getD (L * i + k) 0 = (g i).getD k 0 := by
  induction n with
  | zero => exact ⟨by simp, fun i hi => absurd hi (by omega)⟩
  | succ n ih =>
    obtain ⟨h1, h2⟩ := ih
    rw [List.range_succ, List.map_append, List.flatten_append]
    refine ⟨by simp [h1, hL, Nat.succ_mul], ?_⟩
    intro i hi k hk
    by_cases h : i < n
    · rw [List.getD_append _ _ _ _ (by
        rw [h1]
        calc L * i + k < L * i + L := by omega
          _ = (i + 1) * L := by ring
          _ ≤ n * L := Nat.mul_le_mul_right _ h)]
      exact h2 i h k hk
    · obtain rfl : i = n := by omega
      rw [List.getD_append_right _ _ _ _ (by rw [h1, Nat.mul_comm]; omega), h1,
        show L * i + k - i * L = k by rw [Nat.mul_comm]; omega]
      simp

theorem flatten_bytes {g : Nat → List Nat} {n : Nat} (h : ∀ i < n, Bytes (g i)) :
    Bytes ((List.range n).map g).flatten := by
  intro x hx
  obtain ⟨l, hl, hx⟩ := List.mem_flatten.mp hx
  obtain ⟨i, hi, rfl⟩ := List.mem_map.mp hl
  exact h i (List.mem_range.mp hi) x hx

/-! ### `pack_codes` -/

theorem or_shift (a b : Nat) (ha : a < 16) (hb : b < 16) : a ||| (b <<< 4) % 256 = a + 16 * b := by
  have e : (b <<< 4) % 256 = b <<< 4 := by rw [Nat.shiftLeft_eq]; omega
  rw [e, Nat.or_comm, ← Nat.shiftLeft_add_eq_or_of_lt (by omega : a < 2 ^ 4), Nat.shiftLeft_eq]
  omega

theorem kPerm0_get {j : Nat} (h : j < 16) :
    ∃ p, kPerm0[j]? = some p ∧ p < 16 ∧ slot p = j := by
  interval_cases j <;> exact ⟨_, rfl, by decide, by decide⟩

theorem slot_lt {p : Nat} (h : p < 16) : slot p < 16 := by unfold slot; split <;> omega

theorem kPerm0_slot {p : Nat} (h : p < 16) : kPerm0[slot p]? = some p := by
  interval_cases p <;> rfl

/-- The sixteen bytes made of 32 nibbles. -/
theorem packHalf_eq {c : List Nat} (hc : c.length = 32) (hn : ∀ x ∈ c, x < 16) :
    ∃ l, packHalf c = some l ∧ l.length = 16 ∧ Bytes l ∧
      ∀ v < 16, l.getD (slot v) 0 = c.getD v 0 + 16 * c.getD (v + 16) 0 := by
  have hget : ∀ k, c.getD k 0 < 16 := fun k => by
    by_cases h : k < c.length
    · rw [List.getD_eq_getElem _ _ h]; exact hn _ (List.getElem_mem h)
    · rw [List.getD_eq_default _ _ (by omega)]; omega
  have hstep : ∀ j < 16, (do
      let p ← kPerm0[j]?
      let lo ← c[p]?
      let hi ← c[p + 16]?
      pure (lo ||| (hi <<< 4) % 256) : Option Nat)
      = some (c.getD (kPerm0.getD j 0) 0 + 16 * c.getD (kPerm0.getD j 0 + 16) 0) := by
    intro j hj
    obtain ⟨p, hp, hp16, _⟩ := kPerm0_get hj
    have hd : kPerm0.getD j 0 = p := by
      rw [List.getD_eq_getElem?_getD, hp]; rfl
    rw [hd]
    simp only [hp, Option.bind_eq_bind, Option.bind_some, getElem?_getD (by omega : p < c.length),
      getElem?_getD (by omega : p + 16 < c.length), Option.pure_def]
    rw [or_shift _ _ (hget _) (hget _)]
  refine ⟨_, mapM_range hstep, by simp, ?_, ?_⟩
  · intro x hx
    obtain ⟨j, _, rfl⟩ := List.mem_map.mp hx
    have h1 := hget (kPerm0.getD j 0)
    have h2 := hget (kPerm0.getD j 0 + 16)
    omega
  · intro v hv
    have hs := slot_lt hv
    rw [List.getD_eq_getElem _ _ (by simpa using hs)]
    simp only [List.getElem_map, List.getElem_range]
    have hd : kPerm0.getD (slot v) 0 = v := by
      rw [List.getD_eq_getElem?_getD, kPerm0_slot hv]; rfl
    rw [hd]

/-- The byte of vector `r` in column `i`; zero for an absent vector. -/
def codeByte (code : List Nat) (num cols r i : Nat) : Nat :=
  if r < num then code.getD (r * cols + i) 0 else 0

theorem getColumn_eq {code : List Nat} {num cols row i : Nat} (hlen : num * cols ≤ code.length) (hi : i < cols) :
    getColumn code num cols row i = some ((List.range 32).map (fun k => codeByte code num cols (row + k) i)) := by
  unfold getColumn
  refine mapM_range (fun k hk => ?_)
  unfold codeByte
  by_cases h : row + k < num
  · rw [if_pos (by omega), if_pos h, Nat.add_comm k row]
    refine getElem?_getD ?_
    calc (row + k) * cols + i < (row + k) * cols + cols := by omega
      _ = (row + k + 1) * cols := by ring
      _ ≤ num * cols := Nat.mul_le_mul_right _ h
      _ ≤ code.length := hlen
  · rw [if_neg (by omega), if_neg h]

/-- The nibble of vector `r` for the group `t` of four dimensions, before packing. -/
def codeNib (code : List Nat) (num cols r t : Nat) : Nat :=
  if t % 2 = 0 then codeByte code num cols r (t / 2) / 16 else codeByte code num cols r (t / 2) % 16

theorem codeByte_lt {code : List Nat} (hb : Bytes code) (num cols r i : Nat) :
    codeByte code num cols r i < 256 := by
  unfold codeByte; split
  · exact hb.getD _
  · omega

theorem map_range_getD {n : Nat} (f : Nat → Nat) {v : Nat} (h : v < n) :
    ((List.range n).map f).getD v 0 = f v := by
  rw [List.getD_eq_getElem _ _ (by simpa using h)]; simp

theorem packColumn_eq {code : List Nat} (hb : Bytes code) {num cols row i : Nat}
    (hlen : num * cols ≤ code.length) (hi : i < cols) :
    ∃ l, packColumn code num cols row i = some l ∧ l.length = 32 ∧ Bytes l ∧
      ∀ v < 32, nib l 0 v = codeByte code num cols (row + v) i / 16 ∧
        nib l 1 v = codeByte code num cols (row + v) i % 16 := by
  have hB := codeByte_lt hb num cols
  obtain ⟨l0, e0, n0, b0, g0⟩ := packHalf_eq
    (c := ((List.range 32).map (fun k => codeByte code num cols (row + k) i)).map (· >>> 4)) (by simp) (by
      intro x hx
      simp only [List.mem_map] at hx
      obtain ⟨_, ⟨k, _, rfl⟩, rfl⟩ := hx
      have := hB (row + k) i
      rw [shr4]; omega)
  obtain ⟨l1, e1, n1, b1, g1⟩ := packHalf_eq
    (c := ((List.range 32).map (fun k => codeByte code num cols (row + k) i)).map (· &&& 15)) (by simp) (by
      intro x hx
      simp only [List.mem_map] at hx
      obtain ⟨_, ⟨k, _, rfl⟩, rfl⟩ := hx
      rw [and15]; omega)
  refine ⟨l0 ++ l1, ?_, by simp [n0, n1], ?_, ?_⟩
  · unfold packColumn
    rw [getColumn_eq hlen hi]
    simp only [Option.bind_eq_bind, Option.bind_some, e0, e1, Option.pure_def]
  · intro x hx
    rcases List.mem_append.mp hx with h | h
    · exact b0 x h
    · exact b1 x h
  · intro v hv
    simp only [List.map_map] at g0 g1
    have G0 : ∀ v < 16, l0.getD (slot v) 0 = codeByte code num cols (row + v) i / 16
        + 16 * (codeByte code num cols (row + (v + 16)) i / 16) := by
      intro v hv
      rw [g0 v hv, map_range_getD _ (by omega), map_range_getD _ (by omega)]
      simp only [Function.comp, shr4]
    have G1 : ∀ v < 16, l1.getD (slot v) 0 = codeByte code num cols (row + v) i % 16
        + 16 * (codeByte code num cols (row + (v + 16)) i % 16) := by
      intro v hv
      rw [g1 v hv, map_range_getD _ (by omega), map_range_getD _ (by omega)]
      simp only [Function.comp, and15]
    have A0 : ∀ v < 16, (l0 ++ l1).getD (16 * 0 + slot v) 0 = l0.getD (slot v) 0 := by
      intro v hv
      have := slot_lt hv
      rw [show 16 * 0 + slot v = slot v by omega, List.getD_append _ _ _ _ (by omega)]
    have A1 : ∀ v < 16, (l0 ++ l1).getD (16 * 1 + slot v) 0 = l1.getD (slot v) 0 := by
      intro v hv
      rw [List.getD_append_right _ _ _ _ (by omega), n0, show 16 * 1 + slot v - 16 = slot v by omega]
    unfold nib
    by_cases h : v < 16
    · rw [if_pos h, if_pos h, A0 v h, A1 v h, G0 v h, G1 v h]
      have := hB (row + v) i
      omega
    · have h' : v - 16 < 16 := by omega
      rw [if_neg h, if_neg h, A0 _ h', A1 _ h', G0 _ h', G1 _ h', show v - 16 + 16 = v by omega]
      have := hB (row + v) i
      have := hB (row + (v - 16)) i
      omega

theorem nib_block {l B : List Nat} {o : Nat} (t a : Nat) (h : ∀ k < 32, B.getD (32 * o + k) 0 = l.getD k 0)
    (ht : t = 2 * o + a) (ha : a < 2) {v : Nat} (hv : v < 32) : nib B t v = nib l a v := by
  subst ht
  unfold nib
  by_cases h16 : v < 16
  · have := slot_lt h16
    rw [if_pos h16, if_pos h16, ← h (16 * a + slot v) (by omega)]
    congr 2
    omega
  · have := slot_lt (p := v - 16) (by omega)
    rw [if_neg h16, if_neg h16, ← h (16 * a + slot (v - 16)) (by omega)]
    congr 2
    omega

/-- `pack_codes`, for any number of vectors: block `s` holds the codes of vectors `32 s … 32 s + 31`. -/
theorem packCodes_eq {code : List Nat} (hb : Bytes code) {dim num : Nat} (hd : dim % 8 = 0)
    (hlen : num * (dim / 8) ≤ code.length) :
    ∃ B, packCodes dim code num = some B ∧ B.length = (num + 31) / 32 * (4 * dim) ∧ Bytes B ∧
      ∀ s < (num + 31) / 32, ∀ t < dim / 4, ∀ v < 32,
        nib (B.drop (4 * dim * s)) t v = codeNib code num (dim / 8) (32 * s + v) t := by
  have hcol : ∀ s i, ∃ l, (i < dim / 8 → packColumn code num (dim / 8) (32 * s) i = some l) ∧ l.length = 32 ∧
      Bytes l ∧ (i < dim / 8 → ∀ v < 32, nib l 0 v = codeByte code num (dim / 8) (32 * s + v) i / 16 ∧
        nib l 1 v = codeByte code num (dim / 8) (32 * s + v) i % 16) := by
    intro s i
    by_cases hi : i < dim / 8
    · obtain ⟨l, e, n, b, h⟩ := packColumn_eq (row := 32 * s) hb hlen hi
      exact ⟨l, fun _ => e, n, b, fun _ => h⟩
    · exact ⟨List.replicate 32 0, fun h => absurd h hi, by simp, by
        intro x hx; have := List.eq_of_mem_replicate hx; omega, fun h => absurd h hi⟩
  choose C hC1 hC2 hC3 hC4 using hcol
  have hblock : ∀ s, (List.range (dim / 8)).mapM (fun i => packColumn code num (dim / 8) (32 * s) i)
      = some ((List.range (dim / 8)).map (C s)) := fun s => mapM_range (fun i hi => hC1 s i hi)
  have hF := fun s => flatten_getD (hC2 s) (dim / 8)
  have hL : ∀ s, ((List.range (dim / 8)).map (C s)).flatten.length = 4 * dim := fun s => by
    rw [(hF s).1]; omega
  have hall := flatten_getD hL ((num + 31) / 32)
  refine ⟨((List.range ((num + 31) / 32)).map (fun s => ((List.range (dim / 8)).map (C s)).flatten)).flatten,
    ?_, hall.1, ?_, ?_⟩
  · unfold packCodes
    rw [mapM_range (g := fun s => ((List.range (dim / 8)).map (C s)).flatten) (fun s _ => by
      simp only [hblock, Option.bind_eq_bind, Option.bind_some, Option.pure_def])]
    simp only [Option.bind_eq_bind, Option.bind_some, Option.pure_def]
  · exact flatten_bytes (fun s _ => flatten_bytes (fun i _ => hC3 s i))
  · intro s hs t ht v hv
    have hi : t / 2 < dim / 8 := by omega
    rw [nib_block (o := t / 2) (l := C s (t / 2)) t (t % 2) (fun k hk => ?_) (by omega) (by omega) hv]
    · obtain ⟨h0, h1⟩ := hC4 s (t / 2) hi v hv
      unfold codeNib
      rcases Nat.mod_two_eq_zero_or_one t with h | h <;> rw [h]
      · rw [if_pos rfl, h0]
      · rw [if_neg (by omega), h1]
    · rw [← (hF s).2 (t / 2) hi k hk, List.getD_eq_getElem?_getD, List.getElem?_drop,
        ← List.getD_eq_getElem?_getD]
      exact hall.2 s hs (32 * (t / 2) + k) (by omega)

/-! ### `pack_binary` -/

/-- Eight bits put side by side (all 256 cases). -/
theorem or8 : ∀ b0 b1 b2 b3 b4 b5 b6 b7 : Fin 2,
    0 ||| ((b0.val % 256) <<< (7 - 0)) % 256 ||| ((b1.val % 256) <<< (7 - 1)) % 256
      ||| ((b2.val % 256) <<< (7 - 2)) % 256 ||| ((b3.val % 256) <<< (7 - 3)) % 256
      ||| ((b4.val % 256) <<< (7 - 4)) % 256 ||| ((b5.val % 256) <<< (7 - 5)) % 256
      ||| ((b6.val % 256) <<< (7 - 6)) % 256 ||| ((b7.val % 256) <<< (7 - 7)) % 256
      = 128 * b0.val + 64 * b1.val + 32 * b2.val + 16 * b3.val + 8 * b4.val + 4 * b5.val + 2 * b6.val + b7.val := by
  decide +kernel

theorem packByte_eq {bits : List Nat} {i : Nat} (hl : i + 8 ≤ bits.length) (hb : ∀ x ∈ bits, x < 2) :
    packByte bits i = some (128 * bits.getD i 0 + 64 * bits.getD (i + 1) 0 + 32 * bits.getD (i + 2) 0
      + 16 * bits.getD (i + 3) 0 + 8 * bits.getD (i + 4) 0 + 4 * bits.getD (i + 5) 0 + 2 * bits.getD (i + 6) 0
      + bits.getD (i + 7) 0) := by
  have hg : ∀ k, bits.getD k 0 < 2 := fun k => by
    by_cases h : k < bits.length
    · rw [List.getD_eq_getElem _ _ h]; exact hb _ (List.getElem_mem h)
    · rw [List.getD_eq_default _ _ (by omega)]; omega
  have h8 := or8 ⟨_, hg (i + 0)⟩ ⟨_, hg (i + 1)⟩ ⟨_, hg (i + 2)⟩ ⟨_, hg (i + 3)⟩ ⟨_, hg (i + 4)⟩ ⟨_, hg (i + 5)⟩
    ⟨_, hg (i + 6)⟩ ⟨_, hg (i + 7)⟩
  have hr : List.range 8 = [0, 1, 2, 3, 4, 5, 6, 7] := by decide
  unfold packByte
  rw [hr]
  have hk : ∀ k, k < 8 → bits[i + k]? = some (bits.getD (i + k) 0) := fun k hk => getElem?_getD (by omega)
  simp only [List.foldlM_cons, List.foldlM_nil, hk _ (by omega : (0 : Nat) < 8), hk _ (by omega : (1 : Nat) < 8),
    hk _ (by omega : (2 : Nat) < 8), hk _ (by omega : (3 : Nat) < 8), hk _ (by omega : (4 : Nat) < 8),
    hk _ (by omega : (5 : Nat) < 8), hk _ (by omega : (6 : Nat) < 8), hk _ (by omega : (7 : Nat) < 8),
    Option.bind_eq_bind, Option.bind_some, Option.pure_def]
  exact congrArg some h8

/-- The code of the four dimensions of group `t`. -/
def group (x : List Nat) (t : Nat) : Nat :=
  8 * x.getD (4 * t) 0 + 4 * x.getD (4 * t + 1) 0 + 2 * x.getD (4 * t + 2) 0 + x.getD (4 * t + 3) 0

theorem bit_getD {x : List Nat} (hb : ∀ y ∈ x, y < 2) (k : Nat) : x.getD k 0 < 2 := by
  by_cases h : k < x.length
  · rw [List.getD_eq_getElem _ _ h]; exact hb _ (List.getElem_mem h)
  · rw [List.getD_eq_default _ _ (by omega)]; omega

theorem group_lt {x : List Nat} (hb : ∀ y ∈ x, y < 2) (t : Nat) : group x t < 16 := by
  have h1 := bit_getD hb (4 * t)
  have h2 := bit_getD hb (4 * t + 1)
  have h3 := bit_getD hb (4 * t + 2)
  have h4 := bit_getD hb (4 * t + 3)
  unfold group; omega

theorem packBinary_eq {dim : Nat} (hd : dim % 8 = 0) {x : List Nat} (hl : x.length = dim) (hb : ∀ y ∈ x, y < 2) :
    packBinary dim x = some ((List.range (dim / 8)).map (fun g => 16 * group x (2 * g) + group x (2 * g + 1))) := by
  unfold packBinary
  rw [show (dim + 7) / 8 = dim / 8 by omega]
  refine mapM_range (fun g hg => ?_)
  rw [packByte_eq (by omega) hb]
  unfold group
  congr 1
  rw [show 4 * (2 * g) = 8 * g by ring, show 4 * (2 * g + 1) = 8 * g + 4 by ring,
    show 8 * g + 4 + 1 = 8 * g + 5 by ring, show 8 * g + 4 + 2 = 8 * g + 6 by ring,
    show 8 * g + 4 + 3 = 8 * g + 7 by ring]
  omega

theorem mapM_list {α β : Type} {f : α → Option β} {g : α → β} {l : List α} (h : ∀ x ∈ l, f x = some (g x)) :
    l.mapM f = some (l.map g) := by
  induction l with
  | nil => rfl
  | cons a l ih =>
    rw [List.mapM_cons, h a (by simp), ih (fun x hx => h x (by simp [hx]))]
    rfl

theorem map_eq_range {α : Type} (X : List (List Nat)) (g : List Nat → α) :
    X.map g = (List.range X.length).map (fun r => g (X.getD r [])) := by
  apply List.ext_getElem
  · simp
  · intro i h1 h2
    simp only [List.length_map] at h1
    simp only [List.getElem_map, List.getElem_range]
    rw [List.getD_eq_getElem _ _ h1]

/-- The stored codes of a batch of neighbours, and what each vector's code is in every group. -/
theorem quantCodes_eq {dim : Nat} (hd : dim % 8 = 0) {X : List (List Nat)} (hX : ∀ x ∈ X, x.length = dim)
    (hb : ∀ x ∈ X, ∀ y ∈ x, y < 2) :
    ∃ B, quantCodes dim X = some B ∧ B.length = (X.length + 31) / 32 * (4 * dim) ∧ Bytes B ∧
      ∀ s < (X.length + 31) / 32, ∀ t < dim / 4, ∀ v < 32,
        nib (B.drop (4 * dim * s)) t v = group (X.getD (32 * s + v) []) t := by
  let g : List Nat → List Nat := fun x =>
    (List.range (dim / 8)).map (fun g => 16 * group x (2 * g) + group x (2 * g + 1))
  have e : X.mapM (packBinary dim) = some (X.map g) := mapM_list (fun x hx => packBinary_eq hd (hX x hx) (hb x hx))
  have hgl : ∀ r, (g (X.getD r [])).length = dim / 8 := fun r => by simp [g]
  have hbX : ∀ r, ∀ y ∈ X.getD r [], y < 2 := by
    intro r y hy
    by_cases h : r < X.length
    · rw [List.getD_eq_getElem _ _ h] at hy; exact hb _ (List.getElem_mem h) y hy
    · rw [List.getD_eq_default _ _ (by omega)] at hy; simp at hy
  obtain ⟨hlen, hget⟩ := flatten_getD hgl X.length
  rw [← map_eq_range X g] at hlen hget
  have hbytes : Bytes (X.map g).flatten := by
    rw [map_eq_range X g]
    refine flatten_bytes (fun r _ => ?_)
    intro y hy
    obtain ⟨i, _, rfl⟩ := List.mem_map.mp hy
    have h1 := group_lt (hbX r) (2 * i)
    have h2 := group_lt (hbX r) (2 * i + 1)
    omega
  obtain ⟨B, e2, hB1, hB2, hB3⟩ := packCodes_eq (num := X.length) hbytes hd (by rw [hlen])
  refine ⟨B, by unfold quantCodes; rw [e]; exact e2, hB1, hB2, ?_⟩
  intro s hs t ht v hv
  rw [hB3 s hs t ht v hv]
  unfold codeNib codeByte
  by_cases h : 32 * s + v < X.length
  · have hi : t / 2 < dim / 8 := by omega
    have hb' : (X.map g).flatten.getD ((32 * s + v) * (dim / 8) + t / 2) 0
        = 16 * group (X.getD (32 * s + v) []) (2 * (t / 2)) + group (X.getD (32 * s + v) []) (2 * (t / 2) + 1) := by
      rw [Nat.mul_comm, hget _ h _ hi]
      exact map_range_getD _ hi
    rw [if_pos h, hb']
    have h1 := group_lt (hbX (32 * s + v)) (2 * (t / 2))
    have h2 := group_lt (hbX (32 * s + v)) (2 * (t / 2) + 1)
    by_cases ht : t % 2 = 0
    · rw [if_pos ht]
      rw [show t = 2 * (t / 2) by omega] 
      rw [show 2 * (2 * (t / 2) / 2) = 2 * (t / 2) by omega]
      omega
    · rw [if_neg ht]
      have : t = 2 * (t / 2) + 1 := by omega
      rw [← this] at h2 ⊢
      omega
  · rw [if_neg h, List.getD_eq_default X [] (by omega)]
    have : group [] t = 0 := by simp [group]
    rw [this]
    split <;> rfl

/-- The whole path, for every build: the counter of each vector is the sum of the table entries its bits select. -/
theorem accumulate_eq (isa : Isa) {dim : Nat} (hd : dim % 16 = 0) {X : List (List Nat)}
    (hX : ∀ x ∈ X, x.length = dim) (hb : ∀ x ∈ X, ∀ y ∈ x, y < 2) {lp : List Nat} (hlp : Bytes lp)
    (hlen : 4 * dim ≤ lp.length) :
    ∃ B, quantCodes dim X = some B ∧ B.length = (X.length + 31) / 32 * (4 * dim) ∧ ∀ s < (X.length + 31) / 32,
      accumulate isa (B.drop (4 * dim * s)) lp dim = some ((List.range 32).map (fun v =>
        sumR (dim / 4) (fun t => lp.getD (16 * t + group (X.getD (32 * s + v) []) t) 0) % 65536)) := by
  obtain ⟨B, e, h1, h2, h3⟩ := quantCodes_eq (by omega : dim % 8 = 0) hX hb
  refine ⟨B, e, h1, fun s hs => ?_⟩
  have hB : Bytes (B.drop (4 * dim * s)) := fun x hx => h2 x (List.mem_of_mem_drop hx)
  have hBl : 4 * dim ≤ (B.drop (4 * dim * s)).length := by
    rw [List.length_drop, h1]
    have : (s + 1) * (4 * dim) ≤ (X.length + 31) / 32 * (4 * dim) := Nat.mul_le_mul_right _ hs
    have e : (s + 1) * (4 * dim) = 4 * dim * s + 4 * dim := by ring
    omega
  have key : accumulate isa (B.drop (4 * dim * s)) lp dim = some (sums (B.drop (4 * dim * s)) lp (dim / 4)) := by
    unfold accumulate
    rw [if_neg (by omega)]
    cases isa with
    | avx512 => exact acc512_eq hB hlp hd hBl hlen
    | avx2 => exact acc256_eq hB hlp hd hBl hlen
    | portable => exact accScalar_eq hB (by omega) hBl hlen
  rw [key]
  unfold sums
  congr 1
  refine List.map_congr_left (fun v hv => ?_)
  congr 1
  refine sumR_congr (fun t ht => ?_)
  rw [entry, h3 s hs t ht v (List.mem_range.mp hv)]

/-! ### The table -/

section Table
set_option linter.unusedSectionVars false
variable {K : Type} [Field K] [LinearOrder K] [IsStrictOrderedRing K] [FloorRing K]

/-- The sum of the coordinates of group `t` picked by the four bits of `n`. -/
def pick (q : List K) (t n : Nat) : K :=
  (if n / 8 % 2 = 1 then q.getD (4 * t) 0 else 0) + (if n / 4 % 2 = 1 then q.getD (4 * t + 1) 0 else 0)
    + (if n / 2 % 2 = 1 then q.getD (4 * t + 2) 0 else 0) + (if n % 2 = 1 then q.getD (4 * t + 3) 0 else 0)

theorem lutGroup_eq (a b c d : K) : lutGroup [a, b, c, d] = some
    [0, d, c, c + d, b, b + d, b + c, b + c + d, a, a + d, a + c, a + c + d, a + b, a + b + d, a + b + c,
      a + b + c + d] := by
  have hr : List.range 15 = [0, 1, 2, 3, 4, 5, 6, 7, 8, 9, 10, 11, 12, 13, 14] := by decide
  have hlow : lowbit 1 = 1 ∧ lowbit 2 = 2 ∧ lowbit 3 = 1 ∧ lowbit 4 = 4 ∧ lowbit 5 = 1 ∧ lowbit 6 = 2 ∧
      lowbit 7 = 1 ∧ lowbit 8 = 8 ∧ lowbit 9 = 1 ∧ lowbit 10 = 2 ∧ lowbit 11 = 1 ∧ lowbit 12 = 4 ∧
      lowbit 13 = 1 ∧ lowbit 14 = 2 ∧ lowbit 15 = 1 := by decide
  unfold lutGroup
  rw [hr]
  simp [hlow, kPos]

theorem lutGroup_pick (q : List K) {t : Nat} (h : 4 * t + 4 ≤ q.length) :
    lutGroup ((q.drop (4 * t)).take 4) = some ((List.range 16).map (pick q t)) := by
  have e : (q.drop (4 * t)).take 4 = [q.getD (4 * t) 0, q.getD (4 * t + 1) 0, q.getD (4 * t + 2) 0,
      q.getD (4 * t + 3) 0] := by
    apply List.ext_getElem
    · simp; omega
    · intro i h1 h2
      simp only [List.length_cons, List.length_nil] at h2
      simp only [List.getElem_take, List.getElem_drop]
      have hi : i < 4 := by omega
      interval_cases i <;> simp only [List.getElem_cons_zero, List.getElem_cons_succ] <;>
        exact (List.getD_eq_getElem _ _ (by omega)).symm
  rw [e, lutGroup_eq]
  have hr : List.range 16 = [0, 1, 2, 3, 4, 5, 6, 7, 8, 9, 10, 11, 12, 13, 14, 15] := by decide
  rw [hr]
  simp [pick]

theorem packLut_eq {dim : Nat} (hd : dim % 4 = 0) {q : List K} (hq : q.length = dim) :
    packLut dim q = some ((List.range (dim / 4)).map (fun t => (List.range 16).map (pick q t))).flatten := by
  unfold packLut
  rw [mapM_range (fun t ht => lutGroup_pick q (by omega))]
  rfl

theorem foldl_min_le (l : List K) (x : K) :
    l.foldl min x ≤ x ∧ (∀ y ∈ l, l.foldl min x ≤ y) ∧ (l.foldl min x = x ∨ l.foldl min x ∈ l) := by
  induction l generalizing x with
  | nil => simp
  | cons a l ih =>
    obtain ⟨h1, h2, h3⟩ := ih (min x a)
    simp only [List.foldl_cons, List.mem_cons]
    refine ⟨h1.trans (min_le_left _ _), ?_, ?_⟩
    · rintro y (rfl | hy)
      · exact h1.trans (min_le_right _ _)
      · exact h2 y hy
    · rcases h3 with h3 | h3
      · rcases min_choice x a with h | h
        · left; rw [h3, h]
        · right; left; rw [h3, h]
      · right; right; exact h3

theorem foldl_max_ge (l : List K) (x : K) :
    x ≤ l.foldl max x ∧ (∀ y ∈ l, y ≤ l.foldl max x) ∧ (l.foldl max x = x ∨ l.foldl max x ∈ l) := by
  induction l generalizing x with
  | nil => simp
  | cons a l ih =>
    obtain ⟨h1, h2, h3⟩ := ih (max x a)
    simp only [List.foldl_cons, List.mem_cons]
    refine ⟨(le_max_left _ _).trans h1, ?_, ?_⟩
    · rintro y (rfl | hy)
      · exact (le_max_right _ _).trans h1
      · exact h2 y hy
    · rcases h3 with h3 | h3
      · rcases max_choice x a with h | h
        · left; rw [h3, h]
        · right; left; rw [h3, h]
      · right; right; exact h3

theorem dataRange_eq {l : List K} (h : l ≠ []) :
    ∃ lo hi, dataRange l = some (lo, hi) ∧ lo ∈ l ∧ hi ∈ l ∧ ∀ y ∈ l, lo ≤ y ∧ y ≤ hi := by
  cases l with
  | nil => exact absurd rfl h
  | cons x xs =>
    obtain ⟨a1, a2, a3⟩ := foldl_min_le xs x
    obtain ⟨b1, b2, b3⟩ := foldl_max_ge xs x
    refine ⟨_, _, rfl, ?_, ?_, ?_⟩
    · rcases a3 with h | h <;> simp [h]
    · rcases b3 with h | h <;> simp [h]
    · intro y hy
      rcases List.mem_cons.mp hy with rfl | hy
      · exact ⟨a1, b1⟩
      · exact ⟨a2 y hy, b2 y hy⟩

theorem roundAway_near {y : K} (h0 : 0 ≤ y) : |((roundAway y : Int) : K) - y| ≤ 1 / 2 := by
  unfold roundAway
  rw [if_pos h0, abs_le]
  have h1 := Int.floor_le (y + 1 / 2)
  have h2 := Int.lt_floor_add_one (y + 1 / 2)
  constructor <;> linarith

theorem roundEven_near (y : K) : |((roundEven y : Int) : K) - y| ≤ 1 / 2 := by
  unfold roundEven
  simp only []
  have h1 := Int.floor_le (y + 1 / 2)
  have h2 := Int.lt_floor_add_one (y + 1 / 2)
  split
  · rename_i h
    rw [abs_le]
    push_cast
    constructor <;> linarith [h.1]
  · rw [abs_le]
    constructor <;> linarith

theorem near_range {e : Int} {y : K} (h0 : 0 ≤ y) (h1 : y ≤ 255) (h : |(e : K) - y| ≤ 1 / 2) : 0 ≤ e ∧ e < 256 := by
  rw [abs_le] at h
  constructor
  · by_contra hc
    have : e ≤ -1 := by omega
    have : (e : K) ≤ ((-1 : Int) : K) := by exact_mod_cast this
    push_cast at this
    linarith [h.1]
  · by_contra hc
    have : (256 : Int) ≤ e := by omega
    have : ((256 : Int) : K) ≤ (e : K) := by exact_mod_cast this
    push_cast at this
    linarith [h.2]

theorem quantByte_near (isa : Isa) {y : K} (h0 : 0 ≤ y) (h1 : y ≤ 255) :
    ∃ e : Nat, quantByte isa y = some e ∧ e < 256 ∧ |(e : K) - y| ≤ 1 / 2 := by
  have main : ∀ r : Int, |(r : K) - y| ≤ 1 / 2 → r.toNat < 256 ∧ |((r.toNat : Nat) : K) - y| ≤ 1 / 2 ∧ 0 ≤ r ∧
      r < 256 := by
    intro r hr
    obtain ⟨a, b⟩ := near_range h0 h1 hr
    refine ⟨by omega, ?_, a, b⟩
    have : ((r.toNat : Nat) : K) = (r : K) := by
      have : ((r.toNat : Nat) : Int) = r := Int.toNat_of_nonneg a
      calc ((r.toNat : Nat) : K) = (((r.toNat : Nat) : Int) : K) := by push_cast; rfl
        _ = (r : K) := by rw [this]
    rw [this]; exact hr
  have A := main _ (roundAway_near h0)
  have E := main _ (roundEven_near y)
  unfold quantByte
  cases isa with
  | avx512 =>
    refine ⟨_, rfl, ?_⟩
    rw [Int.emod_eq_of_lt E.2.2.1 E.2.2.2]
    exact ⟨E.1, E.2.1⟩
  | avx2 => simp only [if_pos (And.intro A.2.2.1 A.2.2.2)]; exact ⟨_, rfl, A.1, A.2.1⟩
  | portable => simp only [if_pos (And.intro A.2.2.1 A.2.2.2)]; exact ⟨_, rfl, A.1, A.2.1⟩

theorem mapM_rel {α β : Type} {f : α → Option β} {R : α → β → Prop} {l : List α}
    (h : ∀ x ∈ l, ∃ y, f x = some y ∧ R x y) : ∃ l', l.mapM f = some l' ∧ List.Forall₂ R l l' := by
  induction l with
  | nil => exact ⟨[], rfl, .nil⟩
  | cons a l ih =>
    obtain ⟨b, e, hb⟩ := h a (by simp)
    obtain ⟨l', e', hl⟩ := ih (fun x hx => h x (by simp [hx]))
    exact ⟨b :: l', by rw [List.mapM_cons, e, e']; rfl, .cons hb hl⟩

theorem flatten_pick {q : List K} {n : Nat} :
    ((List.range n).map (fun t => (List.range 16).map (pick q t))).flatten.length = 16 * n ∧
      ∀ t < n, ∀ k < 16, ((List.range n).map (fun t => (List.range 16).map (pick q t))).flatten[16 * t + k]?
        = some (pick q t k) := by
  induction n with
  | zero => exact ⟨by simp, fun i hi => absurd hi (by omega)⟩
  | succ n ih =>
    obtain ⟨h1, h2⟩ := ih
    rw [List.range_succ (n := n), List.map_append, List.flatten_append]
    refine ⟨by rw [List.length_append, h1]; simp; ring, ?_⟩
    intro t ht k hk
    by_cases h : t < n
    · rw [List.getElem?_append_left (by rw [h1]; omega)]
      exact h2 t h k hk
    · obtain rfl : t = n := by omega
      rw [List.getElem?_append_right (by rw [h1]; omega), h1, show 16 * t + k - 16 * t = k by omega]
      simp [hk]

theorem mem_flatten_pick {q : List K} {n : Nat} {x : K}
    (h : x ∈ ((List.range n).map (fun t => (List.range 16).map (pick q t))).flatten) :
    ∃ t < n, ∃ k < 16, x = pick q t k := by
  obtain ⟨l, hl, hx⟩ := List.mem_flatten.mp h
  obtain ⟨t, ht, rfl⟩ := List.mem_map.mp hl
  obtain ⟨k, hk, rfl⟩ := List.mem_map.mp hx
  exact ⟨t, List.mem_range.mp ht, k, List.mem_range.mp hk, rfl⟩

/-- The quantised table of a query that is not zero. -/
theorem mkLut_eq (isa : Isa) {dim : Nat} (hd : dim % 4 = 0) {q : List K} (hq : q.length = dim)
    (hne : ∃ t < dim / 4, ∃ k < 16, pick q t k ≠ 0) :
    ∃ L lo hi, mkLut isa q dim = some L ∧ L.lut.length = 4 * dim ∧ Bytes L.lut ∧ 0 < L.delta ∧
      L.delta * 255 = hi - lo ∧ L.sumVl = lo * ((dim / 4 : Nat) : K) ∧
      (∀ t < dim / 4, ∀ k < 16, lo ≤ pick q t k ∧ pick q t k ≤ hi ∧
        |lo + L.delta * (L.lut.getD (16 * t + k) 0 : Nat) - pick q t k| ≤ L.delta / 2) ∧
      (∃ t < dim / 4, ∃ k < 16, lo = pick q t k) ∧ (∃ t < dim / 4, ∃ k < 16, hi = pick q t k) := by
  obtain ⟨t0, ht0, k0, hk0, hne⟩ := hne
  obtain ⟨hlen, hget⟩ := flatten_pick (q := q) (n := dim / 4)
  have hmem : ∀ t < dim / 4, ∀ k < 16,
      pick q t k ∈ ((List.range (dim / 4)).map (fun t => (List.range 16).map (pick q t))).flatten := fun t ht k hk =>
    List.mem_of_getElem? (hget t ht k hk)
  obtain ⟨lo, hi, er, hlo, hhi, hr⟩ := dataRange_eq
    (l := ((List.range (dim / 4)).map (fun t => (List.range 16).map (pick q t))).flatten)
    (fun h => by have := hmem t0 ht0 k0 hk0; rw [h] at this; simp at this)
  have hz : pick q t0 0 = 0 := by simp [pick]
  have hz1 := hr _ (hmem t0 ht0 0 (by omega))
  rw [hz] at hz1
  have hk1 := hr _ (hmem t0 ht0 k0 hk0)
  have hlt : lo < hi := by
    rcases lt_or_gt_of_ne hne with h | h
    · linarith [hk1.1, hz1.2]
    · linarith [hk1.2, hz1.1]
  have hdpos : 0 < (hi - lo) / 255 := div_pos (by linarith) (by norm_num)
  have hd255 : (hi - lo) / 255 * 255 = hi - lo := div_mul_cancel₀ _ (by norm_num)
  generalize hδ : (hi - lo) / 255 = δ at *
  obtain ⟨bytes, eb, hf⟩ := mapM_rel
    (l := ((List.range (dim / 4)).map (fun t => (List.range 16).map (pick q t))).flatten)
    (f := fun v => quantByte isa ((v - lo) * (1 / δ)))
    (R := fun v (e : Nat) => e < 256 ∧ |lo + δ * (e : K) - v| ≤ δ / 2) (by
      intro v hv
      obtain ⟨h1, h2⟩ := hr v hv
      have hy0 : 0 ≤ (v - lo) * (1 / δ) := mul_nonneg (by linarith) (by positivity)
      have hyδ : (v - lo) * (1 / δ) * δ = v - lo := by
        rw [mul_assoc, one_div, inv_mul_cancel₀ hdpos.ne', mul_one]
      have hy1 : (v - lo) * (1 / δ) ≤ 255 := by
        by_contra hc
        have : 255 * δ < (v - lo) * (1 / δ) * δ := mul_lt_mul_of_pos_right (not_le.mp hc) hdpos
        linarith
      obtain ⟨e, e1, e2, e3⟩ := quantByte_near isa hy0 hy1
      refine ⟨e, e1, e2, ?_⟩
      have : lo + δ * (e : K) - v = ((e : K) - (v - lo) * (1 / δ)) * δ := by
        rw [sub_mul, hyδ]; ring
      rw [this, abs_mul, abs_of_pos hdpos]
      calc |(e : K) - (v - lo) * (1 / δ)| * δ ≤ 1 / 2 * δ := mul_le_mul_of_nonneg_right e3 hdpos.le
        _ = δ / 2 := by ring)
  have hbl := hf.length_eq
  rw [hlen] at hbl
  refine ⟨⟨bytes, δ, lo * ((dim / 4 : Nat) : K)⟩, lo, hi, ?_, by simp only; omega, ?_, hdpos, hd255, rfl, ?_, ?_, ?_⟩
  · unfold mkLut
    rw [packLut_eq hd hq]
    simp only [Option.bind_eq_bind, Option.bind_some, er, hδ, if_neg hdpos.ne', eb, Option.pure_def]
  · intro x hx
    obtain ⟨i, hi, rfl⟩ := List.getElem_of_mem hx
    simp only at hi
    exact (List.Forall₂.get hf (by rw [hlen]; omega) hi).1
  · intro t ht k hk
    obtain ⟨h1, h2⟩ := hr _ (hmem t ht k hk)
    refine ⟨h1, h2, ?_⟩
    have hi : 16 * t + k < ((List.range (dim / 4)).map (fun t => (List.range 16).map (pick q t))).flatten.length := by
      rw [hlen]; omega
    have hi' : 16 * t + k < bytes.length := by omega
    have := (List.Forall₂.get hf hi hi').2
    simp only [List.get_eq_getElem] at this
    rw [List.getD_eq_getElem _ _ hi']
    have e := hget t ht k hk
    rw [List.getElem?_eq_getElem hi] at e
    rw [Option.some.inj e] at this
    exact this
  · exact mem_flatten_pick hlo
  · exact mem_flatten_pick hhi

end Table

end Alaya.FastScan
