/-
Lemmas about `Verif/Model/LaserScan.lean`: packing, the portable kernel and the byte table.
-/
import Verif.Model.LaserScan
import Verif.Lemmas.FastScanPack
import Verif.Props.C77

namespace Alaya.LaserScan

open Alaya.FastScan

/-! ### Packing -/

/-- Bits read from left to right. -/
def hor (f : Nat → Nat) : Nat → Nat
  | 0 => 0
  | n + 1 => 2 * hor f n + f n

theorem hor_div {f : Nat → Nat} (hf : ∀ i, f i < 2) (n k : Nat) : hor f (n + k) / 2 ^ k = hor f n := by
  induction k with
  | zero => simp
  | succ k ih =>
    rw [show n + (k + 1) = n + k + 1 by ring, hor, pow_succ', ← Nat.div_div_eq_div_mul,
      show (2 * hor f (n + k) + f (n + k)) / 2 = hor f (n + k) by have := hf (n + k); omega, ih]

theorem packWord_eq {bits : List Nat} {i : Nat} (hl : i + 64 ≤ bits.length) (hb : ∀ x ∈ bits, x < 2) :
    packWord bits i = some (hor (fun j => bits.getD (i + j) 0) 64) := by
  unfold packWord
  obtain ⟨s, e, hp⟩ := foldlM_inv
    (g := fun cur j => do
      let b ← bits[i + j]?
      pure (cur ||| (b <<< (63 - j)) % 2 ^ 64))
    (P := fun k s => s = hor (fun j => bits.getD (i + j) 0) k * 2 ^ (64 - k)) (s₀ := 0) (by simp [hor]) 64 (by
      intro k hk s hs
      refine ⟨_, by rw [getElem?_getD (by omega : i + k < bits.length)]; rfl, ?_⟩
      have hbit := bit_getD hb (i + k)
      have hp : 2 ^ (64 - k) = 2 * 2 ^ (63 - k) := by
        rw [← pow_succ']; congr 1; omega
      have hlt : bits.getD (i + k) 0 * 2 ^ (63 - k) < 2 ^ (64 - k) := by
        rw [hp]; exact Nat.mul_lt_mul_of_pos_right hbit (by positivity)
      have hle : 2 ^ (64 - k) ≤ 2 ^ 64 := Nat.pow_le_pow_right (by norm_num) (by omega)
      rw [hs, Nat.shiftLeft_eq, Nat.mod_eq_of_lt (lt_of_lt_of_le hlt hle), ← Nat.shiftLeft_eq,
        ← Nat.shiftLeft_add_eq_or_of_lt hlt, Nat.shiftLeft_eq, hp, hor,
        show 64 - (k + 1) = 63 - k by omega]
      ring)
  rw [e, hp]; simp

theorem swapBytes_eight (a b c d e f g h : Nat) :
    swapBytes [a, b, c, d, e, f, g, h] = [h, g, f, e, d, c, b, a] := rfl

theorem swap_word (w : Nat) : swapBytes (wordBytes w) = (List.range 8).map (fun k => (w / 2 ^ (56 - 8 * k)) % 256) := by
  simp only [wordBytes, Nat.shiftRight_eq_div_pow]
  exact swapBytes_eight _ _ _ _ _ _ _ _

theorem hor_eight {f : Nat → Nat} (n : Nat) : hor f (n + 8) % 256 = (128 * f n + 64 * f (n + 1) + 32 * f (n + 2)
    + 16 * f (n + 3) + 8 * f (n + 4) + 4 * f (n + 5) + 2 * f (n + 6) + f (n + 7)) % 256 := by
  rw [show n + 8 = n + 1 + 1 + 1 + 1 + 1 + 1 + 1 + 1 by ring]
  simp only [hor]
  omega

theorem swapNibbles_eq {y : Nat} (h : y < 256) : swapNibbles y = 16 * (y % 16) + y / 16 := by
  unfold swapNibbles
  rw [and15, shr4, Nat.mod_eq_of_lt (by rw [Nat.shiftLeft_eq]; omega),
    ← Nat.shiftLeft_add_eq_or_of_lt (by omega : y / 16 < 2 ^ 4), Nat.shiftLeft_eq]
  omega

theorem range_eight (n : Nat) (F : Nat → Nat) :
    ((List.range n).map (fun w => (List.range 8).map (fun k => F (8 * w + k)))).flatten = (List.range (8 * n)).map F := by
  induction n with
  | zero => rfl
  | succ n ih =>
    rw [List.range_succ (n := n), List.map_append, List.flatten_append, ih, show 8 * (n + 1) = 8 * n + 8 by ring,
      List.range_add, List.map_append]
    simp

/-- A row of bytes is that of the other packer, with the nibbles of each byte exchanged. -/
theorem rowBytes_eq {dim : Nat} (hd : dim % 64 = 0) {x : List Nat} (hl : x.length = dim) (hb : ∀ y ∈ x, y < 2) :
    rowBytes dim x = some ((List.range (dim / 8)).map (fun g => 16 * group x (2 * g + 1) + group x (2 * g))) := by
  unfold rowBytes
  rw [mapM_range (g := fun w => hor (fun j => x.getD (64 * w + j) 0) 64)
    (fun w hw => packWord_eq (by omega) hb)]
  simp only [Option.bind_eq_bind, Option.bind_some, Option.pure_def, List.map_map]
  congr 1
  have hfun : ∀ w, ((fun w => swapBytes (wordBytes w)) ∘ fun w => hor (fun j => x.getD (64 * w + j) 0) 64) w
      = (List.range 8).map (fun k => 16 * group x (2 * (8 * w + k)) + group x (2 * (8 * w + k) + 1)) := by
    intro w
    simp only [Function.comp, swap_word]
    refine List.map_congr_left (fun k hk => ?_)
    have hk : k < 8 := List.mem_range.mp hk
    have := hor_div (f := fun j => x.getD (64 * w + j) 0) (fun i => bit_getD hb _) (8 * k + 8) (56 - 8 * k)
    rw [show 8 * k + 8 + (56 - 8 * k) = 64 by omega] at this
    rw [this, hor_eight]
    unfold group
    have h := bit_getD hb
    have h0 := h (64 * w + 8 * k)
    have h1 := h (64 * w + (8 * k + 1))
    have h2 := h (64 * w + (8 * k + 2))
    have h3 := h (64 * w + (8 * k + 3))
    have h4 := h (64 * w + (8 * k + 4))
    have h5 := h (64 * w + (8 * k + 5))
    have h6 := h (64 * w + (8 * k + 6))
    have h7 := h (64 * w + (8 * k + 7))
    rw [show 4 * (2 * (8 * w + k)) = 64 * w + 8 * k by ring,
      show 64 * w + 8 * k + 1 = 64 * w + (8 * k + 1) by ring, show 64 * w + 8 * k + 2 = 64 * w + (8 * k + 2) by ring,
      show 64 * w + 8 * k + 3 = 64 * w + (8 * k + 3) by ring,
      show 4 * (2 * (8 * w + k) + 1) = 64 * w + (8 * k + 4) by ring,
      show 64 * w + (8 * k + 4) + 1 = 64 * w + (8 * k + 5) by ring,
      show 64 * w + (8 * k + 4) + 2 = 64 * w + (8 * k + 6) by ring,
      show 64 * w + (8 * k + 4) + 3 = 64 * w + (8 * k + 7) by ring]
    omega
  rw [List.map_congr_left (fun w _ => hfun w),
    range_eight (dim / 64) (fun g => 16 * group x (2 * g) + group x (2 * g + 1)), List.map_map,
    show 8 * (dim / 64) = dim / 8 by omega]
  refine List.map_congr_left (fun g _ => ?_)
  have h1 := group_lt hb (2 * g)
  have h2 := group_lt hb (2 * g + 1)
  rw [Function.comp, swapNibbles_eq (by omega)]
  omega

/-- Exchanging the nibbles of every byte is undone by the helper's order of the halves. -/
theorem helperColumn_eq {code code' : List Nat} (hb : Bytes code) {num cols row i : Nat}
    (hlen : num * cols ≤ code.length) (hlen' : num * cols ≤ code'.length) (hi : i < cols)
    (hsw : ∀ k, code'.getD k 0 = 16 * (code.getD k 0 % 16) + code.getD k 0 / 16) :
    helperColumn code' num cols row i = packColumn code num cols row i := by
  have hby : ∀ r, codeByte code' num cols r i = 16 * (codeByte code num cols r i % 16) + codeByte code num cols r i / 16 := by
    intro r; unfold codeByte; split
    · exact hsw _
    · rfl
  have e0 : ((List.range 32).map (fun k => codeByte code' num cols (row + k) i)).map (· &&& 15)
      = ((List.range 32).map (fun k => codeByte code num cols (row + k) i)).map (· >>> 4) := by
    simp only [List.map_map]
    refine List.map_congr_left (fun k _ => ?_)
    have := codeByte_lt hb num cols (row + k) i
    simp only [Function.comp, and15, shr4, hby]; omega
  have e1 : ((List.range 32).map (fun k => codeByte code' num cols (row + k) i)).map (· >>> 4)
      = ((List.range 32).map (fun k => codeByte code num cols (row + k) i)).map (· &&& 15) := by
    simp only [List.map_map]
    refine List.map_congr_left (fun k _ => ?_)
    have := codeByte_lt hb num cols (row + k) i
    simp only [Function.comp, and15, shr4, hby]; omega
  unfold helperColumn packColumn
  rw [getColumn_eq hlen hi, getColumn_eq hlen' hi]
  simp only [Option.bind_eq_bind, Option.bind_some, e0, e1]

theorem mapM_congr_range {α : Type} {n : Nat} {f g : Nat → Option α} (h : ∀ i < n, f i = g i) :
    (List.range n).mapM f = (List.range n).mapM g := by
  induction n with
  | zero => rfl
  | succ n ih =>
    rw [List.range_succ, List.mapM_append, List.mapM_append, ih (fun i hi => h i (by omega))]
    simp [h n (by omega)]

/-- The packed codes of LASER are those of the other index. -/
theorem storeCodes_eq {dim : Nat} (hd : dim % 64 = 0) {X : List (List Nat)} (hX : ∀ x ∈ X, x.length = dim)
    (hb : ∀ x ∈ X, ∀ y ∈ x, y < 2) : storeCodes dim X = quantCodes dim X := by
  let gA : List Nat → List Nat := fun x => (List.range (dim / 8)).map (fun g => 16 * group x (2 * g) + group x (2 * g + 1))
  let gB : List Nat → List Nat := fun x => (List.range (dim / 8)).map (fun g => 16 * group x (2 * g + 1) + group x (2 * g))
  have key : ∀ Y : List (List Nat), (∀ x ∈ Y, x.length = dim) → (∀ x ∈ Y, ∀ y ∈ x, y < 2) →
      Y.mapM (packBinary dim) = some (Y.map gA) ∧ Y.mapM (rowBytes dim) = some (Y.map gB) ∧
      (Y.map gA).flatten.length = Y.length * (dim / 8) ∧ (Y.map gB).flatten.length = Y.length * (dim / 8) ∧
      Bytes (Y.map gA).flatten ∧ (Y.map gB).flatten = (Y.map gA).flatten.map (fun y => 16 * (y % 16) + y / 16) := by
    intro Y hY hbY
    induction Y with
    | nil => exact ⟨rfl, rfl, by simp, by simp, fun x hx => by simp at hx, rfl⟩
    | cons x Y ih =>
      obtain ⟨i1, i2, i3, i4, i5, i6⟩ := ih (fun z hz => hY z (by simp [hz])) (fun z hz => hbY z (by simp [hz]))
      have hx := hY x (by simp)
      have hbx := hbY x (by simp)
      refine ⟨?_, ?_, ?_, ?_, ?_, ?_⟩
      · rw [List.mapM_cons, packBinary_eq (by omega) hx hbx, i1]; rfl
      · rw [List.mapM_cons, rowBytes_eq hd hx hbx, i2]; rfl
      · rw [List.map_cons, List.flatten_cons, List.length_append, i3]; simp [gA, Nat.succ_mul, Nat.add_comm]
      · rw [List.map_cons, List.flatten_cons, List.length_append, i4]; simp [gB, Nat.succ_mul, Nat.add_comm]
      · intro z hz
        rw [List.map_cons, List.flatten_cons] at hz
        rcases List.mem_append.mp hz with h | h
        · obtain ⟨g, _, rfl⟩ := List.mem_map.mp h
          have h1 := group_lt hbx (2 * g)
          have h2 := group_lt hbx (2 * g + 1)
          omega
        · exact i5 z h
      · rw [List.map_cons, List.map_cons, List.flatten_cons, List.flatten_cons, List.map_append, i6]
        congr 1
        simp only [gA, gB, List.map_map]
        refine List.map_congr_left (fun g _ => ?_)
        have h1 := group_lt hbx (2 * g)
        have h2 := group_lt hbx (2 * g + 1)
        simp only [Function.comp]; omega
  obtain ⟨k1, k2, k3, k4, k5, k6⟩ := key X hX hb
  unfold storeCodes quantCodes
  rw [k1, k2]
  simp only [Option.bind_eq_bind, Option.bind_some]
  have hsw : ∀ k, (X.map gB).flatten.getD k 0
      = 16 * ((X.map gA).flatten.getD k 0 % 16) + (X.map gA).flatten.getD k 0 / 16 := by
    intro k
    rw [k6]
    by_cases h : k < (X.map gA).flatten.length
    · rw [List.getD_eq_getElem _ _ (by rw [List.length_map]; exact h), List.getD_eq_getElem _ _ h, List.getElem_map]
    · rw [List.getD_eq_default _ _ (by rw [List.length_map]; omega), List.getD_eq_default _ _ (by omega)]
  unfold packHelper packCodes
  rw [show (dim / 4 + 1) / 2 = dim / 8 by omega, show dim / 4 / 2 = dim / 8 by omega]
  rw [mapM_congr_range (g := fun s => do
    let cs ← (List.range (dim / 8)).mapM (fun i => packColumn (X.map gA).flatten X.length (dim / 8) (32 * s) i)
    pure cs.flatten) (fun s _ => by
      rw [mapM_congr_range (fun i hi => helperColumn_eq (row := 32 * s) k5 k3.ge k4.ge hi hsw)])]

/-! ### The portable kernel -/

theorem genericPair_eq {codes lp : List Nat} (hc : Bytes codes) (t : Nat)
    (h1 : 32 * t + 32 ≤ codes.length) (h2 : 32 * t + 32 ≤ lp.length) (r : Nat → Nat) :
    genericPair codes lp (32 * t) r =
      some (fun v => if v < 32 then ((r v + entry codes lp (2 * t) v) % 65536 + entry codes lp (2 * t + 1) v) % 65536
        else r v) := by
  have hcode : ∀ k, k < 16 → codes[32 * t + k]? = some (codes.getD (16 * (2 * t) + k) 0) := fun k hk => by
    rw [show 16 * (2 * t) = 32 * t by ring]; exact getElem?_getD (by omega)
  have hcode' : ∀ k, k < 16 → codes[32 * t + (k + 16)]? = some (codes.getD (16 * (2 * t + 1) + k) 0) := fun k hk => by
    rw [show 16 * (2 * t + 1) + k = 32 * t + (k + 16) by ring]; exact getElem?_getD (by omega)
  have hlo : ∀ x, lp[32 * t + x % 16]? = some (lp.getD (16 * (2 * t) + x % 16) 0) := fun x => by
    rw [show 16 * (2 * t) = 32 * t by ring]; exact getElem?_getD (by omega)
  have hlo' : ∀ x, lp[32 * t + 16 + x % 16]? = some (lp.getD (16 * (2 * t + 1) + x % 16) 0) := fun x => by
    rw [show 16 * (2 * t + 1) = 32 * t + 16 by ring]; exact getElem?_getD (by omega)
  have hhi : ∀ k, lp[32 * t + codes.getD k 0 / 16]? = some (lp.getD (16 * (2 * t) + codes.getD k 0 / 16) 0) := fun k => by
    rw [show 16 * (2 * t) = 32 * t by ring]; exact getElem?_getD (by have := hc.getD k; omega)
  have hhi' : ∀ k, lp[32 * t + 16 + codes.getD k 0 / 16]?
      = some (lp.getD (16 * (2 * t + 1) + codes.getD k 0 / 16) 0) := fun k => by
    rw [show 16 * (2 * t + 1) = 32 * t + 16 by ring]; exact getElem?_getD (by have := hc.getD k; omega)
  have hr : List.range 16 = [0, 1, 2, 3, 4, 5, 6, 7, 8, 9, 10, 11, 12, 13, 14, 15] := by decide
  unfold genericPair
  rw [hr]
  simp only [List.foldlM_cons, List.foldlM_nil, kPerm0, List.getElem?_cons_zero, List.getElem?_cons_succ,
    Option.bind_eq_bind, Option.bind_some, Option.pure_def,
    hcode _ (by omega : (0 : Nat) < 16), hcode' _ (by omega : (0 : Nat) < 16),
    hcode _ (by omega : (1 : Nat) < 16), hcode' _ (by omega : (1 : Nat) < 16),
    hcode _ (by omega : (2 : Nat) < 16), hcode' _ (by omega : (2 : Nat) < 16),
    hcode _ (by omega : (3 : Nat) < 16), hcode' _ (by omega : (3 : Nat) < 16),
    hcode _ (by omega : (4 : Nat) < 16), hcode' _ (by omega : (4 : Nat) < 16),
    hcode _ (by omega : (5 : Nat) < 16), hcode' _ (by omega : (5 : Nat) < 16),
    hcode _ (by omega : (6 : Nat) < 16), hcode' _ (by omega : (6 : Nat) < 16),
    hcode _ (by omega : (7 : Nat) < 16), hcode' _ (by omega : (7 : Nat) < 16),
    hcode _ (by omega : (8 : Nat) < 16), hcode' _ (by omega : (8 : Nat) < 16),
    hcode _ (by omega : (9 : Nat) < 16), hcode' _ (by omega : (9 : Nat) < 16),
    hcode _ (by omega : (10 : Nat) < 16), hcode' _ (by omega : (10 : Nat) < 16),
    hcode _ (by omega : (11 : Nat) < 16), hcode' _ (by omega : (11 : Nat) < 16),
    hcode _ (by omega : (12 : Nat) < 16), hcode' _ (by omega : (12 : Nat) < 16),
    hcode _ (by omega : (13 : Nat) < 16), hcode' _ (by omega : (13 : Nat) < 16),
    hcode _ (by omega : (14 : Nat) < 16), hcode' _ (by omega : (14 : Nat) < 16),
    hcode _ (by omega : (15 : Nat) < 16), hcode' _ (by omega : (15 : Nat) < 16),
    and15, shr4, hlo, hlo', hhi, hhi']
  congr 1
  funext v
  by_cases hv : v < 32
  · interval_cases v <;> simp [bump, entry, nib, slot]
  · rw [if_neg hv]
    simp only [bump]
    repeat rw [if_neg (by omega)]

theorem accGeneric_eq {codes lp : List Nat} (hc : Bytes codes) {dim : Nat} (hd : dim % 8 = 0)
    (h1 : 4 * dim ≤ codes.length) (h2 : 4 * dim ≤ lp.length) :
    accGeneric codes lp dim = some (sums codes lp (dim / 4)) := by
  have hn : (dim / 4 + 1) / 2 = dim / 8 := by omega
  obtain ⟨r, e, hp⟩ := foldlM_inv (g := fun r k => genericPair codes lp (32 * k) r)
    (P := fun k r => ∀ v < 32, r v = sumR (2 * k) (fun t => entry codes lp t v) % 65536)
    (s₀ := fun _ => 0) (by intro v _; rfl) (dim / 8) (by
      intro k hk r hr
      refine ⟨_, genericPair_eq hc k (by omega) (by omega) r, ?_⟩
      intro v hv
      simp only [if_pos hv, hr v hv]
      rw [show 2 * (k + 1) = 2 * k + 1 + 1 by ring, sumR_succ, sumR_succ]
      omega)
  unfold accGeneric
  rw [hn, e]
  simp only [Option.bind_eq_bind, Option.bind_some, Option.pure_def, sums]
  congr 1
  refine List.map_congr_left (fun v hv => ?_)
  rw [hp v (List.mem_range.mp hv), show 2 * (dim / 8) = dim / 4 by omega]

theorem kernel_eq (isa : Isa) {dim : Nat} (hd : dim % 16 = 0) {codes lp : List Nat} (hc : Bytes codes)
    (h1 : 4 * dim ≤ codes.length) (h2 : 4 * dim ≤ lp.length) :
    kernel isa codes lp dim = accumulate isa codes lp dim := by
  unfold accumulate
  rw [if_neg (by omega)]
  cases isa with
  | avx512 => rfl
  | avx2 => rfl
  | portable =>
    show accGeneric codes lp dim = accScalar codes lp dim
    rw [accGeneric_eq hc (by omega) h1 h2, accScalar_eq hc (by omega) h1 h2]

/-! ### The table -/

/-- The sum selected by the four bits of `k`. -/
def pickN (q : List Nat) (t k : Nat) : Nat :=
  (if k / 8 % 2 = 1 then q.getD (4 * t) 0 else 0) + (if k / 4 % 2 = 1 then q.getD (4 * t + 1) 0 else 0)
    + (if k / 2 % 2 = 1 then q.getD (4 * t + 2) 0 else 0) + (if k % 2 = 1 then q.getD (4 * t + 3) 0 else 0)

theorem lutGroup8_four (a b c d : Nat) :
    lutGroup8 [a, b, c, d] = some ([0, d, c, c + d, b, b + d, b + c, b + c + d, a, a + d, a + c, a + c + d, a + b,
      a + b + d, a + b + c, a + b + c + d].map (· % 256)) := by
  have hr : List.range 15 = [0, 1, 2, 3, 4, 5, 6, 7, 8, 9, 10, 11, 12, 13, 14] := by decide
  unfold lutGroup8
  rw [hr]
  simp only [List.foldlM_cons, List.foldlM_nil, show lowbit (0 + 1) = 1 by decide, show lowbit (1 + 1) = 2 by decide,
    show lowbit (2 + 1) = 1 by decide, show lowbit (3 + 1) = 4 by decide, show lowbit (4 + 1) = 1 by decide,
    show lowbit (5 + 1) = 2 by decide, show lowbit (6 + 1) = 1 by decide, show lowbit (7 + 1) = 8 by decide,
    show lowbit (8 + 1) = 1 by decide, show lowbit (9 + 1) = 2 by decide, show lowbit (10 + 1) = 1 by decide,
    show lowbit (11 + 1) = 4 by decide, show lowbit (12 + 1) = 1 by decide, show lowbit (13 + 1) = 2 by decide,
    show lowbit (14 + 1) = 1 by decide, kPos]
  simp

theorem lutGroup8_eq {q : List Nat} {t : Nat} (h : 4 * t + 4 ≤ q.length) :
    lutGroup8 ((q.drop (4 * t)).take 4) = some ((List.range 16).map (fun k => pickN q t k % 256)) := by
  have e : (q.drop (4 * t)).take 4 = [q.getD (4 * t) 0, q.getD (4 * t + 1) 0, q.getD (4 * t + 2) 0, q.getD (4 * t + 3) 0] := by
    refine List.ext_getElem (by simp; omega) (fun i h1 h2 => ?_)
    have hi : i < 4 := by simpa using h2
    rw [List.getElem_take, List.getElem_drop, ← List.getD_eq_getElem _ 0]
    interval_cases i <;> rfl
  rw [e, lutGroup8_four]
  have hr : List.range 16 = [0, 1, 2, 3, 4, 5, 6, 7, 8, 9, 10, 11, 12, 13, 14, 15] := by decide
  rw [hr]
  simp [pickN]

theorem packLut8_eq {dim : Nat} {q : List Nat} (hq : q.length = dim) (hd : dim % 4 = 0) :
    ∃ L, packLut8 dim q = some L ∧ L.length = 4 * dim ∧ Bytes L ∧
      ∀ t < dim / 4, ∀ k < 16, L.getD (16 * t + k) 0 = pickN q t k % 256 := by
  have hF := flatten_getD (g := fun t => (List.range 16).map (fun k => pickN q t k % 256)) (L := 16) (by simp) (dim / 4)
  refine ⟨((List.range (dim / 4)).map (fun t => (List.range 16).map (fun k => pickN q t k % 256))).flatten, ?_,
    by rw [hF.1]; omega, ?_, ?_⟩
  · unfold packLut8
    rw [mapM_range (fun i hi => lutGroup8_eq (q := q) (t := i) (by omega))]
    rfl
  · refine flatten_bytes (fun t _ x hx => ?_)
    obtain ⟨k, _, rfl⟩ := List.mem_map.mp hx
    omega
  · intro t ht k hk
    rw [hF.2 t ht k hk, map_range_getD _ hk]

theorem pickN_group {x : List Nat} (hb : ∀ y ∈ x, y < 2) (q : List Nat) (t : Nat) :
    pickN q t (group x t) = x.getD (4 * t) 0 * q.getD (4 * t) 0 + x.getD (4 * t + 1) 0 * q.getD (4 * t + 1) 0
      + x.getD (4 * t + 2) 0 * q.getD (4 * t + 2) 0 + x.getD (4 * t + 3) 0 * q.getD (4 * t + 3) 0 := by
  have h0 := bit_getD hb (4 * t)
  have h1 := bit_getD hb (4 * t + 1)
  have h2 := bit_getD hb (4 * t + 2)
  have h3 := bit_getD hb (4 * t + 3)
  unfold pickN group
  generalize x.getD (4 * t) 0 = a at *
  generalize x.getD (4 * t + 1) 0 = b at *
  generalize x.getD (4 * t + 2) 0 = c at *
  generalize x.getD (4 * t + 3) 0 = d at *
  interval_cases a <;> interval_cases b <;> interval_cases c <;> interval_cases d <;> simp

end Alaya.LaserScan
