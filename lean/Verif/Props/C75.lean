import Verif.Model.Simd
import Mathlib.Tactic.Ring

/-
C75: the vector kernels.  For every dimension each of the kernels gives the sum over all coordinates, once each, and reads nothing behind the
ends of the vectors (exact arithmetic); so do all kernels that the processor may select.  The selected kernel runs if avx512f implies the
other extensions.  Refuted: without that.
-/
namespace Alaya.Simd

variable {R : Type} [CommRing R]

/-! ### Specification -/

/-- The sum over all coordinates. -/
def total (t : Nat → R) (dim : Nat) : R := ((List.range dim).map t).sum

/-- Squared distance and inner product of vectors. -/
def l2 (x y : List R) (dim : Nat) : R := total (fun i => (x.getD i 0 - y.getD i 0) ^ 2) dim
def ip (x y : List R) (dim : Nat) : R := total (fun i => x.getD i 0 * y.getD i 0) dim

/-- The value of code `c` in the range from `l` to `h`. -/
def dec (k : R) (c : Nat) (l h : R) : R := l + c * ((h - l) * k)

def l2sq8 (k : R) (x y : List Nat) (mn mx : List R) (dim : Nat) : R :=
  total (fun i => (dec k (x.getD i 0) (mn.getD i 0) (mx.getD i 0) - dec k (y.getD i 0) (mn.getD i 0) (mx.getD i 0)) ^ 2) dim
def ipsq8 (k : R) (x y : List Nat) (mn mx : List R) (dim : Nat) : R :=
  total (fun i => dec k (x.getD i 0) (mn.getD i 0) (mx.getD i 0) * dec k (y.getD i 0) (mn.getD i 0) (mx.getD i 0)) dim

/-- Code `i` of packed codes, as the distances read them: even ones in the lower half of a byte. -/
def nib (x : List Nat) (i : Nat) : Nat := if i % 2 = 0 then x.getD (i / 2) 0 % 16 else x.getD (i / 2) 0 / 16

def l2sq4 (k : R) (x y : List Nat) (mn mx : List R) (dim : Nat) : R :=
  total (fun i => (dec k (nib x i) (mn.getD i 0) (mx.getD i 0) - dec k (nib y i) (mn.getD i 0) (mx.getD i 0)) ^ 2) dim
def ipsq4 (k : R) (x y : List Nat) (mn mx : List R) (dim : Nat) : R :=
  total (fun i => dec k (nib x i) (mn.getD i 0) (mx.getD i 0) * dec k (nib y i) (mn.getD i 0) (mx.getD i 0)) dim

/-! ### Sums -/

def S (t : Nat → R) (i n : Nat) : R := ((List.range n).map (fun k => t (i + k))).sum

theorem S_zero (t : Nat → R) (i : Nat) : S t i 0 = 0 := by simp [S]

theorem S_succ (t : Nat → R) (i n : Nat) : S t i (n + 1) = S t i n + t (i + n) := by simp [S, List.range_succ]

theorem S_add (t : Nat → R) (i a b : Nat) : S t i (a + b) = S t i a + S t (i + a) b := by
  induction b with
  | zero => simp [S_zero]
  | succ b ih => rw [← Nat.add_assoc, S_succ, ih, S_succ]; rw [Nat.add_assoc]; ring

theorem S_total (t : Nat → R) (n : Nat) : S t 0 n = total t n := by simp [S, total]

theorem S_split (t : Nat → R) {i w dim : Nat} (h : i + w ≤ dim) : S t i (dim - i) = S t i w + S t (i + w) (dim - (i + w)) := by
  rw [← S_add]; congr 1; omega

theorem zsum : ∀ (a b : List R), a.length = b.length → (vadd a b).sum = a.sum + b.sum := by
  intro a
  induction a with
  | nil => intro b h; cases b <;> simp_all [vadd]
  | cons x a ih =>
    intro b h
    rcases b with _ | ⟨y, b⟩
    · simp at h
    · have := ih b (by simpa using h)
      simp only [vadd] at this
      simp only [vadd, List.zipWith_cons_cons, List.sum_cons, this]
      ring

theorem vadd_length (a b : List R) (w : Nat) (h1 : a.length = w) (h2 : b.length = w) : (vadd a b).length = w := by simp [vadd, h1, h2]

/-- The lanes of a block are the elements at `i`, ..., `i + w - 1`. -/
def Lanes (blk : Nat → Option (List R)) (t : Nat → R) (w dim : Nat) : Prop :=
  ∀ i, i + w ≤ dim → blk i = some ((List.range w).map (fun k => t (i + k)))

theorem Lanes.get {blk : Nat → Option (List R)} {t : Nat → R} {w dim i : Nat} (h : Lanes blk t w dim) (hi : i + w ≤ dim) :
    ∃ b, blk i = some b ∧ b.length = w ∧ b.sum = S t i w := ⟨_, h i hi, by simp, rfl⟩

/-! ### Loops -/

theorem loop4_ok {blk : Nat → Option (List R)} {t : Nat → R} {w dim : Nat} (hw : 0 < w) (hb : Lanes blk t w dim) :
    ∀ (fuel i : Nat) (s : Acc (R := R)), s.s0.length = w → s.s1.length = w → s.s2.length = w → s.s3.length = w → i ≤ dim → dim - i < fuel →
    ∃ i' s', loop4 blk w dim fuel i s = some (i', s') ∧ s'.s0.length = w ∧ s'.s1.length = w ∧ s'.s2.length = w ∧ s'.s3.length = w ∧
      i' ≤ dim ∧ s'.s0.sum + s'.s1.sum + s'.s2.sum + s'.s3.sum + S t i' (dim - i') =
        s.s0.sum + s.s1.sum + s.s2.sum + s.s3.sum + S t i (dim - i) := by
  intro fuel
  induction fuel with
  | zero => intro i s _ _ _ _ _ h; omega
  | succ fuel ih =>
    intro i s h0 h1 h2 h3 hi hf
    simp only [loop4]
    split
    · rename_i hle
      obtain ⟨b0, e0, l0, u0⟩ := hb.get (i := i) (by omega)
      obtain ⟨b1, e1, l1, u1⟩ := hb.get (i := i + w) (by omega)
      obtain ⟨b2, e2, l2, u2⟩ := hb.get (i := i + 2 * w) (by omega)
      obtain ⟨b3, e3, l3, u3⟩ := hb.get (i := i + 3 * w) (by omega)
      rw [e0, e1, e2, e3]
      obtain ⟨i', s', e, g0, g1, g2, g3, g4, g5⟩ := ih (i + 4 * w) ⟨vadd b0 s.s0, vadd b1 s.s1, vadd b2 s.s2, vadd b3 s.s3⟩
        (vadd_length _ _ _ l0 h0) (vadd_length _ _ _ l1 h1) (vadd_length _ _ _ l2 h2) (vadd_length _ _ _ l3 h3) (by omega) (by omega)
      refine ⟨i', s', e, g0, g1, g2, g3, g4, ?_⟩
      rw [g5, zsum _ _ (l0.trans h0.symm), zsum _ _ (l1.trans h1.symm), zsum _ _ (l2.trans h2.symm), zsum _ _ (l3.trans h3.symm), u0, u1, u2, u3,
        S_split t hle, show 4 * w = w + (w + (w + w)) by omega, S_add, S_add, S_add, show i + 2 * w = i + w + w by omega,
        show i + 3 * w = i + w + w + w by omega]
      ring
    · exact ⟨i, s, rfl, h0, h1, h2, h3, hi, rfl⟩

theorem loop2_ok {blk : Nat → Option (List R)} {t : Nat → R} {w dim : Nat} (hw : 0 < w) (hb : Lanes blk t w dim) :
    ∀ (fuel i : Nat) (s0 s1 : List R), s0.length = w → s1.length = w → i ≤ dim → dim - i < fuel →
    ∃ i' r0 r1, loop2 blk w dim fuel i s0 s1 = some (i', r0, r1) ∧ r0.length = w ∧ r1.length = w ∧ i' ≤ dim ∧
      r0.sum + r1.sum + S t i' (dim - i') = s0.sum + s1.sum + S t i (dim - i) := by
  intro fuel
  induction fuel with
  | zero => intro i s0 s1 _ _ _ h; omega
  | succ fuel ih =>
    intro i s0 s1 h0 h1 hi hf
    simp only [loop2]
    split
    · rename_i hle
      obtain ⟨b0, e0, l0, u0⟩ := hb.get (i := i) (by omega)
      obtain ⟨b1, e1, l1, u1⟩ := hb.get (i := i + w) (by omega)
      rw [e0, e1]
      obtain ⟨i', r0, r1, e, g0, g1, g4, g5⟩ := ih (i + 2 * w) (vadd b0 s0) (vadd b1 s1)
        (vadd_length _ _ _ l0 h0) (vadd_length _ _ _ l1 h1) (by omega) (by omega)
      refine ⟨i', r0, r1, e, g0, g1, g4, ?_⟩
      rw [g5, zsum _ _ (l0.trans h0.symm), zsum _ _ (l1.trans h1.symm), u0, u1, S_split t hle, show 2 * w = w + w by omega, S_add]
      ring
    · exact ⟨i, s0, s1, rfl, h0, h1, hi, rfl⟩

theorem loop1_ok {blk : Nat → Option (List R)} {t : Nat → R} {w dim : Nat} (hw : 0 < w) (hb : Lanes blk t w dim) :
    ∀ (fuel i : Nat) (s : List R), s.length = w → i ≤ dim → dim - i < fuel →
    ∃ i' r, loop1 blk w dim fuel i s = some (i', r) ∧ r.length = w ∧ i' ≤ dim ∧ dim < i' + w ∧
      r.sum + S t i' (dim - i') = s.sum + S t i (dim - i) := by
  intro fuel
  induction fuel with
  | zero => intro i s _ _ h; omega
  | succ fuel ih =>
    intro i s h0 hi hf
    simp only [loop1]
    split
    · rename_i hle
      obtain ⟨b0, e0, l0, u0⟩ := hb.get (i := i) (by omega)
      rw [e0]
      obtain ⟨i', r, e, g0, g3, g4, g5⟩ := ih (i + w) (vadd b0 s) (vadd_length _ _ _ l0 h0) (by omega) (by omega)
      refine ⟨i', r, e, g0, g3, g4, ?_⟩
      rw [g5, zsum _ _ (l0.trans h0.symm), u0, S_split t hle]
      ring
    · exact ⟨i, s, rfl, h0, hi, by omega, rfl⟩

theorem tail_ok {f : Nat → Option R} {t : Nat → R} {dim : Nat} (hf : ∀ i, i < dim → f i = some (t i)) :
    ∀ (fuel i : Nat) (r : R), i ≤ dim → dim - i < fuel → tail f dim fuel i r = some (r + S t i (dim - i)) := by
  intro fuel
  induction fuel with
  | zero => intro i r _ h; omega
  | succ fuel ih =>
    intro i r hi hfu
    simp only [tail]
    split
    · rename_i h
      rw [hf i h]
      simp only
      rw [ih (i + 1) (r + t i) (by omega) (by omega), S_split t (w := 1) (i := i) (by omega), S_succ, S_zero]
      simp only [Nat.add_zero]
      congr 1; ring
    · have : dim - i = 0 := by omega
      rw [this, S_zero, add_zero]

theorem hsum8_ok (a : List R) (h : a.length = 8) : hsum8 a = some a.sum := by
  match a, h with
  | [a0, a1, a2, a3, a4, a5, a6, a7], _ => simp only [hsum8, List.sum_cons, List.sum_nil, Option.some.injEq]; ring

theorem hsumCompat_ok (a : List R) (h : a.length = 8) : hsumCompat a = some a.sum := by
  match a, h with
  | [a0, a1, a2, a3, a4, a5, a6, a7], _ => simp only [hsumCompat, List.sum_cons, List.sum_nil, Option.some.injEq]; ring

theorem vzero_sum (w : Nat) : (vzero w : List R).sum = 0 := by simp [vzero]

theorem vzero_length (w : Nat) : (vzero w : List R).length = w := by simp [vzero]

/-! ### Whole kernels over abstract blocks -/

theorem generic_ok {f : Nat → Option R} {t : Nat → R} {dim : Nat} (hf : ∀ i, i < dim → f i = some (t i)) :
    generic f dim = some (total t dim) := by
  rw [generic, tail_ok hf _ _ _ (by omega) (by omega), Nat.sub_zero, S_total, zero_add]

theorem avx2_ok {blk : Nat → Nat → Option (List R)} {f : Nat → Option R} {t : Nat → R} {dim : Nat} (hb : Lanes (blk 8) t 8 dim)
    (hf : ∀ i, i < dim → f i = some (t i)) : avx2 blk f dim = some (total t dim) := by
  obtain ⟨i, s, e, g0, g1, g2, g3, gi, gs⟩ := loop4_ok (by omega) hb (dim + 1) 0 ⟨vzero 8, vzero 8, vzero 8, vzero 8⟩ (vzero_length 8)
    (vzero_length 8) (vzero_length 8) (vzero_length 8) (by omega) (by omega)
  obtain ⟨j, r, e', k0, k1, k2, ks⟩ := loop1_ok (by omega) hb (dim + 1) i s.s0 g0 gi (by omega)
  have l01 := vadd_length r s.s1 8 k0 g1
  have l23 := vadd_length s.s2 s.s3 8 g2 g3
  rw [avx2, e]
  simp only
  rw [e']
  simp only
  rw [hsum8_ok _ (vadd_length _ _ 8 l01 l23)]
  simp only
  rw [tail_ok hf _ _ _ k1 (by omega), zsum _ _ (l01.trans l23.symm), zsum _ _ (k0.trans g1.symm), zsum _ _ (g2.trans g3.symm), ← S_total]
  simp only [vzero_sum, Nat.sub_zero, zero_add] at gs
  rw [← gs]
  congr 1
  have : r.sum = s.s0.sum + S t i (dim - i) - S t j (dim - j) := by rw [← ks]; ring
  rw [this]; ring

theorem sq8avx2_ok {blk : Nat → Nat → Option (List R)} {f : Nat → Option R} {t : Nat → R} {dim : Nat} (hb : Lanes (blk 8) t 8 dim)
    (hf : ∀ i, i < dim → f i = some (t i)) : sq8avx2 blk f dim = some (total t dim) := by
  obtain ⟨i, s0, s1, e, g0, g1, gi, gs⟩ := loop2_ok (by omega) hb (dim + 1) 0 (vzero 8) (vzero 8) (vzero_length 8)
    (vzero_length 8) (by omega) (by omega)
  obtain ⟨j, r, e', k0, k1, k2, ks⟩ := loop1_ok (by omega) hb (dim + 1) i s0 g0 gi (by omega)
  rw [sq8avx2, e]
  simp only
  rw [e']
  simp only
  rw [hsum8_ok _ (vadd_length _ _ 8 k0 g1)]
  simp only
  rw [tail_ok hf _ _ _ k1 (by omega), zsum _ _ (k0.trans g1.symm), ← S_total]
  simp only [vzero_sum, Nat.sub_zero, zero_add] at gs
  rw [← gs]
  congr 1
  have : r.sum = s0.sum + S t i (dim - i) - S t j (dim - j) := by rw [← ks]; ring
  rw [this]; ring

theorem sq8avx512_ok {blk : Nat → Nat → Option (List R)} {f : Nat → Option R} {t : Nat → R} {dim : Nat} (hb : Lanes (blk 16) t 16 dim)
    (hf : ∀ i, i < dim → f i = some (t i)) : sq8avx512 blk f dim = some (total t dim) := by
  obtain ⟨i, s0, s1, e, g0, g1, gi, gs⟩ := loop2_ok (by omega) hb (dim + 1) 0 (vzero 16) (vzero 16) (vzero_length 16)
    (vzero_length 16) (by omega) (by omega)
  obtain ⟨j, r, e', k0, k1, k2, ks⟩ := loop1_ok (by omega) hb (dim + 1) i s0 g0 gi (by omega)
  rw [sq8avx512, e]
  simp only
  rw [e']
  simp only
  rw [hsum16, if_pos (vadd_length _ _ 16 k0 g1)]
  simp only
  rw [tail_ok hf _ _ _ k1 (by omega), zsum _ _ (k0.trans g1.symm), ← S_total]
  simp only [vzero_sum, Nat.sub_zero, zero_add] at gs
  rw [← gs]
  congr 1
  have : r.sum = s0.sum + S t i (dim - i) - S t j (dim - j) := by rw [← ks]; ring
  rw [this]; ring

theorem compat_ok {blk : Nat → Nat → Option (List R)} {f : Nat → Option R} {t : Nat → R} {dim : Nat} (hb : Lanes (blk 8) t 8 dim)
    (hf : ∀ i, i < dim → f i = some (t i)) : compat blk f dim = some (total t dim) := by
  have key : ∀ n, 8 * n ≤ dim → ∃ s, (List.range n).foldlM (fun s j => (blk 8 (8 * j)).map (fun b => vadd b s)) (vzero 8) = some s ∧
      s.length = 8 ∧ s.sum = S t 0 (8 * n) := by
    intro n
    induction n with
    | zero => intro _; exact ⟨vzero 8, rfl, vzero_length 8, by rw [vzero_sum, Nat.mul_zero, S_zero]⟩
    | succ n ih =>
      intro h
      obtain ⟨s, e, l, u⟩ := ih (by omega)
      obtain ⟨b, eb, lb, ub⟩ := hb.get (i := 8 * n) (by omega)
      refine ⟨vadd b s, ?_, vadd_length _ _ _ lb l, ?_⟩
      · rw [List.range_succ, List.foldlM_append, e]
        simp [eb]
      · rw [zsum _ _ (lb.trans l.symm), u, ub, show 8 * (n + 1) = 8 * n + 8 by omega, S_add, Nat.zero_add]; ring
  obtain ⟨s, e, l, u⟩ := key (dim / 8) (by omega)
  rw [compat, e]
  simp only
  rw [hsumCompat_ok s l]
  simp only
  rw [tail_ok hf _ _ _ (by omega) (by omega), u, ← S_total]
  congr 1
  have h8 : 0 + 8 * (dim / 8) ≤ dim := by omega
  have := S_split t (i := 0) h8
  rw [Nat.sub_zero, Nat.zero_add] at this
  rw [this, Nat.mul_comm (dim / 8) 8]

/-! ### The masked tail -/

theorem mask_bit (n k : Nat) (hn : n < 16) (hk : k < 16) : (mask n).testBit k = decide (k < n) := by
  have : ∀ n : Fin 16, ∀ k : Fin 16, (mask n.1).testBit k.1 = decide (k.1 < n.1) := by decide +kernel
  exact this ⟨n, hn⟩ ⟨k, hk⟩

theorem maskLoad_ok (x : List R) (i rem dim : Nat) (hrem : rem < 16) (hx : dim ≤ x.length) (hd : i + rem ≤ dim) : ∀ n, n ≤ 16 →
    maskLoad x i (mask rem) n = some ((List.range n).map (fun k => if k < rem then x.getD (i + k) 0 else 0)) := by
  intro n
  induction n with
  | zero => intro _; rfl
  | succ n ih =>
    intro hn
    simp only [maskLoad, ih (by omega), mask_bit rem n hrem (by omega), List.range_succ, List.map_append, List.map_cons, List.map_nil,
      decide_eq_true_eq]
    split
    · rename_i h
      have : i + n < x.length := by omega
      simp [List.getD_eq_getElem?_getD, List.getElem?_eq_getElem this]
    · rfl

theorem range_sum_split (t : Nat → R) (i rem : Nat) (h : rem ≤ 16) :
    ((List.range 16).map (fun k => if k < rem then t (i + k) else 0)).sum = S t i rem := by
  have : ∀ n, rem ≤ n → ((List.range n).map (fun k => if k < rem then t (i + k) else 0)).sum = S t i rem := by
    intro n hn
    induction n with
    | zero => have : rem = 0 := by omega
              subst this; simp [S]
    | succ n ih =>
      rw [List.range_succ, List.map_append, List.sum_append]
      rcases Nat.lt_or_ge n rem with h1 | h1
      · have : rem = n + 1 := by omega
        subst this
        simp only [List.map_cons, List.map_nil, List.sum_cons, List.sum_nil, S_succ]
        rw [if_pos (by omega), add_zero]
        congr 1
        unfold S
        congr 1
        apply List.map_congr_left
        intro k hk
        rw [if_pos (by have := List.mem_range.1 hk; omega)]
      · rw [ih h1]
        simp only [List.map_cons, List.map_nil, List.sum_cons, List.sum_nil]
        rw [if_neg (by omega)]
        simp
  exact this 16 h

theorem maskTail_ok {prod : List R → List R → List R} {p : R → R → R} {x y : List R} {dim : Nat} (hx : dim ≤ x.length) (hy : dim ≤ y.length)
    (hp : ∀ f g : Nat → R, prod ((List.range 16).map f) ((List.range 16).map g) = (List.range 16).map (fun k => p (f k) (g k)))
    (i : Nat) (r : R) (hi : i ≤ dim) (h16 : dim < i + 16) :
    maskTail prod x y dim i r = some (r + S (fun k => p (x.getD k 0) (y.getD k 0)) i (dim - i)) := by
  unfold maskTail
  split
  · rw [maskLoad_ok x i (dim - i) dim (by omega) hx (by omega) 16 (by omega), maskLoad_ok y i (dim - i) dim (by omega) hy (by omega) 16 (by omega)]
    simp only
    rw [hp, maskSum, ← range_sum_split _ i (dim - i) (by omega)]
    congr 3
    apply List.map_congr_left
    intro k hk
    have hk := List.mem_range.1 hk
    rw [mask_bit _ _ (by omega) hk]
    simp only [decide_eq_true_eq, List.getD_eq_getElem?_getD, List.getElem?_map, List.getElem?_range hk, Option.map_some, Option.getD_some]
    split <;> rfl
  · have : dim - i = 0 := by omega
    rw [this, S_zero, add_zero]

theorem avx512_ok {blk : Nat → Nat → Option (List R)} {prod : List R → List R → List R} {p : R → R → R} {x y : List R} {dim : Nat}
    (hx : dim ≤ x.length) (hy : dim ≤ y.length)
    (hp : ∀ f g : Nat → R, prod ((List.range 16).map f) ((List.range 16).map g) = (List.range 16).map (fun k => p (f k) (g k)))
    (hb : Lanes (blk 16) (fun k => p (x.getD k 0) (y.getD k 0)) 16 dim) :
    avx512 blk prod x y dim = some (total (fun k => p (x.getD k 0) (y.getD k 0)) dim) := by
  obtain ⟨i, s, e, g0, g1, g2, g3, gi, gs⟩ := loop4_ok (by omega) hb (dim + 1) 0 ⟨vzero 16, vzero 16, vzero 16, vzero 16⟩ (vzero_length 16)
    (vzero_length 16) (vzero_length 16) (vzero_length 16) (by omega) (by omega)
  obtain ⟨j, r, e', k0, k1, k2, ks⟩ := loop1_ok (by omega) hb (dim + 1) i s.s0 g0 gi (by omega)
  have l01 := vadd_length r s.s1 16 k0 g1
  have l23 := vadd_length s.s2 s.s3 16 g2 g3
  rw [avx512, e]
  simp only
  rw [e']
  simp only
  rw [hsum16, if_pos (vadd_length _ _ 16 l01 l23)]
  simp only
  rw [maskTail_ok hx hy hp j _ k1 k2, zsum _ _ (l01.trans l23.symm), zsum _ _ (k0.trans g1.symm), zsum _ _ (g2.trans g3.symm), ← S_total]
  simp only [vzero_sum, Nat.sub_zero, zero_add] at gs
  rw [← gs]
  congr 1
  generalize (fun k => p (x.getD k 0) (y.getD k 0)) = t at *
  have : r.sum = s.s0.sum + S t i (dim - i) - S t j (dim - j) := by rw [← ks]; ring
  rw [this]; ring

/-! ### Blocks -/

theorem load_ok {α : Type} (d : α) (x : List α) (w i : Nat) (h : i + w ≤ x.length) :
    load w x i = some ((List.range w).map (fun k => x.getD (i + k) d)) := by
  rw [load, if_pos h]
  congr 1
  apply List.ext_getElem
  · simp; omega
  · intro n h1 h2
    simp only [List.length_map, List.length_range] at h2
    have : i + n < x.length := by omega
    simp [List.getD_eq_getElem?_getD, List.getElem?_eq_getElem this]

theorem vsub_map (l : List Nat) (f g : Nat → R) : vsub (l.map f) (l.map g) = l.map (fun k => f k - g k) := by
  simp [vsub, List.zipWith_map, List.zipWith_self]
theorem vmul_map (l : List Nat) (f g : Nat → R) : vmul (l.map f) (l.map g) = l.map (fun k => f k * g k) := by
  simp [vmul, List.zipWith_map, List.zipWith_self]
theorem vadd_map (l : List Nat) (f g : Nat → R) : vadd (l.map f) (l.map g) = l.map (fun k => f k + g k) := by
  simp [vadd, List.zipWith_map, List.zipWith_self]
theorem vset1_map (w : Nat) (c : R) : vset1 w c = (List.range w).map (fun _ => c) := by simp [vset1]
theorem cvt_map (w : Nat) (f : Nat → Nat) : cvt w ((List.range w).map f) = (List.range w).map (fun k => ((f k : Nat) : R)) := by
  rw [cvt, List.take_of_length_le (by simp), List.map_map]; rfl

theorem lanes_l2 (x y : List R) (w dim : Nat) (hx : dim ≤ x.length) (hy : dim ≤ y.length) :
    Lanes (blkL2 x y w) (fun i => (x.getD i 0 - y.getD i 0) * (x.getD i 0 - y.getD i 0)) w dim := by
  intro i hi
  simp only [blkL2, load_ok (0 : R) x w i (by omega), load_ok (0 : R) y w i (by omega), vsub_map, vmul_map]

theorem lanes_ip (x y : List R) (w dim : Nat) (hx : dim ≤ x.length) (hy : dim ≤ y.length) :
    Lanes (blkIp x y w) (fun i => x.getD i 0 * y.getD i 0) w dim := by
  intro i hi
  simp only [blkIp, load_ok (0 : R) x w i (by omega), load_ok (0 : R) y w i (by omega), vmul_map]

/-- Element of the code kernels. -/
def tL2 (k : R) (x y : List Nat) (mn mx : List R) (i : Nat) : R :=
  (((x.getD i 0 : R) - y.getD i 0) * ((mx.getD i 0 - mn.getD i 0) * k)) * (((x.getD i 0 : R) - y.getD i 0) * ((mx.getD i 0 - mn.getD i 0) * k))
def tIp (k : R) (x y : List Nat) (mn mx : List R) (i : Nat) : R :=
  (mn.getD i 0 + x.getD i 0 * ((mx.getD i 0 - mn.getD i 0) * k)) * (mn.getD i 0 + y.getD i 0 * ((mx.getD i 0 - mn.getD i 0) * k))

theorem lanes_sq8l2 (k : R) (x y : List Nat) (mn mx : List R) (w dim : Nat) (hx : dim ≤ x.length) (hy : dim ≤ y.length) (hmn : dim ≤ mn.length)
    (hmx : dim ≤ mx.length) : Lanes (blkSq8L2 k x y mn mx w) (tL2 k x y mn mx) w dim := by
  intro i hi
  simp only [blkSq8L2, load_ok 0 x w i (by omega), load_ok 0 y w i (by omega), load_ok (0 : R) mn w i (by omega), load_ok (0 : R) mx w i (by omega),
    vset1_map, cvt_map, vsub_map, vmul_map]
  rfl

theorem lanes_sq8ip (k : R) (x y : List Nat) (mn mx : List R) (w dim : Nat) (hx : dim ≤ x.length) (hy : dim ≤ y.length) (hmn : dim ≤ mn.length)
    (hmx : dim ≤ mx.length) : Lanes (blkSq8Ip k x y mn mx w) (tIp k x y mn mx) w dim := by
  intro i hi
  simp only [blkSq8Ip, load_ok 0 x w i (by omega), load_ok 0 y w i (by omega), load_ok (0 : R) mn w i (by omega), load_ok (0 : R) mx w i (by omega),
    vset1_map, cvt_map, vsub_map, vmul_map, vfma, vadd_map]
  congr 1
  apply List.map_congr_left
  intro j _
  simp only [tIp]; ring

theorem get_some {α : Type} (d : α) (x : List α) (i : Nat) (h : i < x.length) : x[i]? = some (x.getD i d) := by
  simp [List.getD_eq_getElem?_getD, List.getElem?_eq_getElem h]

/-! ### The theorems for vectors and 8-bit codes -/

/-- Every kernel gives the squared distance and the negated inner product, for every dimension, and reads no element from `dim` on. -/
theorem C75_float (kn : Kernel) (x y : List R) (dim : Nat) (hx : dim ≤ x.length) (hy : dim ≤ y.length) :
    runL2 kn x y dim = some (l2 x y dim) ∧ runIp kn x y dim = some (-(ip x y dim)) := by
  suffices h : runL2 kn x y dim = some (l2 x y dim) ∧ sumIp kn x y dim = some (ip x y dim) by
    rw [runIp, h.2]; exact ⟨h.1, rfl⟩
  have e : l2 x y dim = total (fun i => (x.getD i 0 - y.getD i 0) * (x.getD i 0 - y.getD i 0)) dim := by
    unfold l2; congr 1; funext i; ring
  have t1 : ∀ i, i < dim → termL2 x y i = some ((fun i => (x.getD i 0 - y.getD i 0) * (x.getD i 0 - y.getD i 0)) i) := by
    intro i hi
    simp only [termL2, get_some (0 : R) x i (by omega), get_some (0 : R) y i (by omega)]
  have t2 : ∀ i, i < dim → termIp x y i = some ((fun i => x.getD i 0 * y.getD i 0) i) := by
    intro i hi
    simp only [termIp, get_some (0 : R) x i (by omega), get_some (0 : R) y i (by omega)]
  rw [e]
  cases kn
  · exact ⟨generic_ok t1, generic_ok t2⟩
  · exact ⟨avx2_ok (lanes_l2 x y 8 dim hx hy) t1, avx2_ok (lanes_ip x y 8 dim hx hy) t2⟩
  · exact ⟨compat_ok (lanes_l2 x y 8 dim hx hy) t1, compat_ok (lanes_ip x y 8 dim hx hy) t2⟩
  · exact ⟨avx512_ok (p := fun a b => (a - b) * (a - b)) hx hy (fun f g => by simp only [vsub_map, vmul_map]) (lanes_l2 x y 16 dim hx hy),
      avx512_ok (p := fun a b => a * b) hx hy (fun f g => by simp only [vmul_map]) (lanes_ip x y 16 dim hx hy)⟩

theorem C75_sq8 (kn : Kernel) (k : R) (x y : List Nat) (mn mx : List R) (dim : Nat) (hx : dim ≤ x.length) (hy : dim ≤ y.length)
    (hmn : dim ≤ mn.length) (hmx : dim ≤ mx.length) :
    runSq8 kn false k x y mn mx dim = some (l2sq8 k x y mn mx dim) ∧ runSq8 kn true k x y mn mx dim = some (-(ipsq8 k x y mn mx dim)) := by
  suffices h : sumSq8 kn (blkSq8L2 k x y mn mx) (termSq8L2 k x y mn mx) dim = some (l2sq8 k x y mn mx dim) ∧
      sumSq8 kn (blkSq8Ip k x y mn mx) (termSq8Ip k x y mn mx) dim = some (ipsq8 k x y mn mx dim) by
    simp only [runSq8, if_true, Bool.false_eq_true, if_false, h.1, h.2]; simp
  have e : l2sq8 k x y mn mx dim = total (tL2 k x y mn mx) dim := by
    unfold l2sq8; congr 1; funext i; simp only [tL2, dec]; ring
  have e' : ipsq8 k x y mn mx dim = total (tIp k x y mn mx) dim := by
    unfold ipsq8; congr 1
  have t1 : ∀ i, i < dim → termSq8L2 k x y mn mx i = some (tL2 k x y mn mx i) := by
    intro i hi
    simp only [termSq8L2, get_some 0 x i (by omega), get_some 0 y i (by omega), get_some (0 : R) mn i (by omega), get_some (0 : R) mx i (by omega)]
    rfl
  have t2 : ∀ i, i < dim → termSq8Ip k x y mn mx i = some (tIp k x y mn mx i) := by
    intro i hi
    simp only [termSq8Ip, get_some 0 x i (by omega), get_some 0 y i (by omega), get_some (0 : R) mn i (by omega), get_some (0 : R) mx i (by omega)]
    rfl
  rw [e, e']
  cases kn
  · exact ⟨generic_ok t1, generic_ok t2⟩
  · exact ⟨sq8avx2_ok (lanes_sq8l2 k x y mn mx 8 dim hx hy hmn hmx) t1, sq8avx2_ok (lanes_sq8ip k x y mn mx 8 dim hx hy hmn hmx) t2⟩
  · exact ⟨generic_ok t1, generic_ok t2⟩
  · exact ⟨sq8avx512_ok (lanes_sq8l2 k x y mn mx 16 dim hx hy hmn hmx) t1, sq8avx512_ok (lanes_sq8ip k x y mn mx 16 dim hx hy hmn hmx) t2⟩

/-! ### 4-bit codes -/

theorem and15_mod (b : Nat) : b &&& 15 = b % 16 := Nat.and_two_pow_sub_one_eq_mod b 4

theorem shr4 (b : Nat) : b >>> 4 = b / 16 := Nat.shiftRight_eq_div_pow b 4

theorem srli4_ok : ∀ (n : Nat) (l : List Nat), l.length ≤ n → l.length % 2 = 0 → (∀ b ∈ l, b < 256) → and15 (srli4 l) = l.map (fun b => b / 16) := by
  intro n
  induction n using Nat.strongRecOn with
  | ind n ih =>
    intro l hn h2 hl
    rcases l with _ | ⟨p, _ | ⟨q, l⟩⟩
    · rfl
    · simp at h2
    · simp only [List.length_cons] at hn h2
      have := ih (n - 2) (by omega) l (by omega) (by omega) (fun b hb => hl b (by simp [hb]))
      have hp := hl p (by simp)
      have hq := hl q (by simp)
      simp only [and15] at this
      simp only [and15_mod] at this
      simp only [srli4, and15, List.map_cons, and15_mod, shr4, this]
      congr 1
      · omega
      · congr 1; omega

theorem gather_ok (x : List R) (i off : Nat) : ∀ n, i + off + 2 * n ≤ x.length + 1 →
    gather x i off n = some ((List.range n).map (fun k => x.getD (i + off + 2 * k) 0)) := by
  intro n
  induction n with
  | zero => intro _; rfl
  | succ n ih =>
    intro h
    simp only [gather, ih (by omega), get_some (0 : R) x (i + off + 2 * n) (by omega), List.range_succ, List.map_append, List.map_cons, List.map_nil]

/-- Element of the 4-bit kernels. -/
def t4 (b : Bool) (k : R) (x y : List Nat) (mn mx : List R) (i : Nat) : R := elem4 b k (nib x i) (nib y i) (mn.getD i 0) (mx.getD i 0)

theorem part4_ok (b : Bool) (k : R) (w : Nat) (cx cy : Nat → Nat) (l h : Nat → R) :
    part4 b k w ((List.range w).map cx) ((List.range w).map cy) ((List.range w).map l) ((List.range w).map h) =
      (List.range w).map (fun j => elem4 b k (cx j) (cy j) (l j) (h j)) := by
  unfold part4
  cases b
  · simp only [vset1_map, cvt_map, vsub_map, vmul_map, elem4, if_false, Bool.false_eq_true]
  · simp only [vset1_map, cvt_map, vsub_map, vmul_map, vfma, vadd_map, elem4, if_true]
    apply List.map_congr_left
    intro j _
    ring

theorem pairs_sum (t : Nat → R) (i n : Nat) :
    ((List.range n).map (fun k => t (i + 2 * k))).sum + ((List.range n).map (fun k => t (i + 1 + 2 * k))).sum = S t i (2 * n) := by
  induction n with
  | zero => simp [S]
  | succ n ih =>
    rw [show 2 * (n + 1) = 2 * n + 1 + 1 by omega, S_succ, S_succ, ← ih]
    simp only [List.range_succ, List.map_append, List.sum_append, List.map_cons, List.map_nil, List.sum_cons, List.sum_nil]
    rw [show i + (2 * n + 1) = i + 1 + 2 * n by omega]
    ring

/-- The conditions on the arguments: bytes, long enough. -/
structure Args4 (x y : List Nat) (mn mx : List R) (dim : Nat) : Prop where
  hx : dim ≤ 2 * x.length
  hy : dim ≤ 2 * y.length
  hmn : dim ≤ mn.length
  hmx : dim ≤ mx.length
  bx : ∀ b ∈ x, b < 256
  byy : ∀ b ∈ y, b < 256

theorem getD_lt (x : List Nat) (h : ∀ b ∈ x, b < 256) (i : Nat) : x.getD i 0 < 256 := by
  rw [List.getD_eq_getElem?_getD]
  rcases Nat.lt_or_ge i x.length with h1 | h1
  · rw [List.getElem?_eq_getElem h1]; exact h _ (List.getElem_mem h1)
  · rw [List.getElem?_eq_none h1]; simp

theorem cvt_eq_part (b : Bool) (k : R) (w : Nat) (cx cy cx' cy' : List Nat) (l h : List R) (h1 : cvt (R := R) w cx = cvt w cx')
    (h2 : cvt (R := R) w cy = cvt w cy') : part4 b k w cx cy l h = part4 b k w cx' cy' l h := by
  unfold part4; rw [h1, h2]

/-- The parts of the 16 bytes at an even element. -/
theorem half4_ok {x y : List Nat} {mn mx : List R} {dim : Nat} (h : Args4 x y mn mx dim) (b : Bool) (k : R) (i : Nat) (hi : i + 32 ≤ dim)
    (he : i % 2 = 0) : ∃ px py, load 16 x (i / 2) = some px ∧ load 16 y (i / 2) = some py ∧
      (∀ d w, (w = 8 ∧ (d = 0 ∨ d = 8)) ∨ (w = 16 ∧ d = 0) →
        half4 b k w d (and15 px) (and15 py) mn mx i (2 * d) = some ((List.range w).map (fun j => t4 b k x y mn mx (i + 2 * d + 2 * j))) ∧
        half4 b k w d (and15 (srli4 px)) (and15 (srli4 py)) mn mx i (2 * d + 1) =
          some ((List.range w).map (fun j => t4 b k x y mn mx (i + 2 * d + 1 + 2 * j)))) := by
  obtain ⟨hx, hy, hmn, hmx, bx, byy⟩ := h
  refine ⟨_, _, load_ok 0 x 16 (i / 2) (by omega), load_ok 0 y 16 (i / 2) (by omega), ?_⟩
  have lo : ∀ z : List Nat, and15 ((List.range 16).map (fun j => z.getD (i / 2 + j) 0)) = (List.range 16).map (fun j => nib z (i + 2 * j)) := by
    intro z
    simp only [and15, List.map_map]
    apply List.map_congr_left
    intro j _
    simp only [Function.comp, nib, and15_mod]
    rw [if_pos (by omega), show (i + 2 * j) / 2 = i / 2 + j by omega]
  have hi' : ∀ z : List Nat, (∀ b ∈ z, b < 256) → and15 (srli4 ((List.range 16).map (fun j => z.getD (i / 2 + j) 0))) =
      (List.range 16).map (fun j => nib z (i + 1 + 2 * j)) := by
    intro z hz
    rw [srli4_ok 16 _ (by simp) (by simp) (by
      intro b hb
      obtain ⟨j, _, rfl⟩ := List.mem_map.1 hb
      exact getD_lt z hz _), List.map_map]
    apply List.map_congr_left
    intro j _
    simp only [Function.comp, nib]
    rw [if_neg (by omega), show (i + 1 + 2 * j) / 2 = i / 2 + j by omega]
  intro d w hdw
  have fin : ∀ (off : Nat) (f g : Nat → Nat), i + off + 2 * w ≤ dim + 1 → (∀ j, f (d + j) = nib x (i + off + 2 * j)) →
      (∀ j, g (d + j) = nib y (i + off + 2 * j)) →
      half4 b k w d ((List.range 16).map f) ((List.range 16).map g) mn mx i off =
        some ((List.range w).map (fun j => t4 b k x y mn mx (i + off + 2 * j))) := by
    intro off f g h1 hf hg
    simp only [half4, gather_ok mn i off w (by omega), gather_ok mx i off w (by omega)]
    congr 1
    have hc : ∀ f : Nat → Nat, cvt (R := R) w (((List.range 16).map f).drop d) = cvt w ((List.range w).map (fun j => f (d + j))) := by
      intro f
      rw [cvt_map]
      rcases hdw with ⟨rfl, rfl | rfl⟩ | ⟨rfl, rfl⟩
      · simp only [Nat.zero_add]; rfl
      · rfl
      · simp only [Nat.zero_add]; rfl
    rw [cvt_eq_part b k w _ _ _ _ _ _ (hc f) (hc g)]
    simp only [hf, hg]
    rw [part4_ok]
    rfl
  rw [lo x, lo y, hi' x bx, hi' y byy]
  constructor
  · apply fin (2 * d)
    · omega
    · intro j; congr 1; omega
    · intro j; congr 1; omega
  · apply fin (2 * d + 1)
    · omega
    · intro j; congr 1; omega
    · intro j; congr 1; omega

omit [CommRing R] in
theorem map_len (n : Nat) (f : Nat → R) : ((List.range n).map f).length = n := by simp

theorem loop4a_ok {x y : List Nat} {mn mx : List R} {dim : Nat} (h : Args4 x y mn mx dim) (b : Bool) (k : R) :
    ∀ (fuel i : Nat) (s0 s1 : List R), s0.length = 8 → s1.length = 8 → i ≤ dim → i % 2 = 0 → dim - i < fuel →
    ∃ i' r0 r1, loop4a b k x y mn mx dim fuel i s0 s1 = some (i', r0, r1) ∧ r0.length = 8 ∧ r1.length = 8 ∧ i' ≤ dim ∧ i' % 2 = 0 ∧
      r0.sum + r1.sum + S (t4 b k x y mn mx) i' (dim - i') = s0.sum + s1.sum + S (t4 b k x y mn mx) i (dim - i) := by
  intro fuel
  induction fuel with
  | zero => intro i s0 s1 _ _ _ _ h; omega
  | succ fuel ih =>
    intro i s0 s1 h0 h1 hi he hf
    simp only [loop4a]
    split
    · rename_i hle
      obtain ⟨px, py, e1, e2, e3⟩ := half4_ok h b k i hle he
      obtain ⟨f0, f1⟩ := e3 0 8 (by omega)
      obtain ⟨f2, f3⟩ := e3 8 8 (by omega)
      simp only [Nat.mul_zero, Nat.zero_add, Nat.add_zero] at f0 f1
      simp only [show 2 * 8 = 16 by rfl, show 16 + 1 = 17 by rfl] at f2 f3
      rw [e1, e2]
      simp only
      rw [f0, f1, f2, f3]
      simp only
      obtain ⟨i', r0, r1, e, g0, g1, g4, g6, g5⟩ := ih (i + 32) _ _
        (vadd_length _ _ 8 (map_len 8 _) (vadd_length _ _ 8 (map_len 8 _) h0))
        (vadd_length _ _ 8 (map_len 8 _) (vadd_length _ _ 8 (map_len 8 _) h1)) (by omega) (by omega) (by omega)
      refine ⟨i', r0, r1, e, g0, g1, g4, g6, ?_⟩
      have hp := pairs_sum (t4 b k x y mn mx) i 8
      have hp' := pairs_sum (t4 b k x y mn mx) (i + 16) 8
      have S32 := S_add (t4 b k x y mn mx) i 16 16
      rw [show 2 * 8 = 16 by rfl] at hp hp'
      rw [show 16 + 16 = 32 by rfl] at S32
      rw [g5, zsum _ _ ((map_len 8 _).trans (vadd_length _ _ 8 (map_len 8 _) h0).symm), zsum _ _ ((map_len 8 _).trans h0.symm),
        zsum _ _ ((map_len 8 _).trans (vadd_length _ _ 8 (map_len 8 _) h1).symm), zsum _ _ ((map_len 8 _).trans h1.symm), S_split _ hle,
        S32, ← hp, ← hp']
      ring
    · exact ⟨i, s0, s1, rfl, h0, h1, hi, he, rfl⟩

theorem loop4b_ok {x y : List Nat} {mn mx : List R} {dim : Nat} (h : Args4 x y mn mx dim) (b : Bool) (k : R) :
    ∀ (fuel i : Nat) (s0 s1 : List R), s0.length = 16 → s1.length = 16 → i ≤ dim → i % 2 = 0 → dim - i < fuel →
    ∃ i' r0 r1, loop4b b k x y mn mx dim fuel i s0 s1 = some (i', r0, r1) ∧ r0.length = 16 ∧ r1.length = 16 ∧ i' ≤ dim ∧ i' % 2 = 0 ∧
      r0.sum + r1.sum + S (t4 b k x y mn mx) i' (dim - i') = s0.sum + s1.sum + S (t4 b k x y mn mx) i (dim - i) := by
  intro fuel
  induction fuel with
  | zero => intro i s0 s1 _ _ _ _ h; omega
  | succ fuel ih =>
    intro i s0 s1 h0 h1 hi he hf
    rw [loop4b]
    by_cases hle : i + 32 ≤ dim
    · rw [if_pos hle]
      obtain ⟨px, py, e1, e2, e3⟩ := half4_ok h b k i hle he
      obtain ⟨f0, f1⟩ := e3 0 16 (by omega)
      simp only [Nat.mul_zero, Nat.zero_add, Nat.add_zero] at f0 f1
      have hp := pairs_sum (t4 b k x y mn mx) i 16
      have m0 := map_len 16 (fun j => t4 b k x y mn mx (i + 2 * j))
      have m1 := map_len 16 (fun j => t4 b k x y mn mx (i + 1 + 2 * j))
      rw [show 2 * 16 = 32 by rfl] at hp
      have hs : step4b b k x y mn mx i = some ((List.range 16).map (fun j => t4 b k x y mn mx (i + 2 * j)),
          (List.range 16).map (fun j => t4 b k x y mn mx (i + 1 + 2 * j))) := by rw [step4b, e1, e2]; simp only; rw [f0, f1]
      rw [hs]
      simp only
      generalize (List.range 16).map (fun j => t4 b k x y mn mx (i + 2 * j)) = v0 at *
      generalize (List.range 16).map (fun j => t4 b k x y mn mx (i + 1 + 2 * j)) = v1 at *
      obtain ⟨i', r0, r1, e, g0, g1, g4, g6, g5⟩ := ih (i + 32) (vadd v0 s0) (vadd v1 s1) (vadd_length _ _ 16 m0 h0)
        (vadd_length _ _ 16 m1 h1) (by omega) (by omega) (by omega)
      refine ⟨i', r0, r1, e, g0, g1, g4, g6, ?_⟩
      rw [g5, zsum _ _ (m0.trans h0.symm), zsum _ _ (m1.trans h1.symm), S_split _ hle, ← hp]
      ring
    · rw [if_neg hle]
      exact ⟨i, s0, s1, rfl, h0, h1, hi, he, rfl⟩

theorem tail4_ok {x y : List Nat} {mn mx : List R} {dim : Nat} (h : Args4 x y mn mx dim) (b : Bool) (k : R) :
    ∀ (fuel i : Nat) (r : R), i % 2 = 0 → dim - i < fuel → tail4 b k x y mn mx dim fuel i r = some (r + S (t4 b k x y mn mx) i (dim - i)) := by
  obtain ⟨hx, hy, hmn, hmx, bx, byy⟩ := h
  intro fuel
  induction fuel with
  | zero => intro i r _ h; omega
  | succ fuel ih =>
    intro i r he hf
    simp only [tail4]
    split
    · rename_i h
      rw [get_some 0 x (i / 2) (by omega), get_some 0 y (i / 2) (by omega), get_some (0 : R) mn i (by omega), get_some (0 : R) mx i (by omega)]
      simp only
      have e0 : elem4 b k (x.getD (i / 2) 0 &&& 15) (y.getD (i / 2) 0 &&& 15) (mn.getD i 0) (mx.getD i 0) = t4 b k x y mn mx i := by
        simp only [t4, nib, if_pos he, and15_mod]
      rw [e0]
      split
      · rename_i h1
        rw [get_some (0 : R) mn (i + 1) (by omega), get_some (0 : R) mx (i + 1) (by omega)]
        simp only
        have hb : ∀ z : List Nat, (∀ b ∈ z, b < 256) → (z.getD (i / 2) 0) >>> 4 &&& 15 = nib z (i + 1) := by
          intro z hz
          have := getD_lt z hz (i / 2)
          simp only [nib, if_neg (show ¬ (i + 1) % 2 = 0 by omega), and15_mod, shr4, show (i + 1) / 2 = i / 2 by omega]
          omega
        rw [hb x bx, hb y byy, ih (i + 2) _ (by omega) (by omega), S_split _ (show i + 2 ≤ dim by omega), show 2 = 0 + 1 + 1 by rfl, S_succ, S_succ, S_zero]
        simp only [Nat.add_zero, Nat.zero_add]
        congr 1
        show _ + t4 b k x y mn mx i + t4 b k x y mn mx (i + 1) + _ = _
        ring
      · rw [ih (i + 2) _ (by omega) (by omega), show dim - i = 0 + 1 by omega, S_succ, S_zero, show dim - (i + 2) = 0 by omega, S_zero]
        simp
    · rw [show dim - i = 0 by omega, S_zero, add_zero]

/-- With even codes in the lower halves all kernels give the distances of the decoded vectors.  (That the encoder puts them into the upper
halves is `C74_sq4_swap_refuted`.) -/
theorem C75_sq4 (kn : Kernel) (k : R) (x y : List Nat) (mn mx : List R) (dim : Nat) (h : Args4 x y mn mx dim) :
    runSq4 kn false k x y mn mx dim = some (l2sq4 k x y mn mx dim) ∧ runSq4 kn true k x y mn mx dim = some (-(ipsq4 k x y mn mx dim)) := by
  suffices h : sumSq4 kn false k x y mn mx dim = some (l2sq4 k x y mn mx dim) ∧ sumSq4 kn true k x y mn mx dim = some (ipsq4 k x y mn mx dim) by
    simp only [runSq4, if_true, Bool.false_eq_true, if_false, h.1, h.2]; simp
  have e : l2sq4 k x y mn mx dim = total (t4 false k x y mn mx) dim := by
    unfold l2sq4; congr 1; funext i; simp only [t4, elem4, dec, if_false, Bool.false_eq_true]; ring
  have e' : ipsq4 k x y mn mx dim = total (t4 true k x y mn mx) dim := by
    unfold ipsq4; congr 1
  have g : ∀ b, sq4generic b k x y mn mx dim = some (total (t4 b k x y mn mx) dim) := by
    intro b
    rw [sq4generic, tail4_ok h b k _ _ _ (by omega) (by omega), Nat.sub_zero, S_total, zero_add]
  have a : ∀ b, sq4avx2 b k x y mn mx dim = some (total (t4 b k x y mn mx) dim) := by
    intro b
    obtain ⟨i, r0, r1, e, g0, g1, g2, g3, g4⟩ := loop4a_ok h b k (dim + 1) 0 (vzero 8) (vzero 8) (vzero_length 8) (vzero_length 8) (by omega)
      (by omega) (by omega)
    rw [sq4avx2, e]
    simp only
    rw [hsum8_ok _ (vadd_length _ _ 8 g0 g1)]
    simp only
    rw [tail4_ok h b k _ _ _ g3 (by omega), zsum _ _ (g0.trans g1.symm), g4, vzero_sum, Nat.sub_zero, S_total]
    simp
  have c : ∀ b, sq4avx512 b k x y mn mx dim = some (total (t4 b k x y mn mx) dim) := by
    intro b
    obtain ⟨i, r0, r1, e, g0, g1, g2, g3, g4⟩ := loop4b_ok h b k (dim + 1) 0 (vzero 16) (vzero 16) (vzero_length 16) (vzero_length 16) (by omega)
      (by omega) (by omega)
    rw [sq4avx512, e]
    simp only
    rw [hsum16, if_pos (vadd_length _ _ 16 g0 g1)]
    simp only
    rw [tail4_ok h b k _ _ _ g3 (by omega), zsum _ _ (g0.trans g1.symm), g4, vzero_sum, Nat.sub_zero, S_total]
    simp
  rw [e, e']
  cases kn
  · exact ⟨g _, g _⟩
  · exact ⟨a _, a _⟩
  · exact ⟨g _, g _⟩
  · exact ⟨c _, c _⟩

/-! ### The choice -/

/-- Processors with avx512f that have the rest: then every selected kernel runs, unless the DiskANN kernel is forced. -/
theorem C75_runs_partial (c : Cpu) (prefer scalar : Bool) (h : c.avx512f = true → c.avx512bw = true ∧ c.avx512dq = true ∧ c.avx2 = true ∧ c.fma = true) :
    runs c (l2Func scalar false c prefer) = true ∧ runs c (ipFunc c prefer) = true ∧ runs c (sq8Func c) = true ∧ runs c (sq4Func c) = true := by
  obtain ⟨f, bw, dq, a2, fm, s⟩ := c
  cases f <;> cases bw <;> cases dq <;> cases a2 <;> cases fm <;> cases s <;> cases prefer <;> cases scalar <;> simp_all [runs, l2Func, ipFunc, sq8Func, sq4Func, select]

/-- Whatever is selected gives the same numbers. -/
theorem C75_same (c c' : Cpu) (prefer prefer' a b a' b' : Bool) (x y : List R) (dim : Nat) (hx : dim ≤ x.length) (hy : dim ≤ y.length) :
    runL2 (l2Func a b c prefer) x y dim = runL2 (l2Func a' b' c' prefer') x y dim ∧
    runIp (ipFunc c prefer) x y dim = runIp (ipFunc c' prefer') x y dim := by
  rw [(C75_float _ x y dim hx hy).1, (C75_float _ x y dim hx hy).1, (C75_float _ x y dim hx hy).2, (C75_float _ x y dim hx hy).2]
  exact ⟨rfl, rfl⟩

/-- A processor with avx512f but without avx512bw and avx512dq (Knights Landing): the AVX-512 kernel for 8-bit codes is selected and
compiled for instructions it lacks; the same for full precision if the policy prefers AVX-512. -/
theorem C75_knl_refuted : sq8Func ⟨true, false, false, true, true, true⟩ = .avx512 ∧
    runs ⟨true, false, false, true, true, true⟩ (sq8Func ⟨true, false, false, true, true, true⟩) = false ∧
    runs ⟨true, false, false, true, true, true⟩ (l2Func false false ⟨true, false, false, true, true, true⟩ true) = false := by decide

/-- The environment variable that asks for the kernel of DiskANN is obeyed on every processor. -/
theorem C75_force_refuted (c : Cpu) (prefer : Bool) (h : c.avx2 = false) : runs c (l2Func false true c prefer) = false := by
  simp [l2Func, runs, h]

/-- The kernel for 4-bit codes is the AVX2 one if avx512f is there, whether or not AVX2 is. -/
theorem C75_sq4_refuted (c : Cpu) (h : c.avx512f = true) (h' : c.fma = false) : runs c (sq4Func c) = false := by
  simp [sq4Func, runs, h, h']

/-- Dimension 45 over the integers, all four kernels, and 4-bit codes. -/
example : runL2 .avx2 ((List.range 45).map (fun n : Nat => (n : Int))) (List.replicate 45 1) 45 = some 27435 ∧
    runL2 .compat ((List.range 45).map (fun n : Nat => (n : Int))) (List.replicate 45 1) 45 = some 27435 ∧
    runL2 .avx512 ((List.range 77).map (fun n : Nat => (n : Int))) (List.replicate 77 0) 77 = some 149226 ∧
    runIp .avx2 ((List.range 45).map (fun n : Nat => (n : Int))) (List.replicate 45 1) 45 = some (-990) ∧
    runSq4 .avx2 false (1 : Int) (List.replicate 20 18) (List.replicate 20 1) (List.replicate 39 0) (List.replicate 39 2) 39 = some 156 :=
  ⟨by decide +kernel, by decide +kernel, by decide +kernel, by decide +kernel, by decide +kernel⟩

example : Args4 [18, 52, 255] [0, 1, 2] [(0 : Int), 0, 0, 0, 0] [1, 1, 1, 1, 1] 5 := ⟨by decide, by decide, by decide, by decide, by decide, by decide⟩

end Alaya.Simd
