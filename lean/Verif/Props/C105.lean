/-
C105: scanning the neighbours of a node in the LASER index estimates every neighbour's distance.

One bit per dimension is stored for a neighbour, in 64-bit words that are rearranged for table look-up.  At search
time the rotated query is rounded to bytes, tables of bytes are built, and one of three kernels adds the entries for
32 neighbours at a time.  The sums, with three numbers stored for the neighbour, give the estimate.
-/
import Verif.Lemmas.LaserScan
import Mathlib.Algebra.Order.BigOperators.Ring.Finset
import Mathlib.Algebra.BigOperators.Ring.Finset

namespace Alaya.LaserScan

open Finset Alaya.FastScan

section
set_option linter.unusedSectionVars false
variable {K : Type} [Field K] [LinearOrder K] [IsStrictOrderedRing K] [FloorRing K]

/-- Specification: the inner product of the query with the signs, `+1` for a bit that is set and `-1` otherwise. -/
def ipSigns (x : List Nat) (v : List K) (dim : Nat) : K :=
  ∑ i ∈ range dim, (2 * (x.getD i 0 : K) - 1) * v.getD i 0

/-- Specification: the number of bits set less the number of bits not set. -/
def signSum (x : List Nat) (dim : Nat) : K := ∑ i ∈ range dim, (2 * (x.getD i 0 : K) - 1)

/-- Specification: what the estimate would be with the query not rounded. -/
def exactDist (sqrY sqrQr : K) (f : Factors K) (x : List Nat) (v : List K) (dim : Nat) : K :=
  sqrY + f.tripleX + f.dq * ipSigns x v dim + sqrQr

/-- **C105 (packing and kernels).**  For any number of neighbours and any table of bytes, the AVX-512, the AVX2 and
the portable kernel applied to the stored codes give, for each neighbour, the sum modulo `2 ^ 16` of the table
entries selected by its bits, four dimensions at a time. -/
theorem C105_lookup (isa : Isa) {dim : Nat} (hd : dim % 64 = 0) {X : List (List Nat)} (hX : ∀ x ∈ X, IsCode dim x)
    {lp : List Nat} (hlp : ∀ e ∈ lp, e < 256) (hlen : lp.length = 4 * dim) :
    ∃ B, storeCodes dim X = some B ∧ B.length = (X.length + 31) / 32 * (4 * dim) ∧ ∀ s < (X.length + 31) / 32,
      ∃ res, kernel isa (B.drop (4 * dim * s)) lp dim = some res ∧ res.length = 32 ∧
        ∀ v < 32, ∀ x, X[32 * s + v]? = some x → res[v]? = some ((∑ t ∈ range (dim / 4),
          lp.getD (16 * t + (8 * x.getD (4 * t) 0 + 4 * x.getD (4 * t + 1) 0 + 2 * x.getD (4 * t + 2) 0
            + x.getD (4 * t + 3) 0)) 0) % 2 ^ 16) := by
  have hl : ∀ x ∈ X, x.length = dim := fun x hx => (hX x hx).1
  have hb : ∀ x ∈ X, ∀ y ∈ x, y < 2 := fun x hx y hy => by rcases (hX x hx).2 y hy with h | h <;> omega
  obtain ⟨B, e, hBl, h⟩ := C77_lookup isa (by omega : dim % 16 = 0) hX hlp hlen
  obtain ⟨B', e', _, hBy, _⟩ := quantCodes_eq (by omega : dim % 8 = 0) hl hb
  obtain rfl : B = B' := by rw [e] at e'; exact Option.some.inj e'
  refine ⟨B, by rw [storeCodes_eq hd hl hb]; exact e, hBl, fun s hs => ?_⟩
  rw [kernel_eq isa (by omega) (fun x hx => hBy x (List.mem_of_mem_drop hx)) ?_ hlen.ge]
  · exact h s hs
  · rw [List.length_drop, hBl]
    have h1 : (s + 1) * (4 * dim) ≤ (X.length + 31) / 32 * (4 * dim) := Nat.mul_le_mul_right _ hs
    have h2 : (s + 1) * (4 * dim) = 4 * dim * s + 4 * dim := by ring
    omega

/-- A coordinate as a byte: rounded up to a multiple of the step, one step more if it is a multiple. -/
theorem quantCoord_spec {lo w v : K} (hw : 0 < w) (h0 : lo ≤ v) (h1 : v ≤ lo + 63 * w) :
    v < lo + w * (quantCoord lo w v : K) ∧ lo + w * (quantCoord lo w v : K) ≤ v + w ∧ quantCoord lo w v ≤ 64 ∧
      (v < lo + 63 * w → quantCoord lo w v ≤ 63) := by
  have hy0 : 0 ≤ (v - lo) * (1 / w) := mul_nonneg (by linarith) (by positivity)
  have hvy : v - lo = w * ((v - lo) * (1 / w)) := by field_simp
  have hy1 : (v - lo) * (1 / w) ≤ 63 := by
    rw [mul_one_div, div_le_iff₀ hw]; linarith
  have hy2 : v < lo + 63 * w → (v - lo) * (1 / w) < 63 := fun h => by
    rw [mul_one_div, div_lt_iff₀ hw]; linarith
  unfold quantCoord
  generalize (v - lo) * (1 / w) = y at *
  unfold roundAway
  rw [if_pos (by linarith), show y + 1 / 2 + 1 / 2 = y + 1 by ring]
  have f1 := Int.floor_le (y + 1)
  have f2 := Int.lt_floor_add_one (y + 1)
  have n0 : (0 : Int) ≤ ⌊y + 1⌋ := Int.floor_nonneg.mpr (by linarith)
  have n1 : ⌊y + 1⌋ < 65 := Int.floor_lt.mpr (by push_cast; linarith)
  have n2 : v < lo + 63 * w → ⌊y + 1⌋ < 64 := fun h => Int.floor_lt.mpr (by have := hy2 h; push_cast; linarith)
  generalize ⌊y + 1⌋ = z at *
  have hz : ((z % 256).toNat : K) = (z : K) := by
    have h : ((z % 256).toNat : Int) = z := by omega
    exact_mod_cast congrArg (Int.cast (R := K)) h
  refine ⟨?_, ?_, by omega, fun h => by have := n2 h; omega⟩
  · rw [hz]
    have : w * y < w * z := mul_lt_mul_of_pos_left (by linarith) hw
    linarith
  · rw [hz]
    have : w * z ≤ w * (y + 1) := mul_le_mul_of_nonneg_left f1 hw.le
    linarith

theorem sum_getD (l : List Nat) : l.sum = ∑ i ∈ range l.length, l.getD i 0 := by
  induction l with
  | nil => rfl
  | cons a l ih => rw [List.sum_cons, List.length_cons, sum_range_succ', ih]; simp [add_comm]

theorem sum_four_nat (f : Nat → Nat) (m : Nat) :
    ∑ i ∈ range (4 * m), f i = ∑ t ∈ range m, (f (4 * t) + f (4 * t + 1) + f (4 * t + 2) + f (4 * t + 3)) := by
  induction m with
  | zero => simp
  | succ m ih =>
    rw [show 4 * (m + 1) = 4 * m + 1 + 1 + 1 + 1 by ring]
    simp only [sum_range_succ, ih]
    ring

theorem getElem?_flatten_blocks {α : Type} {L : Nat} {g : Nat → List α} (n : Nat) (hL : ∀ s < n, (g s).length = L) :
    ((List.range n).map g).flatten.length = n * L ∧
      ∀ s < n, ∀ k < L, ((List.range n).map g).flatten[L * s + k]? = (g s)[k]? := by
  induction n with
  | zero => exact ⟨by simp, fun i hi => absurd hi (by omega)⟩
  | succ n ih =>
    obtain ⟨h1, h2⟩ := ih (fun s hs => hL s (by omega))
    rw [List.range_succ, List.map_append, List.flatten_append]
    refine ⟨by simp [h1, hL n (by omega), Nat.succ_mul], ?_⟩
    intro s hs k hk
    by_cases h : s < n
    · rw [List.getElem?_append_left (by
        rw [h1]
        calc L * s + k < L * s + L := by omega
          _ = (s + 1) * L := by ring
          _ ≤ n * L := Nat.mul_le_mul_right _ h)]
      exact h2 s h k hk
    · obtain rfl : s = n := by omega
      rw [List.getElem?_append_right (by rw [h1, Nat.mul_comm]; omega), h1,
        show L * s + k - s * L = k by rw [Nat.mul_comm]; omega]
      simp

/-- What the prepared query and a counter give, for one neighbour. -/
theorem prepare_spec {dim : Nat} (hd : dim % 4 = 0) {v : List K} (hv : v.length = dim)
    (hne : ∃ a ∈ v, ∃ b ∈ v, a < b)
    (hmax : ∀ t < dim / 4, ∃ i < 4, ∃ c ∈ v, v.getD (4 * t + i) 0 < c) :
    ∃ Q lo hi, prepare dim v = some Q ∧ Q.lut.length = 4 * dim ∧ (∀ e ∈ Q.lut, e < 256) ∧ lo ∈ v ∧ hi ∈ v ∧
      Q.width * 63 = hi - lo ∧ 0 < Q.width ∧
      ∀ x : List Nat, IsCode dim x →
        (∑ t ∈ range (dim / 4), Q.lut.getD (16 * t + (8 * x.getD (4 * t) 0 + 4 * x.getD (4 * t + 1) 0
          + 2 * x.getD (4 * t + 2) 0 + x.getD (4 * t + 3) 0)) 0) ≤ dim / 4 * 255 ∧
        |Q.width * (2 * ((∑ t ∈ range (dim / 4), Q.lut.getD (16 * t + (8 * x.getD (4 * t) 0 + 4 * x.getD (4 * t + 1) 0
          + 2 * x.getD (4 * t + 2) 0 + x.getD (4 * t + 3) 0)) 0 : Nat) : K) - (Q.sumq : K))
          + signSum x dim * Q.lower - ipSigns x v dim| ≤ (dim : K) * Q.width := by
  obtain ⟨a, ha, b, hb, hab⟩ := hne
  obtain ⟨lo, hi, er, hlo, hhi, hr⟩ := dataRange_eq (l := v) (fun h => by rw [h] at ha; simp at ha)
  have hlt : lo < hi := lt_of_le_of_lt (hr a ha).1 (lt_of_lt_of_le hab (hr b hb).2)
  have hw : 0 < (hi - lo) / 63 := div_pos (by linarith) (by norm_num)
  set w : K := (hi - lo) / 63 with hwdef
  have hw63 : w * 63 = hi - lo := by rw [hwdef]; ring
  have hq : ∀ c ∈ v, c < lo + w * (quantCoord lo w c : K) ∧ lo + w * (quantCoord lo w c : K) ≤ c + w ∧
      quantCoord lo w c ≤ 64 ∧ (c < hi → quantCoord lo w c ≤ 63) := by
    intro c hc
    have h := quantCoord_spec (v := c) hw (hr c hc).1 (by linarith [(hr c hc).2])
    exact ⟨h.1, h.2.1, h.2.2.1, fun h' => h.2.2.2 (by linarith)⟩
  set q : List Nat := v.map (quantCoord lo w) with hqdef
  have hql : q.length = dim := by rw [hqdef, List.length_map, hv]
  have hqi : ∀ i < dim, q.getD i 0 = quantCoord lo w (v.getD i 0) ∧ v.getD i 0 ∈ v := by
    intro i hi
    rw [List.getD_eq_getElem _ _ (by omega : i < q.length), List.getD_eq_getElem _ _ (by omega : i < v.length)]
    exact ⟨by simp [hqdef], List.getElem_mem _⟩
  obtain ⟨L, eL, hLl, hLb, hLe⟩ := packLut8_eq hql hd
  refine ⟨⟨L, w, lo, (q.sum : Nat)⟩, lo, hi, ?_, hLl, hLb, hlo, hhi, hw63, hw, ?_⟩
  · unfold prepare
    rw [er]
    simp only [Option.bind_eq_bind, Option.bind_some, ← hwdef, if_neg hw.ne', ← hqdef, eL, Option.pure_def]
  intro x hx
  have hbit : ∀ y ∈ x, y < 2 := fun y hy => by rcases hx.2 y hy with h | h <;> omega
  have h255 : ∀ t < dim / 4, q.getD (4 * t) 0 + q.getD (4 * t + 1) 0 + q.getD (4 * t + 2) 0 + q.getD (4 * t + 3) 0 ≤ 255 := by
    intro t ht
    have g : ∀ i < 4, q.getD (4 * t + i) 0 ≤ 64 := fun i hi => by
      obtain ⟨h1, h2⟩ := hqi (4 * t + i) (by omega)
      rw [h1]; exact (hq _ h2).2.2.1
    obtain ⟨i, hi, c, hc, hlt⟩ := hmax t ht
    have hs : q.getD (4 * t + i) 0 ≤ 63 := by
      obtain ⟨h1, h2⟩ := hqi (4 * t + i) (by omega)
      rw [h1]; exact (hq _ h2).2.2.2 (lt_of_lt_of_le hlt (hr c hc).2)
    have g0 := g 0 (by omega)
    have g1 := g 1 (by omega)
    have g2 := g 2 (by omega)
    have g3 := g 3 (by omega)
    simp only [Nat.add_zero] at g0
    interval_cases i
    · simp only [Nat.add_zero] at hs; omega
    · omega
    · omega
    · omega
  have hent : ∀ t < dim / 4, L.getD (16 * t + (8 * x.getD (4 * t) 0 + 4 * x.getD (4 * t + 1) 0
      + 2 * x.getD (4 * t + 2) 0 + x.getD (4 * t + 3) 0)) 0 = x.getD (4 * t) 0 * q.getD (4 * t) 0
        + x.getD (4 * t + 1) 0 * q.getD (4 * t + 1) 0 + x.getD (4 * t + 2) 0 * q.getD (4 * t + 2) 0
        + x.getD (4 * t + 3) 0 * q.getD (4 * t + 3) 0 ∧
      x.getD (4 * t) 0 * q.getD (4 * t) 0 + x.getD (4 * t + 1) 0 * q.getD (4 * t + 1) 0
        + x.getD (4 * t + 2) 0 * q.getD (4 * t + 2) 0 + x.getD (4 * t + 3) 0 * q.getD (4 * t + 3) 0 ≤ 255 := by
    intro t ht
    have hle : ∀ i, x.getD i 0 * q.getD i 0 ≤ q.getD i 0 := fun i => by
      have := bit_getD hbit i
      calc x.getD i 0 * q.getD i 0 ≤ 1 * q.getD i 0 := Nat.mul_le_mul_right _ (by omega)
        _ = q.getD i 0 := Nat.one_mul _
    have a0 := hle (4 * t)
    have a1 := hle (4 * t + 1)
    have a2 := hle (4 * t + 2)
    have a3 := hle (4 * t + 3)
    have h4 := h255 t ht
    have e := hLe t ht (group x t) (group_lt hbit t)
    rw [pickN_group hbit, Nat.mod_eq_of_lt (by omega)] at e
    exact ⟨e, by omega⟩
  have hsum : (∑ t ∈ range (dim / 4), L.getD (16 * t + (8 * x.getD (4 * t) 0 + 4 * x.getD (4 * t + 1) 0
      + 2 * x.getD (4 * t + 2) 0 + x.getD (4 * t + 3) 0)) 0) = ∑ i ∈ range dim, x.getD i 0 * q.getD i 0 := by
    conv_rhs => rw [show dim = 4 * (dim / 4) by omega]
    rw [sum_four_nat]
    exact sum_congr rfl (fun t ht => (hent t (mem_range.mp ht)).1)
  refine ⟨?_, ?_⟩
  · calc _ ≤ ∑ _t ∈ range (dim / 4), 255 := sum_le_sum (fun t ht => by
          rw [(hent t (mem_range.mp ht)).1]; exact (hent t (mem_range.mp ht)).2)
      _ = dim / 4 * 255 := by simp
  · simp only []
    rw [hsum]
    have hkey : w * (2 * ((∑ i ∈ range dim, x.getD i 0 * q.getD i 0 : Nat) : K) - (((q.sum : Nat) : Int) : K))
        + signSum x dim * lo - ipSigns x v dim
        = ∑ i ∈ range dim, (2 * (x.getD i 0 : K) - 1) * (lo + w * (q.getD i 0 : K) - v.getD i 0) := by
      rw [sum_getD, hql]
      unfold signSum ipSigns
      push_cast
      rw [mul_sum, ← sum_sub_distrib, mul_sum, sum_mul, ← sum_add_distrib, ← sum_sub_distrib]
      exact sum_congr rfl (fun i _ => by ring)
    rw [hkey]
    calc |∑ i ∈ range dim, (2 * (x.getD i 0 : K) - 1) * (lo + w * (q.getD i 0 : K) - v.getD i 0)|
        ≤ ∑ i ∈ range dim, |(2 * (x.getD i 0 : K) - 1) * (lo + w * (q.getD i 0 : K) - v.getD i 0)| :=
          abs_sum_le_sum_abs _ _
      _ ≤ ∑ _i ∈ range dim, w := sum_le_sum (fun i hi => by
          obtain ⟨h1, h2⟩ := hqi i (mem_range.mp hi)
          obtain ⟨h3, h4, _, _⟩ := hq _ h2
          rw [h1]
          have hb := bit_getD hbit i
          generalize x.getD i 0 = c at *
          interval_cases c
          · rw [abs_le]; constructor <;> push_cast <;> linarith
          · rw [abs_le]; constructor <;> push_cast <;> linarith)
      _ = (dim : K) * w := by simp

/-- **C105 (the estimates).**  For a rotated query of at most 512 dimensions that is not constant and in which no four
coordinates of a group are all equal to the largest, on every processor: the query can be prepared, the codes of the
neighbours can be stored, the scan gives one estimate per neighbour, in order, and with coordinates of the query at
most `R` apart each estimate is within `|dq| * dim * R / 63` of what it would be for the query itself. -/
theorem C105_scan (isa : Isa) {dim : Nat} (hd : dim % 64 = 0) (h512 : dim ≤ 512) {v : List K} (hv : v.length = dim)
    (hne : ∃ a ∈ v, ∃ b ∈ v, a < b) (hmax : ∀ t < dim / 4, ∃ i < 4, ∃ c ∈ v, v.getD (4 * t + i) 0 < c)
    {R : K} (hR : ∀ a ∈ v, ∀ b ∈ v, b - a ≤ R) {X : List (List Nat)} (hX : ∀ x ∈ X, IsCode dim x)
    {F : List (Factors K)} (hF : F.length = X.length) (h32 : X.length % 32 = 0) (sqrY sqrQr : K) :
    ∃ Q B D, prepare dim v = some Q ∧ storeCodes dim X = some B ∧
      scan isa dim X.length Q B F sqrY sqrQr = some D ∧ D.length = X.length ∧
      ∀ (i : Nat) x f, X[i]? = some x → F[i]? = some f → f.vq = f.dq * signSum x dim →
        ∃ d, D[i]? = some d ∧ |d - exactDist sqrY sqrQr f x v dim| ≤ |f.dq| * ((dim : K) * (R / 63)) := by
  obtain ⟨Q, lo, hi, eQ, hl, hb, hlo, hhi, hw63, hw, hQ⟩ := prepare_spec (by omega : dim % 4 = 0) hv hne hmax
  obtain ⟨B, eB, hBl, hk⟩ := C105_lookup isa hd hX hb hl
  have hblk : ∀ s, ∃ l : List K, s < (X.length + 31) / 32 → (scanBlock isa dim Q B F sqrY sqrQr s = some l ∧
      l.length = 32 ∧ ∀ j < 32, ∀ x f, X[32 * s + j]? = some x → F[32 * s + j]? = some f →
        f.vq = f.dq * signSum x dim →
        ∃ d, l[j]? = some d ∧ |d - exactDist sqrY sqrQr f x v dim| ≤ |f.dq| * ((dim : K) * (R / 63))) := by
    intro s
    by_cases hs : s < (X.length + 31) / 32
    swap
    · exact ⟨[], fun h => absurd h hs⟩
    obtain ⟨res, eres, hrl, hres⟩ := hk s hs
    have hFl : 32 * s + 32 ≤ F.length := by omega
    have hm : ∀ j : Nat, ∃ d : K, j < 32 → ∃ n f, res[j]? = some n ∧ F[32 * s + j]? = some f ∧
        d = approDist sqrY Q.width Q.lower sqrQr (convert n Q.sumq) f := by
      intro j
      by_cases hj : j < 32
      · exact ⟨_, fun _ => ⟨_, _, List.getElem?_eq_getElem (by omega : j < res.length),
          List.getElem?_eq_getElem (by omega : 32 * s + j < F.length), rfl⟩⟩
      · exact ⟨0, fun h => absurd h hj⟩
    choose d hdj using hm
    refine ⟨(List.range 32).map d, fun _ => ⟨?_, by simp, ?_⟩⟩
    · unfold scanBlock
      rw [eres]
      simp only [Option.bind_eq_bind, Option.bind_some]
      refine mapM_range (fun j hj => ?_)
      obtain ⟨n, f, e1, e2, e3⟩ := hdj j hj
      rw [e1, e2, e3]; rfl
    · intro j hj x f hx hf hvq
      obtain ⟨n, f', e1, e2, e3⟩ := hdj j hj
      obtain rfl : f = f' := by rw [e2] at hf; exact (Option.some.inj hf).symm
      refine ⟨d j, by rw [List.getElem?_map, List.getElem?_range hj]; rfl, ?_⟩
      have hn := hres j hj x hx
      rw [e1] at hn
      have hn := Option.some.inj hn
      obtain ⟨hbd, herr⟩ := hQ x (hX x (List.mem_of_getElem? hx))
      set S : Nat := ∑ t ∈ range (dim / 4), Q.lut.getD (16 * t + (8 * x.getD (4 * t) 0 + 4 * x.getD (4 * t + 1) 0
        + 2 * x.getD (4 * t + 2) 0 + x.getD (4 * t + 3) 0)) 0 with hS
      have hSn : n = S := by rw [hn]; exact Nat.mod_eq_of_lt (by omega)
      have hc : ((convert n Q.sumq : Int) : K) = 2 * (S : K) - (Q.sumq : K) := by
        unfold convert toInt16
        rw [if_pos (by omega), hSn]
        push_cast
        ring
      have hwR : Q.width ≤ R / 63 := by
        rw [le_div_iff₀ (by norm_num : (0 : K) < 63), hw63]
        exact hR lo hlo hi hhi
      have e : d j - exactDist sqrY sqrQr f x v dim
          = f.dq * (Q.width * (2 * (S : K) - (Q.sumq : K)) + signSum x dim * Q.lower - ipSigns x v dim) := by
        rw [e3]
        unfold approDist exactDist
        rw [hc, hvq]
        ring
      rw [e, abs_mul]
      refine mul_le_mul_of_nonneg_left (herr.trans ?_) (abs_nonneg _)
      exact mul_le_mul_of_nonneg_left hwR (by positivity)
  choose G hG using hblk
  obtain ⟨hD1, hD2⟩ := getElem?_flatten_blocks (g := G) ((X.length + 31) / 32) (fun s hs => (hG s hs).2.1)
  refine ⟨Q, B, ((List.range ((X.length + 31) / 32)).map G).flatten, eQ, eB, ?_, by rw [hD1]; omega, ?_⟩
  · unfold scan
    rw [mapM_range (fun s hs => (hG s hs).1)]
    rfl
  · intro i x f hx hf hvq
    have hi : i < X.length := by
      by_contra h
      rw [List.getElem?_eq_none (by omega)] at hx
      exact absurd hx (by simp)
    have hs : i / 32 < (X.length + 31) / 32 := by omega
    obtain ⟨d, h1, h2⟩ := (hG (i / 32) hs).2.2 (i % 32) (by omega) x f
      (by rw [show 32 * (i / 32) + i % 32 = i by omega]; exact hx)
      (by rw [show 32 * (i / 32) + i % 32 = i by omega]; exact hf) hvq
    refine ⟨d, ?_, h2⟩
    rw [← h1, ← hD2 (i / 32) hs (i % 32) (by omega), show 32 * (i / 32) + i % 32 = i by omega]

end

/-! ### A case that meets the hypotheses -/

/-- A query of 64 dimensions. -/
def exQuery : List Rat := (List.range 64).map (fun i => ((i * 37 % 64 : Nat) : Rat) / 8 - 3)

/-- 32 different codes. -/
def exCodes : List (List Nat) := (List.range 32).map (fun r => (List.range 64).map (fun i => (i * (r + 3) / 5 + r) % 2))

example : exQuery.length = 64 ∧ (∃ a ∈ exQuery, ∃ b ∈ exQuery, a < b) ∧
    (∀ t < 64 / 4, ∃ i < 4, ∃ c ∈ exQuery, exQuery.getD (4 * t + i) 0 < c) ∧
    (∀ a ∈ exQuery, ∀ b ∈ exQuery, b - a ≤ 8) ∧ exCodes.length = 32 ∧
    (∀ x ∈ exCodes, x.length = 64 ∧ ∀ b ∈ x, b = 0 ∨ b = 1) := by decide +kernel

end Alaya.LaserScan
