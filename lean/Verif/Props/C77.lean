/-
C77: the look-up tables of RaBitQ give the inner product of the query with every neighbour's bits.

The code stored for a neighbour is one bit per dimension.  At search time the inner product of the bits with the
query is read from tables of quantised partial sums, 32 neighbours at a time, with one of three kernels.
-/
import Verif.Lemmas.FastScanPack
import Mathlib.Algebra.BigOperators.Intervals
import Mathlib.Data.Rat.Floor
import Mathlib.Algebra.Order.Archimedean.Basic

namespace Alaya.FastScan

open Finset

section
set_option linter.unusedSectionVars false
variable {K : Type} [Field K] [LinearOrder K] [IsStrictOrderedRing K] [FloorRing K]

/-- Specification: the inner product of bits and query coordinates. -/
def ipBits (x : List Nat) (q : List K) (dim : Nat) : K :=
  ∑ i ∈ range dim, (x.getD i 0 : K) * q.getD i 0

/-- Specification: `x` is a code of `dim` bits. -/
def IsCode (dim : Nat) (x : List Nat) : Prop := x.length = dim ∧ ∀ b ∈ x, b = 0 ∨ b = 1

theorem pick_group {x : List Nat} (hb : ∀ y ∈ x, y < 2) (q : List K) (t : Nat) :
    pick q t (group x t) = (x.getD (4 * t) 0 : K) * q.getD (4 * t) 0 + (x.getD (4 * t + 1) 0 : K) * q.getD (4 * t + 1) 0
      + (x.getD (4 * t + 2) 0 : K) * q.getD (4 * t + 2) 0 + (x.getD (4 * t + 3) 0 : K) * q.getD (4 * t + 3) 0 := by
  have h0 := bit_getD hb (4 * t)
  have h1 := bit_getD hb (4 * t + 1)
  have h2 := bit_getD hb (4 * t + 2)
  have h3 := bit_getD hb (4 * t + 3)
  unfold pick group
  generalize x.getD (4 * t) 0 = a at *
  generalize x.getD (4 * t + 1) 0 = b at *
  generalize x.getD (4 * t + 2) 0 = c at *
  generalize x.getD (4 * t + 3) 0 = d at *
  interval_cases a <;> interval_cases b <;> interval_cases c <;> interval_cases d <;> simp

theorem sum_four (f : Nat → K) (m : Nat) :
    ∑ i ∈ range (4 * m), f i = ∑ t ∈ range m, (f (4 * t) + f (4 * t + 1) + f (4 * t + 2) + f (4 * t + 3)) := by
  induction m with
  | zero => simp
  | succ m ih =>
    rw [show 4 * (m + 1) = 4 * m + 1 + 1 + 1 + 1 by ring]
    simp only [sum_range_succ, ih]
    ring

theorem ipBits_eq {x : List Nat} (hb : ∀ y ∈ x, y < 2) (q : List K) {dim : Nat} (hd : dim % 4 = 0) :
    ipBits x q dim = ∑ t ∈ range (dim / 4), pick q t (group x t) := by
  unfold ipBits
  rw [show dim = 4 * (dim / 4) by omega, sum_four, show 4 * (dim / 4) / 4 = dim / 4 by omega]
  exact sum_congr rfl (fun t _ => (pick_group hb q t).symm)

theorem sumR_cast (n : Nat) (f : Nat → Nat) : ((sumR n f : Nat) : K) = ∑ t ∈ range n, (f t : K) := by
  induction n with
  | zero => simp [sumR]
  | succ n ih => rw [sumR_succ, sum_range_succ, ← ih]; push_cast; rfl

/-- **C77 (the kernels).**  For any number of neighbours, any codes and any table, the AVX-512, the AVX2 and the
portable kernel give the same 32 counters for each block of 32 neighbours: for each neighbour the sum, modulo
`2 ^ 16`, of the table entries selected by its bits, four dimensions at a time. -/
theorem C77_lookup (isa : Isa) {dim : Nat} (hd : dim % 16 = 0) {X : List (List Nat)} (hX : ∀ x ∈ X, IsCode dim x)
    {lp : List Nat} (hlp : ∀ e ∈ lp, e < 256) (hlen : lp.length = 4 * dim) :
    ∃ B, quantCodes dim X = some B ∧ B.length = (X.length + 31) / 32 * (4 * dim) ∧ ∀ s < (X.length + 31) / 32,
      ∃ res, accumulate isa (B.drop (4 * dim * s)) lp dim = some res ∧ res.length = 32 ∧
        ∀ v < 32, ∀ x, X[32 * s + v]? = some x → res[v]? = some ((∑ t ∈ range (dim / 4),
          lp.getD (16 * t + (8 * x.getD (4 * t) 0 + 4 * x.getD (4 * t + 1) 0 + 2 * x.getD (4 * t + 2) 0
            + x.getD (4 * t + 3) 0)) 0) % 2 ^ 16) := by
  obtain ⟨B, e, hl, h⟩ := accumulate_eq isa hd (fun x hx => (hX x hx).1)
    (fun x hx y hy => by rcases (hX x hx).2 y hy with h | h <;> omega) hlp hlen.ge
  refine ⟨B, e, hl, fun s hs => ⟨_, h s hs, by simp, fun v hv x hx => ?_⟩⟩
  rw [List.getElem?_map, List.getElem?_range hv]
  have hg : X.getD (32 * s + v) [] = x := by rw [List.getD_eq_getElem?_getD, hx]; rfl
  simp only [Option.map_some, hg]
  rfl

/-- **C77 (the estimate of the inner product).**  For a query with a coordinate that is not zero, up to 1024
dimensions, on every processor: the table can be built, and for each neighbour the counter gives the inner product
of its bits with the query up to `dim / 8` steps of the table.  With coordinates of at most `M` in magnitude the
error is at most `dim * M / 255`. -/
theorem C77_inner_product (isa : Isa) {dim : Nat} (hd : dim % 16 = 0) (h1024 : dim ≤ 1024) {q : List K}
    (hq : q.length = dim) (hne : ∃ c ∈ q, c ≠ 0) {M : K} (hM : ∀ c ∈ q, |c| ≤ M) {X : List (List Nat)}
    (hX : ∀ x ∈ X, IsCode dim x) :
    ∃ L B, mkLut isa q dim = some L ∧ quantCodes dim X = some B ∧ ∀ s < (X.length + 31) / 32,
      ∃ res, accumulate isa (B.drop (4 * dim * s)) L.lut dim = some res ∧ res.length = 32 ∧
        ∀ v < 32, ∀ x, X[32 * s + v]? = some x → ∃ n, res[v]? = some n ∧
          |L.delta * (n : K) + L.sumVl - ipBits x q dim| ≤ (dim : K) / 8 * L.delta ∧
          |L.delta * (n : K) + L.sumVl - ipBits x q dim| ≤ (dim : K) * M / 255 := by
  have hMg : ∀ i, |q.getD i 0| ≤ M := by
    obtain ⟨c, hc, _⟩ := hne
    have h0 : 0 ≤ M := (abs_nonneg c).trans (hM c hc)
    intro i
    by_cases h : i < q.length
    · rw [List.getD_eq_getElem _ _ h]; exact hM _ (List.getElem_mem h)
    · rw [List.getD_eq_default _ _ (by omega), abs_zero]; exact h0
  have hne' : ∃ t < dim / 4, ∃ k < 16, pick q t k ≠ 0 := by
    obtain ⟨c, hc, hc0⟩ := hne
    obtain ⟨i, hi, rfl⟩ := List.getElem_of_mem hc
    rw [← List.getD_eq_getElem _ 0 hi] at hc0
    have hi4 : i = 4 * (i / 4) + i % 4 := by omega
    have : i % 4 < 4 := by omega
    refine ⟨i / 4, by omega, ?_⟩
    generalize i / 4 = t at *
    generalize i % 4 = r at *
    interval_cases r
    · exact ⟨8, by omega, by simpa [pick, hi4] using hc0⟩
    · exact ⟨4, by omega, by simpa [pick, hi4] using hc0⟩
    · exact ⟨2, by omega, by simpa [pick, hi4] using hc0⟩
    · exact ⟨1, by omega, by simpa [pick, hi4] using hc0⟩
  obtain ⟨L, lo, hi, e, hlen, hbytes, hδ, h255, hsum, hent, ⟨ta, _, ka, _, hlo⟩, ⟨tb, _, kb, _, hhi⟩⟩ :=
    mkLut_eq isa (by omega : dim % 4 = 0) hq hne'
  have hpick : ∀ t k, |pick q t k| ≤ 4 * M := by
    intro t k
    have hM0 : 0 ≤ M := (abs_nonneg _).trans (hMg 0)
    have a0 : |if k / 8 % 2 = 1 then q.getD (4 * t) 0 else 0| ≤ M := by
      split
      · exact hMg _
      · simpa using hM0
    have a1 : |if k / 4 % 2 = 1 then q.getD (4 * t + 1) 0 else 0| ≤ M := by
      split
      · exact hMg _
      · simpa using hM0
    have a2 : |if k / 2 % 2 = 1 then q.getD (4 * t + 2) 0 else 0| ≤ M := by
      split
      · exact hMg _
      · simpa using hM0
    have a3 : |if k % 2 = 1 then q.getD (4 * t + 3) 0 else 0| ≤ M := by
      split
      · exact hMg _
      · simpa using hM0
    rw [abs_le] at a0 a1 a2 a3 ⊢
    unfold pick
    constructor <;> linarith [a0.1, a0.2, a1.1, a1.2, a2.1, a2.2, a3.1, a3.2]
  have hδM : L.delta * 255 ≤ 8 * M := by
    rw [h255, hlo, hhi]
    have h1 := abs_le.mp (hpick ta ka)
    have h2 := abs_le.mp (hpick tb kb)
    linarith [h1.1, h2.2]
  obtain ⟨B, eB, _, h⟩ := accumulate_eq isa hd (fun x hx => (hX x hx).1)
    (fun x hx y hy => by rcases (hX x hx).2 y hy with h | h <;> omega) hbytes hlen.ge
  refine ⟨L, B, e, eB, fun s hs => ⟨_, h s hs, by simp, fun v hv x hx => ?_⟩⟩
  have hg : X.getD (32 * s + v) [] = x := by rw [List.getD_eq_getElem?_getD, hx]; rfl
  have hxm : x ∈ X := List.mem_of_getElem? hx
  have hb : ∀ y ∈ x, y < 2 := fun y hy => by rcases (hX x hxm).2 y hy with h | h <;> omega
  rw [List.getElem?_map, List.getElem?_range hv]
  refine ⟨_, rfl, ?_⟩
  beta_reduce
  rw [hg]
  have hsmall : sumR (dim / 4) (fun t => L.lut.getD (16 * t + group x t) 0) < 65536 := by
    have := sumR_le (n := dim / 4) (B := 255) (f := fun t => L.lut.getD (16 * t + group x t) 0)
      (fun t _ => by have := Bytes.getD hbytes (16 * t + group x t); omega)
    omega
  rw [Nat.mod_eq_of_lt hsmall, sumR_cast, hsum, ipBits_eq hb q (by omega)]
  have key : ∀ n ≤ dim / 4, |L.delta * (∑ t ∈ range n, (L.lut.getD (16 * t + group x t) 0 : K)) + lo * (n : K)
      - ∑ t ∈ range n, pick q t (group x t)| ≤ (n : K) * (L.delta / 2) := by
    intro n hn
    induction n with
    | zero => simp
    | succ n ih =>
      have h1 := ih (by omega)
      have h2 := (hent n (by omega) (group x n) (group_lt hb n)).2.2
      rw [sum_range_succ, sum_range_succ]
      rw [abs_le] at h1 h2 ⊢
      push_cast
      constructor <;> nlinarith [h1.1, h1.2, h2.1, h2.2]
  have hk := key (dim / 4) le_rfl
  have hdc : (dim : K) = 4 * ((dim / 4 : Nat) : K) := by
    have : dim = 4 * (dim / 4) := by omega
    calc (dim : K) = ((4 * (dim / 4) : Nat) : K) := by rw [← this]
      _ = _ := by push_cast; rfl
  have hfin : ((dim / 4 : Nat) : K) * (L.delta / 2) = (dim : K) / 8 * L.delta := by rw [hdc]; ring
  refine ⟨by rw [← hfin]; exact hk, hk.trans ?_⟩
  rw [hfin]
  have hd0 : (0 : K) ≤ (dim : K) := Nat.cast_nonneg _
  have := mul_le_mul_of_nonneg_left hδM hd0
  rw [le_div_iff₀ (by norm_num)]
  nlinarith

/-- Disagreement: for a query of zeros the portable and AVX2 builds divide zero by zero and convert the NaN to a
byte, which is undefined; the AVX-512 build gives a table of zeros. -/
theorem C77_zero_query_refuted {dim : Nat} (hd : dim % 4 = 0) (h0 : 0 < dim) :
    mkLut .portable (List.replicate dim (0 : K)) dim = none ∧ mkLut .avx2 (List.replicate dim (0 : K)) dim = none ∧
      ∃ L, mkLut .avx512 (List.replicate dim (0 : K)) dim = some L ∧ L.delta = 0 ∧ L.sumVl = 0 ∧ ∀ e ∈ L.lut, e = 0 := by
  have hz : ∀ t k, pick (List.replicate dim (0 : K)) t k = 0 := by
    intro t k
    have : ∀ i, (List.replicate dim (0 : K)).getD i 0 = 0 := by
      intro i
      by_cases h : i < (List.replicate dim (0 : K)).length
      · rw [List.getD_eq_getElem _ _ h]; simp
      · rw [List.getD_eq_default _ _ (by omega)]
    simp only [pick, this, ite_self, add_zero]
  obtain ⟨hlen, hget⟩ := flatten_pick (q := List.replicate dim (0 : K)) (n := dim / 4)
  obtain ⟨lo, hi, er, hlo, hhi, -⟩ := dataRange_eq
    (l := ((List.range (dim / 4)).map (fun t => (List.range 16).map (pick (List.replicate dim (0 : K)) t))).flatten)
    (fun h => by rw [h] at hlen; simp at hlen; omega)
  obtain ⟨t1, _, k1, _, e1⟩ := mem_flatten_pick hlo
  obtain ⟨t2, _, k2, _, e2⟩ := mem_flatten_pick hhi
  rw [hz] at e1 e2
  subst e1 e2
  unfold mkLut
  rw [packLut_eq hd (by simp)]
  simp only [Option.bind_eq_bind, Option.bind_some, er, sub_self, zero_div, if_pos, Option.bind_none, Option.pure_def,
    zero_mul, true_and]
  refine ⟨_, rfl, rfl, rfl, ?_⟩
  intro e he
  obtain ⟨_, _, rfl⟩ := List.mem_map.mp he
  rfl

end

/-- Disagreement: above 1024 dimensions the 16-bit counters can wrap.  With 1088 dimensions (any vector of 1025 to
1088 coordinates is padded to that), the query of ones and the code of ones, the true inner product is `1088`; on
every processor the tables give `3824 * 4 / 255`, less than `60`. -/
theorem C77_wrap_refuted (isa : Isa) :
    ∃ L B res, mkLut isa (List.replicate 1088 (1 : ℚ)) 1088 = some L ∧
      quantCodes 1088 [List.replicate 1088 1] = some B ∧ accumulate isa B L.lut 1088 = some res ∧
      ipBits (List.replicate 1088 1) (List.replicate 1088 (1 : ℚ)) 1088 = 1088 ∧
      ∃ n : Nat, res[0]? = some n ∧ n = 3824 ∧ L.delta * (n : ℚ) + L.sumVl < 60 := by
  have h1 : ∀ i < 1088, (List.replicate 1088 (1 : ℚ)).getD i 0 = 1 := by
    intro i hi
    rw [List.getD_eq_getElem _ _ (by rw [List.length_replicate]; exact hi), List.getElem_replicate]
  have h1n : ∀ i < 1088, (List.replicate 1088 1).getD i 0 = 1 := by
    intro i hi
    rw [List.getD_eq_getElem _ _ (by rw [List.length_replicate]; exact hi), List.getElem_replicate]
  have hp : ∀ t < 1088 / 4, ∀ k < 16, 0 ≤ pick (List.replicate 1088 (1 : ℚ)) t k ∧
      pick (List.replicate 1088 (1 : ℚ)) t k ≤ 4 := by
    intro t ht k hk
    unfold pick
    rw [h1 _ (by omega), h1 _ (by omega), h1 _ (by omega), h1 _ (by omega)]
    constructor <;> (repeat' split) <;> norm_num
  have hp0 : ∀ t, pick (List.replicate 1088 (1 : ℚ)) t 0 = 0 := fun t => by simp [pick]
  have hp15 : ∀ t < 1088 / 4, pick (List.replicate 1088 (1 : ℚ)) t 15 = 4 := by
    intro t ht
    unfold pick
    rw [h1 _ (by omega), h1 _ (by omega), h1 _ (by omega), h1 _ (by omega)]
    norm_num
  obtain ⟨L, lo, hi, e, hlen, hbytes, hδ, h255, hsum, hent, ⟨ta, hta, ka, hka, hlo⟩, ⟨tb, htb, kb, hkb, hhi⟩⟩ :=
    mkLut_eq isa (dim := 1088) (q := List.replicate 1088 (1 : ℚ)) (by norm_num) List.length_replicate
      ⟨0, by norm_num, 15, by norm_num, by rw [hp15 0 (by norm_num)]; norm_num⟩
  have hlo0 : lo = 0 := by
    have a := (hent 0 (by norm_num) 0 (by norm_num)).1
    rw [hp0] at a
    have b := (hp ta hta ka hka).1
    rw [← hlo] at b
    exact le_antisymm a b
  have hhi4 : hi = 4 := by
    have a := (hent 0 (by norm_num) 15 (by norm_num)).2.1
    rw [hp15 0 (by norm_num)] at a
    have b := (hp tb htb kb hkb).2
    rw [← hhi] at b
    exact le_antisymm b a
  have hδe : L.delta = 4 / 255 := by
    rw [hhi4, hlo0] at h255
    linarith
  have hentry : ∀ t < 1088 / 4, L.lut.getD (16 * t + 15) 0 = 255 := by
    intro t ht
    have a := (hent t ht 15 (by norm_num)).2.2
    rw [hp15 t ht, hlo0, hδe, abs_le] at a
    have a1 : ((254 : Nat) : ℚ) < ((L.lut.getD (16 * t + 15) 0 : Nat) : ℚ) := by push_cast; linarith [a.1]
    have a2 : ((L.lut.getD (16 * t + 15) 0 : Nat) : ℚ) < ((256 : Nat) : ℚ) := by push_cast; linarith [a.2]
    have b1 := Nat.cast_lt.mp a1
    have b2 := Nat.cast_lt.mp a2
    omega
  have hcode : ∀ x ∈ [List.replicate 1088 1], x.length = 1088 ∧ ∀ y ∈ x, y < 2 := by
    intro x hx
    rw [List.mem_singleton] at hx
    subst hx
    refine ⟨List.length_replicate, fun y hy => ?_⟩
    have := List.eq_of_mem_replicate hy
    omega
  obtain ⟨B, eB, _, h⟩ := accumulate_eq isa (dim := 1088) (X := [List.replicate 1088 1]) (by norm_num)
    (fun x hx => (hcode x hx).1) (fun x hx => (hcode x hx).2) hbytes hlen.ge
  have h0 := h 0 (by decide)
  rw [show 4 * 1088 * 0 = 0 by rfl, List.drop_zero] at h0
  refine ⟨L, B, _, e, eB, h0, ?_, 3824, ?_, rfl, ?_⟩
  · unfold ipBits
    rw [sum_congr rfl (g := fun _ => (1 : ℚ)) (fun i hi => by
      rw [h1 i (mem_range.mp hi), h1n i (mem_range.mp hi)]; norm_num)]
    rw [sum_const, card_range]
    norm_num
  · refine (List.getElem?_map ..).trans ?_
    rw [List.getElem?_range (by norm_num)]
    rw [Option.map_some, sumR_congr (g := fun _ => 255) (fun t ht => by
      have : group ([List.replicate 1088 1].getD (32 * 0 + 0) []) t = 15 := by
        change group (List.replicate 1088 1) t = 15
        unfold group
        rw [h1n _ (by omega), h1n _ (by omega), h1n _ (by omega), h1n _ (by omega)]
      rw [this, hentry t ht])]
    unfold sumR
    rw [List.map_const', List.length_range, List.sum_replicate]
    norm_num
  · rw [hsum, hlo0, hδe]
    norm_num

/-- Disagreement: the AVX-512 build rounds halves to even, the others away from zero, so the same query can get
different tables. -/
theorem C77_builds_differ_refuted :
    ∃ q : List ℚ, ∃ L L', mkLut .avx512 q 16 = some L ∧ mkLut .portable q 16 = some L' ∧ L.lut ≠ L'.lut := by
  refine ⟨[509 / 2, 1 / 2, 0, 0, 0, 0, 0, 0, 0, 0, 0, 0, 0, 0, 0, 0],
    (mkLut .avx512 [509 / 2, 1 / 2, 0, 0, 0, 0, 0, 0, 0, 0, 0, 0, 0, 0, 0, 0] 16).get (by decide +kernel),
    (mkLut .portable [509 / 2, 1 / 2, 0, 0, 0, 0, 0, 0, 0, 0, 0, 0, 0, 0, 0, 0] 16).get (by decide +kernel),
    by simp, by simp, by decide +kernel⟩

/-- A query and two neighbours. -/
def qEx : List ℚ := [3, -1, 2, 5, 0, 1, -4, 1, 2, 2, -2, 1, 0, 0, 6, -3]
def xEx : List (List Nat) := [[1, 0, 1, 1, 0, 0, 0, 1, 1, 1, 0, 1, 0, 1, 1, 0], [0, 1, 0, 0, 1, 1, 1, 0, 0, 0, 1, 0, 1, 0, 0, 1]]

/-- The hypotheses of the theorems are met by `qEx` and `xEx`, and the kernels give these counters:
`692 * 14 / 255 - 16` is `21.99` and `127 * 14 / 255 - 16` is `-9.03`. -/
theorem C77_case : (∀ x ∈ xEx, IsCode 16 x) ∧ (∃ c ∈ qEx, c ≠ 0) ∧ (∀ c ∈ qEx, |c| ≤ 6) ∧
    ipBits (xEx.getD 0 []) qEx 16 = 22 ∧ ipBits (xEx.getD 1 []) qEx 16 = -9 ∧
    ∀ isa : Isa, ((do
      let L ← mkLut isa qEx 16
      let B ← quantCodes 16 xEx
      let res ← accumulate isa B L.lut 16
      pure (res.take 2, L.delta, L.sumVl)) : Option (List Nat × ℚ × ℚ)) = some ([692, 127], 14 / 255, -16) := by
  refine ⟨by simp [xEx, IsCode], by simp [qEx], ?_, by decide +kernel, by decide +kernel, ?_⟩
  · intro c hc
    simp only [qEx, List.mem_cons, List.not_mem_nil, or_false] at hc
    rcases hc with h | h | h | h | h | h | h | h | h | h | h | h | h | h | h | h <;> subst h <;> norm_num
  · intro isa
    cases isa <;> decide +kernel

end Alaya.FastScan
