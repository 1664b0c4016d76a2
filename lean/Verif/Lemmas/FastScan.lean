/-
Lemmas about the look-up kernels of `Verif/Model/FastScan.lean`: every build of `accumulate` adds, for each of the
32 vectors, one table entry per group of four dimensions.
-/
import Verif.Model.FastScan
import Mathlib.Data.List.GetD
import Mathlib.Tactic.IntervalCases
import Mathlib.Tactic.Ring

namespace Alaya.FastScan

/-- `f 0 + … + f (n-1)`. -/
def sumR (n : Nat) (f : Nat → Nat) : Nat := ((List.range n).map f).sum

theorem sumR_zero (f : Nat → Nat) : sumR 0 f = 0 := rfl

theorem sumR_succ (n : Nat) (f : Nat → Nat) : sumR (n + 1) f = sumR n f + f n := by
  simp [sumR, List.range_succ]

theorem sumR_congr {n : Nat} {f g : Nat → Nat} (h : ∀ i < n, f i = g i) : sumR n f = sumR n g := by
  induction n with
  | zero => rfl
  | succ n ih =>
    rw [sumR_succ, sumR_succ, ih (fun i hi => h i (by omega)), h n (by omega)]

theorem sumR_four (m : Nat) (f : Nat → Nat) :
    sumR (4 * m) f = sumR m (fun s => f (4 * s)) + sumR m (fun s => f (4 * s + 1))
      + sumR m (fun s => f (4 * s + 2)) + sumR m (fun s => f (4 * s + 3)) := by
  induction m with
  | zero => rfl
  | succ m ih =>
    rw [show 4 * (m + 1) = 4 * m + 1 + 1 + 1 + 1 by ring]
    simp only [sumR_succ, ih]
    omega

theorem sumR_two (m : Nat) (f : Nat → Nat) :
    sumR (2 * m) f = sumR m (fun s => f (2 * s)) + sumR m (fun s => f (2 * s + 1)) := by
  induction m with
  | zero => rfl
  | succ m ih =>
    rw [show 2 * (m + 1) = 2 * m + 1 + 1 by ring]
    simp only [sumR_succ, ih]
    omega

theorem sumR_le {n B : Nat} {f : Nat → Nat} (h : ∀ i < n, f i ≤ B) : sumR n f ≤ n * B := by
  induction n with
  | zero => simp [sumR]
  | succ n ih =>
    have h1 := ih (fun i hi => h i (by omega))
    have h2 := h n (by omega)
    rw [sumR_succ, Nat.succ_mul]
    omega

/-- The place of vector `p < 16` among the sixteen bytes: the inverse of `kPerm0`. -/
def slot (p : Nat) : Nat := if p < 8 then 2 * p else 2 * (p - 8) + 1

/-- The code of vector `v` for group `t` in the packed layout. -/
def nib (codes : List Nat) (t v : Nat) : Nat :=
  if v < 16 then codes.getD (16 * t + slot v) 0 % 16 else codes.getD (16 * t + slot (v - 16)) 0 / 16

/-- The table entry vector `v` selects in group `t`. -/
def entry (codes lp : List Nat) (t v : Nat) : Nat := lp.getD (16 * t + nib codes t v) 0

/-- All elements are bytes. -/
def Bytes (l : List Nat) : Prop := ∀ x ∈ l, x < 256

theorem Bytes.getD {l : List Nat} (h : Bytes l) (i : Nat) : l.getD i 0 < 256 := by
  by_cases hi : i < l.length
  · rw [List.getD_eq_getElem _ _ hi]; exact h _ (List.getElem_mem hi)
  · rw [List.getD_eq_default _ _ (by omega)]; omega

theorem getElem?_getD {l : List Nat} {i : Nat} (h : i < l.length) : l[i]? = some (l.getD i 0) := by
  rw [List.getElem?_eq_getElem h, List.getD_eq_getElem _ _ h]

theorem and15 (x : Nat) : x &&& 15 = x % 16 := Nat.and_two_pow_sub_one_eq_mod x 4

theorem shr4 (x : Nat) : x >>> 4 = x / 16 := by rw [Nat.shiftRight_eq_div_pow]

theorem shr8 (x : Nat) : x >>> 8 = x / 256 := by rw [Nat.shiftRight_eq_div_pow]

theorem shl8 (x : Nat) : x <<< 8 = 256 * x := by rw [Nat.shiftLeft_eq]; omega

/-! ### The portable loop -/

theorem scalarHalf_eq {codes lp : List Nat} (hc : Bytes codes) (t : Nat)
    (h1 : 16 * t + 16 ≤ codes.length) (h2 : 16 * t + 16 ≤ lp.length) (r : Nat → Nat) :
    scalarHalf codes lp (16 * t) r =
      some (fun v => if v < 32 then (r v + entry codes lp t v) % 65536 else r v) := by
  have hcode : ∀ k, k < 16 → codes[16 * t + k]? = some (codes.getD (16 * t + k) 0) := fun k hk =>
    getElem?_getD (by omega)
  have hlo : ∀ x, lp[16 * t + x % 16]? = some (lp.getD (16 * t + x % 16) 0) := fun x =>
    getElem?_getD (by omega)
  have hhi : ∀ k, lp[16 * t + codes.getD (16 * t + k) 0 / 16]?
      = some (lp.getD (16 * t + codes.getD (16 * t + k) 0 / 16) 0) := fun k =>
    getElem?_getD (by have := hc.getD (16 * t + k); omega)
  have hr : List.range 16 = [0, 1, 2, 3, 4, 5, 6, 7, 8, 9, 10, 11, 12, 13, 14, 15] := by decide
  unfold scalarHalf
  rw [hr]
  simp only [List.foldlM_cons, List.foldlM_nil, hcode _ (by omega : (0 : Nat) < 16),
    hcode _ (by omega : (1 : Nat) < 16), hcode _ (by omega : (2 : Nat) < 16),
    hcode _ (by omega : (3 : Nat) < 16), hcode _ (by omega : (4 : Nat) < 16),
    hcode _ (by omega : (5 : Nat) < 16), hcode _ (by omega : (6 : Nat) < 16),
    hcode _ (by omega : (7 : Nat) < 16), hcode _ (by omega : (8 : Nat) < 16),
    hcode _ (by omega : (9 : Nat) < 16), hcode _ (by omega : (10 : Nat) < 16),
    hcode _ (by omega : (11 : Nat) < 16), hcode _ (by omega : (12 : Nat) < 16),
    hcode _ (by omega : (13 : Nat) < 16), hcode _ (by omega : (14 : Nat) < 16),
    hcode _ (by omega : (15 : Nat) < 16), and15, shr4, hlo, hhi, Option.bind_eq_bind, Option.bind_some,
    Option.pure_def, kPerm0, List.getElem?_cons_zero, List.getElem?_cons_succ]
  congr 1
  funext v
  by_cases hv : v < 32
  · interval_cases v <;> simp [bump, entry, nib, slot]
  · rw [if_neg hv]
    simp only [bump]
    repeat rw [if_neg (by omega)]

theorem foldlM_inv {σ : Type} {g : σ → Nat → Option σ} {P : Nat → σ → Prop} {s₀ : σ} (h0 : P 0 s₀) (n : Nat)
    (hs : ∀ k < n, ∀ s, P k s → ∃ s', g s k = some s' ∧ P (k + 1) s') :
    ∃ s, (List.range n).foldlM g s₀ = some s ∧ P n s := by
  induction n with
  | zero => exact ⟨s₀, rfl, h0⟩
  | succ n ih =>
    obtain ⟨s, e, hp⟩ := ih (fun k hk => hs k (by omega))
    obtain ⟨s', e', hp'⟩ := hs n (by omega) s hp
    exact ⟨s', by simp [List.range_succ, List.foldlM_append, e, e'], hp'⟩

/-- What every build returns. -/
def sums (codes lp : List Nat) (n : Nat) : List Nat :=
  (List.range 32).map (fun v => sumR n (fun t => entry codes lp t v) % 65536)

theorem accScalar_eq {codes lp : List Nat} (hc : Bytes codes) {dim : Nat} (hd : dim % 8 = 0)
    (h1 : 4 * dim ≤ codes.length) (h2 : 4 * dim ≤ lp.length) :
    accScalar codes lp dim = some (sums codes lp (dim / 4)) := by
  have hn : (4 * dim + 31) / 32 = dim / 8 := by omega
  obtain ⟨r, e, hp⟩ := foldlM_inv
    (g := fun r s => do
      let r ← scalarHalf codes lp (32 * s) r
      scalarHalf codes lp (32 * s + 16) r)
    (P := fun k r => ∀ v < 32, r v = sumR (2 * k) (fun t => entry codes lp t v) % 65536)
    (s₀ := fun _ => 0) (by intro v _; rfl) (dim / 8) (by
      intro k hk r hr
      have e1 := scalarHalf_eq hc (2 * k) (by omega) (by omega : 16 * (2 * k) + 16 ≤ lp.length) r
      rw [show 16 * (2 * k) = 32 * k by ring] at e1
      have e2 := scalarHalf_eq hc (2 * k + 1) (by omega) (by omega : 16 * (2 * k + 1) + 16 ≤ lp.length)
        (fun v => if v < 32 then (r v + entry codes lp (2 * k) v) % 65536 else r v)
      rw [show 16 * (2 * k + 1) = 32 * k + 16 by ring] at e2
      refine ⟨(fun v => if v < 32 then ((fun v => if v < 32 then (r v + entry codes lp (2 * k) v) % 65536 else r v) v
          + entry codes lp (2 * k + 1) v) % 65536
        else (fun v => if v < 32 then (r v + entry codes lp (2 * k) v) % 65536 else r v) v), ?_, ?_⟩
      · simp only [e1, Option.bind_eq_bind, Option.bind_some]
        exact e2
      · intro v hv
        simp only [if_pos hv]
        rw [show 2 * (k + 1) = 2 * k + 1 + 1 by ring, sumR_succ, sumR_succ, hr v hv]
        omega)
  unfold accScalar
  rw [hn, e]
  simp only [Option.bind_eq_bind, Option.bind_some, Option.pure_def]
  congr 1
  unfold sums
  rw [show dim / 4 = 2 * (dim / 8) by omega]
  exact List.map_congr_left (fun v hv => hp v (List.mem_range.mp hv))

/-! ### The SIMD loops -/

theorem byte_ofBytes {f : Nat → Nat} (hf : ∀ k, f k < 256) (k : Nat) : byte (ofBytes f) k = f k := by
  unfold byte ofBytes
  by_cases h : k % 2 = 0
  · have hk : 2 * (k / 2) = k := by omega
    rw [if_pos h, hk]
    have := hf k
    omega
  · have hk : 2 * (k / 2) + 1 = k := by omega
    rw [if_neg h, hk]
    have := hf (2 * (k / 2))
    have := hf k
    omega

theorem byte_srli {f : Nat → Nat} (hf : ∀ k, f k < 256) (k : Nat) :
    byte (srli (ofBytes f) 4) k &&& 15 = f k / 16 := by
  rw [and15]
  unfold byte srli ofBytes
  simp only [shr4]
  by_cases h : k % 2 = 0
  · have hk : 2 * (k / 2) = k := by omega
    rw [if_pos h, hk]
    have := hf k
    omega
  · have hk : 2 * (k / 2) + 1 = k := by omega
    rw [if_neg h, hk]
    have := hf (2 * (k / 2))
    have := hf k
    omega

/-- The look-up of one register, lane by lane. -/
theorem shuffle8_lane {f g : Nat → Nat} (hf : ∀ k, f k < 256) (hg : ∀ k, g k < 16) (l : Nat) :
    shuffle8 (ofBytes f) (ofBytes g) l =
      f (16 * (l / 8) + g (2 * l)) + 256 * f (16 * (l / 8) + g (2 * l + 1)) := by
  have hg' : ∀ k, g k < 256 := fun k => by have := hg k; omega
  simp only [shuffle8, byte_ofBytes hg', byte_ofBytes hf]
  simp only [ofBytes]
  have h1 := hg (2 * l)
  have h2 := hg (2 * l + 1)
  rw [if_neg (by omega), if_neg (by omega), Nat.mod_eq_of_lt h1, Nat.mod_eq_of_lt h2,
    show 2 * l / 16 = l / 8 by omega, show (2 * l + 1) / 16 = l / 8 by omega]

/-- One body of the SIMD loops. -/
theorem simdStep_eq {codes lp : List Nat} (hc : Bytes codes) (hl : Bytes lp) {n : Nat} (t : Nat)
    (h1 : 16 * t + n ≤ codes.length) (h2 : 16 * t + n ≤ lp.length) (s : Accs) :
    ∃ s', simdStep n codes lp (16 * t) s = some s' ∧ ∀ l, 2 * l + 1 < n →
      s'.a0 l = (s.a0 l + (entry codes lp (t + l / 8) (l % 8)
        + 256 * entry codes lp (t + l / 8) (l % 8 + 8))) % 65536 ∧
      s'.a1 l = (s.a1 l + entry codes lp (t + l / 8) (l % 8 + 8)) % 65536 ∧
      s'.a2 l = (s.a2 l + (entry codes lp (t + l / 8) (l % 8 + 16)
        + 256 * entry codes lp (t + l / 8) (l % 8 + 24))) % 65536 ∧
      s'.a3 l = (s.a3 l + entry codes lp (t + l / 8) (l % 8 + 24)) % 65536 := by
  have hf : ∀ k, lp.getD (16 * t + k) 0 < 256 := fun k => hl.getD _
  have hg : ∀ k, codes.getD (16 * t + k) 0 < 256 := fun k => hc.getD _
  have elo : andLow (ofBytes (fun k => codes.getD (16 * t + k) 0))
      = ofBytes (fun k => codes.getD (16 * t + k) 0 % 16) := by
    unfold andLow
    congr 1
    funext k
    rw [byte_ofBytes hg, and15]
  have ehi : andLow (srli (ofBytes (fun k => codes.getD (16 * t + k) 0)) 4)
      = ofBytes (fun k => codes.getD (16 * t + k) 0 / 16) := by
    unfold andLow
    congr 1
    funext k
    exact byte_srli hg k
  unfold simdStep load
  rw [if_pos h1, if_pos h2]
  simp only [Option.bind_eq_bind, Option.bind_some, Option.pure_def, elo, ehi]
  refine ⟨_, rfl, ?_⟩
  intro l hl
  have s1 := shuffle8_lane hf (g := fun k => codes.getD (16 * t + k) 0 % 16) (fun k => by omega) l
  have s2 := shuffle8_lane hf (g := fun k => codes.getD (16 * t + k) 0 / 16)
    (fun k => by have := hg k; omega) l
  have ev : ∀ v, entry codes lp (t + l / 8) v < 256 := fun v => by
    unfold entry; exact Bytes.getD ‹_› _
  have a1 : 16 * t + (2 * l) = 16 * (t + l / 8) + 2 * (l % 8) := by omega
  have a2 : 16 * t + (2 * l + 1) = 16 * (t + l / 8) + (2 * (l % 8) + 1) := by omega
  have b1 : ∀ x, 16 * t + (16 * (l / 8) + x) = 16 * (t + l / 8) + x := fun x => by omega
  simp only [a1, a2, b1] at s1 s2
  have h8 : l % 8 < 8 := by omega
  have n1 : nib codes (t + l / 8) (l % 8) = codes.getD (16 * (t + l / 8) + 2 * (l % 8)) 0 % 16 := by
    rw [nib, if_pos (by omega), slot, if_pos h8]
  have n2 : nib codes (t + l / 8) (l % 8 + 8) = codes.getD (16 * (t + l / 8) + (2 * (l % 8) + 1)) 0 % 16 := by
    rw [nib, if_pos (by omega), slot, if_neg (by omega), Nat.add_sub_cancel]
  have n3 : nib codes (t + l / 8) (l % 8 + 16) = codes.getD (16 * (t + l / 8) + 2 * (l % 8)) 0 / 16 := by
    rw [nib, if_neg (by omega), Nat.add_sub_cancel, slot, if_pos h8]
  have n4 : nib codes (t + l / 8) (l % 8 + 24) = codes.getD (16 * (t + l / 8) + (2 * (l % 8) + 1)) 0 / 16 := by
    rw [nib, if_neg (by omega), show l % 8 + 24 - 16 = l % 8 + 8 by omega, slot, if_neg (by omega),
      Nat.add_sub_cancel]
  rw [← n1, ← n2] at s1
  rw [← n3, ← n4] at s2
  change _ = entry codes lp (t + l / 8) (l % 8) + 256 * entry codes lp (t + l / 8) (l % 8 + 8) at s1
  change _ = entry codes lp (t + l / 8) (l % 8 + 16) + 256 * entry codes lp (t + l / 8) (l % 8 + 24) at s2
  have e1 := ev (l % 8)
  have e2 := ev (l % 8 + 8)
  have e3 := ev (l % 8 + 16)
  have e4 := ev (l % 8 + 24)
  simp only [add, srli, shr8, s1, s2]
  refine ⟨trivial, ?_, trivial, ?_⟩ <;> congr 2 <;> omega

/-- The four accumulators after the loops, in terms of the sums they hold modulo `2 ^ 16`. -/
def Holds (s : Accs) (L : Nat) (S : Nat → Nat → Nat) : Prop :=
  ∀ l < L, s.a0 l = (S l (l % 8) + 256 * S l (l % 8 + 8)) % 65536 ∧ s.a1 l = S l (l % 8 + 8) % 65536 ∧
    s.a2 l = (S l (l % 8 + 16) + 256 * S l (l % 8 + 24)) % 65536 ∧ s.a3 l = S l (l % 8 + 24) % 65536

theorem Holds.fix {s : Accs} {L : Nat} {S : Nat → Nat → Nat} (h : Holds s L S) {l : Nat} (hl : l < L) :
    sub s.a0 (slli s.a1 8) l = S l (l % 8) % 65536 ∧ sub s.a2 (slli s.a3 8) l = S l (l % 8 + 16) % 65536 := by
  obtain ⟨h0, h1, h2, h3⟩ := h l hl
  simp only [sub, slli, shl8, h0, h1, h2, h3]
  constructor <;> omega

theorem acc512_eq {codes lp : List Nat} (hc : Bytes codes) (hl : Bytes lp) {dim : Nat} (hd : dim % 16 = 0)
    (h1 : 4 * dim ≤ codes.length) (h2 : 4 * dim ≤ lp.length) :
    acc512 codes lp dim = some (sums codes lp (dim / 4)) := by
  have hn : (4 * dim + 63) / 64 = dim / 16 := by omega
  obtain ⟨s, e, hp⟩ := foldlM_inv (g := fun s k => simdStep 64 codes lp (64 * k) s)
    (P := fun k s => Holds s 32 (fun l v => sumR k (fun i => entry codes lp (4 * i + l / 8) v)))
    (s₀ := Accs.zero) (by intro l _; exact ⟨rfl, rfl, rfl, rfl⟩) (dim / 16) (by
      intro k hk s hs
      obtain ⟨s', e, h⟩ := simdStep_eq (n := 64) hc hl (4 * k) (by omega) (by omega) s
      refine ⟨s', by rw [← e]; congr 1; omega, ?_⟩
      intro l hl
      obtain ⟨c0, c1, c2, c3⟩ := h l (by omega)
      obtain ⟨d0, d1, d2, d3⟩ := hs l hl
      beta_reduce at d0 d1 d2 d3
      simp only [sumR_succ]
      rw [c0, c1, c2, c3, d0, d1, d2, d3]
      refine ⟨?_, ?_, ?_, ?_⟩ <;> omega)
  unfold acc512
  rw [hn, e]
  simp only [Option.bind_eq_bind, Option.bind_some, Option.pure_def]
  congr 1
  unfold sums
  refine List.map_congr_left (fun v hv => ?_)
  have hv := List.mem_range.mp hv
  rw [show dim / 4 = 4 * (dim / 16) by omega, sumR_four]
  have F := fun l (hl : l < 32) => (hp.fix hl).1
  have G := fun l (hl : l < 32) => (hp.fix hl).2
  have A := fun l (hl : l < 32) => (hp l hl).2.1
  have B := fun l (hl : l < 32) => (hp l hl).2.2.2
  generalize sub s.a0 (slli s.a1 8) = a0 at *
  generalize sub s.a2 (slli s.a3 8) = a2 at *
  generalize s.a1 = a1 at *
  generalize s.a3 = a3 at *
  interval_cases v <;> simp (decide := true) only [add, blend64, shuffle64x2, if_true, if_false] <;>
    norm_num [Nat.testBit, Nat.shiftRight_eq_div_pow] <;> simp only [F, G, A, B, Nat.reduceLT] <;> norm_num <;> omega

theorem acc256_eq {codes lp : List Nat} (hc : Bytes codes) (hl : Bytes lp) {dim : Nat} (hd : dim % 16 = 0)
    (h1 : 4 * dim ≤ codes.length) (h2 : 4 * dim ≤ lp.length) :
    acc256 codes lp dim = some (sums codes lp (dim / 4)) := by
  have hn : (4 * dim + 63) / 64 = dim / 16 := by omega
  obtain ⟨s, e, hp⟩ := foldlM_inv (g := fun s k => do
      let s ← simdStep 32 codes lp (64 * k) s
      simdStep 32 codes lp (64 * k + 32) s)
    (P := fun k s => Holds s 16 (fun l v => sumR (2 * k) (fun i => entry codes lp (2 * i + l / 8) v)))
    (s₀ := Accs.zero) (by intro l _; exact ⟨rfl, rfl, rfl, rfl⟩) (dim / 16) (by
      intro k hk s hs
      obtain ⟨s', e, h⟩ := simdStep_eq (n := 32) hc hl (4 * k) (by omega) (by omega) s
      obtain ⟨s'', e', h'⟩ := simdStep_eq (n := 32) hc hl (4 * k + 2) (by omega) (by omega) s'
      rw [show 16 * (4 * k) = 64 * k by ring] at e
      rw [show 16 * (4 * k + 2) = 64 * k + 32 by ring] at e'
      refine ⟨s'', by simp [e, e'], ?_⟩
      intro l hl
      obtain ⟨c0, c1, c2, c3⟩ := h l (by omega)
      obtain ⟨c0', c1', c2', c3'⟩ := h' l (by omega)
      obtain ⟨d0, d1, d2, d3⟩ := hs l hl
      beta_reduce at d0 d1 d2 d3
      rw [show 2 * (k + 1) = 2 * k + 1 + 1 by ring]
      simp only [sumR_succ]
      rw [show 2 * (2 * k) = 4 * k by ring, show 2 * (2 * k + 1) = 4 * k + 2 by ring]
      rw [c0', c1', c2', c3', c0, c1, c2, c3, d0, d1, d2, d3]
      refine ⟨?_, ?_, ?_, ?_⟩ <;> omega)
  unfold acc256
  rw [hn, e]
  simp only [Option.bind_eq_bind, Option.bind_some, Option.pure_def]
  congr 1
  unfold sums
  rw [show List.range 32 = List.range 16 ++ (List.range 16).map (16 + ·) from by decide, List.map_append,
    List.map_map]
  have F := fun l (hl : l < 16) => (hp.fix hl).1
  have G := fun l (hl : l < 16) => (hp.fix hl).2
  have A := fun l (hl : l < 16) => (hp l hl).2.1
  have B := fun l (hl : l < 16) => (hp l hl).2.2.2
  generalize sub s.a0 (slli s.a1 8) = a0 at *
  generalize sub s.a2 (slli s.a3 8) = a2 at *
  generalize s.a1 = a1 at *
  generalize s.a3 = a3 at *
  congr 1
  · refine List.map_congr_left (fun v hv => ?_)
    have hv := List.mem_range.mp hv
    rw [show dim / 4 = 2 * (2 * (dim / 16)) by omega, sumR_two]
    interval_cases v <;> simp (decide := true) only [add, blend32, permute2x128, if_true, if_false] <;>
      norm_num [Nat.testBit, Nat.shiftRight_eq_div_pow] <;> simp only [F, A, Nat.reduceLT] <;> norm_num <;> omega
  · refine List.map_congr_left (fun v hv => ?_)
    have hv := List.mem_range.mp hv
    simp only [Function.comp]
    rw [show dim / 4 = 2 * (2 * (dim / 16)) by omega, sumR_two]
    interval_cases v <;> simp (decide := true) only [add, blend32, permute2x128, if_true, if_false] <;>
      norm_num [Nat.testBit, Nat.shiftRight_eq_div_pow] <;> simp only [G, B, Nat.reduceLT] <;> norm_num <;> omega

end Alaya.FastScan
