/-
C105, limits: queries for which the LASER scan's estimates are wrong or not defined.
-/
import Verif.Props.C105

namespace Alaya.LaserScan

open Finset Alaya.FastScan

/-- 32 neighbours on the same side of the centre in every dimension. -/
def onesCodes (dim : Nat) : List (List Nat) := List.replicate 32 (List.replicate dim 1)

/-- Their factors, with `dq = 1`. -/
def onesFactors (dim : Nat) : List (Factors Rat) := List.replicate 32 ⟨0, 1, dim⟩

/-- The first estimate of a scan of `onesCodes`. -/
def firstEstimate (isa : Isa) (dim : Nat) (v : List Rat) : Option Rat := do
  let Q ← prepare dim v
  let B ← storeCodes dim (onesCodes dim)
  let D ← scan isa dim 32 Q B (onesFactors dim) 0 0
  D[0]?

/-- Four coordinates of a group are one and all others are zero. -/
def cornerQuery : List Rat := List.replicate 4 1 ++ List.replicate 60 0

/-- Three coordinates of every group are one and the fourth is zero. -/
def stripeQuery (n : Nat) : List Rat := (List.replicate n [1, 1, 1, 0]).flatten

/-- The counters of 32 neighbours with all bits set. -/
theorem ones_counters (isa : Isa) {dim : Nat} (hd : dim % 64 = 0) {x lp : List Nat} (hx : IsCode dim x)
    (h1 : ∀ i < dim, x.getD i 0 = 1) (hlp : ∀ e ∈ lp, e < 256) (hlen : lp.length = 4 * dim) :
    ∃ B, storeCodes dim (List.replicate 32 x) = some B ∧ kernel isa (B.drop (4 * dim * 0)) lp dim
      = some (List.replicate 32 (((List.range (dim / 4)).map (fun t => lp.getD (16 * t + 15) 0)).sum % 65536)) := by
  obtain ⟨B, eB, _, hk⟩ := C105_lookup isa hd (X := List.replicate 32 x)
    (fun y hy => by rw [List.eq_of_mem_replicate hy]; exact hx) hlp hlen
  obtain ⟨res, er, hl, hr⟩ := hk 0 (by rw [List.length_replicate]; decide)
  refine ⟨B, eB, by
    rw [er]
    congr 1
    refine List.ext_getElem? (fun i => ?_)
    by_cases hi : i < 32
    · rw [hr i hi x (by rw [List.getElem?_replicate, if_pos (by omega)]), List.getElem?_replicate, if_pos hi]
      have e : ∀ f : Nat → Nat, ∀ n, ∑ t ∈ range n, f t = ((List.range n).map f).sum := fun f n => by
        induction n with
        | zero => rfl
        | succ n ih => rw [sum_range_succ, ih, List.range_succ]; simp
      rw [← e]
      refine congrArg (fun s => some (s % 65536)) (sum_congr rfl (fun t ht => ?_))
      have ht := mem_range.mp ht
      rw [h1 _ (by omega), h1 _ (by omega), h1 _ (by omega), h1 _ (by omega)]
    · rw [List.getElem?_eq_none (by omega), List.getElem?_eq_none (by rw [List.length_replicate]; omega)]⟩

/-- The tables of `stripeQuery`: the three ones are stored as 64 and the zero as 1. -/
def stripeLut (n : Nat) : List Nat :=
  (List.replicate n [0, 1, 64, 65, 64, 65, 128, 129, 64, 65, 128, 129, 128, 129, 192, 193]).flatten

deriving instance DecidableEq for Prepared

set_option maxRecDepth 1000000 in
theorem stripe_prepare : prepare 768 (stripeQuery 192) = some ⟨stripeLut 192, 1 / 63, 0, 37056⟩ := by decide +kernel

set_option maxRecDepth 1000000 in
theorem stripe_sum : ((List.range (768 / 4)).map (fun t => (stripeLut 192).getD (16 * t + 15) 0)).sum % 65536 = 37056 := by
  decide +kernel

theorem first_estimate {isa : Isa} {dim : Nat} {v : List Rat} {Q : Prepared Rat} {B : List Nat} {n : Nat}
    (hQ : prepare dim v = some Q) (hB : storeCodes dim (onesCodes dim) = some B)
    (hk : kernel isa (B.drop (4 * dim * 0)) Q.lut dim = some (List.replicate 32 n)) :
    firstEstimate isa dim v = some (approDist 0 Q.width Q.lower 0 (convert n Q.sumq) ⟨0, 1, dim⟩) := by
  unfold firstEstimate
  rw [hQ, Option.bind_eq_bind, Option.bind_some, hB, Option.bind_eq_bind, Option.bind_some]
  have e : scanBlock isa dim Q B (onesFactors dim) 0 0 0
      = some ((List.range 32).map (fun _ => approDist 0 Q.width Q.lower 0 (convert n Q.sumq) ⟨0, 1, dim⟩)) := by
    unfold scanBlock
    rw [hk, Option.bind_eq_bind, Option.bind_some]
    refine mapM_range (fun i hi => ?_)
    rw [List.getElem?_replicate, if_pos hi, onesFactors, List.getElem?_replicate, if_pos (by omega)]
    rfl
  unfold scan
  rw [show (32 + 31) / 32 = 1 by rfl, mapM_range (n := 1) (g := fun _ => (List.range 32).map
    (fun _ => approDist 0 Q.width Q.lower 0 (convert n Q.sumq) ⟨0, 1, (dim : Rat)⟩)) (fun i hi => by
    obtain rfl : i = 0 := by omega
    exact e)]
  rfl

/-- The tables of `cornerQuery`: the last entry of the first is 256 kept in a byte. -/
def cornerLut : List Nat := [0, 64, 64, 128, 64, 128, 128, 192, 64, 128, 128, 192, 128, 192, 192, 0]
  ++ (List.replicate 15 [0, 1, 1, 2, 1, 2, 2, 3, 1, 2, 2, 3, 2, 3, 3, 4]).flatten

/-- **C105 (a table entry overflows).**  A coordinate equal to the largest is stored as 64, not 63, so that four of them in
a group add up to 256, which the byte table holds as zero.  For such a query of 64 dimensions the error is seven times the
bound. -/
theorem C105_table_refuted (isa : Isa) : ∃ d, firstEstimate isa 64 cornerQuery = some d ∧
    ipSigns (List.replicate 64 1) cornerQuery 64 = 4 ∧ |d - 4| = 7 * (64 * (1 / 63)) := by
  obtain ⟨B, eB, hk⟩ := ones_counters isa (dim := 64) (x := List.replicate 64 1) (lp := cornerLut) (by decide)
    ⟨List.length_replicate, fun b hb => .inr (List.eq_of_mem_replicate hb)⟩
    (fun i hi => by rw [List.getD_eq_getElem?_getD, List.getElem?_replicate, if_pos hi]; rfl)
    (by decide +kernel) (by decide +kernel)
  rw [show ((List.range (64 / 4)).map (fun t => cornerLut.getD (16 * t + 15) 0)).sum % 65536 = 60 by decide +kernel] at hk
  have hQ : prepare 64 cornerQuery = some ⟨cornerLut, 1 / 63, 0, 316⟩ := by decide +kernel
  exact ⟨_, first_estimate hQ eB hk, by decide +kernel, by decide +kernel⟩

/-- **C105 (a counter overflows).**  The counter is read as a signed 16-bit number.  For a query of 768 dimensions it can
exceed 32767, and the inner product 576 is estimated as a negative number. -/
theorem C105_counter_refuted (isa : Isa) : ∃ d, firstEstimate isa 768 (stripeQuery 192) = some d ∧
    ipSigns (List.replicate 768 1) (stripeQuery 192) 768 = 576 ∧ d < -1000 := by
  obtain ⟨B, eB, hk⟩ := ones_counters isa (dim := 768) (x := List.replicate 768 1) (lp := stripeLut 192) (by decide)
    ⟨List.length_replicate, fun b hb => .inr (List.eq_of_mem_replicate hb)⟩
    (fun i hi => by rw [List.getD_eq_getElem?_getD, List.getElem?_replicate, if_pos hi]; rfl)
    (by decide +kernel) (by decide +kernel)
  rw [stripe_sum] at hk
  exact ⟨_, first_estimate stripe_prepare eB hk, by decide +kernel, by decide +kernel⟩

section
variable {K : Type} [Field K] [LinearOrder K] [IsStrictOrderedRing K] [FloorRing K]

omit [IsStrictOrderedRing K] in
/-- **C105 (constant queries).**  A rotated query whose coordinates are all equal, such as the zero query, cannot be
prepared: the step is zero and the rounding is applied to a NaN. -/
theorem C105_constant_refuted (dim : Nat) (c : K) : prepare dim (List.replicate (dim + 1) c) = none := by
  have h1 : ∀ n, (List.replicate n c).foldl min c = c := fun n => by
    induction n with
    | zero => rfl
    | succ n ih => rw [List.replicate_succ, List.foldl_cons, min_self, ih]
  have h2 : ∀ n, (List.replicate n c).foldl max c = c := fun n => by
    induction n with
    | zero => rfl
    | succ n ih => rw [List.replicate_succ, List.foldl_cons, max_self, ih]
  unfold prepare
  rw [List.replicate_succ]
  simp [dataRange, h1, h2]

end

end Alaya.LaserScan
