import Verif.Lemmas.VamanaPart
import Verif.Lemmas.VamanaStuck

/-! C86: building a Vamana index in parts that fit into memory. -/
namespace Alaya.VPart
open Alaya.Vamana

/-! ### k-means -/

/-- The centres chosen first are vectors of the training data, as many as asked for; for any arithmetic and random numbers. -/
theorem C86_seed {F : Type} (A : Ar F) (data : List (List F)) (nc first : Nat) (us : List F) (r : List Nat) (hf : first < data.length)
    (h : seed A data nc first us = some (some r)) : r.length = nc ∧ ∀ i ∈ r, i < data.length := seed_length hf h

section
variable {F : Type} [Field F] [LinearOrder F] [IsStrictOrderedRing F]

/-- In exact arithmetic one random number per centre is enough, and if there are as many different vectors as centres, the centres differ. -/
theorem C86_seed_exact (big eps tol : F) (fd : F → FDist) (dim : Nat) (data : List (List F)) (hdim : ∀ v ∈ data, v.length = dim) (nc first : Nat)
    (hf : first < data.length) (hnc : 0 < nc) (hle : nc ≤ data.length) (hmax : data.length ≤ 2 ^ 23) (us : List F) (hus : nc ≤ us.length + 1)
    (hu : ∀ u ∈ us, 0 ≤ u ∧ u < 1) :
    ∃ r, seed (exact big eps tol fd) data nc first us = some (some r) ∧
      ((∃ D : List (List F), D.Nodup ∧ D ⊆ data ∧ nc ≤ D.length) → (r.map (fun i => data[i]?)).Nodup) := by
  have hd : data ≠ [] := by intro e; rw [e] at hf; simp at hf
  obtain ⟨r, h1, h2⟩ := seedLoop_exact big eps tol fd hdim hd (nc - 1) [first] _ us (first_inv big eps tol fd hdim first hf) (by omega) hu (by simp) (by simpa using hf)
  refine ⟨r, ?_, ?_⟩
  · unfold seed
    rw [if_neg (by omega), if_neg (by omega), if_neg (by omega), h1]
    rfl
  · rintro ⟨D, d1, d2, d3⟩
    refine h2 ⟨D, d1, d2, ?_⟩
    change 1 + (nc - 1) ≤ D.length
    omega

/-- In exact arithmetic the sum of the distances to the assigned centres is, after any number of rounds, not larger than with the first centres. -/
theorem C86_lloyd (big eps tol : F) (fd : F → FDist) (dim reps : Nat) (data cents : List (List F)) (hd : ∀ v ∈ data, v.length = dim)
    (hc : ∀ c ∈ cents, c.length = dim) (hne : cents ≠ []) (hb : residual (exact big eps tol fd) data cents cents < big) :
    residual (exact big eps tol fd) data (lloyds (exact big eps tol fd) dim data reps none cents) (lloyds (exact big eps tol fd) dim data reps none cents) ≤
      residual (exact big eps tol fd) data cents cents := lloyds_residual big eps tol fd hd reps none cents hc hne hb

/-- And that sum is the least one that these centres allow. -/
theorem C86_assign (big eps tol : F) (fd : F → FDist) (dim : Nat) (data cents : List (List F)) (hd : ∀ v ∈ data, v.length = dim)
    (hc : ∀ c ∈ cents, c.length = dim) (hb : ∀ v ∈ data, ∃ k, k < cents.length ∧ PQ.Spec.sqDist dim (fun d => v.getD d 0) (fun d => (cents.getD k []).getD d 0) < big)
    (a : List F → Nat) (ha : ∀ v ∈ data, a v < cents.length) :
    residual (exact big eps tol fd) data cents cents ≤
      (data.map (fun v => PQ.Spec.sqDist dim (fun d => v.getD d 0) (fun d => (cents.getD (a v) []).getD d 0))).sum := by
  rw [residual_eq]
  refine map_sum_le _ _ data ?_
  intro v hv
  have hl : ∀ k, k < cents.length → (cents.getD k []).length = dim := by
    intro k hk
    have : cents.getD k [] = cents[k] := by simp [hk]
    rw [this]; exact hc _ (List.getElem_mem hk)
  obtain ⟨k, hk, hb⟩ := hb v hv
  rw [← sq_eq big eps tol fd dim v _ (hd v hv) (hl _ (ha v hv))]
  rw [← sq_eq big eps tol fd dim v _ (hd v hv) (hl k hk)] at hb
  exact nearest_min big eps tol fd hc (hd v hv) hk hb (ha v hv)

end

example : seed (exact (1000 : Rat) 0 0 (fun _ => none)) [[0], [1], [10], [11], [20], [21]] 3 0 [1/2, 1/2] = some (some [0, 4, 2]) := by decide +kernel

/-- One vector with a coordinate that is infinite or not a number keeps the choice of three or more centres from ending, whatever the random numbers. -/
theorem C86_nonfinite_refuted {F : Type} (A : Ar F) (coord bad unit : F → Prop) (L : NonFinite A coord bad unit) (data : List (List F)) (dim : Nat)
    (hdim : ∀ v ∈ data, v.length = dim) (hv : ∃ v ∈ data, ∃ x ∈ v, coord x) (nc first : Nat) (h3 : 3 ≤ nc) (hle : nc ≤ data.length) (hmax : data.length ≤ 2 ^ 23)
    (hf : first < data.length) : ∀ us, (∀ u ∈ us, unit u) → seed A data nc first us = none := fun us hu => seed_stuck L hdim hv h3 hle hmax hf us hu

/-- So the build never ends when such a vector is in the sample. -/
theorem C86_nonfinite_build_refuted {F : Type} (E : Env F) (coord bad unit : F → Prop) (L : NonFinite E.A coord bad unit) (data : List (List F)) (dim : Nat)
    (hdim : ∀ v ∈ data, v.length = dim)
    (hR : 0 < E.R) (hL : E.R ≤ E.L) (ha : E.alphaOk = true) (hr : E.rateOk = true) (hbud : E.budgetOk = true) (h0 : 0 < dim)
    (hall : E.fitsAll data.length = false) (hv : ∃ v ∈ sample E.A E.rate E.us1 data, ∃ x ∈ v, coord x)
    (h3 : 3 ≤ (sample E.A E.rate E.us1 data).length) (h3' : 3 ≤ (sample E.A E.rate E.us2 data).length)
    (hmax : (sample E.A E.rate E.us1 data).length ≤ 2 ^ 23) (hf : ∀ p, E.first p < (sample E.A E.rate E.us1 data).length) :
    ∀ us, (∀ u ∈ us, unit u) → build { E with us := us } dim data = none := by
  intro us hu
  have hsub : ∀ v ∈ sample E.A E.rate E.us1 data, v.length = dim := by
    intro v hv
    unfold sample at hv
    obtain ⟨p, hp, rfl⟩ := List.mem_map.1 hv
    exact hdim _ (List.of_mem_zip (List.mem_of_mem_filter hp)).1
  have hd : data ≠ [] := by intro e; rw [e] at h3; simp [sample] at h3
  have hs := seed_stuck L hsub hv (Nat.le_refl 3) h3 hmax (hf 3) us hu
  have hc : choose { E with us := us } dim data = none := by
    unfold choose
    simp only
    rw [if_neg (by omega), if_neg (by rw [hbud]; decide)]
    rw [show (1024 : Nat) = 1023 + 1 from rfl, numParts, if_neg (by decide), if_neg (by omega)]
    simp only [train, hs]
  unfold build
  simp only
  rw [if_neg (by omega), if_neg (by omega), if_neg (by rw [ha]; decide), if_neg (by rw [hr]; decide), if_neg (by rintro (h | h); exact hd h; omega),
    if_neg (by rw [hall]; decide)]
  unfold partition
  rw [hc]

/-- Rationals with infinities and a value that is not a number. -/
inductive X
  | nan | inf | ninf | num (q : Rat)
  deriving DecidableEq

def X.neg : X → X
  | .nan => .nan
  | .inf => .ninf
  | .ninf => .inf
  | .num q => .num (-q)

def X.add : X → X → X
  | .num a, .num b => .num (a + b)
  | .nan, _ => .nan
  | _, .nan => .nan
  | .inf, .ninf => .nan
  | .ninf, .inf => .nan
  | .inf, _ => .inf
  | .ninf, _ => .ninf
  | _, .inf => .inf
  | _, .ninf => .ninf

def X.sgn : X → Int
  | .inf => 1
  | .ninf => -1
  | .nan => 0
  | .num q => if 0 < q then 1 else if q < 0 then -1 else 0

def X.mul : X → X → X
  | .num a, .num b => .num (a * b)
  | .nan, _ => .nan
  | _, .nan => .nan
  | x, y => if x.sgn * y.sgn = 0 then .nan else if 0 < x.sgn * y.sgn then .inf else .ninf

def X.lt : X → X → Bool
  | .num a, .num b => decide (a < b)
  | .num _, .inf => true
  | .ninf, .num _ => true
  | .ninf, .inf => true
  | _, _ => false

def X.le : X → X → Bool
  | .nan, _ => false
  | _, .nan => false
  | x, y => !X.lt y x

def xAr : Ar X := ⟨.num 0, .num 1, .num 1000000, .num (1 / 1000000), .num (1 / 100000), X.add, fun a b => X.add a b.neg, X.mul, fun a _ => a, X.lt, X.le,
  fun n => .num n, fun _ _ => .num 0, fun _ => none⟩

theorem xAr_nonFinite : NonFinite xAr (fun x => ∀ q, x ≠ .num q) (fun x => x = .nan ∨ x = .inf) (fun u => ∃ q, 0 ≤ q ∧ u = .num q) := by
  refine ⟨?_, ?_, ?_, ?_, ?_, ?_, ?_⟩
  · intro x y hx q
    cases x <;> cases y <;> first | exact absurd rfl (hx _) | (simp [xAr, X.add, X.neg])
  · intro x hx
    cases x <;> first | exact absurd rfl (hx _) | (simp [xAr, X.mul, X.sgn])
  · rintro x y (rfl | rfl) <;> cases y <;> simp [xAr, X.add]
  · rintro x y (rfl | rfl) <;> cases x <;> simp [xAr, X.add]
  · rintro u x ⟨q, hq, rfl⟩ (rfl | rfl)
    · left; rfl
    · by_cases h : 0 < q
      · right; simp [xAr, X.mul, X.sgn, h]
      · left
        have : ¬ q < 0 := not_lt.2 hq
        simp [xAr, X.mul, X.sgn, h, this]
  · rintro x y (rfl | rfl) <;> cases y <;> rfl
  · rintro x (rfl | rfl) <;> rfl

example : ∀ us : List Rat, (∀ u ∈ us, 0 ≤ u) → seed xAr [[.num 1], [.inf], [.num 3], [.num 4]] 3 0 (us.map .num) = none := fun us hu =>
  C86_nonfinite_refuted xAr _ _ _ xAr_nonFinite _ 1 (by decide) ⟨[.inf], by simp, .inf, by simp, by simp⟩ 3 0 (by decide) (by decide) (by decide) (by decide) _
    (by
      intro u h
      obtain ⟨q, hq, rfl⟩ := List.mem_map.1 h
      exact ⟨q, hu q hq, rfl⟩)

/-! ### How many parts -/

/-- The number of parts is the first of 3, 5, 7, … for which the estimated sizes fit; it is at most 1023 and at most the size of the sample. -/
theorem C86_number {F : Type} (E : Env F) (dim np : Nat) (data piv : List (List F)) (h : choose E dim data = some (some (np, piv))) :
    ∃ j, np = 3 + 2 * j ∧ np ≤ 1023 ∧ np ≤ (sample E.A E.rate E.us1 data).length ∧
      train E.A dim 10 (sample E.A E.rate E.us1 data) np (E.first np) E.us = some (some piv) ∧
      (∀ c ∈ counts E.A E.M 2 np piv (sample E.A E.rate E.us2 data), E.fits (E.ext c) = true) ∧
      ∀ i, i < j → ∃ piv', train E.A dim 10 (sample E.A E.rate E.us1 data) (3 + 2 * i) (E.first (3 + 2 * i)) E.us = some (some piv') ∧
        ∃ c ∈ counts E.A E.M 2 (3 + 2 * i) piv' (sample E.A E.rate E.us2 data), E.fits (E.ext c) = false := by
  unfold choose at h
  simp only at h
  split at h
  · cases h
  · split at h
    · cases h
    · obtain ⟨j, k1, k2, k3, k4, k5, k6⟩ := numParts_ok _ _ _ _ h
      refine ⟨j, k1, by omega, k3, k4, ?_, ?_⟩
      · intro c hc
        exact List.all_eq_true.1 k5 _ (List.mem_map.2 ⟨c, hc, rfl⟩)
      · intro i hi
        obtain ⟨piv', e1, e2⟩ := k6 i hi
        refine ⟨piv', e1, ?_⟩
        rw [List.all_eq_false] at e2
        obtain ⟨x, hx, hf⟩ := e2
        obtain ⟨c, hc, rfl⟩ := List.mem_map.1 hx
        exact ⟨c, hc, by simpa using hf⟩

/-- It gives up only if the samples are too small, the budget is not positive, or no number up to 1023 and the size of the sample is enough. -/
theorem C86_gives_up {F : Type} (E : Env F) (dim : Nat) (data : List (List F)) (h : choose E dim data = some none) :
    (sample E.A E.rate E.us1 data).length < 3 ∨ (sample E.A E.rate E.us2 data).length < 3 ∨ E.budgetOk = false ∨ 2 ^ 23 < (sample E.A E.rate E.us1 data).length ∨
    ∃ j, (1023 < 3 + 2 * j ∨ (sample E.A E.rate E.us1 data).length < 3 + 2 * j) ∧
      ∀ i, i < j → ∃ piv', train E.A dim 10 (sample E.A E.rate E.us1 data) (3 + 2 * i) (E.first (3 + 2 * i)) E.us = some (some piv') ∧
        ∃ c ∈ counts E.A E.M 2 (3 + 2 * i) piv' (sample E.A E.rate E.us2 data), E.fits (E.ext c) = false := by
  unfold choose at h
  simp only at h
  split at h
  · rename_i hs; rcases hs with hs | hs
    · exact .inl hs
    · exact .inr (.inl hs)
  · split at h
    · rename_i hb; exact .inr (.inr (.inl hb))
    · by_cases h23 : 2 ^ 23 < (sample E.A E.rate E.us1 data).length
      · exact .inr (.inr (.inr (.inl h23)))
      · obtain ⟨j, k1, k6⟩ := numParts_throws _ _ h
        refine .inr (.inr (.inr (.inr ⟨j, ?_, ?_⟩)))
        · rcases k1 with k | k | k
          · left; omega
          · exact .inr k
          · right
            -- training rejects only too many centres
            rename_i hs _
            unfold train seed at k
            by_cases hlt : (sample E.A E.rate E.us1 data).length < 3 + 2 * j
            · exact hlt
            · exfalso
              rw [if_neg (by omega), if_neg (by omega), if_neg (by omega)] at k
              cases hq : seedLoop E.A (sample E.A E.rate E.us1 data) (3 + 2 * j - 1) [E.first (3 + 2 * j)]
                ((sample E.A E.rate E.us1 data).map (fun v => sq E.A v ((sample E.A E.rate E.us1 data).getD (E.first (3 + 2 * j)) []))) E.us with
              | none => rw [hq] at k; cases k
              | some q => rw [hq] at k; cases k
        · intro i hi
          obtain ⟨piv', e1, e2⟩ := k6 i hi
          refine ⟨piv', e1, ?_⟩
          rw [List.all_eq_false] at e2
          obtain ⟨x, hx, hf⟩ := e2
          obtain ⟨c, hc, rfl⟩ := List.mem_map.1 hx
          exact ⟨c, hc, by simpa using hf⟩

theorem sample_all {F : Type} (A : Ar F) (rate : F) : ∀ (us : List F) (data : List (List F)), us.length = data.length → (∀ u ∈ us, A.lt u rate = true) →
    sample A rate us data = data
  | [], [], _, _ => rfl
  | [], _ :: _, h, _ => by simp at h
  | _ :: _, [], h, _ => by simp at h
  | u :: us, v :: data, h, hu => by
    have ih := sample_all A rate us data (by simpa using h) (fun x hx => hu x (by simp [hx]))
    unfold sample at ih ⊢
    rw [List.zip_cons_cons, List.filter_cons, if_pos (hu u (by simp)), List.map_cons, ih]

/-- When the sample consists of all vectors, every part fits into memory. -/
theorem C86_sizes {F : Type} (E : Env F) (dim np : Nat) (data piv : List (List F)) (h : choose E dim data = some (some (np, piv)))
    (hus : E.us2.length = data.length) (hu : ∀ u ∈ E.us2, E.A.lt u E.rate = true) (hext : ∀ c, E.ext c = c) (ss : List (List (Nat × List F)))
    (hs : parts E np piv data = some ss) : ∀ l ∈ ss, E.fits l.length = true := by
  obtain ⟨_, _, _, _, _, hf, _⟩ := C86_number E dim np data piv h
  rw [sample_all E.A E.rate E.us2 data hus hu, counts_parts E np piv data ss hs] at hf
  intro l hl
  have := hf l.length (List.mem_map.2 ⟨l, hl, rfl⟩)
  rwa [hext] at this

/-- The estimate of the memory grows with the number of vectors. -/
theorem C86_ram_mono (m n dim dtype degree : Nat) (h : m ≤ n) : ram m dim dtype degree ≤ ram n dim dtype degree := by
  unfold ram
  have hc : (m : Rat) ≤ n := by exact_mod_cast h
  have h1 : (0 : Rat) ≤ (roundUp8 dim : Rat) := by exact_mod_cast Nat.zero_le _
  have h2 : (0 : Rat) ≤ (dtype : Rat) := by exact_mod_cast Nat.zero_le _
  have h3 : (0 : Rat) ≤ (degree : Rat) := by exact_mod_cast Nat.zero_le _
  have e1 := mul_le_mul_of_nonneg_right (mul_le_mul_of_nonneg_right hc h1) h2
  have e2 := mul_le_mul_of_nonneg_right hc h3
  linarith

/-- It is at least the size of the vectors and of the graph. -/
theorem C86_ram_enough (n dim degree : Nat) (hd : dim + 7 < 2 ^ 32) : ((n * dim * 4 + n * degree * 4 : Nat) : Rat) ≤ ram n dim 4 degree := by
  have h8 : dim ≤ roundUp8 dim := by unfold roundUp8; rw [Nat.mod_eq_of_lt hd]; omega
  unfold ram
  have hc : (dim : Rat) ≤ roundUp8 dim := by exact_mod_cast h8
  have hn : (0 : Rat) ≤ (n : Rat) := by exact_mod_cast Nat.zero_le _
  have hg : (0 : Rat) ≤ (degree : Rat) := by exact_mod_cast Nat.zero_le _
  have h0 : (0 : Rat) ≤ (dim : Rat) := by exact_mod_cast Nat.zero_le _
  have e1 := mul_le_mul_of_nonneg_left hc hn
  have e2 := mul_nonneg hn hg
  have e3 := mul_nonneg hn h0
  push_cast
  linarith

/-- Near the largest 32-bit number the rounding wraps and the vectors count as nothing. -/
theorem C86_ram_wraps_refuted : ∀ n, ram n (2 ^ 32 - 1) 4 0 = (n : Rat) * (528 / 10) := by
  intro n
  have : roundUp8 (2 ^ 32 - 1) = 0 := by decide
  unfold ram
  rw [this]
  push_cast
  ring

/-! ### The build -/

/-- What `build_vamana` checks before it starts. -/
structure Args {F : Type} (E : Env F) (dim : Nat) (data : List (List F)) : Prop where
  R : 0 < E.R
  R32 : E.R < 2 ^ 32
  L : E.R ≤ E.L
  alpha : E.alphaOk = true
  rate : E.rateOk = true
  dim : 0 < dim
  some : data ≠ []
  count : data.length < 2 ^ 32

theorem build_eq {F : Type} {E : Env F} {dim : Nat} {data : List (List F)} (h : Args E dim data) :
    build E dim data = if E.fitsAll data.length then some (.ok (saveGraph (E.bld E.R 0 data).1 E.R (E.bld E.R 0 data).2 0)) else partition E dim data := by
  have h1 := h.R
  have h2 := h.L
  have h3 := h.dim
  unfold build
  rw [if_neg (by omega), if_neg (by omega), if_neg (by rw [h.alpha]; decide), if_neg (by rw [h.rate]; decide), if_neg (by
    rintro (e | e)
    · exact h.some e
    · omega)]

theorem C86_rejects {F : Type} (E : Env F) (dim : Nat) (data : List (List F))
    (h : E.R = 0 ∨ E.L < E.R ∨ E.alphaOk = false ∨ E.rateOk = false ∨ data = [] ∨ dim = 0) : build E dim data = some .throws := by
  unfold build
  split
  · rfl
  · split
    · rfl
    · split
      · rfl
      · split
        · rfl
        · split
          · rfl
          · rename_i h1 h2 h3 h4 h5
            rcases h with h | h | h | h | h | h
            · exact absurd h h1
            · exact absurd h h2
            · exact absurd h h3
            · exact absurd h h4
            · exact absurd (.inl h) h5
            · exact absurd (.inr h) h5

/-- If everything fits into memory, the file holds the graph of the builder: one list per vector, in range, no duplicates, at most `R`. -/
theorem C86_single {F : Type} (E : Env F) (dim : Nat) (data : List (List F)) (h : Args E dim data) (hall : E.fitsAll data.length = true)
    (hb : Built E.R data (E.bld E.R 0 data)) :
    ∃ out start, build E dim data = some (.ok (graphFile out E.R start 0)) ∧ out.length = data.length ∧ start < data.length ∧
      ∀ (g : Nat) (a : List Nat), out[g]? = some a → a.Nodup ∧ g ∉ a ∧ a.length ≤ E.R ∧ ∀ x ∈ a, x < data.length := by
  obtain ⟨c, threads, s, hc, h1, h2, h3, h4, h5, h6⟩ := hb
  obtain ⟨k1, k2⟩ := VBuild.C83_graph c hc threads s h4 h5
  have hcn := hc.n
  refine ⟨(E.bld E.R 0 data).1, (E.bld E.R 0 data).2, ?_, by rw [← h6, k1, h1], by omega, ?_⟩
  · rw [build_eq h, if_pos hall]; rfl
  · intro g a hg
    rw [← h6] at hg
    obtain ⟨m1, m2, m3, m4, _⟩ := k2 g a hg
    exact ⟨m1, m2, by omega, fun x hx => by have := m3 x hx; omega⟩

theorem choose_shape {F : Type} {E : Env F} {dim np : Nat} {data piv : List (List F)} (h : choose E dim data = some (some (np, piv)))
    (hf : ∀ p, E.first p < (sample E.A E.rate E.us1 data).length) : piv.length = np ∧ 3 ≤ np := by
  obtain ⟨j, h1, _, _, h4, _⟩ := C86_number E dim np data piv h
  exact ⟨train_length (hf np) h4, by omega⟩

/-- In parts: every vector belongs to two different parts, those with the nearest pivots. If no part is empty, the file holds one list for each vector;
its neighbours are in range, without duplicates, at most `R`, and share a part with it. If a part is empty, the whole build fails. -/
theorem C86_build {F : Type} (E : Env F) (dim np : Nat) (data piv : List (List F)) (h : Args E dim data) (hall : E.fitsAll data.length = false)
    (hch : choose E dim data = some (some (np, piv))) (hf : ∀ p, E.first p < (sample E.A E.rate E.us1 data).length) (hfin : Finite E piv data)
    (hσ : ∀ g l, (E.shuffle g l).Perm l) (hb : ∀ i rows, rows ≠ [] → Built (shardR E.R) rows (E.bld (shardR E.R) i rows)) :
    ∃ cl : Nat → List Nat, (∀ (g : Nat) (v : List F), data[g]? = some v → Nearest 2 (dists E.A piv v) (cl g)) ∧
      ((∃ s, s < np ∧ ∀ g, g < data.length → s ∉ cl g) → build E dim data = some .throws) ∧
      ((∀ s, s < np → ∃ g, g < data.length ∧ s ∈ cl g) →
        ∃ out, build E dim data = some (.ok (graphFile out E.R E.medoid 0)) ∧ out.length = data.length ∧
          ∀ (g : Nat) (a : List Nat), out[g]? = some a → a.Nodup ∧ g ∉ a ∧ a.length ≤ E.R ∧
            ∀ x ∈ a, x < data.length ∧ ∃ s, s ∈ cl g ∧ s ∈ cl x) := by
  obtain ⟨hp, h3⟩ := choose_shape hch hf
  obtain ⟨ss, cl, s1, s2, s3, s4, s5, s6⟩ := partition_ok E dim np piv data hch hp (by omega) h.some hfin h.count h.R h.R32 hσ hb
  have hbe : build E dim data = partition E dim data := by rw [build_eq h, hall]; rfl
  refine ⟨cl, s3, ?_, ?_⟩
  · rintro ⟨s, hs, hno⟩
    rw [hbe]
    refine s5 ?_
    have hsl : s < ss.length := by omega
    have : ss[s] = [] := by
      rw [List.eq_nil_iff_forall_not_mem]
      rintro ⟨g, v⟩ hm
      obtain ⟨e1, e2⟩ := ((s4 s _ (List.getElem?_eq_getElem hsl)).2 g v).1 hm
      exact hno g (List.getElem?_eq_some_iff.1 e2).1 e1
    rw [← this]; exact List.getElem_mem hsl
  · intro hne
    obtain ⟨out, o1, o2, o3⟩ := s6 (by
      intro l hl e
      obtain ⟨s, hs⟩ := List.getElem?_of_mem hl
      obtain ⟨g, hg, hgs⟩ := hne s (by have := (List.getElem?_eq_some_iff.1 hs).1; omega)
      have := ((s4 s l hs).2 g data[g]).2 ⟨hgs, List.getElem?_eq_getElem hg⟩
      rw [e] at this; cases this)
    refine ⟨out, by rw [hbe]; exact o1, o2, ?_⟩
    intro g a ha
    obtain ⟨g1, g2⟩ := o3 g a ha
    refine ⟨g2.nodup, g1, g2.le, ?_⟩
    intro x hx
    obtain ⟨t, ht, i, b, k, e1, _, _, e4, _⟩ := g2.edge x hx
    obtain ⟨⟨l, s⟩, hls, rfl⟩ := List.mem_map.1 ht
    have hl := List.mem_zipIdx_iff_getElem?.1 hls
    have hmem : ∀ y, y ∈ shardIds l → s ∈ cl y ∧ y < data.length := by
      intro y hy
      obtain ⟨⟨y', v⟩, hm, rfl⟩ := List.mem_map.1 hy
      obtain ⟨e1, e2⟩ := ((s4 s l hl).2 y' v).1 hm
      exact ⟨e1, (List.getElem?_eq_some_iff.1 e2).1⟩
    have hg := hmem g (List.mem_of_getElem? e1)
    have hx' := hmem x (List.mem_of_getElem? e4)
    exact ⟨hx'.2, s, hg.1, hx'.1⟩

/-- With one thread, a candidate list of at least two and at least two vectors in every part, every list has a neighbour and the file can be loaded. -/
theorem C86_loadable {F : Type} (E : Env F) (dim np : Nat) (data piv : List (List F)) (h : Args E dim data) (hall : E.fitsAll data.length = false)
    (hch : choose E dim data = some (some (np, piv))) (hf : ∀ p, E.first p < (sample E.A E.rate E.us1 data).length) (hfin : Finite E piv data)
    (hσ : ∀ g l, (E.shuffle g l).Perm l) (hb : ∀ i rows, rows ≠ [] → BuiltAlone (shardR E.R) rows (E.bld (shardR E.R) i rows))
    (ss : List (List (Nat × List F))) (hss : parts E np piv data = some ss) (h2 : ∀ l ∈ ss, 2 ≤ l.length) (hm : E.medoid < data.length)
    (hsz : ∀ f, build E dim data = some (.ok f) → f.length < 2 ^ 64) :
    ∃ out f, build E dim data = some (.ok f) ∧ readGraph f = some ⟨E.R, E.medoid, out⟩ ∧ out.length = data.length := by
  obtain ⟨hp, h3⟩ := choose_shape hch hf
  obtain ⟨ss', cl, s1, s2, s3, s4, s5, s6⟩ := partition_ok E dim np piv data hch hp (by omega) h.some hfin h.count h.R h.R32 hσ (fun i rows hr => (hb i rows hr).built)
  rw [hss] at s1
  cases s1
  have hbe : build E dim data = partition E dim data := by rw [build_eq h, hall]; rfl
  obtain ⟨out, o1, o2, o3⟩ := s6 (by intro l hl e; have := h2 l hl; rw [e] at this; simp at this)
  refine ⟨out, _, by rw [hbe]; exact o1, ?_, o2⟩
  have hmem : ∀ (s : Nat) (l : List (Nat × List F)), ss[s]? = some l → ∀ y, y ∈ shardIds l → s ∈ cl y ∧ y < data.length := by
    intro s l hl y hy
    obtain ⟨⟨y', v⟩, hm, rfl⟩ := List.mem_map.1 hy
    obtain ⟨e1, e2⟩ := ((s4 s l hl).2 y' v).1 hm
    exact ⟨e1, (List.getElem?_eq_some_iff.1 e2).1⟩
  have hedge : ∀ g x, Edge (ss.zipIdx.map (shardOf E)) g x → x < data.length := by
    rintro g x ⟨t, ht, i, b, k, _, _, _, e4, _⟩
    obtain ⟨⟨l, s⟩, hls, rfl⟩ := List.mem_map.1 ht
    exact (hmem s l (List.mem_zipIdx_iff_getElem?.1 hls) x (List.mem_of_getElem? e4)).2
  have hR := h.R
  have hR32 := h.R32
  have hcnt := h.count
  refine C61_load_save out E.R E.medoid ⟨by omega, by omega, hR, hR32, by omega, ?_, ?_⟩ (hsz _ (by rw [hbe]; exact o1))
  · intro g a ha
    obtain ⟨g1, g2⟩ := o3 g a ha
    refine ⟨?_, g2.le⟩
    -- the vector has a neighbour in one of its parts
    have hg : g < data.length := by rw [← o2]; exact (List.getElem?_eq_some_iff.1 ha).1
    have hnr := s3 g _ (List.getElem?_eq_getElem hg)
    obtain ⟨t, ht⟩ := List.exists_mem_of_length_pos (l := cl g) (by rw [hnr.len]; omega)
    have htl := hnr.range t ht
    have hdl : (dists E.A piv data[g]).length = np := by simp [dists, hp]
    have htn : t < ss.length := by omega
    have hmt := ((s4 t _ (List.getElem?_eq_getElem htn)).2 g data[g]).2 ⟨ht, List.getElem?_eq_getElem hg⟩
    have hids : g ∈ shardIds ss[t] := List.mem_map.2 ⟨_, hmt, rfl⟩
    obtain ⟨i, hi⟩ := List.getElem?_of_mem hids
    have h2t := h2 _ (List.getElem_mem htn)
    obtain ⟨c, s, hc, c1, c2, c3, c4, c5, c6, c7, c8⟩ := hb t (ss[t].map Prod.snd) (by
      intro e
      have := congrArg List.length e
      simp at this
      rw [this] at h2t
      simp at h2t)
    rw [List.length_map] at c1
    obtain ⟨k1, k2⟩ := VBuild.C83_graph c hc 1 s c6 c7
    have hone := VBuild.C83_one_thread c hc (by omega) c4 c5 s c6 c7
    have hil : i < s.g.length := by
      rw [k1, c1]
      have := (List.getElem?_eq_some_iff.1 hi).1
      simpa [shardIds] using this
    have hne := hone i _ (List.getElem?_eq_getElem hil)
    obtain ⟨j, hj⟩ := List.exists_mem_of_ne_nil _ hne
    obtain ⟨_, q2, q3, _⟩ := k2 i _ (List.getElem?_eq_getElem hil)
    have hjl : j < (shardIds ss[t]).length := by
      have := q3 j hj
      simp [shardIds]; omega
    have hE : Edge (ss.zipIdx.map (shardOf E)) g (shardIds ss[t])[j] := by
      refine ⟨shardOf E (ss[t], t), List.mem_map.2 ⟨_, List.mem_zipIdx_iff_getElem?.2 (List.getElem?_eq_getElem htn), rfl⟩, i, s.g[i], j, hi, ?_, hj, List.getElem?_eq_getElem hjl, ?_⟩
      · change (E.bld _ _ _).1[i]? = _
        rw [← c8]; exact List.getElem?_eq_getElem hil
      · intro e
        have hasc := (s4 t _ (List.getElem?_eq_getElem htn)).1
        have hnd : (shardIds ss[t]).Nodup := hasc.imp (fun h => Nat.ne_of_lt h)
        obtain ⟨hil', hi'⟩ := List.getElem?_eq_some_iff.1 hi
        have : j = i := (List.Nodup.getElem_inj_iff hnd).1 (by rw [e, hi'])
        rw [this] at hj
        exact q2 hj
    classical
    obtain ⟨hlen, _⟩ := g2.full ((List.range data.length).filter (fun x => decide (Edge (ss.zipIdx.map (shardOf E)) g x))) (List.nodup_range.filter _) (by
      intro x
      rw [List.mem_filter, List.mem_range]
      constructor
      · intro hx; exact of_decide_eq_true hx.2
      · intro hx; exact ⟨hedge g x hx, decide_eq_true hx⟩)
    have hpos : 0 < ((List.range data.length).filter (fun x => decide (Edge (ss.zipIdx.map (shardOf E)) g x))).length := by
      refine List.length_pos_of_mem (a := (shardIds ss[t])[j]) ?_
      rw [List.mem_filter, List.mem_range]
      exact ⟨hedge _ _ hE, decide_eq_true hE⟩
    omega
  · intro g a ha x hx
    obtain ⟨g1, g2⟩ := o3 g a ha
    refine ⟨by rw [o2]; exact hedge g x (g2.edge x hx), ?_⟩
    rintro rfl
    exact g1 hx

/-- The entry point of the merged graph: a vector nearest to the mean, however blocks and threads share the work. -/
theorem C86_medoid (d : Nat → Int) (blocks : List (List (List Nat))) (n : Nat) (hn : 0 < n) (hp : ∀ i, i < n ↔ ∃ ps ∈ blocks, ∃ p ∈ ps, i ∈ p) :
    medoidStream d blocks < n ∧ ∀ i, i < n → d (medoidStream d blocks) ≤ d i := medoidStream_spec d blocks n hn hp

/-! ### An example, and what does not hold -/

/-- Exact arithmetic on rationals; distances in quarters. -/
def ratAr : Ar Rat := exact 1000000 (1 / 1000000) (1 / 100000) (fun x => some (x * 4).floor)

def ratEnv (bld : Nat → Nat → List (List Rat) → List (List Nat) × Nat) (n : Nat) : Env Rat :=
  { A := ratAr, M := 4000000, R := 2, L := 4, alphaOk := true, rateOk := true, rate := 1, budgetOk := true, fitsAll := fun _ => false, fits := fun k => decide (k ≤ 6),
    ext := id, us1 := List.replicate n 0, us2 := List.replicate n 0, first := fun _ => 0, us := [1/2, 1/2, 1/2], bld := bld, shuffle := fun _ l => l, medoid := 0 }

/-- Builders exist. -/
theorem builtAlone_exists {F : Type} (R : Nat) (hR : 0 < R) (rows : List (List F)) (hr : rows ≠ []) : ∃ b, BuiltAlone R rows b := by
  have hn := List.length_pos_iff.2 hr
  have ho : Pools.F32.le Pools.F32.one Pools.F32.one = true := by decide
  have hg : Pools.F32.gt Pools.F32.big Pools.F32.one = true := by decide +kernel
  have hok : VBuild.Cfg.Ok ⟨rows.length, R, 2, 10, Pools.F32.one, R, 2048, fun _ _ _ => Pools.F32.one, fun _ _ => 0, 0⟩ :=
    ⟨hn, hR, Nat.succ_pos _, Nat.succ_pos _, Nat.succ_pos _, ho, hg⟩
  obtain ⟨s, h1, h2, _⟩ := VBuild.finish hok (threads := 1) Nat.one_pos (fun _ => True) (fun _ _ _ _ _ _ => trivial) _ _ rfl .init trivial
  exact ⟨(s.g, 0), _, s, hok, rfl, rfl, rfl, Nat.le_refl 2, hR, h1, h2, rfl⟩

noncomputable def someBld (R _i : Nat) (rows : List (List Rat)) : List (List Nat) × Nat :=
  if h : 0 < R ∧ rows ≠ [] then Classical.choose (builtAlone_exists R h.1 rows h.2) else ([], 0)

theorem someBld_ok (R i : Nat) (rows : List (List Rat)) (hR : 0 < R) (hr : rows ≠ []) : BuiltAlone R rows (someBld R i rows) := by
  unfold someBld
  rw [dif_pos ⟨hR, hr⟩]
  exact Classical.choose_spec (builtAlone_exists R hR rows hr)

def six : List (List Rat) := [[0], [1], [10], [11], [20], [21]]

theorem six_choose (bld : Nat → Nat → List (List Rat) → List (List Nat) × Nat) : choose (ratEnv bld 6) 1 six = some (some (3, [[1/2], [41/2], [21/2]])) := by
  have : choose (ratEnv (fun _ _ _ => ([], 0)) 6) 1 six = some (some (3, [[1/2], [41/2], [21/2]])) := by decide +kernel
  exact this

theorem six_parts (bld : Nat → Nat → List (List Rat) → List (List Nat) × Nat) : parts (ratEnv bld 6) 3 [[1/2], [41/2], [21/2]] six =
    some [[(0, [0]), (1, [1]), (2, [10])], [(3, [11]), (4, [20]), (5, [21])], [(0, [0]), (1, [1]), (2, [10]), (3, [11]), (4, [20]), (5, [21])]] := by
  have : parts (ratEnv (fun _ _ _ => ([], 0)) 6) 3 [[1/2], [41/2], [21/2]] six =
    some [[(0, [0]), (1, [1]), (2, [10])], [(3, [11]), (4, [20]), (5, [21])], [(0, [0]), (1, [1]), (2, [10]), (3, [11]), (4, [20]), (5, [21])]] := by decide +kernel
  exact this

/-- The hypotheses can be met. -/
example : ∃ out f, build (ratEnv someBld 6) 1 six = some (.ok f) ∧ (f.length < 2 ^ 64 → readGraph f = some ⟨2, 0, out⟩) ∧ out.length = 6 := by
  have hargs : Args (ratEnv someBld 6) 1 six := ⟨by decide, by decide, by decide, rfl, rfl, by decide, by decide, by decide⟩
  have hfin : Finite (ratEnv someBld 6) [[1/2], [41/2], [21/2]] six := by
    have : ∀ v ∈ six, ∀ c ∈ ([[1/2], [41/2], [21/2]] : List (List Rat)), ((ratAr.gemm v c) * 4).floor < 4000000 := by decide +kernel
    intro v hv c hc
    exact ⟨_, rfl, this v hv c hc⟩
  have hf : ∀ p, (ratEnv someBld 6).first p < (sample (ratEnv someBld 6).A (ratEnv someBld 6).rate (ratEnv someBld 6).us1 six).length := by
    intro p
    have : 0 < (sample ratAr 1 (List.replicate 6 0) six).length := by decide +kernel
    exact this
  have hb : ∀ i rows, rows ≠ [] → BuiltAlone (shardR 2) rows (someBld (shardR 2) i rows) := fun i rows hr => someBld_ok _ i rows (shardR_pos 2) hr
  obtain ⟨cl, _, _, h3⟩ := C86_build (ratEnv someBld 6) 1 3 six _ hargs rfl (six_choose _) hf hfin (fun _ _ => .refl _) (fun i rows hr => (hb i rows hr).built)
  by_cases hsz : ∀ f, build (ratEnv someBld 6) 1 six = some (.ok f) → f.length < 2 ^ 64
  · obtain ⟨out, f, e1, e2, e3⟩ := C86_loadable (ratEnv someBld 6) 1 3 six _ hargs rfl (six_choose _) hf hfin (fun _ _ => .refl _) hb _ (six_parts _) (by decide) (by decide) hsz
    exact ⟨out, f, e1, fun _ => e2, e3⟩
  · simp only [Classical.not_forall] at hsz
    obtain ⟨f, hf1, hf2⟩ := hsz
    exact ⟨six.map (fun _ => []), f, hf1, fun h => absurd h hf2, rfl⟩

/-- Three equal vectors: two of the three centres stay without vectors and become zero vectors, one part is empty, and the build fails,
although the budget has room for all vectors in one part. -/
theorem C86_equal_vectors_refuted (bld : Nat → Nat → List (List Rat) → List (List Nat) × Nat) :
    (ratEnv bld 3).fits 3 = true ∧ build (ratEnv bld 3) 1 [[2], [2], [2]] = some .throws := by
  refine ⟨rfl, ?_⟩
  have h1 : choose (ratEnv bld 3) 1 [[2], [2], [2]] = some (some (3, [[2], [0], [0]])) := by
    have : choose (ratEnv (fun _ _ _ => ([], 0)) 3) 1 [[2], [2], [2]] = some (some (3, [[2], [0], [0]])) := by decide +kernel
    exact this
  have h2 : parts (ratEnv bld 3) 3 [[2], [0], [0]] [[2], [2], [2]] = some [[(0, [2]), (1, [2]), (2, [2])], [(0, [2]), (1, [2]), (2, [2])], []] := by
    have : parts (ratEnv (fun _ _ _ => ([], 0)) 3) 3 [[2], [0], [0]] [[2], [2], [2]] = some [[(0, [2]), (1, [2]), (2, [2])], [(0, [2]), (1, [2]), (2, [2])], []] := by
      decide +kernel
    exact this
  have ha : Args (ratEnv bld 3) 1 [[2], [2], [2]] := ⟨show 0 < 2 by decide, show 2 < 2 ^ 32 by decide, show 2 ≤ 4 by decide, rfl, rfl, by decide, by decide, by decide⟩
  rw [build_eq ha]
  change partition (ratEnv bld 3) 1 [[2], [2], [2]] = _
  unfold partition
  simp only [h1, h2]
  rw [shardGraphs_none _ _ _ (by simp)]

def skewed : List (List Rat) := [[0], [10], [20], [1], [1], [1], [1], [1], [1], [1]]

def skewedEnv : Env Rat :=
  { ratEnv (fun _ _ _ => ([], 0)) 10 with rate := 1/2, ext := fun c => 2 * c, us1 := [0, 0, 0, 1, 1, 1, 1, 1, 1, 1], us2 := [0, 0, 0, 1, 1, 1, 1, 1, 1, 1] }

/-- With a smaller sample a part can be larger than the memory allows. -/
theorem C86_sampled_sizes_refuted : ∃ np piv ss, choose skewedEnv 1 skewed = some (some (np, piv)) ∧ parts skewedEnv np piv skewed = some ss ∧
    ∃ l ∈ ss, skewedEnv.fits l.length = false := by
  have h : (choose skewedEnv 1 skewed).join.any (fun r => (parts skewedEnv r.1 r.2 skewed).any (fun ss => ss.any (fun l => !skewedEnv.fits l.length))) = true := by
    decide +kernel
  cases h1 : choose skewedEnv 1 skewed with
  | none => rw [h1] at h; cases h
  | some o =>
    cases o with
    | none => rw [h1] at h; cases h
    | some r =>
      rw [h1] at h
      change (parts skewedEnv r.1 r.2 skewed).any _ = true at h
      cases h2 : parts skewedEnv r.1 r.2 skewed with
      | none => rw [h2] at h; cases h
      | some ss =>
        rw [h2] at h
        change ss.any _ = true at h
        obtain ⟨l, hl, hf⟩ := List.any_eq_true.1 h
        exact ⟨r.1, r.2, ss, rfl, h2, l, hl, by simpa using hf⟩

end Alaya.VPart
