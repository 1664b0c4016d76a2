import Verif.Spec.PQ
import Verif.Lemmas.PQUpdate
import Mathlib.Tactic.Ring
import Mathlib.Tactic.Linarith
import Mathlib.Tactic.Positivity
import Mathlib.Tactic.FieldSimp

/- Product quantisation in exact arithmetic. -/
set_option linter.unusedSectionVars false

namespace Alaya.PQ

open Spec (sqDist decode)

section Field
variable {F : Type} [Field F] [LinearOrder F] [IsStrictOrderedRing F]

/-- Exact arithmetic; `big` stands for the largest float. -/
def exact (big : F) : Ar F where
  zero := 0
  big := big
  add := fun x y => x + y
  sub := fun x y => x - y
  lt := fun x y => decide (x < y)
  l2 := fun a b => sqDist a.length (fun d => a.getD d 0) (fun d => b.getD d 0)
  divn := fun x n => x / (n : F)
  avg := fun l => l.sum / (l.length : F)

theorem exact_ordered (big : F) : Ordered (exact big) := by
  refine ⟨?_, ?_, ?_⟩
  · intro x; simp [exact]
  · intro x y z; simp only [exact, decide_eq_true_eq]; exact lt_trans
  · intro x y z; simp only [exact, decide_eq_false_iff_not, not_lt]; intro h1 h2; exact le_trans h2 h1

theorem sum_congr : ∀ {n : Nat} {f g : Nat → F}, (∀ i, i < n → f i = g i) → Spec.sum n f = Spec.sum n g
  | 0, _, _, _ => rfl
  | n + 1, f, g, h => by
    unfold Spec.sum
    rw [sum_congr (fun i hi => h i (Nat.lt_succ_of_lt hi)), h n (Nat.lt_succ_self _)]

theorem sum_split (f : Nat → F) (a : Nat) : ∀ b, Spec.sum (a + b) f = Spec.sum a f + Spec.sum b (fun j => f (a + j))
  | 0 => by simp [Spec.sum]
  | b + 1 => by
    rw [← Nat.add_assoc]
    change Spec.sum (a + b) f + f (a + b) = Spec.sum a f + (Spec.sum b (fun j => f (a + j)) + f (a + b))
    rw [sum_split f a b, add_assoc]

theorem sum_blocks (f : Nat → F) (w : Nat) : ∀ n, Spec.sum (n * w) f = Spec.sum n (fun c => Spec.sum w (fun j => f (c * w + j)))
  | 0 => by simp [Spec.sum]
  | n + 1 => by
    rw [Nat.succ_mul, sum_split, sum_blocks f w n]
    rfl

theorem sum_le : ∀ {n : Nat} {f g : Nat → F}, (∀ i, i < n → f i ≤ g i) → Spec.sum n f ≤ Spec.sum n g
  | 0, _, _, _ => le_refl _
  | n + 1, f, g, h => by
    unfold Spec.sum
    exact add_le_add (sum_le (fun i hi => h i (Nat.lt_succ_of_lt hi))) (h n (Nat.lt_succ_self _))

theorem sum_nonneg : ∀ {n : Nat} {f : Nat → F}, (∀ i, i < n → 0 ≤ f i) → 0 ≤ Spec.sum n f
  | 0, _, _ => le_refl _
  | n + 1, f, h => by
    unfold Spec.sum
    exact add_nonneg (sum_nonneg (fun i hi => h i (Nat.lt_succ_of_lt hi))) (h n (Nat.lt_succ_self _))

theorem le_sum : ∀ {n : Nat} {f : Nat → F}, (∀ i, i < n → 0 ≤ f i) → ∀ i, i < n → f i ≤ Spec.sum n f
  | 0, _, _, i, hi => absurd hi (Nat.not_lt_zero _)
  | n + 1, f, h, i, hi => by
    unfold Spec.sum
    have h0 := sum_nonneg (fun i hi => h i (Nat.lt_succ_of_lt hi))
    rcases Nat.lt_succ_iff_lt_or_eq.1 hi with h1 | h1
    · have := le_sum (fun i hi => h i (Nat.lt_succ_of_lt hi)) i h1
      have := h n (Nat.lt_succ_self _)
      linarith
    · rw [h1]; linarith

theorem sqDist_nonneg (n : Nat) (x y : Nat → F) : 0 ≤ sqDist n x y := sum_nonneg (fun _ _ => mul_self_nonneg _)

theorem sqDist_zero {n : Nat} {x y : Nat → F} (h : sqDist n x y ≤ 0) (d : Nat) (hd : d < n) : x d = y d := by
  have h1 := le_sum (f := fun d => (x d - y d) * (x d - y d)) (fun _ _ => mul_self_nonneg _) d hd
  have h2 : (x d - y d) * (x d - y d) ≤ 0 := le_trans h1 h
  have h3 := mul_self_nonneg (x d - y d)
  have h4 : x d - y d = 0 := mul_self_eq_zero.1 (le_antisymm h2 h3)
  exact sub_eq_zero.1 h4

theorem sqDist_self (n : Nat) (x : Nat → F) : sqDist n x x = 0 := by
  unfold sqDist
  rw [sum_congr (g := fun _ => (0 : F)) (fun i _ => by simp)]
  induction n with
  | zero => rfl
  | succ n ih => unfold Spec.sum; rw [ih, add_zero]

theorem foldl_sum (f : Nat → F) : ∀ n, (List.range n).foldl (fun a c => a + f c) 0 = Spec.sum n f
  | 0 => rfl
  | n + 1 => by rw [List.range_succ, List.foldl_append, foldl_sum f n]; rfl

/-- Coordinate `j` of centroid `k` of chunk `c`. -/
def Table.coord (t : Table F) (c k j : Nat) : F := t.cb.getD ((c * 256 + k) * t.cd + j) 0

theorem chunk_len {t : Table F} (S : Shape t) {r : List F} (hr : r.length = t.dim) {c : Nat} (hc : c < t.nc) : (t.chunk r c).length = t.cd :=
  slice_len (chunk_eq S hr hc)

theorem cen_len {t : Table F} (S : Shape t) {c k : Nat} (hc : c < t.nc) (hk : k < 256) : (t.cen c k).length = t.cd := by
  have := slice_len (cent_eq (block_len S hc) hk)
  rw [cen_block t c k hk] at this
  exact this

theorem resid_get (big : F) (t : Table F) (v : List F) (d : Nat) (hd : d < t.dim) :
    (t.resid (exact big) v).getD d 0 = v.getD d 0 - t.gc.getD d 0 := by
  unfold Table.resid
  rw [List.getD_eq_getElem?_getD, map_get _ _ _ hd]
  rfl

/-- The distance of a chunk to one of its centroids, in coordinates. -/
theorem chunk_l2 (big : F) {t : Table F} (S : Shape t) (v : List F) {c k : Nat} (hc : c < t.nc) :
    (exact big).l2 (t.chunk (t.resid (exact big) v) c) (t.cen c k) =
      Spec.sum t.cd (fun j => (v.getD (c * t.cd + j) 0 - (t.gc.getD (c * t.cd + j) 0 + t.coord c k j)) *
        (v.getD (c * t.cd + j) 0 - (t.gc.getD (c * t.cd + j) 0 + t.coord c k j))) := by
  change sqDist _ _ _ = _
  rw [chunk_len S (resid_len _ t v) hc]
  unfold sqDist
  refine sum_congr ?_
  intro j hj
  have hlt : c * t.cd + j < t.dim := by have := row_bound (w := t.cd) hc; rw [S.dim]; omega
  unfold Table.chunk Table.cen Table.coord
  simp only
  rw [take_drop_getD _ _ _ _ _ hj, take_drop_getD _ _ _ _ _ hj, resid_get big t v _ hlt]
  ring

theorem block_div {cd c j : Nat} (hj : j < cd) : (c * cd + j) / cd = c ∧ (c * cd + j) % cd = j := by
  have h0 : 0 < cd := by omega
  constructor
  · rw [Nat.mul_comm, Nat.mul_add_div h0, Nat.div_eq_of_lt hj, Nat.add_zero]
  · rw [Nat.mul_comm, Nat.mul_add_mod, Nat.mod_eq_of_lt hj]

/-- The asymmetric distance is the distance to the point that the code stands for. -/
theorem dist_exact (big : F) {t : Table F} (S : Filled t) (q : List F) {id : Nat} (hid : id < t.points) :
    t.dist (exact big) (t.queryOf (exact big) q) id =
      some (sqDist t.dim (fun d => q.getD d 0) (decode t.cd (fun d => t.gc.getD d 0) t.coord (t.at id))) := by
  rw [dist_eq S q hid]
  congr 1
  change (List.range t.nc).foldl (fun a c => a + _) 0 = _
  rw [foldl_sum]
  unfold sqDist
  rw [S.dim, sum_blocks]
  refine sum_congr ?_
  intro c hc
  rw [chunk_l2 big S.toShape q hc]
  refine sum_congr ?_
  intro j hj
  unfold decode
  rw [(block_div hj).1, (block_div hj).2]

theorem cen_l2 (big : F) {t : Table F} (S : Shape t) {c x y : Nat} (hc : c < t.nc) (hx : x < 256) :
    (exact big).l2 (t.cen c x) (t.cen c y) = Spec.sum t.cd (fun j => (t.coord c x j - t.coord c y j) * (t.coord c x j - t.coord c y j)) := by
  change sqDist _ _ _ = _
  rw [cen_len S hc hx]
  unfold sqDist
  refine sum_congr ?_
  intro j hj
  unfold Table.cen Table.coord
  simp only
  rw [take_drop_getD _ _ _ _ _ hj, take_drop_getD _ _ _ _ _ hj]

theorem sym_exact (big : F) {t : Table F} (S : Filled t) (hs : t.sym = t.symOf (exact big)) {a b : Nat} (ha : a < t.points) (hb : b < t.points) :
    t.symDist (exact big) a b = some (some (sqDist t.dim (decode t.cd (fun d => t.gc.getD d 0) t.coord (t.at a))
      (decode t.cd (fun d => t.gc.getD d 0) t.coord (t.at b)))) := by
  rw [symDist_eq S hs ha hb]
  congr 2
  change (List.range t.nc).foldl (fun a c => a + _) 0 = _
  rw [foldl_sum]
  unfold sqDist
  rw [S.dim, sum_blocks]
  refine sum_congr ?_
  intro c hc
  rw [cen_l2 big S.toShape hc (at_lt S ha hc)]
  refine sum_congr ?_
  intro j hj
  unfold decode
  rw [(block_div hj).1, (block_div hj).2]
  ring

/-! ### Small training sets -/

theorem vecOf_get (data : List F) (dim i d : Nat) (hd : d < dim) : (vecOf data dim i).getD d 0 = data.getD (i * dim + d) 0 := by
  unfold vecOf
  rw [take_drop_getD _ _ _ _ _ hd]

/-- With at most 256 vectors, centroid `i` of every chunk is the residual of vector `i`. -/
theorem small_cen (big : F) {t : Table F} {data : List F} {n dim nc : Nat} (hm : dim % nc = 0) (hn : n ≤ 256)
    (ht : t.dim = dim) (htn : t.nc = nc) (S : Shape t) (iters : Nat) (sp : Nat → Nat → Nat) (pick : Nat → Nat → Nat → Nat)
    (hcb : ∀ c, c < nc → ∃ b, trainPart (exact big) n dim nc iters sp pick (residOf (exact big) data t.gc n dim) c = some b ∧
      ∀ k, k < 256 → t.cen c k = cen (dim / nc) b k) (c i : Nat) (hc : c < nc) (hi : i < n) (j : Nat) (hj : j < t.cd) :
    t.coord c i j = data.getD (i * dim + (c * t.cd + j)) 0 - t.gc.getD (c * t.cd + j) 0 := by
  have hcd : dim / nc = t.cd := by rw [← ht, ← htn]; exact S.div
  have hdim : dim = nc * (dim / nc) := (Nat.mul_div_cancel' (Nat.dvd_of_mod_eq_zero hm)).symm
  obtain ⟨b, hb, hk⟩ := hcb c hc
  have hcoord : t.coord c i j = (t.cen c i).getD j 0 := by
    unfold Table.coord Table.cen
    rw [take_drop_getD _ _ _ _ _ hj]
  rw [hcoord, hk i (by omega), hcd]
  have hrl := residOf_len (exact big) data t.gc n dim
  unfold trainPart at hb
  rw [chunkData_eq (cd := dim / nc) hrl hdim hc] at hb
  simp only at hb
  unfold trainChunk at hb
  rw [if_pos hn] at hb
  have hcl := chunkData_len (chunkData_eq (cd := dim / nc) hrl hdim hc)
  rw [each_map (g := fun k => vecOf ((List.range n).map (fun i => ((residOf (exact big) data t.gc n dim).drop (i * dim + c * (dim / nc))).take (dim / nc))).flatten
    (dim / nc) (if k < n then k else n - 1))] at hb
  · simp only [Option.map_some] at hb
    injection hb with hb
    rw [← hb]
    unfold cen
    have hw : ∀ r, r ∈ (List.range 256).map (fun k => vecOf ((List.range n).map (fun i => ((residOf (exact big) data t.gc n dim).drop (i * dim + c * (dim / nc))).take (dim / nc))).flatten
        (dim / nc) (if k < n then k else n - 1)) → r.length = t.cd := by
      intro r hr
      obtain ⟨k, _, hk⟩ := List.mem_map.1 hr
      rw [← hk, hcd]
      rw [hcd] at hcl
      exact vecOf_len hcl (by split <;> omega)
    rw [flatten_row i _ hw (map_get 256 i _ (by omega))]
    rw [if_pos hi]
    unfold vecOf
    have hw2 : ∀ r, r ∈ (List.range n).map (fun i => ((residOf (exact big) data t.gc n dim).drop (i * dim + c * (dim / nc))).take (dim / nc)) → r.length = dim / nc := by
      intro r hr
      obtain ⟨k, hk, hkr⟩ := List.mem_map.1 hr
      rw [← hkr, List.length_take, List.length_drop, hrl]
      have h1 := row_bound (w := dim) (List.mem_range.1 hk)
      have h2 := row_bound (w := dim / nc) hc
      omega
    rw [flatten_row i _ hw2 (map_get n i _ hi)]
    rw [take_drop_getD _ _ _ _ _ (by rw [hcd]; exact hj)]
    have hlt : c * t.cd + j < dim := by
      have := row_bound (w := t.cd) hc
      rw [hcd] at hdim; omega
    have e : i * dim + c * (dim / nc) + j = i * dim + (c * t.cd + j) := by rw [hcd]; omega
    rw [e]
    unfold residOf
    rw [List.getD_eq_getElem?_getD, flatten_get (w := dim) i (c * t.cd + j) _ ?_ hlt (map_get n i _ hi), map_get _ _ _ hlt]
    · rfl
    · intro r hr
      obtain ⟨k, _, hk⟩ := List.mem_map.1 hr
      rw [← hk]; simp
  · intro k _
    exact slice_eq (by rw [hcl]; exact row_bound (by split <;> omega))

/-- Coordinates of the point that the code of a vector stands for, when one centroid per chunk is the vector's residual. -/
theorem code_exact {big : F} (hbig : 0 < big) {t : Table F} (S : Shape t) (v : List F)
    (hex : ∀ c, c < t.nc → ∃ k, k < 256 ∧ ∀ j, j < t.cd → t.coord c k j = v.getD (c * t.cd + j) 0 - t.gc.getD (c * t.cd + j) 0) (d : Nat) (hd : d < t.dim) :
    decode t.cd (fun d => t.gc.getD d 0) t.coord (fun c => (t.codeOf (exact big) v).getD c 0) d = v.getD d 0 := by
  have hcd := S.cd
  have hc : d / t.cd < t.nc := by rw [S.dim] at hd; exact Nat.div_lt_of_lt_mul (by rw [Nat.mul_comm]; exact hd)
  have hj : d % t.cd < t.cd := Nat.mod_lt _ hcd
  have hde : d / t.cd * t.cd + d % t.cd = d := by rw [Nat.mul_comm]; exact Nat.div_add_mod _ _
  obtain ⟨c, hce⟩ : ∃ c, c = d / t.cd := ⟨_, rfl⟩
  obtain ⟨j, hje⟩ : ∃ j, j = d % t.cd := ⟨_, rfl⟩
  unfold decode
  rw [← hce] at hc hde ⊢
  rw [← hje] at hj hde ⊢
  obtain ⟨k0, hk0, hk1⟩ := hex c hc
  have hcode : (t.codeOf (exact big) v).getD c 0 =
      (best (exact big) 256 (fun k => (exact big).l2 (t.chunk (t.resid (exact big) v) c) (t.cen c k))).2 := by
    unfold Table.codeOf
    rw [List.getD_eq_getElem?_getD, map_get _ _ _ hc]; rfl
  simp only
  rw [hcode]
  have hz : (exact big).l2 (t.chunk (t.resid (exact big) v) c) (t.cen c k0) = 0 := by
    rw [chunk_l2 big S v hc]
    rw [sum_congr (g := fun _ => (0 : F) * 0) (fun j hj => by rw [hk1 j hj]; ring)]
    simpa [sqDist] using sqDist_self t.cd (fun _ => (0 : F))
  have hspec := best_spec (exact_ordered big) (fun k => (exact big).l2 (t.chunk (t.resid (exact big) v) c) (t.cen c k)) 256
  generalize hB : best (exact big) 256 (fun k => (exact big).l2 (t.chunk (t.resid (exact big) v) c) (t.cen c k)) = B at hspec ⊢
  have hmin : (exact big).l2 (t.chunk (t.resid (exact big) v) c) (t.cen c B.2) ≤ 0 := by
    rcases hspec with ⟨_, h2⟩ | ⟨_, _, _, h4, _⟩
    · have := h2 k0 hk0
      simp only [hz] at this
      change decide (0 < big) = false at this
      rw [decide_eq_false_iff_not] at this
      exact absurd hbig this
    · have := h4 k0 hk0
      simp only [hz] at this
      change decide ((0 : F) < _) = false at this
      rw [decide_eq_false_iff_not, not_lt] at this
      exact this
  rw [chunk_l2 big S v hc] at hmin
  have := sqDist_zero (x := fun j => v.getD (c * t.cd + j) 0) (y := fun j => t.gc.getD (c * t.cd + j) 0 + t.coord c B.2 j) hmin j hj
  rw [hde] at this
  exact this.symm

end Field
end Alaya.PQ
