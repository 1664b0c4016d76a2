import Verif.Lemmas.PQExact

/- Lloyd iterations never increase the training error. -/
set_option linter.unusedSectionVars false

namespace Alaya.PQ

open Spec (sqDist)

section Field
variable {F : Type} [Field F] [LinearOrder F] [IsStrictOrderedRing F]

theorem sq_shift (m y : F) : ∀ l : List F, (l.map (fun x => (x - y) * (x - y))).sum =
    (l.map (fun x => (x - m) * (x - m))).sum + 2 * (m - y) * (l.sum - (l.length : F) * m) + (l.length : F) * ((m - y) * (m - y))
  | [] => by simp
  | x :: l => by
    simp only [List.map_cons, List.sum_cons, List.length_cons]
    rw [sq_shift m y l]
    push_cast
    ring

/-- The mean minimises the sum of squares. -/
theorem mean_min (l : List F) (hl : l ≠ []) (y : F) :
    (l.map (fun x => (x - l.sum / (l.length : F)) * (x - l.sum / (l.length : F)))).sum ≤ (l.map (fun x => (x - y) * (x - y))).sum := by
  have hp : (0 : F) < (l.length : F) := by
    have : 0 < l.length := List.length_pos_iff.2 hl
    exact_mod_cast this
  rw [sq_shift (l.sum / (l.length : F)) y l]
  have h1 : l.sum - (l.length : F) * (l.sum / (l.length : F)) = 0 := by
    rw [mul_div_cancel₀ _ (ne_of_gt hp), sub_self]
  rw [h1, mul_zero, add_zero]
  have := mul_nonneg (le_of_lt hp) (mul_self_nonneg (l.sum / (l.length : F) - y))
  linarith

theorem sum_add (n : Nat) (f g : Nat → F) : Spec.sum n (fun d => f d + g d) = Spec.sum n f + Spec.sum n g := by
  induction n with
  | zero => simp [Spec.sum]
  | succ n ih => unfold Spec.sum; rw [ih]; ring

theorem sum_zero (n : Nat) : Spec.sum n (fun _ => (0 : F)) = 0 := by
  induction n with
  | zero => rfl
  | succ n ih => unfold Spec.sum; rw [ih, add_zero]

theorem sum_swap (n : Nat) (g : Nat → Nat → F) : ∀ l : List Nat,
    (l.map (fun i => Spec.sum n (g i))).sum = Spec.sum n (fun d => (l.map (fun i => g i d)).sum)
  | [] => by simp [sum_zero]
  | i :: l => by
    simp only [List.map_cons, List.sum_cons]
    rw [sum_swap n g l, ← sum_add]

theorem sum_one (m a : Nat) (x : F) (ha : a < m) : Spec.sum m (fun k => if a = k then x else 0) = x := by
  induction m with
  | zero => omega
  | succ m ih =>
    change Spec.sum m (fun k => if a = k then x else 0) + (if a = m then x else 0) = x
    by_cases h : a = m
    · rw [if_pos h, sum_congr (g := fun _ => (0 : F)) (fun i hi => if_neg (by omega)), sum_zero, zero_add]
    · rw [if_neg h, ih (by omega), add_zero]

/-- Summing over the clusters. -/
theorem sum_fiber (m : Nat) (a : Nat → Nat) (g : Nat → Nat → F) : ∀ n, (∀ i, i < n → a i < m) → Spec.sum n (fun i => g i (a i)) =
    Spec.sum m (fun k => (((List.range n).filter (fun i => a i = k)).map (fun i => g i k)).sum)
  | 0, _ => by simp [Spec.sum, sum_zero]
  | n + 1, h => by
    have ih := sum_fiber m a g n (fun i hi => h i (Nat.lt_succ_of_lt hi))
    change Spec.sum n _ + g n (a n) = _
    rw [ih]
    rw [sum_congr (n := m) (f := fun k => (((List.range (n + 1)).filter (fun i => a i = k)).map (fun i => g i k)).sum)
      (g := fun k => (((List.range n).filter (fun i => a i = k)).map (fun i => g i k)).sum + (if a n = k then g n (a n) else 0))]
    · rw [sum_add, sum_one m (a n) _ (h n (Nat.lt_succ_self _))]
    · intro k hk
      rw [List.range_succ, List.filter_append, List.map_append, List.sum_append]
      congr 1
      by_cases hak : a n = k
      · rw [if_pos hak]; simp [hak]
      · rw [if_neg hak]; simp [hak]

/-- Centroid that a training vector is assigned to. -/
def assigned (big : F) (cd : Nat) (data cents : List F) (i : Nat) : Nat :=
  (best (exact big) 256 (fun k => (exact big).l2 (vecOf data cd i) (cen cd cents k))).2

/-- Distance of training vector `i` to centroid `k`. -/
def dk (cd : Nat) (data cents : List F) (i k : Nat) : F :=
  sqDist cd (fun d => data.getD (i * cd + d) 0) (fun d => cents.getD (k * cd + d) 0)

/-- The training error: the sum of the distances of the vectors to their centroids. -/
def cost (big : F) (cd n : Nat) (data cents : List F) : F := Spec.sum n (fun i => dk cd data cents i (assigned big cd data cents i))

theorem l2_dk (big : F) {cd n : Nat} {data : List F} (hd : data.length = n * cd) (cents : List F) {i : Nat} (hi : i < n) (k : Nat) :
    (exact big).l2 (vecOf data cd i) (cen cd cents k) = dk cd data cents i k := by
  change sqDist _ _ _ = _
  rw [vecOf_len hd hi]
  unfold dk sqDist
  refine sum_congr ?_
  intro d hdl
  simp only
  rw [vecOf_get _ _ _ _ hdl]
  unfold cen
  rw [take_drop_getD _ _ _ _ _ hdl]

theorem dk_nonneg (cd : Nat) (data cents : List F) (i k : Nat) : 0 ≤ dk cd data cents i k := sqDist_nonneg _ _ _

theorem assigned_lt (big : F) (cd : Nat) (data cents : List F) (i : Nat) : assigned big cd data cents i < 256 := best_lt _ _ 256 (by decide)

/-- The assigned centroid is the nearest one if some centroid is nearer than the largest float. -/
theorem assigned_min {big : F} {cd n : Nat} {data : List F} (hd : data.length = n * cd) (cents : List F) {i : Nat} (hi : i < n) {k0 : Nat} (hk0 : k0 < 256)
    (hb : dk cd data cents i k0 < big) {k : Nat} (hk : k < 256) :
    dk cd data cents i (assigned big cd data cents i) ≤ dk cd data cents i k := by
  have hs := best_spec (exact_ordered big) (fun k => (exact big).l2 (vecOf data cd i) (cen cd cents k)) 256
  unfold assigned
  generalize best (exact big) 256 (fun k => (exact big).l2 (vecOf data cd i) (cen cd cents k)) = B at hs ⊢
  simp only [l2_dk big hd cents hi] at hs
  rcases hs with ⟨_, h2⟩ | ⟨_, _, _, h4, _⟩
  · have := h2 k0 hk0
    exact absurd hb (of_decide_eq_false this)
  · have := h4 k hk
    change decide (_ < _) = false at this
    rw [decide_eq_false_iff_not, not_lt] at this
    exact this

theorem lloyd_cost {big : F} {cd n : Nat} {data : List F} (hd : data.length = n * cd) (hn : 0 < n) (pick : Nat → Nat) {cents c' : List F}
    (hc : cents.length = 256 * cd) (h : lloyd (exact big) cd n data pick cents = some c') (hb : cost big cd n data cents < big) :
    cost big cd n data c' ≤ cost big cd n data cents := by
  have hl := lloyd_some (exact big) hd hn pick hc
  rw [hl] at h
  injection h with h
  -- the new centroids of clusters with members
  have hget : ∀ k, k < 256 → (List.range n).filter (fun i => assigned big cd data cents i = k) ≠ [] → ∀ d, d < cd →
      c'.getD (k * cd + d) 0 = (((List.range n).filter (fun i => assigned big cd data cents i = k)).map (fun i => data.getD (i * cd + d) 0)).sum /
        ((((List.range n).filter (fun i => assigned big cd data cents i = k)).map (fun i => data.getD (i * cd + d) 0)).length : F) := by
    intro k hk hne d hdl
    rw [← h, List.getD_eq_getElem?_getD, flatten_get (w := cd) k d _ ?_ hdl (map_get 256 k _ hk)]
    · unfold assigned at hne
      rw [if_neg hne, map_get _ _ _ hdl]
      rfl
    · intro r hr
      obtain ⟨k, _, hk⟩ := List.mem_map.1 hr
      rw [← hk]
      split
      · exact vecOf_len hd (Nat.mod_lt _ hn)
      · simp
  have hmid : Spec.sum n (fun i => dk cd data c' i (assigned big cd data cents i)) ≤ cost big cd n data cents := by
    unfold cost
    rw [sum_fiber 256 (assigned big cd data cents) (fun i k => dk cd data c' i k) n (fun i _ => assigned_lt big cd data cents i),
      sum_fiber 256 (assigned big cd data cents) (fun i k => dk cd data cents i k) n (fun i _ => assigned_lt big cd data cents i)]
    refine sum_le ?_
    intro k hk
    by_cases hne : (List.range n).filter (fun i => assigned big cd data cents i = k) = []
    · rw [hne]; simp
    · have hg := hget k hk hne
      generalize hL : (List.range n).filter (fun i => assigned big cd data cents i = k) = L at hne hg ⊢
      unfold dk sqDist
      rw [sum_swap, sum_swap]
      refine sum_le ?_
      intro d hdl
      simp only
      rw [hg d hdl]
      have := mean_min (L.map (fun i => data.getD (i * cd + d) 0)) (by simpa using hne) (cents.getD (k * cd + d) 0)
      simpa only [List.map_map, Function.comp_def] using this
  refine le_trans ?_ hmid
  unfold cost
  refine sum_le ?_
  intro i hi
  refine assigned_min hd c' hi (assigned_lt big cd data cents i) ?_ (assigned_lt big cd data cents i)
  exact lt_of_le_of_lt (le_trans (le_sum (f := fun i => dk cd data c' i (assigned big cd data cents i)) (fun i _ => dk_nonneg _ _ _ _ _) i hi) hmid) hb

theorem lloyds_cost {big : F} {cd n : Nat} {data : List F} (hd : data.length = n * cd) (hn : 0 < n) (pick : Nat → Nat → Nat) :
    ∀ (it : Nat) (cents c' : List F), cents.length = 256 * cd → lloyds (exact big) cd n data pick it cents = some c' → cost big cd n data cents < big →
      cost big cd n data c' ≤ cost big cd n data cents
  | 0, cents, c', _, h, _ => by simp [lloyds] at h; rw [h]
  | it + 1, cents, c', hc, h, hb => by
    unfold lloyds at h
    split at h
    · simp at h
    · rename_i c1 h1
      have hle := lloyd_cost hd hn (pick it) hc h1 hb
      exact le_trans (lloyds_cost hd hn pick it c1 c' (lloyd_len _ hd hn (pick it) hc h1) h (lt_of_le_of_lt hle hb)) hle

end Field
end Alaya.PQ
