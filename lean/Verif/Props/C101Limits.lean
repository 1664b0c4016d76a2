import Verif.Props.C101

/-!
# C101: what the measures do not give
-/

namespace Alaya.Recall

/-- C++: a result that repeats one true id has recall 1. -/
theorem C101_repeated_refuted :
    ¬ ∀ (res gt : Nat → Nat) (q g k : Nat), cppRecall res gt q g k = some 1 → ∀ i < q, ∀ x ∈ rowOf gt g i, x ∈ rowOf res k i := by
  intro h
  have := h (fun _ => 7) (fun i => i + 7) 1 2 2 (by decide +kernel) 0 (by decide) 8 (by decide)
  revert this
  decide

/-- Python and C++: against true rows longer than the results any of the longer row counts, so a result without the
nearest item may have recall 1. -/
theorem C101_deep_refuted :
    ¬ ∀ (res gt : List (List Nat)) (k : Nat), (∀ r ∈ res, r.length = k) → pyRecall res k gt = some 1 →
      ∀ p ∈ res.zip gt, ∀ x ∈ p.2.take k, x ∈ p.1 := by
  intro h
  have := h [[3]] [[1, 2, 3]] 1 (by decide) (by decide +kernel) ([3], [1, 2, 3]) (by decide) 1 (by decide)
  revert this
  decide

theorem C101_deep_cpp_refuted : cppRecall (fun _ => 3) (fun i => i + 1) 1 3 1 = some 1 ∧ 3 ∉ (rowOf (fun i => i + 1) 3 0).take 1 := by
  decide +kernel

/-- With ties an exact result may have recall 0. -/
theorem C101_ties_refuted :
    ¬ ∀ (dist : Nat → Nat) (n k : Nat) (r g : List Nat), Nearest dist (· < n) k r → Nearest dist (· < n) k g → 0 < k →
      pyRecall [r] k [g] = some 1 := by
  intro h
  have near : ∀ x : Nat, x < 2 → Nearest (fun _ : Nat => (0 : Nat)) (· < 2) 1 [x] := fun x hx =>
    ⟨rfl, List.nodup_singleton x, by simpa using hx, fun _ _ _ _ _ => Nat.le_refl _⟩
  have := h (fun _ => 0) 2 1 [1] [0] (near 1 (by decide)) (near 0 (by decide)) (by decide)
  revert this
  decide +kernel

/-- `calc_gt` of one item repeats it instead of raising as it does for any other number of items below `topk`. -/
theorem C101_one_item_refuted : pyGt isort [[4]] 3 = some [[0, 0, 0]] ∧ pyGt isort [[4, 5]] 3 = none := by decide +kernel

/-- `find_exact_gt` reads beyond its candidates if fewer than `topk` items are left. -/
theorem C101_few_refuted {D : Type} [LinearOrder D] {sort : List D → List Nat} (h : Argsort sort) (dist : Nat → D) (n topk : Nat)
    (deleted : Nat → Bool) (hk : ((List.range n).filter (fun j => !deleted j)).length < topk) :
    cppGtRow sort dist n deleted topk = none := by
  unfold cppGtRow firsts
  rw [if_pos]
  rw [(sort_map h dist _).1.length_eq]; exact hk

/-- `find_exact_gt` answers arrays that are not whole vectors with no rows at all. -/
theorem C101_uneven_refuted : cppGt isort (fun _ j => j) 7 12 3 (fun _ => false) 2 = some [] := by decide +kernel

/-- C++: with 2³² places the number to divide by is 0. -/
theorem C101_overflow_refuted (res gt : Nat → Nat) (g : Nat) : cppRecall res gt 4294967296 g 1 = none := by
  unfold cppRecall
  rw [if_pos (by decide)]

/-- `recall_at_k` accepts a negative `k` and answers with a negative recall. -/
theorem C101_negative_refuted : recallAtK [[1, 2]] [[1, 2]] (-1) = some (-1) := by decide +kernel

/-- `recall_at_k` of a perfect result is below 1 if there are fewer than `k` items. -/
theorem C101_short_refuted : recallAtK [[1, 2]] [[1, 2]] 4 = some (1 / 2) := by decide +kernel

/-- The 50th percentile of two values is the greater one. -/
theorem C101_median_refuted : percentile [1, 2] 50 = some 2 := by decide +kernel

/-- The 99th percentile of up to 100 values is the greatest of them. -/
theorem C101_p99_refuted {D : Type} (l : List D) (hl : l ≠ []) (h : l.length ≤ 100) : percentile l 99 = l.getLast? := by
  have := List.length_pos_iff.mpr hl
  unfold percentile
  rw [if_neg (by simpa using hl), List.getLast?_eq_getElem?]
  congr 1
  have : ((l.length : Int) * 99).tdiv 100 = ((l.length * 99 / 100 : Nat) : Int) := by
    rw [Int.tdiv_eq_ediv_of_nonneg (by positivity)]; norm_cast
  rw [this]; omega

end Alaya.Recall
