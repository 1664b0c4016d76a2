import Verif.Model.ShardMerge

/-
Assigning base vectors to overlapping shards: /repo/include/index/graph/vamana/kmeans_partition.hpp
(`compute_closest_centers`) and shard_assigner.hpp (`shard_data_by_centroids`).

A computed distance is `some z` (an exact scaled value; `+inf` is any value above `M`, the largest float) or `none` (NaN).
The arithmetic that produces the distance rows is not modelled: rows are arbitrary.
-/
namespace Alaya.Vamana

/-- Computed distance; `none` is NaN. -/
abbrev FDist := Option Int

/-- `a >= b` on floats. -/
def FDist.ge : FDist → FDist → Bool
  | some a, some b => decide (a ≥ b)
  | _, _ => false

/-- `a < b` on floats. -/
def FDist.lt : FDist → FDist → Bool
  | some a, some b => decide (a < b)
  | _, _ => false

/-- The bubble loop: `x` was written over the last entry and moves towards the front while it is smaller than its
predecessor. The list is kept last entry first. kmeans_partition.hpp:162-165. -/
def bubble (x : FDist × Nat) : List (FDist × Nat) → List (FDist × Nat)
  | [] => [x]
  | y :: ys => if FDist.lt x.1 y.1 then y :: bubble x ys else x :: y :: ys

/-- One centre in the top-k scan. kmeans_partition.hpp:156-166. -/
def topStep (top : List (FDist × Nat)) (x : FDist × Nat) : List (FDist × Nat) :=
  match top with
  | [] => []
  | w :: ys => if FDist.ge x.1 w.1 then top else bubble x ys

/-- The branch `k > 1`: `k` entries `(FLT_MAX, 0)`, then one step per centre; the ids in ascending order of distance.
kmeans_partition.hpp:150-171. -/
def topK (M : Int) (k : Nat) (row : List FDist) : List Nat :=
  ((row.zipIdx.foldl topStep (List.replicate k (some M, 0))).reverse).map (·.2)

/-- The branch `k = 1`. kmeans_partition.hpp:135-147. -/
def argMin (M : Int) (row : List FDist) : Nat :=
  (row.zipIdx.foldl (fun b x => if FDist.lt x.1 b.1 then x else b) (some M, 0)).2

/-- `compute_closest_centers` for one point. kmeans_partition.hpp:79-173. -/
def closest (M : Int) (k : Nat) (row : List FDist) : List Nat := if k = 1 then [argMin M row] else topK M k row

/-- Appending one point to its shards. shard_assigner.hpp:207-215. -/
def scatterOne {V : Type} (shards : List (List (Nat × V))) (gid : Nat) (v : V) (cl : List Nat) : List (List (Nat × V)) :=
  cl.foldl (fun ss s => ss.modify s (· ++ [(gid, v)])) shards

/-- The streaming loop over all points (blocks only bound the memory). A point is its vector and its distance row.
shard_assigner.hpp:186-223. -/
def scatter {V : Type} (M : Int) (k : Nat) : Nat → List (V × List FDist) → List (List (Nat × V)) → List (List (Nat × V))
  | _, [], ss => ss
  | gid, p :: ps, ss => scatter M k (gid + 1) ps (scatterOne ss gid p.1 (closest M k p.2))

/-- `shard_data_by_centroids`: the contents of the shards, in file order. shard_assigner.hpp:127-243. `none` = throws (bad
parameters, or an input without points). -/
def assign {V : Type} (M : Int) (nc k : Nat) (base : List (V × List FDist)) : Option (List (List (Nat × V))) :=
  if nc = 0 ∨ k = 0 ∨ k > nc then none
  else if base.length = 0 then none
  else some (scatter M k 0 base (List.replicate nc []))

/-- The id map written for a shard. -/
def shardIds {V : Type} (s : List (Nat × V)) : List Nat := s.map (·.1)

end Alaya.Vamana
