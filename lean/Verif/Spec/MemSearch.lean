import Verif.Spec.Best
/-! What an in-memory graph search may return. -/
namespace Alaya.MemSearch.Spec

/-- The neighbours stored in the row of a node: the ids before the first 4294967295. -/
def nbrs (rows : List (List Nat)) (u : Nat) : List Nat := ((rows[u]?).getD []).takeWhile (· ≠ 4294967295)

/-- Nodes reachable from the nodes of `S`. -/
inductive Reach (rows : List (List Nat)) (S : List Nat) : Nat → Prop where
  | seed {v : Nat} : v ∈ S → Reach rows S v
  | step {u v : Nat} : Reach rows S u → v ∈ nbrs rows u → Reach rows S v

/-- A result array: hits first, then padding; hits ascend by distance, have distinct ids, are reachable and carry their distance. -/
structure Sound (rows : List (List Nat)) (S : List Nat) (dist : Nat → Int) (topk : Nat) (out : List (Nat × Option Int)) : Prop where
  split : ∃ hits : List (Nat × Int), out = hits.map (fun h => (h.1, some h.2)) ++ List.replicate (topk - hits.length) (4294967295, none) ∧
    hits.length ≤ topk ∧ (hits.map Prod.fst).Nodup ∧ hits.Pairwise (fun a b => a.2 ≤ b.2) ∧
    ∀ h ∈ hits, Reach rows S h.1 ∧ h.2 = dist h.1

/-- A result array that holds the `topk` nearest of the candidates `R`. -/
def Exact (R : List Nat) (dist : Nat → Int) (topk : Nat) (out : List (Nat × Option Int)) : Prop :=
  ∃ hits : List (Nat × Int), out = hits.map (fun h => (h.1, some h.2)) ++ List.replicate (topk - hits.length) (4294967295, none) ∧
    Alaya.Spec.Best (fun a b => a.2 ≤ b.2) topk hits (R.map (fun i => (i, dist i)))

end Alaya.MemSearch.Spec
