import Verif.Spec.Best
/-! What a search over a snapshot may return. -/
namespace Alaya.DiskBeam.Spec

/-- Every id is below the number of nodes of the snapshot, not tombstoned there and occurs once; distances ascend; at most `topK`. -/
structure Good (n : Nat) (dead : Nat → Bool) (topK : Nat) (out : List (Nat × Int)) : Prop where
  short : out.length ≤ topK
  once : (out.map (·.1)).Nodup
  ascending : out.Pairwise fun a b => a.2 ≤ b.2
  inRange : ∀ p ∈ out, p.1 < n
  live : ∀ p ∈ out, dead p.1 = false

/-- Nodes reachable from `s` through nodes that are below `n` and not tombstoned. -/
inductive LiveReach (n : Nat) (dead : Nat → Bool) (nbrs : Nat → List Nat) (s : Nat) : Nat → Prop where
  | start : LiveReach n dead nbrs s s
  | step {u v : Nat} : LiveReach n dead nbrs s u → v ∈ nbrs u → v < n → dead v = false → LiveReach n dead nbrs s v

/-- Ascending by distance, ties by id. -/
def nearer (a b : Nat × Int) : Prop := a.2 < b.2 ∨ (a.2 = b.2 ∧ a.1 ≤ b.1)

/-- `out` is the `topK` nearest of the live nodes reachable through live nodes, nearest first. -/
def ExactTopK (n : Nat) (dead : Nat → Bool) (nbrs : Nat → List Nat) (dist : Nat → Int) (medoid topK : Nat) (out : List (Nat × Int)) : Prop :=
  ∃ all : List (Nat × Int), all.Nodup ∧
    (∀ i d, (i, d) ∈ all ↔ LiveReach n dead nbrs medoid i ∧ dead i = false ∧ d = dist i) ∧ Alaya.Spec.Best nearer topK out all

end Alaya.DiskBeam.Spec
