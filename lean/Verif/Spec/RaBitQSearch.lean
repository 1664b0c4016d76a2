import Mathlib.Data.List.Perm.Subperm
import Verif.Spec.HybridSearch
/-! What a search over a RaBitQ graph may return. -/
namespace Alaya.RSearch.Spec

/-- Edge `i` of node `c` leads to node `v`. -/
def Edge (rows : List (List Nat)) (c i v : Nat) : Prop := ∃ row, rows[c]? = some row ∧ row[i]? = some v

/-- `v` can be reached from the entry point along edges. -/
inductive Reach (rows : List (List Nat)) (ep : Nat) : Nat → Prop
  | start : Reach rows ep ep
  | step {c i v : Nat} : Reach rows ep c → Edge rows c i v → Reach rows ep v

/-- All candidates that were offered when the nodes `E` have been expanded: the entry point, with the estimate `d0`, and one for each edge. -/
def offers (rows : List (List Nat)) (est : Nat → Nat → Int) (d0 : Int) (ep : Nat) (E : List Nat) : List (Nat × Int) :=
  (ep, d0) :: E.flatMap (fun c => ((rows.getD c []).zipIdx 0).map (fun x => (x.1, est c x.2)))

/-- `E` are the nodes expanded by a search from `ep` with a beam of width `ef`: no node twice, all reachable, and an edge of an expanded node was
left aside only when its estimate is infinite or `ef` different offers to expanded nodes have estimates that are no larger
(the entry point counts as an offer with the largest finite estimate). -/
structure Expanded (rows : List (List Nat)) (est : Nat → Nat → Int) (dmax : Int) (ep ef : Nat) (E : List Nat) : Prop where
  nodup : E.Nodup
  valid : ∀ v ∈ E, v < rows.length
  entry : ep ∈ E
  reach : ∀ v ∈ E, Reach rows ep v
  beam : ∀ c ∈ E, ∀ i v, Edge rows c i v → v ∈ E ∨ dmax < est c i ∨
    ∃ P : List (Nat × Int), P.length = ef ∧ P.Subperm (offers rows est dmax ep E) ∧ ∀ x ∈ P, x.1 ∈ E ∧ x.2 ≤ est c i

/-- `S` are the nodes whose exact distance was computed, when `k` results are wanted: the expanded ones, and if these are less than `k`
also nodes one step from an expanded one; all of these if there are still less than `k`. -/
structure Evaluated (rows : List (List Nat)) (k : Nat) (E S : List Nat) : Prop where
  nodup : S.Nodup
  sub : ∀ v ∈ E, v ∈ S
  near : ∀ v ∈ S, v ∈ E ∨ ∃ c ∈ E, ∃ i, Edge rows c i v
  enough : k ≤ E.length → ∀ v ∈ S, v ∈ E
  all : S.length < k → ∀ c ∈ E, ∀ i v, Edge rows c i v → v ∈ S

end Alaya.RSearch.Spec
