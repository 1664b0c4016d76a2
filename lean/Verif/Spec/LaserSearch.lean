import Mathlib.Data.List.Perm.Subperm
import Verif.Spec.HybridSearch
/-! What a search of a LASER graph may visit. -/
namespace Alaya.Laser.Spec

/-- `v` can be reached from a start along edges. -/
inductive Reach (starts : List Nat) (nbs : Nat → List (Nat × Int)) : Nat → Prop
  | start {s : Nat} : s ∈ starts → Reach starts nbs s
  | step {c v : Nat} {d : Int} : Reach starts nbs c → (v, d) ∈ nbs c → Reach starts nbs v

/-- All candidates that were offered when the nodes `A` have been followed: the starts, with the estimate `fmax`, and one for each edge. -/
def offers (starts : List Nat) (nbs : Nat → List (Nat × Int)) (fmax : Int) (A : List Nat) : List (Nat × Int) :=
  starts.map (fun s => (s, fmax)) ++ A.flatMap nbs

/-- `ef` different offers to nodes of `E` have estimates that are no larger than `d`. -/
def Beaten (starts : List Nat) (nbs : Nat → List (Nat × Int)) (fmax : Int) (ef : Nat) (A E : List Nat) (d : Int) : Prop :=
  ∃ P : List (Nat × Int), P.length = ef ∧ P.Subperm (offers starts nbs fmax A) ∧ ∀ x ∈ P, x.1 ∈ E ∧ x.2 ≤ d

/-- `E` are the nodes visited, the edges of those in `A` were followed: no node twice, all reachable; a start or an edge of `A` was left aside
only when `ef` other candidates are no worse. -/
structure Explored (starts : List Nat) (nbs : Nat → List (Nat × Int)) (fmax : Int) (ef : Nat) (A E : List Nat) : Prop where
  nodup : E.Nodup
  sub : ∀ v ∈ A, v ∈ E
  reach : ∀ v ∈ E, Reach starts nbs v
  first : ∀ s ∈ starts, s ∈ E ∨ Beaten starts nbs fmax ef A E fmax
  beam : ∀ c ∈ A, ∀ e ∈ nbs c, e.1 ∈ E ∨ Beaten starts nbs fmax ef A E e.2

end Alaya.Laser.Spec
