import Verif.Model.Recall
import Mathlib.Data.Finset.Card
import Mathlib.Data.Finset.Dedup

/-!
# What recall and exact neighbours are
-/

namespace Alaya.Recall

variable {α : Type} [DecidableEq α]

/-- The number of different ids a row has in common with the true one. -/
def found (r g : List α) : Nat := (r.toFinset ∩ g.toFinset).card

/-- The recall of some rows of `k` results: the ids found, over all queries, of the `k` per query. -/
def recallOf (rows : List (List α × List α)) (k : Nat) : ℚ :=
  (((rows.map (fun p => found p.1 p.2)).sum : Nat) : ℚ) / ((rows.length * k : Nat) : ℚ)

/-- Row `r` holds `k` of the nearest of the candidates, each once: whatever is left out is not nearer. -/
structure Nearest {D : Type} [LinearOrder D] (dist : Nat → D) (cand : Nat → Prop) (k : Nat) (r : List Nat) : Prop where
  count : r.length = k
  once : r.Nodup
  mem : ∀ x ∈ r, cand x
  near : ∀ x ∈ r, ∀ y, cand y → y ∉ r → dist x ≤ dist y

/-- The row is in order of distance. -/
def Ascending {D : Type} [LinearOrder D] (dist : Nat → D) (r : List Nat) : Prop := r.Pairwise (fun x y => dist x ≤ dist y)

/-- Row `i` of `w` entries of an array. -/
def rowOf (a : Nat → α) (w i : Nat) : List α := (List.range w).map (fun j => a (i * w + j))

end Alaya.Recall
