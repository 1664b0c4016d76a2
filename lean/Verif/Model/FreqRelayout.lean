/-!
# Reordering adjacency rows by how often neighbours were visited

/repo/include/index/graph/laser/utils/freq_relayout.hpp:49-77 (`relayout_adj`), one row; the rows do not depend on each other.

Simplifications: `std::sort` is not stable, so the sorted row of the visit file is given from outside (any order of it by falling frequency); the visit
file is read elsewhere (`read_freq`, not modelled); a throw inside the parallel loop, which ends the program, is `none`.  No other file of the repository
calls this function.
-/

namespace Alaya.Relayout

/-- Neighbours of the row not yet placed. freq_relayout.hpp:65-69 -/
def rest : List Nat → List Nat → List Nat
  | _, [] => []
  | vis, v :: t => if v ∈ vis then rest vis t else v :: rest (v :: vis) t

/-- The new row; `sorted` is the visit row (neighbour, frequency) by falling frequency. freq_relayout.hpp:57-75 -/
def relayout (sorted : List (Nat × Nat)) (row : List Nat) : Option (List Nat) :=
  let tmp := sorted.map Prod.fst
  let tmp := tmp ++ rest tmp row
  if row.length ≠ tmp.length then none else some tmp

end Alaya.Relayout
