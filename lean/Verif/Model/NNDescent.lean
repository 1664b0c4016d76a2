import Mathlib.Data.List.Sort
import Mathlib.Order.Basic

/-!
# Candidate pools of the k-NN graph builder

/repo/include/utils/random.hpp:23-38 (`gen_random`) and the pool of one node in
/repo/include/index/graph/knng/nndescent.hpp: filled from a random sample (178-195), changed by `insert` under the node's lock (65-86), copied
into the row of the graph (141-146).  Which pairs `join` offers (244-271) is left open: any sequence of offers of other nodes with their
distances, in any order.

Simplifications: distances are elements of a linear order (no NaN); `std::push_heap`, `pop_heap` and `make_heap` are taken to keep the largest
element in front, so the pool is a list and the front its largest element; the flags, which only steer what is offered, and the reordering in
`update` are left out (a pool never exceeds its limit, so its `resize` does nothing); ids do not overflow (`2 n + size` fits the type).
-/

namespace Alaya.NND

/-- The second loop of `gen_random`, after the element `p`. random.hpp:29-33 -/
def bumpFrom : Nat → List Nat → List Nat
  | _, [] => []
  | p, a :: t => let b := if a ≤ p then p + 1 else a; b :: bumpFrom b t

def bump : List Nat → List Nat
  | [] => []
  | a :: t => a :: bumpFrom a t

/-- `gen_random` with the numbers drawn: one for each place, then the offset. random.hpp:24-38 -/
def genRandom (raw : List Nat) (rawOff n : Nat) : List Nat :=
  (bump ((raw.map (· % n)).insertionSort (· ≤ ·))).map (fun a => (a + rawOff % n) % n)

variable {K : Type} [LinearOrder K]

/-- `Neighbor`, without its flag. neighbor.hpp:20-34 -/
structure Cand (K : Type) where
  id : Nat
  dist : K
  deriving DecidableEq, Repr

/-- `operator<`. neighbor.hpp:29-31 -/
def less (a b : Cand K) : Bool := decide (a.dist < b.dist) || (decide (a.dist = b.dist) && decide (a.id < b.id))

/-- The front of the heap. -/
def largest : List (Cand K) → Option (Cand K)
  | [] => none
  | e :: t => some (t.foldl (fun m x => if less m x then x else m) e)

/-- The pool of node `start`. nndescent.hpp:178-195 -/
def initPool (dist : Nat → Nat → K) (start : Nat) (sample : List Nat) : List (Cand K) :=
  (sample.filter (fun id => id ≠ start)).map (fun id => ⟨id, dist start id⟩)

/-- `insert`; `none` = `front` of an empty vector. nndescent.hpp:65-86 -/
def insert (cap : Nat) (pool : List (Cand K)) (c : Cand K) : Option (List (Cand K)) :=
  (largest pool).map (fun m =>
    if m.dist < c.dist then pool
    else if pool.any (fun e => e.id = c.id) then pool
    else if pool.length < cap then pool ++ [c]
    else pool.erase m ++ [c])

/-- All offers to node `start`, in the order in which they get the lock. nndescent.hpp:258-264 -/
def offers (dist : Nat → Nat → K) (start cap : Nat) (pool : List (Cand K)) (ids : List Nat) : Option (List (Cand K)) :=
  ids.foldlM (fun p id => insert cap p ⟨id, dist start id⟩) pool

/-- The row of the graph: the first `k` of the sorted pool; `none` = read past the end. nndescent.hpp:141-146 -/
def row (k : Nat) (pool : List (Cand K)) : Option (List Nat) :=
  let sorted := pool.insertionSort (fun a b => less b a = false)
  (List.range k).mapM (fun (j : Nat) => (sorted[j]?).map Cand.id)

end Alaya.NND
