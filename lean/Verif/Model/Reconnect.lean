import Verif.Model.Prune
import Verif.Model.F32

/-
Neighbour lists under in-place updates: /repo/include/index/graph/diskann/diskann_index.hpp.

Distances are integers (no NaN); the occlusion factors are floats. `is_deleted` is asked while other inserts publish slots, so its answer
may change from one call to the next: `dead t v` is the answer at call `t`.
-/
namespace Alaya.Reconnect
open Alaya Alaya.Pools

/-- Calls of `is_deleted` so far and `cand` (its elements are those of `seen`). -/
structure Acc where
  t : Nat
  cand : List Nat
  deriving DecidableEq, Repr

/-- `push`. diskann_index.hpp:1963-1967 -/
def push (dead : Nat → Nat → Bool) (node : Nat) (a : Acc) (v : Nat) : Acc :=
  if v ≠ node ∧ dead a.t v = false ∧ v ∉ a.cand then ⟨a.t + 1, a.cand ++ [v]⟩ else ⟨a.t + 1, a.cand⟩

/-- The loop over the neighbours of a removed neighbour; `k` more may be pulled. diskann_index.hpp:1985-1994 -/
def pull (dead : Nat → Nat → Bool) (node : Nat) : Nat → List Nat → Acc → Acc
  | _, [], a => a
  | 0, _, a => a
  | k + 1, o :: os, a =>
    if o = node ∨ dead a.t o = true then pull dead node (k + 1) os ⟨a.t + 1, a.cand⟩
    else pull dead node k os (push dead node ⟨a.t + 1, a.cand⟩ o)

/-- The loop over the stored neighbours; `removed` is `removed_node_nbrs_`. diskann_index.hpp:1972-1995 -/
def scan (dead : Nat → Nat → Bool) (node : Nat) (removed : Nat → Option (List Nat)) : List Nat → Acc → Acc
  | [], a => a
  | v :: vs, a =>
    if v = node then scan dead node removed vs a
    else if dead a.t v = false then scan dead node removed vs (push dead node ⟨a.t + 1, a.cand⟩ v)
    else match removed v with
      | none => scan dead node removed vs ⟨a.t + 1, a.cand⟩
      | some os => scan dead node removed vs (pull dead node 5 os ⟨a.t + 1, a.cand⟩)

/-- The candidates of `update_node_impl_from_snapshot`. diskann_index.hpp:1951-1995 -/
def candidates (dead : Nat → Nat → Bool) (node : Nat) (removed : Nat → Option (List Nat)) (old extra : List Nat) : List Nat :=
  (scan dead node removed old (extra.foldl (push dead node) ⟨0, []⟩)).cand

/-- `score_candidates`. diskann_index.hpp:1826-1850 -/
def score (dist : Nat → Int) (ids : List Nat) : List Nbr := ids.map fun i => ⟨i, dist i, false⟩

/-- What is needed to choose among candidates: the degree bound, alpha, the factor update of the pruning, and `nth_element` (after which
the first elements are those the standard promises). -/
structure Cfg where
  degree : Nat
  alpha : F32
  upd : F32 → Nbr → Nbr → F32
  nth : Nat → List Nbr → List Nbr

/-- `prune_and_write` up to the write: at most `degree` candidates are kept as they are, more are scored, cut to `degree + 32` and pruned;
`none` = the pruning does not end. diskann_index.hpp:1869-1907 -/
def choose (c : Cfg) (dist : Nat → Int) (node : Nat) (cand : List Nat) (fuel : Nat) : Option (List Nat) :=
  if cand.length ≤ c.degree then some cand
  else
    let pool := score dist cand
    let pool := if pool.length > c.degree + 32 then (c.nth (c.degree + 32) pool).take (c.degree + 32) else pool
    if pool.length ≤ c.degree then some ((sortPool pool).map (·.id))
    else prune (F32.arith c.upd) node pool c.alpha c.degree pool.length fuel

/-- The neighbours stored for the node afterwards: nothing is written if the sets are the same. diskann_index.hpp:1908-1914, 2183-2190 -/
def stored (old new : List Nat) : List Nat := if old.isPerm new then old else new

/-- `update_node_impl`. -/
def updateNode (c : Cfg) (dead : Nat → Nat → Bool) (dist : Nat → Int) (node : Nat) (removed : Nat → Option (List Nat)) (old extra : List Nat)
    (fuel : Nat) : Option (List Nat) :=
  (choose c dist node (candidates dead node removed old extra) fuel).map (stored old)

/-- `select_insert_neighbors_exact` on the search result. diskann_index.hpp:1365-1390, 1335-1350 -/
def selectExact (c : Cfg) (doPrune : Bool) (cand : List (Nat × Int)) (fuel : Nat) : Option (List Nat) :=
  if doPrune then
    prune (F32.arith c.upd) 4294967295 (cand.map fun p => ⟨p.1, p.2, false⟩) c.alpha c.degree (max c.degree cand.length) fuel
  else some ((cand.take c.degree).map (·.1))

/-- `select_insert_neighbors_pq`; `order` is the optional re-ranking. diskann_index.hpp:1393-1436 -/
def selectPQ (c : Cfg) (doPrune : Bool) (order : List (Nat × Int) → List (Nat × Int)) (sym : Nat → Int) (cand : List (Nat × Int)) (fuel : Nat) :
    Option (List Nat) :=
  if doPrune then prune (F32.arith c.upd) 4294967295 (score sym (cand.map (·.1))) c.alpha c.degree (max c.degree cand.length) fuel
  else some ((sortPool (score sym (((order cand).take c.degree).map (·.1)))).map (·.id))

/-- The safety net for one node. diskann_index.hpp:2144-2155 -/
def strip (dead : Nat → Bool) (old : List Nat) : List Nat :=
  let live := old.filter fun v => !dead v
  if live.length ≠ old.length then live else old

end Alaya.Reconnect
