import Verif.Model.RaBitQSearch
import Mathlib.Logic.Function.Basic

/-!
# The pool of visited sets

/repo/include/utils/rabitq_utils/search_utils/visited_pool.hpp:20-65 (`HashSetPool`), its use by the searches
(/repo/include/executor/jobs/graph_search_job.hpp:369-410, 442-482) and `clear` of
/repo/include/utils/rabitq_utils/search_utils/hashset.hpp:93-96.  The set itself is that of Model/RaBitQSearch.lean.

Any number of threads take turns in any order.  One step is what is done under the mutex (the choice of a set in `acquire`,
`release`), `clear`, which is called without it, or one call on the set.  A search that ends with an exception after
`acquire` does not call `release`.

Simplifications: a set is named by its place in `heap`, the list of all sets ever made; memory is never exhausted; the
destructor of the pool is left out.
-/

namespace Alaya.VPool
open Alaya.RSearch

/-- `clear`. hashset.hpp:93-96 -/
def wipe (h : HSet) : HSet := { h with table := h.table.map (fun _ => emptyId), stl := [] }

/-- Where a thread is. -/
inductive Pc where
  | idle
  /-- In `acquire`, with the mutex given back and `clear` not yet called. -/
  | taken (p : Nat)
  /-- Between `acquire` and `release`. -/
  | busy (p : Nat)
  deriving DecidableEq, Repr

structure Pool where
  pool : List Nat
  heap : List HSet
  numel : Nat
  pcs : Nat → Pc

/-- The constructor: `push_front` of `n` new sets. visited_pool.hpp:27-31 -/
def init (n maxElements : Nat) : Pool :=
  ⟨(List.range n).reverse, List.replicate n (HSet.new (maxElements / 10)), maxElements / 10, fun _ => .idle⟩

inductive Act where
  | acquire
  | clear
  | set (id : Nat)
  | release
  /-- An exception leaves the search. -/
  | fail
  deriving DecidableEq, Repr

/-- One step of thread `i`; `none` = a step the thread cannot take or undefined behaviour. visited_pool.hpp:46-64 -/
def step (s : Pool) (i : Nat) (a : Act) : Option Pool :=
  match a, s.pcs i with
  | .acquire, .idle =>
    match s.pool with
    | p :: ps => some { s with pool := ps, pcs := Function.update s.pcs i (.taken p) }
    | [] => some { s with heap := s.heap ++ [HSet.new s.numel], pcs := Function.update s.pcs i (.taken s.heap.length) }
  | .clear, .taken p =>
    (s.heap[p]?).map (fun h => { s with heap := s.heap.set p (wipe h), pcs := Function.update s.pcs i (.busy p) })
  | .set id, .busy p =>
    (s.heap[p]?).bind (fun h => (h.set id).map (fun h' => { s with heap := s.heap.set p h' }))
  | .release, .busy p => some { s with pool := p :: s.pool, pcs := Function.update s.pcs i .idle }
  | .fail, .busy _ => some { s with pcs := Function.update s.pcs i .idle }
  | _, _ => none

/-- Any execution. -/
def run (s : Pool) : List (Nat × Act) → Option Pool
  | [] => some s
  | (i, a) :: t => (step s i a).bind (run · t)

/-- `get` on the set the thread holds. -/
def ask (s : Pool) (i id : Nat) : Option Bool :=
  match s.pcs i with
  | .busy p => (s.heap[p]?).bind (fun h => h.get id)
  | _ => none

end Alaya.VPool
