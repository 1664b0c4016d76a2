import Verif.Model.GreedySearch
import Verif.Model.F32

/-
The construction of a Vamana graph by several threads.
/repo/include/index/graph/vamana/vamana_builder.hpp:68-114 (constructor, `build`), 129-158 (scratch), 164-206 (`calculate_entry_point`),
212-267 (`iterate_to_fixed_point`), 269-290 (`search_for_point_and_prune`), 297-356 (`inter_insert`), 440-552 (`link`).

One step of the model is what one thread does from one locked section to the next.  A lock is held only while one list is copied or
replaced, and no second one is taken meanwhile, so a step never waits.  The two loops are `omp parallel for schedule(dynamic, 2048)`: a
thread takes the next 2048 nodes when it has finished its own, and all threads meet at the end of a loop.

Simplifications: distances are integers (they are only compared; NaN is excluded by the callers); the arithmetic of the pruning is that of
`Verif.Model.Prune` with an arbitrary update of the factors; `slack` is the number `(size_t)(1.3f * R)`; marking all new neighbours before
the first of them is inserted into the queue (lines 254-265) is done one by one, since the queue does not look at the marks; the progress
log is left out.
-/
namespace Alaya.VBuild
open Alaya.Pools

/-- The parameters. `dist` is `l2_dist`, `medoid` the result of `calculate_entry_point`. vamana_builder.hpp:44-51 -/
structure Cfg where
  n : Nat
  R : Nat
  L : Nat
  maxc : Nat
  alpha : F32
  /-- vamana_builder.hpp:298 -/
  slack : Nat
  /-- 2048. vamana_builder.hpp:453, 487 -/
  chunk : Nat
  upd : F32 → Nbr → Nbr → F32
  dist : Nat → Nat → Int
  medoid : Nat

/-- What a thread is doing. -/
inductive Ph
  /-- between two nodes -/
  | idle
  /-- in `iterate_to_fixed_point` for a node; `s.pool` so far -/
  | search (node : Nat) (pool : List Nbr)
  /-- in `inter_insert`: the neighbours still to be given the reverse edge -/
  | rev (node : Nat) (rest : List Nat)
  /-- a copied list that is to be pruned; then the rest of `inter_insert`, or nothing in the second loop -/
  | redo (des : Nat) (snap : List Nat) (back : Option (Nat × List Nat))
  deriving DecidableEq, Repr

/-- A thread: the rest of its chunk, and its `Scratch`. -/
structure Thr where
  todo : List Nat
  ph : Ph
  sc : Scratch
  deriving DecidableEq, Repr

/-- First loop, second loop, end. -/
inductive Stage
  | link | cleanup | fin
  deriving DecidableEq, Repr

structure State where
  stage : Stage
  /-- the first node that no thread has taken -/
  next : Nat
  /-- `graph_` -/
  g : List (List Nat)
  thr : List Thr
  deriving DecidableEq, Repr

inductive Out
  /-- there is no such step -/
  | blocked
  /-- undefined behaviour, or a loop that does not end -/
  | ub
  | ok (s : State)
  deriving DecidableEq, Repr

/-- `prune_neighbors` with the parameters of the builder. 487 rounds are enough for every finite alpha (C28).
vamana_builder.hpp:280-289, 340-349, 528-537 -/
def Cfg.prune (c : Cfg) (loc : Nat) (pool : List Nbr) : Option (List Nat) := Alaya.Pools.prune (F32.arith c.upd) loc pool c.alpha c.R c.maxc 487

/-- The pool made of a copied list. vamana_builder.hpp:321-338, 509-526 -/
def poolOf (d : Nat → Int) (self : Nat) : List Nat → List Nbr → List Nbr
  | [], acc => acc
  | v :: vs, acc =>
    if v = self then poolOf d self vs acc
    else if acc.any (fun p => p.id = v) then poolOf d self vs acc
    else poolOf d self vs (acc ++ [⟨v, d v, false⟩])

/-- Replacing thread `t`. -/
def State.thread (s : State) (t : Nat) (x : Thr) : State := { s with thr := s.thr.set t x }

/-- Writing a list. -/
def State.write (s : State) (v : Nat) (l : List Nat) : Option State :=
  if v < s.g.length then some { s with g := s.g.set v l } else none

/-- The start of `search_for_point_and_prune`. vamana_builder.hpp:213-229, 274 -/
def State.start (c : Cfg) (s : State) (t node : Nat) (rest : List Nat) (sc : Scratch) : Out :=
  match sc.prepare c.n c.L with
  | none => .ub
  | some s0 =>
    match s0.visit (c.dist node) c.medoid with
    | none => .ub
    | some s1 => .ok (s.thread t ⟨rest, .search node [], s1⟩)

/-- One round of the search. vamana_builder.hpp:231-266 -/
def State.expand (c : Cfg) (s : State) (t : Nat) (x : Thr) (node : Nat) (pool : List Nbr) : Out :=
  match x.sc.pool.closest with
  | none => .ub
  | some (q, nb) =>
    match s.g[nb.id]? with
    | none => .ub
    | some nbrs =>
      match Scratch.visitAll { x.sc with pool := q } (c.dist node) nbrs with
      | none => .ub
      | some sc => .ok (s.thread t ⟨x.todo, .search node (pool ++ [nb]), sc⟩)

/-- The end of the search, the pruning, and the new list of the node. vamana_builder.hpp:275-289, 458-463 -/
def State.own (c : Cfg) (s : State) (t : Nat) (x : Thr) (node : Nat) (pool : List Nbr) : Out :=
  match c.prune node (pool.filter (fun p => p.id ≠ node)) with
  | none => .ub
  | some l =>
    match s.write node l with
    | none => .ub
    | some s' => .ok (s'.thread t ⟨x.todo, .rev node l, x.sc⟩)

/-- The reverse edge for one neighbour. vamana_builder.hpp:299-315 -/
def State.back (c : Cfg) (s : State) (t : Nat) (x : Thr) (node des : Nat) (rest : List Nat) : Out :=
  match s.g[des]? with
  | none => .ub
  | some l =>
    if node ∈ l then .ok (s.thread t ⟨x.todo, .rev node rest, x.sc⟩)
    else if l.length < c.slack then
      match s.write des (l ++ [node]) with
      | none => .ub
      | some s' => .ok (s'.thread t ⟨x.todo, .rev node rest, x.sc⟩)
    else .ok (s.thread t ⟨x.todo, .redo des (l ++ [node]) (some (node, rest)), x.sc⟩)

/-- After the replaced list. -/
def after : Option (Nat × List Nat) → Ph
  | none => .idle
  | some (node, rest) => .rev node rest

/-- Pruning a copy and replacing the list by it. vamana_builder.hpp:316-354, 507-542 -/
def State.redo (c : Cfg) (s : State) (t : Nat) (x : Thr) (des : Nat) (snap : List Nat) (back : Option (Nat × List Nat)) : Out :=
  match c.prune des (poolOf (c.dist des) des snap []) with
  | none => .ub
  | some l =>
    match s.write des l with
    | none => .ub
    | some s' => .ok (s'.thread t ⟨x.todo, after back, x.sc⟩)

/-- The next step of thread `t`. vamana_builder.hpp:453-549 -/
def State.run (c : Cfg) (s : State) (t : Nat) : Out :=
  match s.thr[t]? with
  | none => .blocked
  | some x =>
    match x.ph with
    | .idle =>
      match x.todo with
      | [] =>
        if s.next < c.n then
          .ok { (s.thread t ⟨List.range' s.next (min c.chunk (c.n - s.next)), .idle, x.sc⟩) with next := s.next + min c.chunk (c.n - s.next) }
        else .blocked
      | node :: rest =>
        match s.stage with
        | .link => s.start c t node rest x.sc
        | .cleanup =>
          match s.g[node]? with
          | none => .ub
          | some l => .ok (s.thread t ⟨rest, if c.R < l.length then .redo node l none else .idle, x.sc⟩)
        | .fin => .blocked
    | .search node pool => if x.sc.pool.hasUnexpanded then s.expand c t x node pool else s.own c t x node pool
    | .rev _ [] => .ok (s.thread t ⟨x.todo, .idle, x.sc⟩)
    | .rev node (des :: rest) => s.back c t x node des rest
    | .redo des snap back => s.redo c t x des snap back

/-- All threads have reached the end of a loop. -/
def State.barrier (c : Cfg) (s : State) : Out :=
  if c.n ≤ s.next ∧ s.thr.all (fun x => x.ph = .idle ∧ x.todo = []) then
    match s.stage with
    | .link => .ok { s with stage := .cleanup, next := 0 }
    | .cleanup => .ok { s with stage := .fin }
    | .fin => .blocked
  else .blocked

/-- What can happen next. -/
inductive Act
  | run (t : Nat)
  | barrier
  deriving DecidableEq, Repr

def State.step (c : Cfg) (s : State) : Act → Out
  | .run t => s.run c t
  | .barrier => s.barrier c

/-- At the beginning of `link`, with `threads` threads. vamana_builder.hpp:139-151, 441 -/
def State.init (c : Cfg) (threads : Nat) : State :=
  ⟨.link, 0, List.replicate c.n [], List.replicate threads ⟨[], .idle, ⟨List.replicate c.n false, [], NPQ.new c.L⟩⟩⟩

/-! ### The entry point -/

/-- The scan of one thread: smallest distance so far (`none` = the largest double) and its id. vamana_builder.hpp:182-196 -/
def localBest (d : Nat → Int) : List Nat → Option Int × Nat → Option Int × Nat
  | [], b => b
  | i :: is, b => localBest d is (if b.1.all (d i < ·) then (some (d i), i) else b)

/-- The critical section of one thread. vamana_builder.hpp:197-203 -/
def critical (b l : Option Int × Nat) : Option Int × Nat :=
  match l.1 with
  | none => b
  | some x => if b.1.all (x < ·) then l else b

/-- `calculate_entry_point`: `parts` are the indices each thread scans, in the order in which the threads enter the critical section;
`d` is the distance to the centroid. vamana_builder.hpp:178-206 -/
def medoidOf (d : Nat → Int) (parts : List (List Nat)) : Nat :=
  ((parts.map (fun p => localBest d p (none, 0))).foldl critical (none, 0)).2

end Alaya.VBuild
