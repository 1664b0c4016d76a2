import Verif.Model.RaBitQSearch

/-
The builder of the RaBitQ graph. /repo/include/index/graph/qg/qg_builder.hpp

Simplifications: distances are integers (NaN excluded); estimates and distances are arbitrary functions; the test of the angle in
`add_pruned_edges` is an arbitrary function (so the bisection for its threshold is left out: every call starts anew from the same lists and
only the last one counts); random numbers are an arbitrary sequence of ids; the order in which an `unordered_set` is listed is the order of
insertion.  The loops that work on one node only and write only what belongs to it are functions of the node; the loop that adds reverse
edges, which works on lists of other nodes, is a system of threads interleaved in any way.  Its lists are vectors that never grow beyond the
32 entries reserved by `random_init`, so an iterator stays valid while another thread appends.
`none` = undefined behaviour, an exception, or more rounds than the given bound.
-/
namespace Alaya.Qg
open Alaya.Hybrid Alaya.RSearch

/-- `Neighbor`: id and distance. -/
abbrev Cand := Nat × Int

/-- `kDegreeBound`. rabitq_space.hpp:180 -/
def deg : Nat := 32

def idsOf (l : List Cand) : List Nat := l.map Prod.fst

/-- What the builder reads: number of nodes, entry point, `get_distance`, capacity of the search pool, its largest distance and the
distance 1e10 given to the entry point. -/
structure World where
  n : Nat
  ep : Nat
  dist : Nat → Nat → Int
  ef : Nat
  dmax : Int
  d0 : Int

/-! ### Sorting -/

/-- `operator<` of `Neighbor`. neighbor.hpp:29-31 -/
def candLt (a b : Cand) : Bool := decide (a.2 < b.2) || (decide (a.2 = b.2) && decide (a.1 < b.1))

def insC (x : Cand) : List Cand → List Cand
  | [] => [x]
  | y :: ys => if candLt x y then x :: y :: ys else y :: insC x ys

/-- `std::sort`. -/
def sortC : List Cand → List Cand
  | [] => []
  | x :: xs => insC x (sortC xs)

/-! ### Random neighbours -/

/-- `while (neighbor_set.size() < degree_bound_)`; `draw t` is the random number of round `t`. qg_builder.hpp:508-513 -/
def drawSet (draw : Nat → Nat) (i : Nat) : Nat → Nat → List Nat → Option (List Nat)
  | 0, _, acc => if acc.length < deg then none else some acc
  | fuel + 1, t, acc =>
    if acc.length < deg then
      drawSet draw i fuel (t + 1) (if draw t ≠ i ∧ draw t ∉ acc then acc ++ [draw t] else acc)
    else some acc

/-- `random_init` for node `i`. qg_builder.hpp:504-524 -/
def initNode (W : World) (draw : Nat → Nat) (fuel i : Nat) : Option (List Cand) :=
  (drawSet draw i fuel 0 []).map (fun l => l.map (fun v => (v, W.dist i v)))

/-! ### Candidates -/

/-- The loop of `find_candidates`. qg_builder.hpp:292-319 -/
def findLoop {σ : Type} (V : VOps σ) (dmax : Int) (I : Idx) (cur : Nat) : Nat → RSearch.St σ → List Cand → Option (RSearch.St σ × List Cand)
  | 0, s, acc => if s.pool.hasNext then none else some (s, acc)
  | fuel + 1, s, acc =>
    if s.pool.hasNext then
      match step V dmax I s with
      | none => none
      | some (s', none) => findLoop V dmax I cur fuel s' acc
      | some (s', some c) => findLoop V dmax I cur fuel s' (if c ≠ cur then acc ++ [(c, I.exact c)] else acc)
    else some (s, acc)

/-- Adding the current neighbours. qg_builder.hpp:151-156 -/
def addCurrent {σ : Type} (V : VOps σ) (vis : σ) (cur : Nat) : List Cand → List Cand → Option (List Cand)
  | [], acc => some acc
  | c :: cs, acc =>
    if c.1 ≠ cur then
      match V.get vis c.1 with
      | none => none
      | some true => addCurrent V vis cur cs acc
      | some false => addCurrent V vis cur cs (acc ++ [c])
    else addCurrent V vis cur cs acc

/-- The graph a search sees: the ids stored by `update_nei` at the end of the last iteration, as many as `degrees_` says.
`est cur c i` is the estimate for edge `i` of node `c` when `cur` is the query. -/
def view (W : World) (est : Nat → Nat → Nat → Int) (lists : Nat → List Cand) (cur : Nat) : Idx :=
  ⟨W.ep, (List.range W.n).map (fun i => idsOf (lists i)), est cur, W.dist cur⟩

/-- Capacity of `visited_list_`; the constructor computes it from the default 400, before `set_ef_build`. qg_builder.hpp:63, 97 -/
def visCap (W : World) : Nat := min (400 * 400) (W.n / 10)

/-- The candidates of node `cur`, sorted, at most `kMaxCandidatePoolSize`. qg_builder.hpp:142-162 -/
def candidates (W : World) (est : Nat → Nat → Nat → Int) (fuel : Nat) (lists : Nat → List Cand) (cur : Nat) : Option (List Cand) :=
  let I := view W est lists cur
  match start W.d0 W.dmax I W.ef (HSet.new (visCap W)) with
  | none => none
  | some s0 =>
    match findLoop hashOps W.dmax I cur fuel s0 [] with
    | none => none
    | some (s, acc) => (addCurrent hashOps s.vis cur (lists cur) acc).map (fun l => (sortC l).take 750)

/-! ### Pruning -/

/-- The loop of `heuristic_prune` from `start` on: `room` neighbours may still be chosen, a flag says that the candidate has been pruned.
The candidates chosen and those pruned, in order. qg_builder.hpp:350-380 -/
def pruneLoop (dist : Nat → Nat → Int) : Nat → List (Cand × Bool) → List Cand × List Cand
  | 0, _ => ([], [])
  | _ + 1, [] => ([], [])
  | r + 1, (_, true) :: rest => pruneLoop dist (r + 1) rest
  | r + 1, (c, false) :: rest =>
    let hit := fun x : Cand × Bool => !x.2 && decide (dist c.1 x.1.1 < x.1.2)
    let sub := pruneLoop dist r (rest.map (fun x => (x.1, x.2 || hit x)))
    (c :: sub.1, (rest.filter hit).map Prod.fst ++ sub.2)

/-- `heuristic_prune`: the new neighbours and the list of recorded pruned candidates (at most `kMaxPrunedSize`).
qg_builder.hpp:330-381 -/
def prune (W : World) (sup : Bool) (pool old recs : List Cand) : List Cand × List Cand :=
  if pool = [] then (old, recs)
  else if pool.length ≤ deg then (pool, recs)
  else
    let r := pruneLoop W.dist deg (pool.map (fun c => (c, false)))
    (r.1, if sup then (recs ++ r.2).take (max recs.length 300) else recs)

/-- `search_new_neighbors` for node `i`. qg_builder.hpp:141-166 -/
def searchNode (W : World) (est : Nat → Nat → Nat → Int) (fuel : Nat) (sup : Bool) (lists : Nat → List Cand) (i : Nat) :
    Option (List Cand × List Cand) :=
  (candidates W est fuel lists i).map (fun pool => prune W sup pool (lists i) [])

/-! ### Reverse edges -/

/-- `new_neighbors_`, `reverse_buffer`, and per node the end and the position of the iteration over its list (`none` before it begins). -/
structure RState where
  lists : Nat → List Cand
  buf : Nat → List Cand
  prog : Nat → Option (Nat × Nat)

def upd {α : Type} (f : Nat → α) (i : Nat) (x : α) : Nat → α := fun j => if j = i then x else f j

/-- The body of the loop under the lock of `dst`. qg_builder.hpp:180-198 -/
def revEdge (s : RState) (i : Nat) (c : Cand) : RState :=
  if i ∈ idsOf (s.lists c.1) then s
  else if (s.lists c.1).length < deg then { s with lists := upd s.lists c.1 (s.lists c.1 ++ [(i, c.2)]) }
  else if (s.buf c.1).length < 750 then { s with buf := upd s.buf c.1 (s.buf c.1 ++ [(i, c.2)]) }
  else s

/-- One step of one thread: it takes up a node, or deals with the next entry of the node's list. qg_builder.hpp:174-200 -/
inductive RStep (n : Nat) : RState → RState → Prop
  | begin (s : RState) (i : Nat) (hi : i < n) (h : s.prog i = none) :
    RStep n s { s with prog := upd s.prog i (some ((s.lists i).length, 0)) }
  | edge (s : RState) (i m j : Nat) (c : Cand) (h : s.prog i = some (m, j)) (hj : j < m) (hc : (s.lists i)[j]? = some c) :
    RStep n s { revEdge s i c with prog := upd s.prog i (some (m, j + 1)) }

/-- Any number of steps. -/
inductive RRun (n : Nat) : RState → RState → Prop
  | refl (s : RState) : RRun n s s
  | step {s t u : RState} (h : RRun n s t) (hs : RStep n t u) : RRun n s u

/-- All nodes have been dealt with. -/
def RState.done (n : Nat) (s : RState) : Prop := ∀ i, i < n → ∃ m, s.prog i = some (m, m)

/-- The second loop of `add_reverse_edges` for node `i`. qg_builder.hpp:202-212 -/
def reverseNode (W : World) (sup : Bool) (s : RState) (recs : List Cand) (i : Nat) : List Cand × List Cand :=
  prune W sup (sortC (s.buf i ++ s.lists i)) (s.lists i) recs

/-! ### Supplement -/

/-- The loop of `add_pruned_edges`; `occ` is the test of the angle for a candidate and the neighbours so far. qg_builder.hpp:405-446 -/
def addPruned (occ : List Cand → Cand → Bool) : List Cand → List Cand → List Cand
  | [], res => res
  | c :: cs, res =>
    if res.length < deg then
      if c.1 ∈ idsOf res then addPruned occ cs res
      else if occ res c then addPruned occ cs res
      else addPruned occ cs (sortC (res ++ [c]))
    else res

/-- `while (new_result.size() < degree_bound_)` with random nodes. qg_builder.hpp:263-269 -/
def fillLoop (W : World) (draw : Nat → Nat) (i : Nat) : Nat → Nat → List Cand → Option (List Cand)
  | 0, _, res => if res.length < deg then none else some res
  | fuel + 1, t, res =>
    if res.length < deg then
      fillLoop W draw i fuel (t + 1) (if draw t ≠ i ∧ draw t ∉ idsOf res then res ++ [(draw t, W.dist (draw t) i)] else res)
    else some res

/-- `angle_based_supplement` for node `i`. qg_builder.hpp:224-273 -/
def supplementNode (W : World) (occ : List Cand → Cand → Bool) (draw : Nat → Nat) (fuel i : Nat) (cur recs : List Cand) : Option (List Cand) :=
  if deg ≤ cur.length then some cur
  else fillLoop W draw i fuel 0 (addPruned occ (sortC recs) cur)

/-! ### The whole build -/

/-- `search_new_neighbors` and `add_reverse_edges`. qg_builder.hpp:110-120 -/
def Iter (W : World) (est : Nat → Nat → Nat → Int) (fuel : Nat) (sup : Bool) (lists lists' recs' : Nat → List Cand) : Prop :=
  ∃ (l1 r1 : Nat → List Cand) (s : RState), (∀ i, i < W.n → searchNode W est fuel sup lists i = some (l1 i, r1 i)) ∧
    RRun W.n ⟨l1, fun _ => [], fun _ => none⟩ s ∧ s.done W.n ∧
    ∀ i, i < W.n → (lists' i, recs' i) = reverseNode W sup s (r1 i) i

/-- The constructor and `build_graph`: `kNumIter = 3` iterations, the last one with the supplement; `fuel0`, `fuel`, `fuel1` bound the rounds
of the loops in `random_init`, the searches and the supplement. qg_builder.hpp:45-81, 110-136 -/
def Build (W : World) (est : Nat → Nat → Nat → Nat → Int) (occ : Nat → List Cand → Cand → Bool) (draw0 draw1 : Nat → Nat → Nat)
    (fuel0 fuel1 : Nat → Nat) (fuel : Nat) (lists : Nat → List Cand) : Prop :=
  ∃ l0 l1 l2 l3 r1 r2 r3 : Nat → List Cand, (∀ i, i < W.n → initNode W (draw0 i) (fuel0 i) i = some (l0 i)) ∧
    Iter W (est 0) fuel false l0 l1 r1 ∧ Iter W (est 1) fuel false l1 l2 r2 ∧ Iter W (est 2) fuel true l2 l3 r3 ∧
    ∀ i, i < W.n → supplementNode W (occ i) (draw1 i) (fuel1 i) i (l3 i) (r3 i) = some (lists i)

/-! ### The entry point -/

/-- One thread's best node among those it is given; `dc v` is the distance of `v` to the centroid. qg_builder.hpp:476-486 -/
def bestOf (dc : Nat → Int) : List Nat → Nat × Int → Nat × Int
  | [], b => b
  | v :: vs, b => bestOf dc vs (if dc v < b.2 then (v, dc v) else b)

/-- The best of the threads' results. qg_builder.hpp:487-494 -/
def bestEntry : List (Nat × Int) → Nat × Int → Nat × Int
  | [], b => b
  | e :: es, b => bestEntry es (if e.2 < b.2 then e else b)

/-- The second half of `cal_ep`, the nodes distributed over the threads as `parts` says. qg_builder.hpp:472-497 -/
def calEp (dc : Nat → Int) (dmax : Int) (parts : List (List Nat)) : Nat :=
  (bestEntry (parts.map (fun p => bestOf dc p (0, dmax))) (0, dmax)).1

end Alaya.Qg
