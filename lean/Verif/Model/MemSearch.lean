import Verif.Model.Pools
import Verif.Model.TopK

/-
The search over an in-memory graph.
/repo/include/executor/jobs/graph_search_job.hpp:638-754 (`search_solo`, twice) and 499-625 (`search`, the coroutine form of the same
loop: it suspends between steps, its state is local to the query),
/repo/include/index/graph/graph.hpp:133-146 (`initialize_search`), /repo/include/index/graph/overlay_graph.hpp:101-130 (`initialize`).

Simplifications: distances to the query are a function of the node id into the integers (NaN excluded); prefetching is left out;
`ef` is below 2^31 (`int capacity`).  `none` = undefined behaviour (an access outside of an array) or more rounds than the bound
given to a loop.
-/
namespace Alaya.MemSearch
open Alaya.Pools

/-- `static_cast<IDType>(-1)`, also `kInvalidId`. graph.hpp:38, graph_search_job.hpp:132 -/
def noId : Nat := 4294967295

/-- `OverlayGraph`: the upper layers of HNSW.  `lists[i]` holds `levels[i]` blocks of `maxNbrs` ids. overlay_graph.hpp:22-33 -/
structure Overlay where
  maxNbrs : Nat
  ep : Nat
  levels : List Nat
  lists : List (List Nat)
  deriving DecidableEq, Repr

/-- `Graph`: `rows` is `data_storage_`, one row of `max_nbrs_` ids for every node up to the capacity. graph.hpp:40-47 -/
structure MGraph where
  rows : List (List Nat)
  eps : List Nat
  overlay : Option Overlay
  deriving DecidableEq, Repr

/-- `edges(level, i)`: the block of one level; `none` if it is not inside `lists[i]`. overlay_graph.hpp:77-92 -/
def Overlay.block (o : Overlay) (level i : Nat) : Option (List Nat) :=
  match o.lists[i]? with
  | none => none
  | some l => if 1 ≤ level ∧ level * o.maxNbrs ≤ l.length then some ((l.drop ((level - 1) * o.maxNbrs)).take o.maxNbrs) else none

/-- The scan of one list on the way down: the nearest node so far and whether it changed. overlay_graph.hpp:110-118 -/
def nearer (dist : Nat → Int) : List Nat → (Nat × Int) × Bool → (Nat × Int) × Bool
  | [], r => r
  | v :: vs, r =>
    if v = noId then r
    else if dist v < r.1.2 then nearer dist vs ((v, dist v), true) else nearer dist vs r

/-- `while (changed)` on one level, at most `fuel` rounds. overlay_graph.hpp:106-120 -/
def Overlay.onLevel (o : Overlay) (dist : Nat → Int) (level : Nat) : Nat → Nat × Int → Option (Nat × Int)
  | 0, _ => none
  | fuel + 1, u =>
    match o.block level u.1 with
    | none => none
    | some list =>
      let r := nearer dist list (u, false)
      if r.2 then o.onLevel dist level fuel r.1 else some r.1

/-- `for (level = levels_[ep]; level > 0; --level)`. overlay_graph.hpp:105-121 -/
def Overlay.down (o : Overlay) (dist : Nat → Int) (fuel : Nat) : Nat → Nat × Int → Option (Nat × Int)
  | 0, u => some u
  | level + 1, u =>
    match o.onLevel dist (level + 1) fuel u with
    | none => none
    | some u' => o.down dist fuel level u'

/-- State of a search: the pool and the ids marked in `vis_`. -/
structure St where
  pool : LinearPool
  seen : List Nat
  deriving DecidableEq, Repr

/-- `vis_` is a bitset of `n` bits stored in words of 64. query_utils.hpp:66-87 -/
def bits (n : Nat) : Nat := (n + 63) / 64 * 64

/-- `if (vis_.get(v)) continue; vis_.set(v); pool.insert(v, dist(v));`. graph_search_job.hpp:655-668, graph.hpp:139-144 -/
def St.visit (n : Nat) (dist : Nat → Int) (s : St) (v : Nat) : Option St :=
  if v < bits n then
    if v ∈ s.seen then some s
    else match s.pool.insert v (dist v) with
      | none => none
      | some (p, _) => some ⟨p, s.seen ++ [v]⟩
  else none

/-- The loop over a row up to the first -1. graph_search_job.hpp:649-669 -/
def St.scan (n : Nat) (dist : Nat → Int) : List Nat → St → Option St
  | [], s => some s
  | v :: vs, s =>
    if v = noId then some s
    else match s.visit n dist v with
      | none => none
      | some s' => St.scan n dist vs s'

/-- The entry points without an overlay graph. graph.hpp:138-144 -/
def St.seeds (n : Nat) (dist : Nat → Int) : List Nat → St → Option St
  | [], s => some s
  | v :: vs, s =>
    match s.visit n dist v with
    | none => none
    | some s' => St.seeds n dist vs s'

/-- `initialize_search`. graph.hpp:133-146, overlay_graph.hpp:101-130 -/
def MGraph.start (g : MGraph) (n : Nat) (dist : Nat → Int) (fuel : Nat) (s : St) : Option St :=
  match g.overlay with
  | none => s.seeds n dist g.eps
  | some o =>
    match o.levels[o.ep]? with
    | none => none
    | some l =>
      match o.down dist fuel l (o.ep, dist o.ep) with
      | none => none
      | some u => s.visit n dist u.1

/-- `while (pool.has_next())`, at most `fuel` rounds. graph_search_job.hpp:647-670 -/
def loop (g : MGraph) (n : Nat) (dist : Nat → Int) : Nat → St → Option St
  | 0, s => if s.pool.hasNext then none else some s
  | fuel + 1, s =>
    if s.pool.hasNext then
      match s.pool.pop with
      | none => none
      | some (p, x) =>
        match g.rows[x.1]? with
        | none => none
        | some row =>
          match St.scan n dist row ⟨p, s.seen⟩ with
          | none => none
          | some s' => loop g n dist fuel s'
    else some s

/-- The common part of the searches: the pool at the end. -/
def walk (g : MGraph) (n : Nat) (dist : Nat → Int) (ef fuel : Nat) : Option St :=
  match g.start n dist fuel ⟨LinearPool.new ef, []⟩ with
  | none => none
  | some s => loop g n dist fuel s

/-- The output arrays: the hits, then `kInvalidId` / `kInvalidDistance`. -/
def padded (topk : Nat) (hits : List (Nat × Int)) : List (Nat × Option Int) :=
  hits.map (fun h => (h.1, some h.2)) ++ List.replicate (topk - hits.length) (noId, none)

/-- `search_solo` for equal search and build spaces; `some none` = exception. graph_search_job.hpp:638-681, 694-754 -/
def solo (g : MGraph) (n : Nat) (dist : Nat → Int) (topk ef fuel : Nat) : Option (Option (List (Nat × Option Int))) :=
  if ef < topk then some none
  else match walk g n dist ef fuel with
    | none => none
    | some s => some (some (padded topk (s.pool.entries.take (min s.pool.size topk))))

/-- `search_solo` when the search space is quantised: `dist` is the quantised distance, `exact` the one of the build space.
graph_search_job.hpp:672-673, 743-744 -/
def soloRerank (H : TopK.StdHeap TopK.Hit TopK.Hit.lt) (g : MGraph) (n : Nat) (dist exact : Nat → Int) (topk ef fuel : Nat)
    (invalid : TopK.Hit) : Option (Option (List TopK.Hit)) :=
  if ef < topk then some none
  else match walk g n dist ef fuel with
    | none => none
    | some s =>
      match TopK.rerank H exact (s.pool.entries.map Prod.fst) topk invalid with
      | none => none
      | some r => some (some r)

end Alaya.MemSearch
