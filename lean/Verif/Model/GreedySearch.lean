import Verif.Model.Pools

/-
`VamanaGreedySearch::search`. /repo/include/index/graph/vamana/vamana_greedy_search.hpp:77-152.

The graph is the reader's adjacency list, distances to the query are a function of the node id.  The thread-local
scratch of earlier searches is part of the state.  `none` is undefined behaviour (an index out of range) or running
out of the round bound given to `loop`.
-/
namespace Alaya.Pools

abbrev Graph := List (List Nat)

/-- `SearchScratch`. vamana_greedy_search.hpp:90-94. -/
structure Scratch where
  visited : List Bool
  touched : List Nat
  pool : NPQ
  deriving DecidableEq, Repr

/-- `visited[id] = v` -/
def setAt (vs : List Bool) (id : Nat) (v : Bool) : Option (List Bool) :=
  if id < vs.length then some (vs.set id v) else none

/-- `for (id : visited_touched) visited[id] = 0`. -/
def clearAll (vs : List Bool) : List Nat → Option (List Bool)
  | [] => some vs
  | id :: ids =>
    match setAt vs id false with
    | none => none
    | some vs' => clearAll vs' ids

/-- Preparing the scratch for a graph of `n` nodes. vamana_greedy_search.hpp:98-112. -/
def Scratch.prepare (s : Scratch) (n list : Nat) : Option Scratch :=
  if s.visited.length = n then
    match clearAll s.visited s.touched with
    | none => none
    | some vs => some ⟨vs, [], s.pool.reset list⟩
  else some ⟨List.replicate n false, [], s.pool.reset list⟩

/-- Mark a node visited and offer it to the pool. vamana_greedy_search.hpp:118-122, 129-132. -/
def Scratch.visit (s : Scratch) (dist : Nat → Int) (m : Nat) : Option Scratch :=
  match setAt s.visited m true with
  | none => none
  | some vs =>
    match s.pool.insert ⟨m, dist m, false⟩ with
    | none => none
    | some (pool, _) => some ⟨vs, s.touched ++ [m], pool⟩

/-- The loop over the neighbours. vamana_greedy_search.hpp:127-134. -/
def Scratch.visitAll (s : Scratch) (dist : Nat → Int) : List Nat → Option Scratch
  | [] => some s
  | m :: ms =>
    match s.visited[m]? with
    | none => none
    | some true => s.visitAll dist ms
    | some false =>
      match s.visit dist m with
      | none => none
      | some s' => s'.visitAll dist ms

/-- The search loop, at most `fuel` rounds. vamana_greedy_search.hpp:124-135. -/
def Scratch.loop (g : Graph) (dist : Nat → Int) : Nat → Scratch → Option Scratch
  | 0, s => if s.pool.hasUnexpanded then none else some s
  | fuel + 1, s =>
    if s.pool.hasUnexpanded then
      match s.pool.closest with
      | none => none
      | some (pool, n) =>
        match g[n.id]? with
        | none => none
        | some nbrs =>
          match Scratch.visitAll { s with pool := pool } dist nbrs with
          | none => none
          | some s' => Scratch.loop g dist fuel s'
    else some s

/-- `search`: `some none` = an exception for bad parameters. vamana_greedy_search.hpp:77-152. -/
def search (g : Graph) (start : Nat) (dist : Nat → Int) (topK list fuel : Nat) (s : Scratch) :
    Option (Option (Scratch × List (Nat × Int))) :=
  if topK = 0 then some none
  else if list = 0 then some none
  else if list < topK then some none
  else
    match s.prepare g.length list with
    | none => none
    | some s0 =>
      match s0.visit dist start with
      | none => none
      | some s1 =>
        match Scratch.loop g dist fuel s1 with
        | none => none
        | some s2 => some (some (s2, (s2.pool.entries.take (min topK s2.pool.size)).map (fun e => (e.id, e.dist))))

end Alaya.Pools
