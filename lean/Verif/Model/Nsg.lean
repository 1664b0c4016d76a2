import Verif.Model.SeqStorage

/-
/repo/include/index/graph/nsg/nsg_builder.hpp after `NndescentImpl::build_graph`: `init`, `search_on_graph`, `link` (`sync_prune`,
`add_reverse_links`), the copy into the final graph and `tree_grow`.

Simplifications: one thread; distances are integers and given as a function; `std::sort` is any function `srt` (the theorems ask of it what
they need); the two random generators are arbitrary sequences `gen` (restarted in every search) and `rng` of draws that are reduced modulo
the number of vectors; the kNN graph is an arbitrary graph.  A graph is the list of its rows, `none` for `kEmptyId`; of the rows up to the capacity only
those of the vectors are kept.  `none` as a result means that the given number of rounds (`fuel`) was not enough, or an access outside of a
vector or a row.
-/
namespace Alaya.Nsg

/-- `Graph::at(i, j)`; a new graph is filled with `kEmptyId`. /repo/include/index/graph/graph.hpp -/
abbrev G := List (List (Option Nat))

def G.at (g : G) (i j : Nat) : Option Nat := (g.getD i []).getD j none

/-- `at(i, j) = x`. -/
def put (g : G) (i j x : Nat) : Option G :=
  if i < g.length ∧ j < (g.getD i []).length then some (g.set i ((g.getD i []).set j (some x))) else none

def empty (n R : Nat) : G := List.replicate n (List.replicate R none)

/-- `Node`: id and distance. /repo/include/index/neighbor.hpp:38-46 -/
abbrev Node := Nat × Int

/-- The parameters: number of vectors, `max_nbrs_`, `ef_construction_`, `cut_len_`, width of the kNN graph, distances, draws, sort. -/
structure Env where
  n : Nat
  R : Nat
  ef : Nat
  cut : Nat
  width : Nat
  dist : Nat → Nat → Int
  center : Nat → Int
  gen : Nat → Nat
  rng : Nat → Nat
  srt : List Node → List Node

/-- `Neighbor`: id, distance, not yet expanded. -/
structure Nbr where
  id : Nat
  d : Int
  flag : Bool
  deriving DecidableEq, Repr

abbrev Vis := List Bool

def Vis.has (vis : Vis) (x : Nat) : Bool := vis.getD x false

def Vis.mark (vis : Vis) (x : Nat) : Vis := vis.set x true

/-- The ids of the row of the entry point. nsg_builder.hpp:213-221 -/
def seed (e : Env) (g : G) (w ep : Nat) : Nat → List Nat × Vis × Nat
  | 0 => (List.replicate e.ef 0, List.replicate e.n false, 0)
  | i + 1 =>
    let (ids, vis, num) := seed e g w ep i
    match g.at ep i with
    | some id => if id < e.n then (ids.set i id, vis.mark id, num + 1) else (ids, vis, num)
    | none => (ids, vis, num)

/-- Random ids until the pool is full; `t` counts the draws. nsg_builder.hpp:222-230 -/
def fill (e : Env) : Nat → Nat → List Nat × Vis × Nat → Option (List Nat × Vis)
  | 0, _, _ => none
  | fuel + 1, t, (ids, vis, num) =>
    if num < e.ef then
      let id := e.gen t % e.n
      if vis.has id then fill e fuel (t + 1) (ids, vis, num)
      else fill e fuel (t + 1) (ids.set num id, vis.mark id, num + 1)
    else some (ids, vis)

/-- `std::sort` of the first `pool_size` entries, by distance and id. nsg_builder.hpp:240; neighbor.hpp:29-31 -/
def sortNbrs (l : List Nbr) : List Nbr :=
  l.foldr (fun x acc => acc.takeWhile (fun y => y.d < x.d ∨ (y.d = x.d ∧ y.id < x.id)) ++ x ::
    acc.dropWhile (fun y => y.d < x.d ∨ (y.d = x.d ∧ y.id < x.id))) []

/-- `insert_into_pool` into the pool; the position, or its size if nothing was inserted. nsg_builder.hpp:619-636 -/
def insertPool (pool : List Nbr) (nn : Nbr) : List Nbr × Nat :=
  if pool.any (fun p => p.id == nn.id) then (pool, pool.length)
  else match pool.getLast? with
    | none => (pool, pool.length)
    | some l =>
      if l.d ≤ nn.d then (pool, pool.length)
      else
        let keep := (pool.dropLast.reverse.dropWhile (fun p => nn.d < p.d)).reverse
        (keep ++ nn :: (pool.dropLast.drop keep.length), keep.length)

structure SSt where
  pool : List Nbr
  vis : Vis
  full : List Node
  upd : Nat

/-- One neighbour of an expanded node. nsg_builder.hpp:247-261 -/
def visit (e : Env) (d : Nat → Int) (s : SSt) (id : Nat) : SSt :=
  if e.n ≤ id ∨ s.vis.has id = true then s
  else match s.pool.getLast? with
    | none => { s with vis := s.vis.mark id, full := s.full ++ [(id, d id)] }
    | some l =>
      if l.d ≤ d id then { s with vis := s.vis.mark id, full := s.full ++ [(id, d id)] }
      else { pool := (insertPool s.pool ⟨id, d id, true⟩).1, vis := s.vis.mark id, full := s.full ++ [(id, d id)],
             upd := min s.upd (insertPool s.pool ⟨id, d id, true⟩).2 }

/-- The neighbours of an expanded node, in row order. nsg_builder.hpp:246-262 -/
def expand (e : Env) (d : Nat → Int) (g : G) (x : Nat) : Nat → SSt → SSt
  | 0, s => s
  | m + 1, s =>
    match g.at x m with
    | none => expand e d g x m s
    | some id => visit e d (expand e d g x m s) id

/-- The best-first loop. nsg_builder.hpp:241-266 -/
def walk (e : Env) (d : Nat → Int) (g : G) (w : Nat) : Nat → Nat → SSt → Option SSt
  | 0, _, _ => none
  | fuel + 1, k, s =>
    match s.pool[k]? with
    | none => some s
    | some p =>
      if p.flag then
        let s := expand e d g p.id w { s with pool := s.pool.set k { p with flag := false }, upd := s.pool.length }
        walk e d g w fuel (if s.upd ≤ k then s.upd else k + 1) s
      else walk e d g w fuel (k + 1) s

/-- `search_on_graph` for the query with distances `d` on a graph with rows of width `w`. nsg_builder.hpp:199-268 -/
def search (e : Env) (fuel : Nat) (d : Nat → Int) (g : G) (w ep : Nat) : Option SSt :=
  match fill e fuel 0 (seed e g w ep (min e.ef w)) with
  | none => none
  | some (ids, vis) =>
    walk e d g w fuel 0 ⟨sortNbrs (ids.map (fun i => ⟨i, d i, true⟩)), vis, ids.map (fun i => (i, d i)), 0⟩

/-- The unvisited neighbours in the kNN graph. nsg_builder.hpp:341-349 -/
def more (e : Env) (vis : Vis) (knng : G) (q : Nat) : List Node :=
  (List.range e.width).filterMap (fun i => match knng.at q i with
    | some id => if id < e.n ∧ vis.has id = false then some (id, e.dist q id) else none
    | none => none)

/-- A candidate is left out if it is already chosen or nearer to a chosen one. nsg_builder.hpp:362-375, 437-450 -/
def occluded (e : Env) (res : List Node) (p : Node) : Bool :=
  res.any (fun r => p.1 == r.1 || e.dist r.1 p.1 < p.2)

/-- The pruning loop over the candidates behind the first. nsg_builder.hpp:360-379, 434-454 -/
def prune (e : Env) (res : List Node) : List Node → List Node
  | [] => res
  | p :: ps => if res.length < e.R then prune e (if occluded e res p then res else res ++ [p]) ps else res

/-- Writes the ids into a row from the front and `kEmptyId` behind them. nsg_builder.hpp:381-388 -/
def writeRow (g : G) (q : Nat) (R : Nat) (ids : List Nat) : G := g.set q ((List.range R).map (fun b => ids[b]?))

/-- `sync_prune`. nsg_builder.hpp:335-389 -/
def syncPrune (e : Env) (knng : G) (q : Nat) (s : SSt) (g : G) : Option G :=
  let pool := e.srt (s.full ++ more e s.vis knng q)
  match pool with
  | [] => none
  | p :: ps =>
    if p.1 = q then
      match ps with
      | [] => none
      | p' :: ps' => some (writeRow g q e.R ((prune e [p'] (ps'.take (e.cut - 2))).map Prod.fst))
    else some (writeRow g q e.R ((prune e [p] (ps.take (e.cut - 1))).map Prod.fst))

/-- `link`, first part: nodes `0 .. m-1`. nsg_builder.hpp:279-309 -/
def linkUp (e : Env) (fuel : Nat) (knng : G) (ep : Nat) : Nat → Option G
  | 0 => some (empty e.n e.R)
  | m + 1 =>
    match linkUp e fuel knng ep m with
    | none => none
    | some g =>
      match search e fuel (e.dist m) knng e.width ep with
      | none => none
      | some s => syncPrune e knng m s g

/-- The ids of a row up to the first `kEmptyId`. -/
def ids : List (Option Nat) → List Nat
  | some id :: row => id :: ids row
  | _ => []

/-- One target of `add_reverse_links`: `q` is put into the row of `des`; the "distance" of `q` is the id `des`, that of the others 0.
nsg_builder.hpp:411-477 -/
def reverseOne (e : Env) (g : G) (q des : Nat) : Option G :=
  let row := ids (g.getD des [])
  if row.contains q then some g
  else
    let pool : List Node := row.map (fun x => (x, 0)) ++ [(q, (des : Int))]
    if e.R < pool.length then
      match e.srt pool with
      | [] => none
      | p :: ps =>
        let res := (prune e [p] ps).map Prod.fst
        if des < g.length ∧ res.length ≤ (g.getD des []).length then
          some (g.set des (res.map some ++ (g.getD des []).drop res.length))
        else none
    else put g des row.length q

/-- `add_reverse_links` from position `i` on. nsg_builder.hpp:405-479 -/
def reverseFrom (e : Env) (q : Nat) : Nat → Nat → G → Option G
  | 0, _, g => some g
  | k + 1, i, g =>
    match g.at q i with
    | none => some g
    | some des =>
      match reverseOne e g q des with
      | none => none
      | some g => reverseFrom e q k (i + 1) g

/-- `link`, second part. nsg_builder.hpp:311-323 -/
def reverseAll (e : Env) : Nat → G → Option G
  | 0, g => some g
  | q + 1, g =>
    match reverseAll e q g with
    | none => none
    | some g => reverseFrom e q e.R 0 g

/-- The copy without `kEmptyId` and the degrees. nsg_builder.hpp:112-132 -/
def compact (e : Env) (g : G) : G × List Nat :=
  (g.map (fun row => (List.range e.R).map (fun b => (row.filterMap id)[b]?)), g.map (fun row => (row.filterMap id).length))

/-- The first unvisited id of a row. nsg_builder.hpp:526-532 -/
def nextOf (g : G) (vis : Vis) (x : Nat) : Option Nat := ((g.getD x []).filterMap id).find? (fun y => !vis.has y)

/-- `dfs`. nsg_builder.hpp:514-549 -/
def dfsLoop (g : G) : Nat → List Nat → Vis → Nat → Option (Vis × Nat)
  | 0, _, _, _ => none
  | _ + 1, [], vis, cnt => some (vis, cnt)
  | fuel + 1, x :: stack, vis, cnt =>
    match nextOf g vis x with
    | none => dfsLoop g fuel stack vis cnt
    | some y => dfsLoop g fuel (y :: x :: stack) (vis.mark y) (cnt + 1)

def dfs (g : G) (fuel : Nat) (vis : Vis) (root cnt : Nat) : Option (Vis × Nat) :=
  dfsLoop g fuel [root] (vis.mark root) (if vis.has root then cnt + 1 else cnt)

/-- The draws of `attach_unlinked`. nsg_builder.hpp:594-601 -/
def drawNode (e : Env) (vis : Vis) (deg : List Nat) (id : Nat) : Nat → Nat → Option (Nat × Nat)
  | 0, _ => none
  | fuel + 1, t =>
    let x := e.rng t % e.n
    if vis.has x = false ∧ deg.getD x 0 < e.R ∧ x ≠ id then some (x, t + 1) else drawNode e vis deg id fuel (t + 1)

/-- `attach_unlinked`: the graph, the degrees, the number of draws so far and the node. nsg_builder.hpp:562-609 -/
def attach (e : Env) (fuel : Nat) (ep t : Nat) (g : G) (deg : List Nat) (vis : Vis) : Option (G × List Nat × Nat × Nat) :=
  match (List.range e.n).find? vis.has with
  | none => none
  | some id =>
    match search e fuel (e.dist id) g e.R ep with
    | none => none
    | some s =>
      let pick := match (e.srt s.full).find? (fun p => deg.getD p.1 0 < e.R ∧ p.1 ≠ id) with
        | some p => some (p.1, t)
        | none => drawNode e vis deg id fuel t
      match pick with
      | none => none
      | some (x, t) => (put g x (deg.getD x 0) id).map (fun g => (g, deg.set x (deg.getD x 0 + 1), t, x))

/-- `tree_grow`. nsg_builder.hpp:491-510 -/
def treeGrow (e : Env) (fuel : Nat) (ep : Nat) : Nat → Nat → G → List Nat → Vis → Nat → Nat → Option G
  | 0, _, _, _, _, _, _ => none
  | k + 1, t, g, deg, vis, root, cnt =>
    match dfs g fuel vis root cnt with
    | none => none
    | some (vis, cnt) =>
      if e.n ≤ cnt then some g
      else
        match attach e fuel ep t g deg vis with
        | none => none
        | some (g, deg, t, x) => treeGrow e fuel ep k t g deg vis x cnt

/-- `init`: the entry point. nsg_builder.hpp:161-185 -/
def entry (e : Env) (fuel : Nat) (knng : G) : Option Nat :=
  match search e fuel e.center knng e.width (e.rng 0 % e.n) with
  | none => none
  | some s => s.pool.head?.map (·.id)

/-- `build_graph` over the kNN graph: the graph and its entry point. nsg_builder.hpp:87-152 -/
def build (e : Env) (fuel : Nat) (knng : G) : Option (G × Nat) :=
  match entry e fuel knng with
  | none => none
  | some ep =>
    match linkUp e fuel knng ep e.n with
    | none => none
    | some g =>
      match reverseAll e e.n g with
      | none => none
      | some g =>
        match treeGrow e fuel ep fuel 1 (compact e g).1 (compact e g).2 (List.replicate e.n false) ep 0 with
        | none => none
        | some g => some (g, ep)

/-- A concrete sort. -/
def isort (l : List Node) : List Node :=
  l.foldr (fun x acc => acc.takeWhile (fun y => y.2 < x.2) ++ x :: acc.dropWhile (fun y => y.2 < x.2)) []

/-! ### Insertion into the built index -/

/-- The rows are written by `at(i, j) = id`, which leaves `pos_` and the bitmap of the storage alone.
nsg_builder.hpp:118-122; /repo/include/index/graph/fusion_graph.hpp:64-103; /repo/include/index/graph/graph.hpp `at` -/
def fillRows (s : Seq.Storage) : Nat → List Bytes → Option Seq.Storage
  | _, [] => some s
  | i, row :: rows =>
    match Seq.memWrite s.data (i * s.aligned) row with
    | none => none
    | some data => fillRows { s with data := data } (i + 1) rows

/-- The part of `insert_and_update` that stores the row and the vector (one space); the last component is the id, or `none` for the
exception. /repo/include/executor/jobs/graph_update_job.hpp:80-103, 221-230 -/
def insertBoth (g sp : Seq.Storage) (row vec : Bytes) : Option (Seq.Storage × Seq.Storage × Option Nat) :=
  match g.insert row with
  | none => none
  | some (g1, none) => some (g1, sp, none)
  | some (g1, some id) =>
    match sp.insert vec with
    | none => none
    | some (s1, r) =>
      if r = some id then some (g1, s1, some id)
      else
        match (match r with | some i => (s1.remove i).map Prod.fst | none => some s1), g1.remove id with
        | some s2, some (g2, _) => some (g2, s2, none)
        | _, _ => none

/-- A history of insertions and what each of them returned. -/
def insertMany (g sp : Seq.Storage) : List (Bytes × Bytes) → Option (Seq.Storage × Seq.Storage × List (Option Nat))
  | [] => some (g, sp, [])
  | (row, vec) :: rest =>
    match insertBoth g sp row vec with
    | none => none
    | some (g, sp, r) =>
      match insertMany g sp rest with
      | none => none
      | some (g, sp, rs) => some (g, sp, r :: rs)

end Alaya.Nsg
