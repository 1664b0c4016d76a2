import Verif.Model.DiskNodes

/-!
The node record cache: /repo/include/index/graph/diskann/node_cache.hpp, and the places of
/repo/include/index/graph/diskann/diskann_index.hpp that keep it in step with the pages.

The 64 override shards are one map.  `ceil(cache_ratio * num_points)` is a parameter (`want`).  Writing the two files does not fail here.
-/
namespace Alaya.NodeCache
open Alaya.DiskLayout Alaya.DiskPages Alaya.DiskNodes
open Alaya.DiskSlots (Out)

/-- `class NodeCache`: `ids_`, `node_data_`, `map_` (latest assignment first) and the overrides. node_cache.hpp:413-420 -/
structure NCache where
  dim : Nat
  deg : Nat
  nodeLen : Nat
  ids : List Nat
  data : Bytes
  map : List (Nat × Nat)
  over : List (Nat × Bytes)

/-- Lookup in an association list. -/
def assoc {α : Type} (k : Nat) : List (Nat × α) → Option α
  | [] => none
  | (x, v) :: rest => if x = k then some v else assoc k rest

/-- `find_base_record`, the `node_len_` bytes the pointer refers to; past the end of the buffer is undefined. node_cache.hpp:381-387 -/
def NCache.base (c : NCache) (id : Nat) : Out (Option Bytes) :=
  match assoc id c.map with
  | none => .ok none
  | some off => if off + c.nodeLen ≤ c.data.length then .ok (some ((c.data.drop off).take c.nodeLen)) else .ub

/-- `lookup_record`. node_cache.hpp:271-281 -/
def NCache.lookup (c : NCache) (id : Nat) : Out (Option Bytes) :=
  match assoc id c.over with
  | some r => .ok (some r)
  | none => c.base id

/-- `upsert_node`: validation, a zeroed record, one entry per id. node_cache.hpp:288-297, 348-378 -/
def NCache.upsert (c : NCache) (id : Nat) (coords nbrs : List (BitVec 32)) : Out NCache :=
  if c.dim = 0 ∨ c.nodeLen = 0 then .throws
  else if c.deg < nbrs.length then .throws
  else match packNode (List.replicate c.nodeLen 0) 0 coords nbrs c.dim with
    | .ub => .ub
    | .throws => .throws
    | .ok r => .ok { c with over := (id, r) :: c.over.filter (·.1 ≠ id) }

/-- `update_neighbors`: nothing happens for an unknown node. node_cache.hpp:299-312 -/
def NCache.updateNeighbors (c : NCache) (id : Nat) (nbrs : List (BitVec 32)) : Out NCache :=
  if c.dim = 0 ∨ c.nodeLen = 0 then .throws
  else if c.deg < nbrs.length then .throws
  else match c.lookup id with
    | .ub => .ub
    | .throws => .throws
    | .ok none => .ok c
    | .ok (some r) => match viewCoords r 0 c.dim with
      | .ub => .ub
      | .throws => .throws
      | .ok coords => c.upsert id coords nbrs

/-- `drop_disk_backed_overrides`. node_cache.hpp:319-330 -/
def NCache.dropOverrides (c : NCache) : NCache := { c with over := c.over.filter (fun e => (assoc e.1 c.map).isSome) }

/-! ### generate -/

/-- The neighbours of `u` that are new, in order, with the updated marks. node_cache.hpp:118-123 -/
def scan (n : Nat) : List Nat → List Bool → List Nat × List Bool
  | [], vis => ([], vis)
  | v :: rest, vis =>
    if v < n ∧ vis[v]? = some false then
      let (q, vis') := scan n rest (vis.set v true)
      (v :: q, vis')
    else scan n rest vis

/-- The search loop: at most `fuel` more nodes. node_cache.hpp:114-125 -/
def bfs (n : Nat) (graph : List (List Nat)) : Nat → List Nat → List Bool → List Nat
  | 0, _, _ => []
  | _ + 1, [], _ => []
  | fuel + 1, u :: q, vis =>
    let (new, vis') := scan n (graph[u]?.getD []) vis
    u :: bfs n graph fuel (q ++ new) vis'

/-- The packing loop over the ids from position `i` on. node_cache.hpp:128-139 -/
def packAll (dim deg nodeLen : Nat) (graph : List (List Nat)) (vectors : List (BitVec 32)) : List Nat → Nat → Bytes → List (Nat × Nat) →
    Out (Bytes × List (Nat × Nat))
  | [], _, data, map => .ok (data, map)
  | id :: rest, i, data, map =>
    let nbrs := (graph[id]?.getD []).map (BitVec.ofNat 32)
    match packNode data (i * nodeLen) (vectors.drop (id * dim)) (nbrs.take deg) dim with
    | .ub => .ub
    | .throws => .throws
    | .ok data' => packAll dim deg nodeLen graph vectors rest (i + 1) data' ((id, i * nodeLen) :: map)

/-- `generate`. node_cache.hpp:74-142 -/
def generate (graph : List (List Nat)) (vectors : List (BitVec 32)) (medoid n dim deg want : Nat) : Out NCache :=
  if graph.length ≠ n then .throws
  else if n = 0 ∨ dim = 0 then .throws
  else if n ≤ medoid then .throws
  else match compute dim deg with
    | .ub => .ub
    | .throws => .throws
    | .ok g =>
      let target := min want n
      if target = 0 then .ok ⟨dim, deg, g.nodeLen, [], [], [], []⟩
      else
        let ids := bfs n graph target [medoid] ((List.replicate n false).set medoid true)
        match packAll dim deg g.nodeLen graph vectors ids 0 (List.replicate (ids.length * g.nodeLen) 0) [] with
        | .ub => .ub
        | .throws => .throws
        | .ok (data, map) => .ok ⟨dim, deg, g.nodeLen, ids, data, map, []⟩

/-! ### save and load -/

/-- `std::sort` of distinct ids. -/
def insertId (x : Nat) : List Nat → List Nat
  | [] => [x]
  | y :: ys => if x ≤ y then x :: y :: ys else y :: insertId x ys

def sortIds : List Nat → List Nat
  | [] => []
  | x :: xs => insertId x (sortIds xs)

/-- The ids that are written: the base ids, then the others that have overrides. node_cache.hpp:148-159 -/
def NCache.savedIds (c : NCache) : List Nat :=
  c.ids ++ sortIds ((c.over.map (·.1)).filter (fun id => (assoc id c.map).isNone))

/-- The records in that order. node_cache.hpp:182-191 -/
def NCache.records (c : NCache) : List Nat → Out (List Bytes)
  | [] => .ok []
  | id :: rest => match c.lookup id with
    | .ub => .ub
    | .throws => .throws
    | .ok none => .throws
    | .ok (some r) => match NCache.records c rest with
      | .ub => .ub
      | .throws => .throws
      | .ok rs => .ok (r.take c.nodeLen :: rs)

/-- `save`: the bytes of `cache_ids.bin` and `cache_nodes.bin`. node_cache.hpp:147-196 -/
def NCache.save (c : NCache) : Out (Bytes × Bytes) :=
  let ids := c.savedIds
  match c.records ids with
  | .ub => .ub
  | .throws => .throws
  | .ok rs => .ok (leBytes 8 ids.length ++ ids.flatMap (leBytes 4), leBytes 8 ids.length ++ (leBytes 8 c.nodeLen ++ rs.flatten))

/-- 32-bit ids from bytes. -/
def getIds : Nat → Bytes → List Nat
  | 0, _ => []
  | n + 1, bs => leNat (bs.take 4) :: getIds n (bs.drop 4)

/-- `map_[ids_[i]] = i * node_len_` for all positions. node_cache.hpp:245-249 -/
def indexIds (nodeLen : Nat) : List Nat → Nat → List (Nat × Nat) → List (Nat × Nat)
  | [], _, m => m
  | id :: rest, i, m => indexIds nodeLen rest (i + 1) ((id, i * nodeLen) :: m)

/-- `load` (into a fresh object) followed by `configure_geometry`.  Trailing bytes are not looked at; the product
`node_count * node_len_` is 64-bit. node_cache.hpp:199-262 -/
def load (idsFile nodesFile : Bytes) (dim deg : Nat) : Out NCache :=
  if idsFile.length < 8 then .throws
  else
    let count := leNat (idsFile.take 8)
    let body := idsFile.drop 8
    if body.length < count * 4 then .throws
    else
      let ids := getIds count body
      if nodesFile.length < 16 then .throws
      else
        let nodeCount := leNat (nodesFile.take 8)
        let nodeLen := leNat ((nodesFile.drop 8).take 8)
        if nodeCount ≠ count then .throws
        else
          let size := nodeCount * nodeLen % U64
          if (nodesFile.drop 16).length < size then .throws
          else match compute dim deg with
            | .ub => .ub
            | .throws => .throws
            | .ok g =>
              if nodeLen ≠ 0 ∧ nodeLen ≠ g.nodeLen then .throws
              else .ok ⟨dim, deg, g.nodeLen, ids, (nodesFile.drop 16).take size, indexIds nodeLen ids 0 [], []⟩

/-! ### The index operations that touch records -/

/-- The record state of an updatable `DiskANNIndex`: pages and cache. diskann_index.hpp:2336-2360 -/
structure Store where
  nodes : Nodes
  cache : NCache

/-- `write_inserted_node`. diskann_index.hpp:1690-1695 -/
def Store.insert (sh : Nat → Nat) (g : Geom) (dio : Io) (s : Store) (slot : Nat) (coords nbrs : List (BitVec 32)) : Res Store :=
  match s.nodes.writeNode sh g dio slot coords nbrs with
  | .ub => .ub
  | .throws n => .throws { s with nodes := n }
  | .ok n => match s.cache.upsert slot coords nbrs with
    | .ub => .ub
    | .throws => .throws { s with nodes := n }
    | .ok c => .ok ⟨n, c⟩

/-- `mirror_neighbors_to_cache`. diskann_index.hpp:1923-1938 -/
def Store.mirror (sh : Nat → Nat) (g : Geom) (dio : Io) (s : Store) (id : Nat) (nbrs : List (BitVec 32)) : Res Store :=
  match s.cache.lookup id with
  | .ub => .ub
  | .throws => .throws s
  | .ok (some r) => match viewCoords r 0 g.dim with
    | .ub => .ub
    | .throws => .throws s
    | .ok coords => match s.cache.upsert id coords nbrs with
      | .ub => .ub
      | .throws => .throws s
      | .ok c => .ok { s with cache := c }
  | .ok none => match s.nodes.readCoords sh g dio id with
    | .ub => .ub
    | .throws (_, n) => .throws { s with nodes := n }
    | .ok (none, n) => .throws { s with nodes := n }
    | .ok (some coords, n) => match s.cache.upsert id coords nbrs with
      | .ub => .ub
      | .throws => .throws { s with nodes := n }
      | .ok c => .ok ⟨n, c⟩

/-- The write of `prune_and_write`. diskann_index.hpp:1909-1914 -/
def Store.relink (sh : Nat → Nat) (g : Geom) (dio : Io) (s : Store) (id : Nat) (nbrs : List (BitVec 32)) : Res Store :=
  match s.nodes.writeNeighbors sh g dio id nbrs with
  | .ub => .ub
  | .throws n => .throws { s with nodes := n }
  | .ok n => Store.mirror sh g dio { s with nodes := n } id nbrs

/-- The record part of `flush` (and of `flush_pages`): pages, then overrides. diskann_index.hpp:1015-1020, 1023-1032 -/
def Store.flush (dio : Io) (orders : List (Nat × List Nat)) (s : Store) : Res Store :=
  match s.nodes.flush dio orders with
  | .ub => .ub
  | .throws n => .throws { s with nodes := n }
  | .ok n => .ok ⟨n, s.cache.dropOverrides⟩

/-- The record a search works with: the cached one, or the one in the page it obtained (`page`). beam_search.hpp:232-262, 305-330 -/
def Store.seenIn (g : Geom) (s : Store) (id : Nat) (page : Bytes) : Out Rec :=
  match s.cache.lookup id with
  | .ub => .ub
  | .throws => .throws
  | .ok (some r) => match viewCoords r 0 g.dim with
    | .ub => .ub
    | .throws => .throws
    | .ok c => match viewNbrs r 0 g.dim with
      | .ub => .ub
      | .throws => .throws
      | .ok ns => .ok (c, ns)
  | .ok none => viewRec g page id

end Alaya.NodeCache
