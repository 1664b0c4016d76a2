import Verif.Model.VamanaFile

/-
Merging shard graphs: /repo/include/index/graph/vamana/shard_merger.hpp.

`std::shuffle` is an arbitrary function `σ : Nat → List Nat → List Nat` (indexed by the node, because the generator's state
moves on); that it permutes its argument is a hypothesis of the theorems.  Opening files, write errors and running out
of memory are not modelled.
-/
namespace Alaya.Vamana

/-- The idmap file as the shard assigner leaves it: count, stride 1, ids. shard_assigner.hpp:68-90. -/
def idmapFile (ids : List Nat) : Bytes := leBytes 4 ids.length ++ leBytes 4 1 ++ encU32s ids

/-- `read_idmap`. shard_merger.hpp:32-52. Trailing bytes are ignored. -/
def readIdmap (b : Bytes) : Option (List Nat) :=
  if b.length < 8 then none
  else if leNat ((b.drop 4).take 4) ≠ 1 then none
  else
    let count := leNat (b.take 4)
    if (b.drop 8).length < 4 * count then none else some (decU32s count (b.drop 8))

/-- `std::is_sorted` (non-strict). -/
def isSorted : List Nat → Bool
  | a :: b :: l => decide (a ≤ b) && isSorted (b :: l)
  | _ => true

/-- Loading all idmaps: each must be readable and sorted. shard_merger.hpp:197-215. -/
def loadIdmaps : List Bytes → Option (List (List Nat))
  | [] => some []
  | b :: bs => match readIdmap b with
    | none => none
    | some ids => if isSorted ids then (loadIdmaps bs).map (ids :: ·) else none

/-- `max_global_id`. shard_merger.hpp:195-204. -/
def maxId (idmaps : List (List Nat)) : Nat := (idmaps.flatMap id).foldl max 0

/-- State of one shard: its idmap, the cursor and the unread part of the graph file. shard_merger.hpp:229-231. -/
structure Rd where
  idmap : List Nat
  cursor : Nat
  rest : Bytes
  deriving DecidableEq, Repr

/-- Opening one shard graph: the local medoid at offset 12 is read and translated, then the stream is positioned at 24.
shard_merger.hpp:232-253. -/
def openShard (idmap : List Nat) (graph : Bytes) : Option (Rd × Nat) :=
  if graph.length < 16 then none
  else match idmap[leNat ((graph.drop 12).take 4)]? with
    | none => none
    | some g => some (⟨idmap, 0, graph.drop 24⟩, g)

/-- All shards. -/
def openAll : List (List Nat) → List Bytes → Option (List Rd × List Nat)
  | ids :: idss, g :: gs => match openShard ids g with
    | none => none
    | some (r, m) => (openAll idss gs).map fun p => (r :: p.1, m :: p.2)
  | _, _ => some ([], [])

/-- The loop over one record's local neighbours: out of range throws, self loops and duplicates are skipped.
shard_merger.hpp:301-313. -/
def addNbrs (gid : Nat) (idmap : List Nat) : List Nat → List Nat → Option (List Nat)
  | [], nh => some nh
  | l :: ls, nh => match idmap[l]? with
    | none => none
    | some g =>
      if g = gid then addNbrs gid idmap ls nh
      else if nh.contains g then addNbrs gid idmap ls nh
      else addNbrs gid idmap ls (nh ++ [g])

/-- One shard's contribution to node `gid`. Only the read of the degree is checked; a short read of the neighbours leaves
zeros in the vector, and only the next read of this shard fails. shard_merger.hpp:283-315. -/
def stepShard (gid : Nat) (r : Rd) (nh : List Nat) : Option (Rd × List Nat) :=
  match r.idmap[r.cursor]? with
  | none => some (r, nh)
  | some g =>
    if g ≠ gid then some (r, nh)
    else if r.rest.length < 4 then none
    else
      let k := leNat (r.rest.take 4)
      let body := r.rest.drop 4
      match addNbrs gid r.idmap (decU32s k body) nh with
      | none => none
      | some nh' => some (⟨r.idmap, r.cursor + 1, body.drop (4 * k)⟩, nh')

/-- All shards for one node. shard_merger.hpp:283-316. -/
def stepAll (gid : Nat) : List Rd → List Nat → Option (List Rd × List Nat)
  | [], nh => some ([], nh)
  | r :: rs, nh => match stepShard gid r nh with
    | none => none
    | some (r', nh') => match stepAll gid rs nh' with
      | none => none
      | some (rs', nh'') => some (r' :: rs', nh'')

/-- The loop over the nodes: gather, shuffle, cut to `R`. The result lists the written records.
shard_merger.hpp:272-331. -/
def mergeLoop (σ : Nat → List Nat → List Nat) (R : Nat) : Nat → Nat → List Rd → Option (List (List Nat))
  | 0, _, _ => some []
  | n + 1, gid, rs => match stepAll gid rs [] with
    | none => none
    | some (rs', nh) => (mergeLoop σ R n (gid + 1) rs').map ((σ gid nh).take R :: ·)

/-- How a call ends. `noReturn`: the 32-bit loop counter cannot reach `N = 2^32`. -/
inductive MergeOut where
  | throws
  | noReturn
  | ok (graph medoids : Bytes)
  deriving DecidableEq, Repr

/-- `merge_shards`: the written graph file and the `_medoids.bin` file. shard_merger.hpp:179-374. -/
def mergeShards (σ : Nat → List Nat → List Nat) (graphs idmapFiles : List Bytes) (R medoid frozen : Nat) : MergeOut :=
  if graphs.length = 0 ∨ idmapFiles.length ≠ graphs.length then .throws
  else match loadIdmaps idmapFiles with
    | none => .throws
    | some idmaps => match openAll idmaps graphs with
      | none => .throws
      | some (rs, meds) => match mergeLoop σ R (maxId idmaps + 1) 0 rs with
        | none => .throws
        | some recs =>
          if maxId idmaps + 1 ≥ 2 ^ 32 then .noReturn
          else .ok (graphFile recs R medoid frozen) (leBytes 4 graphs.length ++ leBytes 4 1 ++ encU32s meds)

end Alaya.Vamana
