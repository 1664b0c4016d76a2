import Verif.Model.Bytes

/-
The Vamana graph file: /repo/include/index/graph/vamana/vamana_writer.hpp and vamana_reader.hpp.

An exception is `none`.  I/O errors other than short files are not modelled.
-/
namespace Alaya.Vamana

/-- Array of `uint32_t` as written. -/
def encU32s (l : List Nat) : Bytes := l.flatMap (leBytes 4)

/-- `n` values read into a zero-initialised `std::vector<uint32_t>(n)`; where the buffer ends early the missing bytes stay
zero (`leNat` of a short list has zero high bytes). -/
def decU32s : Nat → Bytes → List Nat
  | 0, _ => []
  | n + 1, b => leNat (b.take 4) :: decU32s n (b.drop 4)

/-- One per-node record: degree (cast to `uint32_t`) and that many ids. vamana_writer.hpp:59-65. -/
def encRec (adj : List Nat) : Bytes := leBytes 4 adj.length ++ encU32s (adj.take (adj.length % 2 ^ 32))

/-- The file content of a graph: header with the final size, then the records. vamana_writer.hpp:51-71.
The same layout is written by `merge_shards` (shard_merger.hpp:255-258, 321-332). -/
def graphFile (graph : List (List Nat)) (maxDegree start frozen : Nat) : Bytes :=
  let recs := graph.flatMap encRec
  leBytes 8 (24 + recs.length) ++ leBytes 4 maxDegree ++ leBytes 4 start ++ leBytes 8 frozen ++ recs

/-- `save_graph`. vamana_writer.hpp:33-76. -/
def saveGraph (graph : List (List Nat)) (maxDegree start frozen : Nat) : Bytes := graphFile graph maxDegree start frozen

/-- What the reader exposes. vamana_reader.hpp:226-230. -/
structure Loaded where
  maxDegree : Nat
  start : Nat
  graph : List (List Nat)
  deriving DecidableEq, Repr

/-- The per-node loop; `fuel` bounds the number of records (each takes at least 4 bytes). vamana_reader.hpp:125-172. -/
def readRecs (maxDegree : Nat) : Nat → Bytes → Option (List (List Nat))
  | 0, b => if b.isEmpty then some [] else none
  | fuel + 1, b =>
    if b.isEmpty then some []
    else if b.length < 4 then none
    else
      let k := leNat (b.take 4)
      let rest := b.drop 4
      if k = 0 then none
      else if k > maxDegree then none
      else if rest.length < 4 * k then none
      else (readRecs maxDegree fuel (rest.drop (4 * k))).map (decU32s k rest :: ·)

/-- The neighbour checks after the loop. vamana_reader.hpp:197-209. -/
def nbrsOk (n : Nat) : Nat → List (List Nat) → Bool
  | _, [] => true
  | i, adj :: rest => (adj.all fun x => decide (x < n) && decide (x ≠ i)) && nbrsOk n (i + 1) rest

/-- The constructor of `VamanaReader` on the content of an existing regular file. vamana_reader.hpp:60-217. -/
def readGraph (b : Bytes) : Option Loaded :=
  if b.length < 24 then none
  else
    let size := leNat (b.take 8)
    let maxDegree := leNat ((b.drop 8).take 4)
    let start := leNat ((b.drop 12).take 4)
    let frozen := leNat ((b.drop 16).take 8)
    if b.length ≠ size then none
    else if maxDegree = 0 then none
    else if frozen ≠ 0 then none
    else match readRecs maxDegree b.length (b.drop 24) with
      | none => none
      | some g =>
        if g.length = 0 then none
        else if !nbrsOk g.length 0 g then none
        else if start ≥ g.length then none
        else some ⟨maxDegree, start, g⟩

end Alaya.Vamana
