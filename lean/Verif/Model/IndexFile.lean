import Verif.Model.SeqStorage
import Verif.Model.GraphUpdate

/-
The files of an in-memory index.
/repo/include/index/graph/graph.hpp:153-227 (`save`, `load`), /repo/include/index/graph/overlay_graph.hpp:137-187,
/repo/include/space/raw_space.hpp:299-407, /repo/python/include/index.hpp:179-250 (`save_state`, `load_state`, one space for search
and build).

`w` is `sizeof(IDType)`, 4 or 8.  `load` takes as arguments what the fresh memory holds before it is read into (`Junk`).  `none` = the
file is too short (the code does not notice and goes on with what memory holds), a division by zero or an access outside of an array.
Simplifications: opening the files succeeds; the RocksDB directory a space names is not part of the file (see C16 and C58).
-/
namespace Alaya.IndexFile
open Alaya.MemSearch Alaya.GraphUpdate

/-- `reader.read(&x, w)`. -/
def rdNat (w : Nat) (file : Bytes) : Option (Nat × Bytes) :=
  match splitN w file with
  | none => none
  | some (bs, rest) => some (leNat bs, rest)

/-- An array of ids as bytes. -/
def idBytes (w : Nat) : List Nat → Bytes
  | [] => []
  | v :: vs => leBytes w v ++ idBytes w vs

/-- The first `n` ids in a block of bytes. -/
def idsOf (w : Nat) : Nat → Bytes → List Nat
  | 0, _ => []
  | n + 1, bs => leNat (bs.take w) :: idsOf w n (bs.drop w)

/-- `OverlayGraph<IDType, IDType>`. overlay_graph.hpp:22-33 -/
structure Over where
  nodeNum : Nat
  maxNbrs : Nat
  ep : Nat
  levels : List Nat
  lists : List (List Nat)
  deriving DecidableEq, Repr

/-- The loop of `save` over the nodes; `none` = read beyond a list. overlay_graph.hpp:182-186 -/
def saveLists (w maxNbrs : Nat) : List Nat → List (List Nat) → Option Bytes
  | [], _ => some []
  | _ :: _, [] => none
  | lv :: lvs, l :: ls =>
    if lv * maxNbrs * 4 ≤ l.length * w then
      match saveLists w maxNbrs lvs ls with
      | none => none
      | some bs => some (leBytes 4 (lv * maxNbrs) ++ ((idBytes w l).take (lv * maxNbrs * 4) ++ bs))
    else none

/-- `save`: `node_num_`, `max_nbrs_` and `ep_` with four bytes each. overlay_graph.hpp:176-187 -/
def Over.save (w : Nat) (o : Over) : Option Bytes :=
  match saveLists w o.maxNbrs (o.levels.take o.nodeNum) o.lists with
  | none => none
  | some bs => some (leBytes 4 o.nodeNum ++ (leBytes 4 o.maxNbrs ++ (leBytes 4 o.ep ++ bs)))

/-- The loop of `load`: the list is resized to `cur` times -1 and its first `cur * 4` bytes are read. overlay_graph.hpp:149-161 -/
def loadLists (w maxNbrs : Nat) : Nat → Bytes → Option (List Nat × List (List Nat) × Bytes)
  | 0, file => some ([], [], file)
  | n + 1, file =>
    match rdNat 4 file with
    | none => none
    | some (cur, f1) =>
      if cur < 2 ^ 31 ∧ 0 < maxNbrs then
        match splitN (cur * 4) f1 with
        | none => none
        | some (bs, f2) =>
          match loadLists w maxNbrs n f2 with
          | none => none
          | some (lvs, ls, f3) =>
            some (cur / maxNbrs :: lvs, idsOf w cur (bs ++ List.replicate (cur * w - cur * 4) 255) :: ls, f3)
      else none

/-- The low four bytes of a member of `w` bytes are replaced. -/
def setLow (old new : Nat) : Nat := 2 ^ 32 * (old / 2 ^ 32) + new

/-- `load` into `OverlayGraph(max_nodes_, max_nbrs_)`; `ep0` is the uninitialised `ep_`. overlay_graph.hpp:137-162, graph.hpp:222-225 -/
def Over.load (w maxNodes maxNbrs ep0 : Nat) (file : Bytes) : Option (Over × Bytes) :=
  match rdNat 4 file with
  | none => none
  | some (a, f1) =>
  match rdNat 4 f1 with
  | none => none
  | some (b, f2) =>
  match rdNat 4 f2 with
  | none => none
  | some (c, f3) =>
    match loadLists w (setLow maxNbrs b) (setLow maxNodes a) f3 with
    | none => none
    | some (lvs, ls, rest) => some (⟨setLow maxNodes a, setLow maxNbrs b, setLow ep0 c, lvs, ls⟩, rest)

/-- `Graph`. graph.hpp:40-47 -/
structure GraphS where
  eps : List Nat
  maxNodes : Nat
  maxNbrs : Nat
  store : Seq.Storage
  overlay : Option Over
  deriving DecidableEq, Repr

/-- What fresh memory holds. -/
structure Junk where
  graphBits : List (BitVec 8)
  spaceBits : List (BitVec 8)
  ep : Nat
  pad : Bytes

/-- `save`; `max_nbrs_` has four bytes and is written with `sizeof(NodeIDType)` bytes, `pad` follows it in memory.
graph.hpp:153-188 -/
def GraphS.save (w : Nat) (pad : Bytes) (g : GraphS) : Option Bytes :=
  let head := leBytes 4 g.eps.length ++ (idBytes w g.eps ++ (leBytes w g.maxNodes ++
    (leBytes 4 g.maxNbrs ++ (pad.take (w - 4) ++ g.store.save))))
  match g.overlay with
  | none => some head
  | some o =>
    match o.save w with
    | none => none
    | some bs => some (head ++ bs)

/-- `load`. graph.hpp:195-227 -/
def GraphS.load (w : Nat) (j : Junk) (file : Bytes) : Option GraphS :=
  match rdNat 4 file with
  | none => none
  | some (nep, f1) =>
  match splitN (nep * w) f1 with
  | none => none
  | some (es, f2) =>
  match rdNat w f2 with
  | none => none
  | some (maxNodes, f3) =>
  match rdNat 4 f3 with
  | none => none
  | some (maxNbrs, f4) =>
  match splitN (w - 4) f4 with
  | none => none
  | some (_, f5) =>
  match Seq.load j.graphBits f5 with
  | none => none
  | some (store, f6) =>
    if f6 = [] then some ⟨idsOf w nep es, maxNodes, maxNbrs, store, none⟩
    else
      match Over.load w maxNodes maxNbrs j.ep f6 with
      | none => none
      | some (o, _) => some ⟨idsOf w nep es, maxNodes, maxNbrs, store, some o⟩

/-- `RocksDBConfig`. /repo/include/storage/rocksdb_storage.hpp:45-62 -/
structure Config where
  dbPath : Bytes
  writeBuffer : Nat
  buffers : Nat
  fileSize : Nat
  compactions : Nat
  flushes : Nat
  cacheMb : Nat
  compress : Bool
  fields : List Bytes
  deriving DecidableEq, Repr

/-- The `indexed_fields_`. raw_space.hpp:322-328 -/
def saveFields : List Bytes → Bytes
  | [] => []
  | f :: fs => leBytes 8 f.length ++ (f ++ saveFields fs)

/-- `save_scalar_config`. raw_space.hpp:299-329 -/
def Config.save (c : Config) : Bytes :=
  leBytes 8 c.dbPath.length ++ (c.dbPath ++ (leBytes 8 c.writeBuffer ++ (leBytes 4 c.buffers ++ (leBytes 8 c.fileSize ++
    (leBytes 4 c.compactions ++ (leBytes 4 c.flushes ++ (leBytes 8 c.cacheMb ++ ((if c.compress then 1 else 0) ::
      (leBytes 8 c.fields.length ++ saveFields c.fields)))))))))

/-- raw_space.hpp:361-368 -/
def loadFields : Nat → Bytes → Option (List Bytes × Bytes)
  | 0, file => some ([], file)
  | n + 1, file =>
    match rdNat 8 file with
    | none => none
    | some (len, f1) =>
      match splitN len f1 with
      | none => none
      | some (f, f2) =>
        match loadFields n f2 with
        | none => none
        | some (fs, rest) => some (f :: fs, rest)

/-- `load_scalar_config`; the fields are read if there are less than 1000. raw_space.hpp:331-370 -/
def Config.load (file : Bytes) : Option (Config × Bytes) :=
  match rdNat 8 file with
  | none => none
  | some (len, f1) =>
  match splitN len f1 with
  | none => none
  | some (path, f2) =>
  match rdNat 8 f2 with
  | none => none
  | some (a, f3) =>
  match rdNat 4 f3 with
  | none => none
  | some (b, f4) =>
  match rdNat 8 f4 with
  | none => none
  | some (c, f5) =>
  match rdNat 4 f5 with
  | none => none
  | some (d, f6) =>
  match rdNat 4 f6 with
  | none => none
  | some (e, f7) =>
  match rdNat 8 f7 with
  | none => none
  | some (f, f8) =>
  match rdNat 1 f8 with
  | none => none
  | some (g, f9) =>
  match rdNat 8 f9 with
  | none => none
  | some (count, f10) =>
    if count < 1000 then
      match loadFields count f10 with
      | none => none
      | some (fs, rest) => some (⟨path, a, b, c, d, e, f, g != 0, fs⟩, rest)
    else some (⟨path, a, b, c, d, e, f, g != 0, []⟩, f10)

/-- `RawSpace`; `config` is present if the space has scalar data. raw_space.hpp:57-66 -/
structure SpaceS where
  metric : Nat
  dataSize : Nat
  dim : Nat
  itemCnt : Nat
  deleteCnt : Nat
  capacity : Nat
  config : Option Config
  store : Seq.Storage
  deriving DecidableEq, Repr

/-- `save`. raw_space.hpp:391-407 -/
def SpaceS.save (w : Nat) (s : SpaceS) : Bytes :=
  leBytes 4 s.metric ++ (leBytes 4 s.dataSize ++ (leBytes 4 s.dim ++ (leBytes w s.itemCnt ++ (leBytes w s.deleteCnt ++
    (leBytes w s.capacity ++ (((s.config.map Config.save).getD []) ++ s.store.save))))))

/-- The scalar part of `load`. raw_space.hpp:383-386 -/
def loadConfig (scalar : Bool) (file : Bytes) : Option (Option Config × Bytes) :=
  if scalar then
    match Config.load file with
    | none => none
    | some (c, rest) => some (some c, rest)
  else some (none, file)

/-- What `load` reads, and what is left of the file; `scalar` is `has_scalar_data`, `bits` the fresh memory of the bitmap.
raw_space.hpp:372-388, sq8_space.hpp:343-362 -/
def SpaceS.read (w : Nat) (scalar : Bool) (bits : List (BitVec 8)) (file : Bytes) : Option (SpaceS × Bytes) :=
  match rdNat 4 file with
  | none => none
  | some (metric, f1) =>
  match rdNat 4 f1 with
  | none => none
  | some (dataSize, f2) =>
  match rdNat 4 f2 with
  | none => none
  | some (dim, f3) =>
  match rdNat w f3 with
  | none => none
  | some (itemCnt, f4) =>
  match rdNat w f4 with
  | none => none
  | some (deleteCnt, f5) =>
  match rdNat w f5 with
  | none => none
  | some (capacity, f6) =>
  match loadConfig scalar f6 with
  | none => none
  | some (cfg, f7) =>
  match Seq.load bits f7 with
  | none => none
  | some (store, rest) => some (⟨metric, dataSize, dim, itemCnt, deleteCnt, capacity, cfg, store⟩, rest)

/-- `load`. raw_space.hpp:372-389 -/
def SpaceS.load (w : Nat) (scalar : Bool) (j : Junk) (file : Bytes) : Option SpaceS :=
  (SpaceS.read w scalar j.spaceBits file).map Prod.fst

/-- An index: graph, space and `JobContext`. index.hpp:58-75 -/
structure Index where
  graph : GraphS
  space : SpaceS
  inserted : List (Nat × List Nat)
  removed : List Nat
  removedNbrs : List (Nat × List Nat)
  deriving DecidableEq, Repr

/-- `save_state`: the graph file and the data file. index.hpp:179-196 -/
def Index.save (w : Nat) (pad : Bytes) (x : Index) : Option (Bytes × Bytes) :=
  match x.graph.save w pad with
  | none => none
  | some g => some (g, x.space.save w)

/-- `load_state`: the `JobContext` is a new one. index.hpp:198-250 -/
def Index.load (w : Nat) (scalar : Bool) (j : Junk) (files : Bytes × Bytes) : Option Index :=
  match GraphS.load w j files.1, SpaceS.load w scalar j files.2 with
  | some g, some s => some ⟨g, s, [], [], []⟩
  | _, _ => none

/-- An id of `w` bytes as the search sees it: all ones is "no id". -/
def viewId (w v : Nat) : Nat := if v = 256 ^ w - 1 then noId else v

/-- The ids at `edges(i)`. graph.hpp:65-75 -/
def GraphS.row (w : Nat) (g : GraphS) (i : Nat) : List Nat :=
  ((g.store.read i).map (fun bs => (idsOf w g.maxNbrs bs).map (viewId w))).getD []

/-- The graph as the search sees it. -/
def GraphS.view (w : Nat) (g : GraphS) : MGraph where
  rows := (List.range g.store.cap).map (g.row w)
  eps := g.eps
  overlay := g.overlay.map (fun o => ⟨o.maxNbrs, o.ep, o.levels, o.lists.map (fun l => l.map (viewId w))⟩)

/-- The index as searches, insertions and removals see it (`GraphUpdate`). -/
def Index.view (w : Nat) (x : Index) : Ix Bytes where
  g := x.graph.view w
  live := (List.range x.space.store.pos).map (fun i => (x.space.store.isValid i).getD false)
  vecs := (List.range x.space.store.pos).map (fun i => (x.space.store.read i).getD [])
  maxNbrs := x.graph.maxNbrs
  inserted := x.inserted
  removed := x.removed
  removedNbrs := x.removedNbrs

/-- A search; `D metric dim` is the distance of two vectors. -/
def Index.search (w : Nat) (D : Nat → Nat → Bytes → Bytes → Int) (fmax : Int) (x : Index) (q : Bytes) (topk ef fuel : Nat) :
    Option (Option (List (Nat × Option Int))) :=
  (x.view w).search (Ix.near (D x.space.metric x.space.dim) fmax) q topk ef fuel

end Alaya.IndexFile
