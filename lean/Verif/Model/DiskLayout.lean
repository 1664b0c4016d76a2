import Verif.Model.DiskSlots
import Verif.Model.SeqStorage

/-!
The sector layout of the disk graph: /repo/include/index/graph/diskann/disk_layout.hpp, and the record writers of
/repo/include/index/graph/diskann/disk_page_io.hpp.

Offsets and sizes are 64-bit.  A write or a read outside of its buffer and a division by zero are `Out.ub`.  A float is its 32
bits.  The file system is a byte string; write failures throw and are not distinguished from other errors.
-/
namespace Alaya.DiskLayout
open Alaya.DiskSlots (Out)
open Alaya.Seq (memWrite)

/-- `kSectorLen`. disk_layout.hpp:47 -/
def sectorLen : Nat := 4096

/-- `struct DiskLayoutGeometry`. disk_layout.hpp:93-98 -/
structure Geom where
  dim : Nat
  deg : Nat
  nodeLen : Nat
  nps : Nat
  pageSize : Nat

/-- `DiskLayoutGeometry::compute`; `node_len = 0` after a wrap divides by zero. disk_layout.hpp:101-113 -/
def compute (dim deg : Nat) : Out Geom :=
  if dim = 0 then .throws
  else
    let nodeLen := (dim * 4 + 4 + deg * 4) % U64
    if nodeLen = 0 then .ub
    else
      let nps := max 1 (sectorLen / nodeLen)
      .ok ⟨dim, deg, nodeLen, nps, (nps * nodeLen + sectorLen - 1) % U64 / sectorLen * sectorLen⟩

/-- `get_page_offset`. disk_layout.hpp:116-118 -/
def Geom.pageOffset (g : Geom) (id : Nat) : Nat := (sectorLen + g.pageSize * (id / g.nps)) % U64

/-- `offset_to_node`. disk_layout.hpp:121-123 -/
def Geom.offsetToNode (g : Geom) (id : Nat) : Nat := (id % g.nps) * g.nodeLen % U64

/-- `file_offset`. disk_layout.hpp:126-128 -/
def Geom.fileOffset (g : Geom) (id : Nat) : Nat := (g.pageOffset id + g.offsetToNode id) % U64

/-- `num_pages`. disk_layout.hpp:131-136 -/
def Geom.numPages (g : Geom) (n : Nat) : Nat := if n = 0 then 0 else (n + g.nps - 1) % U64 / g.nps

/-- `total_file_size`. disk_layout.hpp:139-141 -/
def Geom.totalFileSize (g : Geom) (n : Nat) : Nat := (sectorLen + g.numPages n * g.pageSize) % U64

/-- The bytes of 32-bit values. -/
def le32s (xs : List (BitVec 32)) : Bytes := xs.flatMap (fun x => leBytes 4 x.toNat)

/-- 32-bit values from bytes. -/
def get32s : Nat → Bytes → List (BitVec 32)
  | 0, _ => []
  | n + 1, bs => BitVec.ofNat 32 (leNat (bs.take 4)) :: get32s n (bs.drop 4)

/-- `pack_node_record` into a page at `off`.  `coords` is what the pointer refers to; the count is cut to 32 bits by the callers.
disk_layout.hpp:152-165 -/
def packNode (page : Bytes) (off : Nat) (coords nbrs : List (BitVec 32)) (dim : Nat) : Out Bytes :=
  if coords.length < dim then .ub
  else match memWrite page off (le32s (coords.take dim)) with
    | none => .ub
    | some p1 => match memWrite p1 (off + dim * 4 % U64) (leBytes 4 nbrs.length) with
      | none => .ub
      | some p2 =>
        if 0 < nbrs.length then
          match memWrite p2 (off + dim * 4 % U64 + 4) (le32s nbrs) with
          | none => .ub
          | some p3 => .ok p3
        else .ok p2

/-- `NodeRecordView::coords` read completely. disk_layout.hpp:178-179 -/
def viewCoords (page : Bytes) (off dim : Nat) : Out (List (BitVec 32)) :=
  if page.length < off + dim * 4 then .ub else .ok (get32s dim (page.drop off))

/-- `NodeRecordView::n_nbrs`. disk_layout.hpp:181-186 -/
def viewCount (page : Bytes) (off dim : Nat) : Out Nat :=
  if page.length < off + dim * 4 % U64 + 4 then .ub else .ok (leNat ((page.drop (off + dim * 4 % U64)).take 4))

/-- `NodeRecordView::nbrs`, the `n_nbrs()` valid entries, as in `neighbors_from_page`. disk_layout.hpp:188-190, disk_page_io.hpp:538-542 -/
def viewNbrs (page : Bytes) (off dim : Nat) : Out (List (BitVec 32)) :=
  match viewCount page off dim with
  | .ub => .ub
  | .throws => .throws
  | .ok n =>
    if page.length < off + dim * 4 % U64 + 4 + n * 4 then .ub
    else .ok (get32s n (page.drop (off + dim * 4 % U64 + 4)))

/-- The header sector. disk_layout.hpp:247-258 -/
def header (n dim medoid deg : Nat) (g : Geom) : Bytes :=
  leBytes 8 n ++ (leBytes 8 dim ++ (leBytes 4 medoid ++ (leBytes 4 deg ++ (leBytes 8 g.nodeLen ++ (leBytes 8 g.nps ++
    (leBytes 8 (g.totalFileSize n) ++ List.replicate (sectorLen - 48) 0))))))

/-- The loop over the nodes: `graph` is the rest of the adjacency lists from node `id` on, `page` the page buffer, `out` what was
written. disk_layout.hpp:261-288 -/
def writeLoop (g : Geom) (vectors : List (BitVec 32)) (n : Nat) : List (List (BitVec 32)) → Nat → Bytes → Bytes → Out Bytes
  | [], _, _, out => .ok out
  | nbrs :: rest, id, page, out =>
    let slot := id % g.nps
    let page := if slot = 0 then List.replicate g.pageSize 0 else page
    if g.deg < nbrs.length then .throws
    else match packNode page (slot * g.nodeLen % U64) (vectors.drop (id * g.dim)) nbrs g.dim with
      | .ub => .ub
      | .throws => .throws
      | .ok page' =>
        let out' := if slot = g.nps - 1 ∨ id = n - 1 then out ++ page' else out
        writeLoop g vectors n rest (id + 1) page' out'

/-- `write_disk_layout`: the bytes of the file. disk_layout.hpp:216-289 -/
def writeLayout (vectors : List (BitVec 32)) (graph : List (List (BitVec 32))) (n dim deg medoid : Nat) : Out Bytes :=
  if dim = 0 then .throws
  else if n = 0 then .throws
  else if graph.length ≠ n then .throws
  else if n ≤ medoid then .throws
  else match compute dim deg with
    | .ub => .ub
    | .throws => .throws
    | .ok g => writeLoop g vectors n graph 0 (List.replicate g.pageSize 0) (header n dim medoid deg g)

/-- `struct DiskLayoutHeader`. disk_layout.hpp:62-70 -/
structure Header where
  n : Nat
  dim : Nat
  medoid : Nat
  deg : Nat
  nodeLen : Nat
  nps : Nat
  total : Nat
  deriving DecidableEq

/-- `read_disk_layout_header`. disk_layout.hpp:300-352 -/
def readHeader (file : Bytes) : Out Header :=
  if file.length < sectorLen then .throws
  else
    let h : Header := ⟨leNat (file.take 8), leNat ((file.drop 8).take 8), leNat ((file.drop 16).take 4), leNat ((file.drop 20).take 4),
      leNat ((file.drop 24).take 8), leNat ((file.drop 32).take 8), leNat ((file.drop 40).take 8)⟩
    if h.n = 0 ∨ h.dim = 0 then .throws
    else match compute h.dim h.deg with
      | .ub => .ub
      | .throws => .throws
      | .ok g =>
        if h.nodeLen ≠ g.nodeLen then .throws
        else if h.nps ≠ g.nps then .throws
        else if h.n ≤ h.medoid then .throws
        else if h.total ≠ g.totalFileSize h.n then .throws
        else if file.length ≠ h.total then .throws
        else .ok h

/-- The page that holds `id`. -/
def Geom.page (g : Geom) (file : Bytes) (id : Nat) : Bytes := (file.drop (g.pageOffset id)).take g.pageSize

/-! ### Updating one record -/

/-- The page after `write_node`; `page` is what `load_page_for_write_locked` left in the buffer. disk_page_io.hpp:418-433 -/
def writeNode (g : Geom) (page : Bytes) (id : Nat) (coords nbrs : List (BitVec 32)) : Out Bytes :=
  if g.deg < nbrs.length then .throws
  else match memWrite page (g.offsetToNode id) (List.replicate g.nodeLen 0) with
    | none => .ub
    | some p => packNode p (g.offsetToNode id) coords nbrs g.dim

/-- The page after `write_node_neighbors`. disk_page_io.hpp:436-454 -/
def writeNeighbors (g : Geom) (page : Bytes) (id : Nat) (nbrs : List (BitVec 32)) : Out Bytes :=
  if g.deg < nbrs.length then .throws
  else match memWrite page (g.offsetToNode id + g.dim * 4 % U64) (List.replicate (g.nodeLen - g.dim * 4 % U64) 0) with
    | none => .ub
    | some p1 => match memWrite p1 (g.offsetToNode id + g.dim * 4 % U64) (leBytes 4 nbrs.length) with
      | none => .ub
      | some p2 =>
        if 0 < nbrs.length then
          match memWrite p2 (g.offsetToNode id + g.dim * 4 % U64 + 4) (le32s nbrs) with
          | none => .ub
          | some p3 => .ok p3
        else .ok p2

end Alaya.DiskLayout
