import Verif.Model.DiskLayout
import Verif.Model.DiskPages

/-!
The node operations of `DiskPageIO` over its page cache: /repo/include/index/graph/diskann/disk_page_io.hpp.

Operations run one after another here (the interleaving of page accesses is treated in Props/C40).  `sh` chooses the shard of a page.
-/
namespace Alaya.DiskNodes
open Alaya.DiskLayout Alaya.DiskPages
open Alaya.DiskSlots (Out)

/-- A node record: the vector and the neighbours. -/
abbrev Rec := List (BitVec 32) × List (BitVec 32)

/-- `class DiskPageIO`: the pages and the transient coordinate cache `vec_cache_`. disk_page_io.hpp:905-925 -/
structure Nodes where
  io : PageIO
  vec : Nat → Option (List (BitVec 32))

/-- `node_from_page` / `NodeRecordView`. disk_page_io.hpp:538-551 -/
def viewRec (g : Geom) (page : Bytes) (id : Nat) : Out Rec :=
  match viewCoords page (g.offsetToNode id) g.dim with
  | .ub => .ub
  | .throws => .throws
  | .ok c => match viewNbrs page (g.offsetToNode id) g.dim with
    | .ub => .ub
    | .throws => .throws
    | .ok ns => .ok (c, ns)

/-- `load_page_for_write_locked`: the page buffer; extends the file with zeros. disk_page_io.hpp:877-893 -/
def loadForWrite (sh : Nat → Nat) (g : Geom) (dio : Io) (p : PageIO) (id : Nat) : Res (Option Bytes × PageIO) :=
  let off := g.pageOffset id
  let pageEnd := (off + g.pageSize) % U64
  if pageEnd ≤ p.fileSize then p.readPage sh g.pageSize dio off
  else .ok (some (List.replicate g.pageSize 0), { p with fileSize := pageEnd })

/-- `write_node`. disk_page_io.hpp:418-434 -/
def Nodes.writeNode (sh : Nat → Nat) (g : Geom) (dio : Io) (n : Nodes) (id : Nat) (coords nbrs : List (BitVec 32)) : Res Nodes :=
  if g.deg < nbrs.length then .throws n
  else match loadForWrite sh g dio n.io id with
    | .ub => .ub
    | .throws (_, p) => .throws { n with io := p }
    | .ok (none, p) => .throws { n with io := p }
    | .ok (some page, p) => match DiskLayout.writeNode g page id coords nbrs with
      | .ub => .ub
      | .throws => .throws { n with io := p }
      | .ok page' => match p.writePage sh dio (g.pageOffset id) page' with
        | .ub => .ub
        | .throws p => .throws { n with io := p }
        | .ok p => .ok ⟨p, fun x => if x = id then some (coords.take g.dim) else n.vec x⟩

/-- `write_node_neighbors`. disk_page_io.hpp:437-455 -/
def Nodes.writeNeighbors (sh : Nat → Nat) (g : Geom) (dio : Io) (n : Nodes) (id : Nat) (nbrs : List (BitVec 32)) : Res Nodes :=
  if g.deg < nbrs.length then .throws n
  else match n.io.readPage sh g.pageSize dio (g.pageOffset id) with
    | .ub => .ub
    | .throws (_, p) => .throws { n with io := p }
    | .ok (none, p) => .throws { n with io := p }
    | .ok (some page, p) => match DiskLayout.writeNeighbors g page id nbrs with
      | .ub => .ub
      | .throws => .throws { n with io := p }
      | .ok page' => match p.writePage sh dio (g.pageOffset id) page' with
        | .ub => .ub
        | .throws p => .throws { n with io := p }
        | .ok p => .ok { n with io := p }

/-- The record in a page that was obtained, with the new state. -/
def Nodes.withPage (g : Geom) (n : Nodes) (id : Nat) : Res (Option Bytes × PageIO) → Res (Option Rec × Nodes)
  | .ub => .ub
  | .throws (_, p) => .throws (none, { n with io := p })
  | .ok (none, p) => .throws (none, { n with io := p })
  | .ok (some page, p) => match viewRec g page id with
    | .ub => .ub
    | .throws => .throws (none, { n with io := p })
    | .ok r => .ok (some r, { n with io := p })

/-- `read_node` (under the shard lock), and the reads of `read_neighbors_batch`. disk_page_io.hpp:108-113, 303-323 -/
def Nodes.readNode (sh : Nat → Nat) (g : Geom) (dio : Io) (n : Nodes) (id : Nat) : Res (Option Rec × Nodes) :=
  n.withPage g id (n.io.readPage sh g.pageSize dio (g.pageOffset id))

/-- `read_page_snapshot` when no other operation comes in between, as used by `read_node_async` and by `search_peek_page` +
`search_fill_page`. disk_page_io.hpp:754-788, 790-821 -/
def snapshotPage (sh : Nat → Nat) (g : Geom) (dio : Io) (p : PageIO) (off : Nat) : Res (Option Bytes × PageIO) :=
  match p.peek sh off with
  | .inl (b, p) => .ok (some b, p)
  | .inr v =>
    if p.fileSize < off + g.pageSize then .throws (none, p)
    else p.fill sh g.pageSize dio off (p.disk off) v

/-- `read_node_async`. disk_page_io.hpp:136-146 -/
def Nodes.readSnapshot (sh : Nat → Nat) (g : Geom) (dio : Io) (n : Nodes) (id : Nat) : Res (Option Rec × Nodes) :=
  n.withPage g id (snapshotPage sh g dio n.io (g.pageOffset id))

/-- `read_coords_cached`. disk_page_io.hpp:457-475 -/
def Nodes.readCoords (sh : Nat → Nat) (g : Geom) (dio : Io) (n : Nodes) (id : Nat) : Res (Option (List (BitVec 32)) × Nodes) :=
  match n.vec id with
  | some c => .ok (some c, n)
  | none => match n.io.readPage sh g.pageSize dio (g.pageOffset id) with
    | .ub => .ub
    | .throws (_, p) => .throws (none, { n with io := p })
    | .ok (none, p) => .throws (none, { n with io := p })
    | .ok (some page, p) => match viewCoords page (g.offsetToNode id) g.dim with
      | .ub => .ub
      | .throws => .throws (none, { n with io := p })
      | .ok c => .ok (some c, ⟨p, fun x => if x = id then some c else n.vec x⟩)

/-- `clear_cache`. disk_page_io.hpp:478-481 -/
def Nodes.clearVec (n : Nodes) : Nodes := { n with vec := fun _ => none }

/-- `flush_dirty_pages`, the shards and their pages in the given order. disk_page_io.hpp:484-493 -/
def Nodes.flush (dio : Io) (orders : List (Nat × List Nat)) (n : Nodes) : Res Nodes :=
  match PageIO.flush dio orders n.io with
  | .ub => .ub
  | .throws p => .throws { n with io := p }
  | .ok p => .ok { n with io := p }

end Alaya.DiskNodes
