import Verif.Model.DiskAnnLabels

/-
`flush` and the state part of `load` of the updatable DiskANN index: /repo/include/index/graph/diskann/diskann_index.hpp.

Left out: PQ files. The node cache files appear only as readable or not; of a stored node only which label its vector was inserted for is
kept (`recs`). A crash stops the process: bytes written before stay, a file being written holds any prefix (it was truncated when opened).
-/
namespace Alaya.DiskAnn
open Alaya Alaya.DiskSlots

/-- Little-endian fields: (width, value). -/
def encFields : List (Nat × Nat) → Bytes
  | [] => []
  | (w, v) :: fs => leBytes w v ++ encFields fs

/-- Fields of these widths from the stream; `none` = the stream ends early. -/
def readFields : List Nat → Bytes → Option (List Nat × Bytes)
  | [], bs => some ([], bs)
  | w :: ws, bs => match splitN w bs with
    | none => none
    | some (x, rest) => match readFields ws rest with
      | none => none
      | some (vs, rest) => some (leNat x :: vs, rest)

/-- `MetaHeader`. diskann_index.hpp:1066-1077 -/
structure Meta where
  points : Nat
  dim : Nat
  degree : Nat
  medoid : Nat
  hasPq : Nat
  pqChunks : Nat
  nodeLen : Nat
  nps : Nat
  maxSlot : Nat
  live : Nat
  deriving DecidableEq, Repr

/-- `kMetaMagic`. diskann_index.hpp:167 -/
def metaMagic : Nat := 0x414C594144534B4E

/-- `write_meta`. diskann_index.hpp:2232-2258 -/
def metaBytes (m : Meta) : Bytes :=
  encFields [(8, metaMagic), (4, 2), (8, m.points), (8, m.dim), (4, m.degree), (4, m.medoid), (1, m.hasPq), (4, m.pqChunks),
    (8, m.nodeLen), (8, m.nps), (8, m.maxSlot), (8, m.live)]

/-- `read_meta`; `none` = throws. diskann_index.hpp:2260-2303 -/
def readMeta (bs : Bytes) : Option Meta :=
  match readFields [8, 4, 8, 8, 4, 4, 1, 4, 8, 8] bs with
  | some ([mg, v, p, d, r, md, pq, pc, nl, ns], rest) =>
    if mg ≠ metaMagic then none
    else if v = 1 then if p = 0 ∨ d = 0 then none else some ⟨p, d, r, md, pq, pc, nl, ns, p, p⟩
    else if v = 2 then match readFields [8, 8] rest with
      | some ([ms, lc], _) => if p = 0 ∨ d = 0 then none else some ⟨p, d, r, md, pq, pc, nl, ns, ms, lc⟩
      | _ => none
    else none
  | _ => none

/-- `write_ids`. diskann_index.hpp:2305-2317 -/
def idsBytes (labels : List Nat) : Bytes := leBytes 8 labels.length ++ encFields (labels.map fun l => (8, l))

/-- `read_ids`; `none` = throws. diskann_index.hpp:2319-2334 -/
def readIds (bs : Bytes) (expected : Nat) : Option (List Nat) :=
  match splitN 8 bs with
  | none => none
  | some (c, rest) => if leNat c ≠ expected then none
    else match readFields (List.replicate (leNat c) 8) rest with
      | none => none
      | some (ls, _) => some ls

/-- `rebuild_label_lookup_unlocked` over these slots; `none` = throws. diskann_index.hpp:1539-1555 -/
def rebuild (labels : List Nat) (dead : Nat → Bool) : List Nat → (Nat → Option Nat) → Option (Nat → Option Nat)
  | [], m => some m
  | x :: xs, m => if dead x = true then rebuild labels dead xs m
    else match labels[x]? with
      | none => none
      | some l => if l = noLabel then none
        else if (m l).isSome = true then none
        else rebuild labels dead xs (fun y => if y = l then some x else m y)

/-- The index directory. -/
structure Dir where
  head : Bytes
  ids : Bytes
  slots : Option Bytes
  cache : Bool
  recs : Nat → Nat

/-- The allocator part of `load`. diskann_index.hpp:331-337 -/
def loadSlots (d : Dir) (maxSlot : Nat) : Out Slots :=
  match d.slots with
  | none => match Slots.mk' (maxSlot % 4294967296) with
    | none => .throws
    | some s => .ok s
  | some bs => Slots.load bs

/-- `load`; `geo` is `DiskLayoutGeometry::compute`. diskann_index.hpp:306-341 -/
def load (geo : Nat → Nat → Nat × Nat) (d : Dir) : Out Idx :=
  match readMeta d.head with
  | none => .throws
  | some m => if geo m.dim m.degree ≠ (m.nodeLen, m.nps) then .throws
    else match readIds d.ids m.maxSlot with
      | none => .throws
      | some labels => match loadSlots d m.maxSlot with
        | .ub => .ub
        | .throws => .throws
        | .ok sl => match rebuild labels sl.tomb.isDeleted (List.range labels.length) (fun _ => none) with
          | none => .throws
          | some map => if d.cache = false then .throws
            else .ok ⟨sl, labels, map, if d.slots.isSome then max m.maxSlot sl.next else m.maxSlot, m.live⟩

/-- What `flush` puts into the header. diskann_index.hpp:1033-1043 -/
def Idx.header (hdr : Meta) (s : Idx) : Meta := { hdr with points := s.maxSlot, maxSlot := s.maxSlot, live := s.live.toNat }

/-- Where `flush` was interrupted: while pages were being written (these are on disk; evictions before the flush count too), while a file
was being written (that many bytes of it are there), or while the cache files were (they are readable or not). -/
inductive Point where
  | pages (done : List Nat)
  | head (k : Nat)
  | ids (k : Nat)
  | cache (readable : Bool)
  | slots (k : Nat)

/-- The directory after a crash at this point of `flush`: pages, (PQ), meta, ids, cache, slots. diskann_index.hpp:1023-1054 -/
def crash (hdr : Meta) (s : Idx) (recs : Nat → Nat) (d : Dir) : Point → Dir
  | .pages done => { d with recs := fun x => if x ∈ done then recs x else d.recs x }
  | .head k => { d with recs := recs, head := (metaBytes (s.header hdr)).take k }
  | .ids k => { d with recs := recs, head := metaBytes (s.header hdr), ids := (idsBytes s.labels).take k }
  | .cache b => { d with recs := recs, head := metaBytes (s.header hdr), ids := idsBytes s.labels, cache := b }
  | .slots k => { d with recs := recs, head := metaBytes (s.header hdr), ids := idsBytes s.labels, cache := true, slots := some (s.slots.save.take k) }

/-- The directory after a flush that was not interrupted. -/
def flushed (hdr : Meta) (s : Idx) (recs : Nat → Nat) : Dir :=
  ⟨metaBytes (s.header hdr), idsBytes s.labels, some s.slots.save, true, recs⟩

end Alaya.DiskAnn
