import Verif.Model.VamanaFile
import Verif.Model.LaserFiles

/-
The out-of-core build of a native LASER index from a Vamana graph and a vector file.
/repo/include/index/graph/laser/qg/qg_builder.hpp, qg.hpp.

The nodes are computed by parallel threads, each in its own scratch buffers, and handed over in a critical section: the model
takes any order of the nodes.  `none` = undefined behaviour (or a base file of another dimension), `some none` = an exception.
Assertions are off (default build).  Rotation and RaBitQ are parameters (`Quant`) of which only the lengths matter.  Reads and
writes are complete (no I/O errors); the temporary file of aligned vectors is the function `vec`.
-/
namespace Alaya.LaserBuild
open Alaya

/-- Points, degree bound, main dimension (a power of two) and dimension. -/
structure Geo where
  n : Nat
  R : Nat
  md : Nat
  dim : Nat
  deriving DecidableEq, Repr

/-- `kSectorLen`. qg.hpp:81 -/
def sector : Nat := 4096

/-- qg.hpp:271-273 -/
def Geo.nodeLen (G : Geo) : Nat := (32 * G.dim + 128 * G.R + G.R * G.md) / 8

/-- qg.hpp:284 -/
def Geo.perPage (G : Geo) : Nat := max 1 (sector / G.nodeLen)

/-- qg.hpp:285 -/
def Geo.pageSize (G : Geo) : Nat := (G.perPage * G.nodeLen + sector - 1) / sector * sector

/-- The padded vector. qg.hpp:770-771, qg_builder.hpp:207 -/
def Geo.fullPage (G : Geo) : Nat := (4 * G.dim + sector - 1) / sector * sector

/-- Offsets in bytes. qg.hpp:725-729 -/
def Geo.codeOff (G : Geo) : Nat := 4 * G.dim
def Geo.factorOff (G : Geo) : Nat := 4 * (G.dim + G.md / 64 * 2 * G.R)
def Geo.nbOff (G : Geo) : Nat := G.factorOff + 12 * G.R

/-- `get_page_offset`, `offset_to_node`. qg.hpp:165-171 -/
def Geo.pageOff (G : Geo) (i : Nat) : Nat := sector + G.pageSize * (i / G.perPage)
def Geo.slotOff (G : Geo) (i : Nat) : Nat := i % G.perPage * G.nodeLen

/-- Codes and factors from the vector of a node and those of its neighbours: packed codes and three arrays of floats.
rabitq.hpp:46-80, qg.hpp:806-843 -/
structure Quant where
  codes : Bytes → List Bytes → Bytes
  triple : Bytes → List Bytes → Bytes
  dq : Bytes → List Bytes → Bytes
  vq : Bytes → List Bytes → Bytes

/-- A write into a buffer; `none` = past its end. -/
def write (buf : Bytes) (off : Nat) (d : Bytes) : Option Bytes :=
  if off + d.length ≤ buf.length then some (buf.take off ++ d ++ buf.drop (off + d.length)) else none

/-- A write into a file at a position; a gap is filled with zeros. -/
def putAt (file : Bytes) (off : Nat) (d : Bytes) : Bytes :=
  file.take off ++ List.replicate (off - file.length) 0 ++ d ++ file.drop (off + d.length)

/-! ### The graph -/

structure Topo where
  start : Nat
  graph : List (List Nat)
  deriving DecidableEq, Repr

/-- The loop of `init_from_vamana`; `got` are the nodes so far, `fuel` at least the length of the file.  `in` throws at the end
of the file; ids and nodes are not compared with the number of points. qg_builder.hpp:458-487 -/
def readNodes (n expected : Nat) : Nat → Nat → Bytes → List (List Nat) → Option (Option (List (List Nat)))
  | 0, _, _, _ => none
  | fuel + 1, bytesRead, rest, got =>
    if bytesRead = expected then some (some got)
    else if rest.length < 4 then some none
    else
      let k := leNat (rest.take 4)
      if (rest.drop 4).length < 4 * k then some none
      else
        let ids := Vamana.decU32s k (rest.drop 4)
        if ids.any (fun x => decide (n ≤ x)) then none
        else if k ≠ 0 ∧ n ≤ got.length then none
        else readNodes n expected fuel (bytesRead + 4 * (k + 1)) ((rest.drop 4).drop (4 * k)) (got ++ [ids])

/-- `init_from_vamana`; nodes that are not in the file have no neighbours. qg_builder.hpp:428-504 -/
def initFromVamana (n : Nat) (f : Bytes) : Option (Option Topo) :=
  if f.length < 24 then some none
  else match readNodes n (leNat (f.take 8)) (f.length + 1) 24 (f.drop 24) [] with
    | none => none
    | some none => some none
    | some (some g) => some (some ⟨leNat ((f.drop 12).take 4), (List.range n).map (fun i => g.getD i [])⟩)

/-- Number of edges to a node. qg_builder.hpp:475 -/
def inDegree (g : List (List Nat)) (x : Nat) : Nat := (g.map (fun l => l.count x)).sum

/-! ### Vectors and nodes -/

/-- The vectors of the base file as read: short files leave zeros, the number of vectors is not looked at. qg_builder.hpp:194-232 -/
def vec (dim : Nat) (base : Bytes) (i : Nat) : Bytes :=
  let r := (base.drop (8 + 4 * dim * i)).take (4 * dim)
  r ++ List.replicate (4 * dim - r.length) 0

/-- `update_qg_out_of_memory`, cut to the length of a node: a node without neighbours stays zero; otherwise the vector, then
the ids, the codes and the factors, in this order. qg.hpp:757-845 -/
def nodeBytes (G : Geo) (Q : Quant) (vec : Nat → Bytes) (i : Nat) (nbs : List Nat) : Option Bytes :=
  if nbs = [] then some (List.replicate G.nodeLen 0)
  else if G.R < nbs.length then none
  else
    let c := vec i
    let xs := nbs.map vec
    match write (List.replicate G.pageSize 0) 0 (c ++ List.replicate (G.fullPage - c.length) 0) with
    | none => none
    | some b => match write b G.nbOff (nbs.flatMap (leBytes 4)) with
      | none => none
      | some b => match write b G.codeOff (Q.codes c xs) with
        | none => none
        | some b => match write b G.factorOff (Q.triple c xs) with
          | none => none
          | some b => match write b (G.factorOff + 4 * G.R) (Q.dq c xs) with
            | none => none
            | some b => match write b (G.factorOff + 8 * G.R) (Q.vq c xs) with
              | none => none
              | some b => some (b.take G.nodeLen)

/-! ### Pages -/

/-- A `PageAssembler` in the map. qg_builder.hpp:36-74 -/
structure Asm where
  page : Nat
  buf : Bytes
  count : Nat
  deriving DecidableEq, Repr

structure St where
  file : Bytes
  asms : List Asm
  deriving DecidableEq, Repr

/-- The critical section after a node has been computed. qg_builder.hpp:303-324 -/
def complete (G : Geo) (s : St) (i : Nat) (b : Bytes) : Option St :=
  let p := i / G.perPage
  let a := (s.asms.find? (fun a => a.page == p)).getD ⟨p, List.replicate G.pageSize 0, 0⟩
  match write a.buf (i % G.perPage * G.nodeLen) b with
  | none => none
  | some buf =>
    let others := s.asms.filter (fun a => !(a.page == p))
    if a.count + 1 = G.perPage then some ⟨putAt s.file (sector + p * G.pageSize) buf, others⟩
    else some ⟨s.file, others ++ [⟨p, buf, a.count + 1⟩]⟩

/-- The parallel loop, with the order in which the nodes are handed over. -/
def loop (G : Geo) (img : Nat → Option Bytes) : List Nat → St → Option St
  | [], s => some s
  | i :: is, s => match img i with
    | none => none
    | some b => match complete G s i b with
      | none => none
      | some s' => loop G img is s'

/-- The pages that did not fill up. qg_builder.hpp:331-333 -/
def flushRest (G : Geo) (s : St) : Bytes := s.asms.foldl (fun f a => putAt f (sector + a.page * G.pageSize) a.buf) s.file

def Geo.pages (G : Geo) : Nat := (G.n + G.perPage - 1) / G.perPage

/-- The first sector. qg_builder.hpp:180-193 -/
def header (G : Geo) (start : Nat) : Bytes :=
  let metas := [G.n, G.md, start, G.nodeLen, G.perPage, 0, 0, 0, G.pageSize * G.pages + sector]
  metas.flatMap (leBytes 8) ++ List.replicate (sector - 72) 0

/-! ### The build -/

structure Built where
  index : Bytes
  rotator : Bytes
  cacheIds : Bytes
  cacheNodes : Bytes
  deriving DecidableEq, Repr

/-- A node cut from the page read for it. qg_builder.hpp:398-419 -/
def cutNode (G : Geo) (file : Bytes) (i : Nat) : Bytes :=
  (((file.drop (G.pageOff i)).take G.pageSize).drop (G.slotOff i)).take G.nodeLen

/-- `QGBuilder::build`: `rot` are the signs, `ord` the order in which nodes are handed over, `order` the result of sorting the
ids by falling in-degree, `cached` the number of cached nodes. qg_builder.hpp:161-426 -/
def build (G : Geo) (Q : Quant) (vamana base rot : Bytes) (ord order : List Nat) (cached : Nat) : Option (Option Built) :=
  match initFromVamana G.n vamana with
  | none => none
  | some none => some none
  | some (some t) =>
    if base.length < 8 ∨ leNat ((base.drop 4).take 4) ≠ G.dim then none
    else
    match loop G (fun i => nodeBytes G Q (vec G.dim base) i (t.graph.getD i [])) ord ⟨header G t.start, []⟩ with
    | none => none
    | some s =>
      let file := flushRest G s
      let ids := order.take cached
      some (some ⟨file, rot, LaserFiles.cacheIds ids, LaserFiles.cacheNodes G.nodeLen (ids.map (cutNode G file))⟩)

end Alaya.LaserBuild
