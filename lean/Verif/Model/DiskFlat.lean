import Verif.Model.TopK
import Verif.Model.Bytes

/-
Flat disk segments: builder, files, searcher.
/repo/include/index/disk/disk_flat_builder.hpp, /repo/include/index/disk/disk_flat_searcher.hpp.

A float component is its 32 bits.  The distance kernel and the COS normalisation are parameters (`kern`, `norm`); the
distance is an integer because it is only compared (NaN excluded).  The manifest text is in Model/DiskManifest.lean; here a
segment is its two data files and the manifest fields used.
-/
namespace Alaya.DiskFlat
open Alaya.TopK

inductive Metric where
  | l2
  | ip
  | cos
  deriving DecidableEq, Repr

/-- `is_finite_f32`: exponent bits not all ones. disk_flat_builder.hpp:54 -/
def finite32 (b : Nat) : Bool := decide ((b / 2 ^ 23) % 256 ≠ 255)

/-- The sum of squares (in double) is zero iff every component is +0 or -0: the square of the smallest subnormal float is
a normal double. disk_flat_builder.hpp:205-212, disk_flat_searcher.hpp:141-149 -/
def allZero (row : List Nat) : Bool := row.all (fun b => decide (b % 2 ^ 31 = 0))

/-- The abstract arithmetic. -/
structure Kernel where
  /-- row times the inverse norm -/
  norm : List Nat → List Nat
  /-- `simd::l2_sqr` or `simd::ip_sqr` of query and row -/
  dist : Metric → List Nat → List Nat → Int

structure Builder where
  dim : Nat
  metric : Metric
  vectors : List Nat
  labels : List Nat
  closed : Bool
  deriving DecidableEq, Repr

/-- `add_batch` with buffers of `n` labels and `n * dim` components. `none` = throws. disk_flat_builder.hpp:120-159 -/
def Builder.addBatch (b : Builder) (vectors labels : List Nat) : Option Builder :=
  if b.closed then none
  else if labels.length = 0 then some b
  else if U64 ≤ labels.length * b.dim then none
  else if vectors.all finite32 then some { b with vectors := b.vectors ++ vectors, labels := b.labels ++ labels }
  else none

/-- The row `i` of a flat component array. -/
def rowAt (dim : Nat) (vs : List Nat) (i : Nat) : List Nat := (vs.drop (i * dim)).take dim

/-- All rows. -/
def rowsOf (dim n : Nat) (vs : List Nat) : List (List Nat) := (List.range n).map (rowAt dim vs)

structure Segment where
  dim : Nat
  count : Nat
  metric : Metric
  ids : Bytes
  vectors : Bytes
  deriving DecidableEq, Repr

/-- `finish`: the files of the published segment; `none` = throws. disk_flat_builder.hpp:161-277 -/
def Builder.finish (K : Kernel) (b : Builder) : Option Segment :=
  if b.closed then none
  else if b.labels = [] then none
  else
    let rows := rowsOf b.dim b.labels.length b.vectors
    let ids := b.labels.flatMap (leBytes 8)
    if b.metric = .cos then
      if rows.any allZero then none
      else some ⟨b.dim, b.labels.length, b.metric, ids, (rows.map K.norm).flatten.flatMap (leBytes 4)⟩
    else some ⟨b.dim, b.labels.length, b.metric, ids, b.vectors.flatMap (leBytes 4)⟩

/-- The checks of the searcher constructor. disk_flat_searcher.hpp:76-110 -/
def Segment.opens (s : Segment) : Bool :=
  decide (s.dim ≠ 0) && decide (s.count ≠ 0) && decide (s.count * s.dim < U64) && decide (s.count * s.dim * 4 < U64)
    && decide (s.count * 8 < U64) && decide (s.dim < 2 ^ 32) && decide (s.ids.length = s.count * 8)
    && decide (s.vectors.length = s.count * s.dim * 4)

/-- A read of `w` bytes at `off` of a mapped file; `none` = outside the mapping. -/
def readAt (f : Bytes) (off w : Nat) : Option Nat :=
  if off + w ≤ f.length then some (leNat ((f.drop off).take w)) else none

/-- The kernel reads `dim` floats starting at `off`. -/
def readRow (f : Bytes) : Nat → Nat → Option (List Nat)
  | _, 0 => some []
  | off, n + 1 => match readAt f off 4, readRow f (off + 4) n with
    | some x, some xs => some (x :: xs)
    | _, _ => none

/-- The rows scanned by the loop, from row `i` on. disk_flat_searcher.hpp:187-189 -/
def scan (s : Segment) (d : List Nat → Int) (i : Nat) : Nat → Option (List Hit)
  | 0 => some []
  | n + 1 => match readAt s.ids (8 * i) 8, readRow s.vectors (i * s.dim * 4) s.dim, scan s d (i + 1) n with
    | some l, some row, some hs => some (⟨l, d row⟩ :: hs)
    | _, _, _ => none

/-- `search`: outer `none` = undefined behaviour, inner `none` = throws. disk_flat_searcher.hpp:118-203 -/
def Segment.search (K : Kernel) (H : StdHeap Hit Hit.lt) (s : Segment) (query : List Nat) (topk : Nat) :
    Option (Option (List Hit)) :=
  if topk = 0 then some none
  else if !query.all finite32 then some none
  else if decide (s.metric = .cos) && allZero query then some none
  else
    let q := if s.metric = .cos then K.norm query else query
    match scan s (K.dist s.metric q) 0 s.count with
    | none => none
    | some hs => (select H (min topk s.count) hs).map some

end Alaya.DiskFlat
