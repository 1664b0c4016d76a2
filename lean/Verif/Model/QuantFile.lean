import Verif.Model.IndexFile
import Verif.Model.QuantIndex

/-
The files of a quantised in-memory index: graph, vectors of the build space, codes with the parameters of the quantiser.
/repo/python/include/index.hpp:179-250 (`save_state`, `load_state`, different search and build spaces),
/repo/include/space/sq8_space.hpp:343-391, /repo/include/space/sq4_space.hpp:344-392, /repo/include/space/quant/sq8.hpp:146-165,
/repo/include/space/quant/sq4.hpp:153-173.

The components are floats (`sizeof(DataType)` = 4), kept as bytes.  Graph and spaces, simplifications and the meaning of `none` as in
Model/IndexFile.lean; the build space has no scalar data (/repo/python/include/dispatch_generated.hpp:74).
-/
namespace Alaya.QuantFile
open Alaya.MemSearch Alaya.GraphUpdate Alaya.IndexFile Alaya.QuantIndex

/-- `SQ8Quantizer`, `SQ4Quantizer`: `dim_`, `min_vector_`, `max_vector_`. sq8.hpp:26-28 -/
structure Quant where
  dim : Nat
  mins : Bytes
  maxs : Bytes
  deriving DecidableEq, Repr

/-- `save`; `none` = read beyond a vector. sq8.hpp:161-165 -/
def Quant.save (q : Quant) : Option Bytes :=
  match splitN (q.dim * 4) q.mins, splitN (q.dim * 4) q.maxs with
  | some (a, _), some (b, _) => some (leBytes 4 q.dim ++ (a ++ b))
  | _, _ => none

/-- `load`. sq8.hpp:149-155 -/
def Quant.load (file : Bytes) : Option (Quant × Bytes) :=
  match rdNat 4 file with
  | none => none
  | some (dim, f1) =>
  match splitN (dim * 4) f1 with
  | none => none
  | some (a, f2) =>
  match splitN (dim * 4) f2 with
  | none => none
  | some (b, f3) => some (⟨dim, a, b⟩, f3)

/-- An index: graph, build space, quantised space with its quantiser, and `JobContext`. -/
structure QIndex where
  graph : GraphS
  build : SpaceS
  codes : SpaceS
  quant : Quant
  inserted : List (Nat × List Nat)
  removed : List Nat
  removedNbrs : List (Nat × List Nat)
  deriving DecidableEq, Repr

/-- The three files. -/
structure Files where
  graph : Bytes
  data : Bytes
  quant : Bytes
  deriving DecidableEq, Repr

/-- `save_state`. index.hpp:187-195, sq8_space.hpp:370-391 -/
def QIndex.save (w : Nat) (pad : Bytes) (x : QIndex) : Option Files :=
  match x.graph.save w pad, x.quant.save with
  | some g, some q => some ⟨g, x.build.save w, x.codes.save w ++ q⟩
  | _, _ => none

/-- `load` of a quantised space. sq8_space.hpp:343-364 -/
def loadCodes (w : Nat) (scalar : Bool) (bits : List (BitVec 8)) (file : Bytes) : Option (SpaceS × Quant) :=
  match SpaceS.read w scalar bits file with
  | none => none
  | some (s, rest) =>
    match Quant.load rest with
    | none => none
    | some (q, _) => some (s, q)

/-- `load_state`; `bits` is the fresh memory of the bitmap of the codes. index.hpp:219-250 -/
def QIndex.load (w : Nat) (scalar : Bool) (j : Junk) (bits : List (BitVec 8)) (f : Files) : Option QIndex :=
  match GraphS.load w j f.graph, SpaceS.load w false j f.data, loadCodes w scalar bits f.quant with
  | some g, some b, some (c, q) => some ⟨g, b, c, q, [], [], []⟩
  | _, _, _ => none

/-- The rows of a space and their marks. -/
def rowsOf (s : SpaceS) : List Bytes := (List.range s.store.pos).map (fun i => (s.store.read i).getD [])
def marksOf (s : SpaceS) : List Bool := (List.range s.store.pos).map (fun i => (s.store.isValid i).getD false)

/-- The index as searches, insertions and removals see it (Model/QuantIndex.lean). -/
def QIndex.view (w : Nat) (x : QIndex) : QIx Bytes Bytes where
  ix := ⟨x.graph.view w, marksOf x.codes, rowsOf x.codes, x.graph.maxNbrs, x.inserted, x.removed, x.removedNbrs⟩
  raw := rowsOf x.build
  rawLive := marksOf x.build
  rawCap := x.build.store.cap

/-- The functions of the build: encoding with a quantiser, distance between codes for metric, dimension and quantiser, what is computed
from rows not in use, and the distance of the build space. -/
structure Fns where
  enc : Quant → Bytes → Bytes
  dq : Nat → Nat → Quant → Bytes → Bytes → Int
  junk : Bytes → Nat → Int
  d : Nat → Nat → Bytes → Bytes → Int
  fmax : Int

/-- A search. -/
def QIndex.search (F : Fns) (w : Nat) (H : TopK.StdHeap TopK.Hit TopK.Hit.lt) (x : QIndex) (q : Bytes) (topk ef fuel : Nat) :
    Option (Option (List TopK.Hit)) :=
  (x.view w).search (F.enc x.quant) (F.dq x.codes.metric x.codes.dim x.quant) F.junk H (F.d x.build.metric x.build.dim) F.fmax q
    topk ef fuel

/-- A history. -/
def QIndex.run (F : Fns) (w : Nat) (ord : List Nat → List Nat) (x : QIndex) (fuel : Nat) (ops : List (GraphUpdate.Op Bytes)) :
    Option (Option (QIx Bytes Bytes × List (Option Nat))) :=
  (x.view w).run (F.enc x.quant) (F.dq x.codes.metric x.codes.dim x.quant) F.junk ord fuel ops

end Alaya.QuantFile
