import Verif.Model.VecFiles
import Verif.Model.Recall

/-!
# Loading a test dataset

`load_dataset`, include/utils/dataset_utils.hpp:124-197, with the readers of Model/VecFiles.lean and `find_exact_gt` of
Model/Recall.lean.  Numbers are their bytes.  `none` stands for an exception, `exit(-1)`, and reading outside an array.

Simplifications: the lock (Model/Locks.lean) is left out; `download` is any change of the three files; distances are any
function of two rows into a linear order (L2 in the code).
-/

namespace Alaya.Dataset

open Alaya.VecFiles Alaya.Recall

/-- The three files; `none`: the file is not there. -/
structure Disk where
  data : Option Bytes
  query : Option Bytes
  gt : Option Bytes

structure Loadset where
  data : Bytes
  queries : Bytes
  gt : Bytes
  dataNum : Nat
  queryNum : Nat
  dim : Nat
  gtDim : Nat
  deriving DecidableEq, Repr

/-- `std::vector::resize` to `n` numbers. -/
def resize (b : Bytes) (n : Nat) : Bytes := b.take (n * 4) ++ List.replicate (n * 4 - b.length) 0

/-- `v.data() + (i * dim)`, `dim` numbers. evaluate.hpp:36-38 -/
def rowAt (dim : Nat) (v : Bytes) (i : Nat) : Bytes := (v.drop (i * (dim * 4))).take (dim * 4)

/-- The files after the check and the download. dataset_utils.hpp:136-155 -/
def present (url : Bool) (download : Disk → Disk) (disk : Disk) : Option Disk :=
  if disk.data.isSome ∧ disk.query.isSome ∧ disk.gt.isSome then some disk
  else if url = false then none
  else some (download disk)

/-- What is made of the arrays read: `query_num_` is what `load_ivecs` found. dataset_utils.hpp:160-195 -/
def finish {D : Type} (sort : List D → List Nat) (dist : Bytes → Bytes → D) (maxData maxQuery : Nat) (a b g : Loaded) : Option Loadset :=
  if a.dim ≠ b.dim then none
  else
    let dataCut := decide (0 < maxData ∧ maxData < a.num)
    let queryCut := decide (0 < maxQuery ∧ maxQuery < g.num)
    let dataNum := if dataCut then maxData else a.num
    let data := if dataCut then resize a.data ((dataNum * a.dim) % 4294967296) else a.data
    let queryNum := if queryCut then maxQuery else g.num
    let queries := if queryCut then resize b.data ((queryNum * a.dim) % 4294967296) else b.data
    let gt :=
      if dataCut then
        (cppGt sort (fun i j => dist (rowAt a.dim queries i) (rowAt a.dim data j)) (queries.length / 4) (data.length / 4) a.dim
          (fun _ => false) g.dim).map (fun rows => rows.flatten.flatMap (leBytes 4))
      else if queryCut then some (resize g.data ((queryNum * g.dim) % 4294967296))
      else some g.data
    gt.map (fun gt => ⟨data, queries, gt, dataNum, queryNum, a.dim, g.dim⟩)

/-- `load_dataset(config)`. dataset_utils.hpp:124-197 -/
def load {D : Type} (sort : List D → List Nat) (dist : Bytes → Bytes → D) (url : Bool) (download : Disk → Disk) (maxData maxQuery : Nat)
    (disk : Disk) : Option Loadset := do
  let disk ← present url download disk
  let a ← cppFvecs (← disk.data) 0
  let b ← cppFvecs (← disk.query) 0
  let g ← cppIvecs (← disk.gt)
  finish sort dist maxData maxQuery a b g

end Alaya.Dataset
