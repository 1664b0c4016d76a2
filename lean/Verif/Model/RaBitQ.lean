/-
Model of the RaBitQ distance estimates: what is stored for the neighbours of a node and how the distances of a query
to them are estimated.

* `/repo/include/space/quant/rabitq.hpp:45-158`: `cal_fac_and_qc`, `batch_quantize`.
* `/repo/include/space/rabitq_space.hpp:223-267`: `set_metric_function`, `update_nei`.
* `/repo/include/space/rabitq_space.hpp:457-575`: `QueryComputer`.
* `/repo/include/utils/rabitq_utils/fastscan.hpp:277-392`: `estimate_distances`, `accumulate_and_estimate_distances`.

Numbers are elements of a field, so rounding of floats is not modelled; the rounding of the look-up tables to bytes
is (`Model/FastScan.lean`).  The rotation is a parameter here; in `Props/C78.lean` it is the one of
`Model/Rotator.lean`.  The exact distance is computed by one of the kernels of `Model/Simd.lean`.
-/
import Verif.Model.FastScan
import Verif.Model.Simd

namespace Alaya.RaBitQ
open FastScan (Isa Lut)

/-- `MetricType` without `NONE`. -/
inductive Metric where
  | l2
  | ip
  | cos
deriving DecidableEq, Repr

section
variable {K : Type} [Field K] [LinearOrder K] [IsStrictOrderedRing K] [FloorRing K]

/-- `dot_product` (`defines.hpp:69-73`). -/
def dotP (x y : List K) : K := (List.zipWith (· * ·) x y).sum

/-- `l2_sqr` of one vector (`defines.hpp:76-79`). -/
def l2Sqr (x : List K) : K := dotP x x

/-- A finite number divided by `d`, where `d = 0` has been replaced with infinity (`rabitq.hpp:80-82`). -/
def divInf (a d : K) : K := if d = 0 then 0 else a / d

/-- What `cal_fac_and_qc` writes. -/
structure Fac (K : Type) where
  bits : List Nat
  fAdd : K
  fRescale : K

/-- `cal_fac_and_qc` (`rabitq.hpp:54-98`) on rotated vectors. -/
def calFac (m : Metric) (data cent : List K) : Fac K :=
  let res := List.zipWith (· - ·) data cent
  let n := l2Sqr res
  let bits : List Nat := res.map (fun x => if 0 < x then 1 else 0)
  let cb : K := -1 / 2
  let ybar := bits.map (fun b : Nat => (b : K) + cb)
  let ipc := dotP cent ybar
  let ipr := dotP res ybar
  match m with
  | .l2 => ⟨bits, n + divInf (2 * n * ipc) ipr, divInf (-2 * n) ipr⟩
  | _ => ⟨bits, 1 - dotP res cent + divInf (n * ipc) ipr, divInf (-n) ipr⟩

/-- What a node stores (`rabitq_space.hpp:68-86`): its vector, the codes of its neighbours, room for 32 factors of
each kind and 32 neighbour ids. -/
structure Node (K : Type) where
  vec : List K
  codes : List Nat
  fAdd : List K
  fRescale : List K
  ids : List Nat

/-- Writing `new` over the beginning of an array with room for 32 entries; more do not fit. -/
def over {α : Type} (new old : List α) : Option (List α) :=
  if new.length ≤ old.length then some (new ++ old.drop new.length) else none

/-- `update_nei` (`rabitq_space.hpp:238-267`) with `batch_quantize` (`rabitq.hpp:117-158`).  `rot` is `rotate_vec`, `get` is
`get_data_by_id`. -/
def updateNei (rot : List K → Option (List K)) (get : Nat → Option (List K)) (padded : Nat) (m : Metric) (nd : Node K)
    (nbrs : List Nat) : Option (Node K) := do
  if nbrs = [] then pure nd
  else do
    let ids ← over nbrs nd.ids
    let rn ← nbrs.mapM (fun i => do
      let v ← get i
      rot v)
    let rc ← rot nd.vec
    let fs := rn.map (fun v => calFac m v rc)
    let fAdd ← over (fs.map (·.fAdd)) nd.fAdd
    let fRescale ← over (fs.map (·.fRescale)) nd.fRescale
    let codes ← FastScan.quantCodes padded (fs.map (·.bits))
    let codes ← over codes nd.codes
    pure ⟨nd.vec, codes, fAdd, fRescale, ids⟩

/-- `QueryComputer`: the query, its tables, `lut_delta_`, `lut_bias_`. -/
structure Query (K : Type) where
  q : List K
  lut : List Nat
  delta : K
  bias : K

/-- `QueryComputer::QueryComputer` (`rabitq_space.hpp:518-543`). -/
def mkQuery (isa : Isa) (rot : List K → Option (List K)) (padded : Nat) (q : List K) : Option (Query K) := do
  let rq ← rot q
  let L ← FastScan.mkLut isa rq padded
  let c1 : K := -1 / 2
  let sumq := (rq.take padded).sum
  pure ⟨q, L.lut, L.delta, L.sumVl + sumq * c1⟩

/-- The distance function of the space (`rabitq_space.hpp:223-236`) with kernel `kn`. -/
def dist (kn : Simd.Kernel) (m : Metric) (x y : List K) (dim : Nat) : Option K :=
  match m with
  | .l2 => Simd.runL2 kn x y dim
  | _ => Simd.runIp kn x y dim

/-- `estimate_distances` (`fastscan.hpp:277-310`) for one neighbour: with AVX-512 two fused multiply-adds, otherwise plain
operations. -/
def estOne (isa : Isa) (n : Nat) (fAdd fRescale gAdd delta bias : K) : K :=
  match isa with
  | .avx512 => fRescale * (delta * (n : K) + bias) + (fAdd + gAdd)
  | _ => fRescale * ((n : K) * delta + bias) + fAdd + gAdd

/-- `load_centroid` (`rabitq_space.hpp:545-553`): `g_add_` and the 32 estimates. -/
def loadCentroid (isa : Isa) (kn : Simd.Kernel) (m : Metric) (dim padded : Nat) (Q : Query K) (nd : Node K) :
    Option (K × List K) := do
  let gAdd ← dist kn m Q.q nd.vec dim
  let ns ← FastScan.accumulate isa nd.codes Q.lut padded
  let est ← (List.range 32).mapM (fun i => do
    let n ← ns[i]?
    let a ← nd.fAdd[i]?
    let r ← nd.fRescale[i]?
    pure (estOne isa n a r gAdd Q.delta Q.bias))
  pure (gAdd, est)

end

end Alaya.RaBitQ
