import Verif.Model.ShardAssign
import Verif.Model.VamanaBuild
import Mathlib.Data.Rat.Defs

/-
Building a Vamana index from a data file, in one piece or in parts that fit into memory.
/repo/include/index/graph/vamana: build_dispatch.hpp (`build_vamana`), budget_estimator.hpp, kmeans_partition.hpp; with `assign` for
shard_assigner.hpp, `mergeShards` for shard_merger.hpp and the builder of vamana_builder.hpp as models of their own.

The arithmetic is a parameter.  Vectors are rows, all of the same length, as the file's header says; that reads of the data file succeed, that
files can be created and memory allocated is assumed.  Random numbers are arbitrary lists.  A result of `none` means that the random numbers given
were not enough.  The file of centroids and log messages are left out.
-/
namespace Alaya.VPart

open Alaya.Vamana (FDist closest assign shardIds mergeShards saveGraph idmapFile)

/-- Arithmetic on floats and doubles, without the conversions. -/
structure Ar (F : Type) where
  zero : F
  one : F
  /-- `std::numeric_limits<float>::max()` -/
  big : F
  /-- `std::numeric_limits<float>::epsilon()` -/
  eps : F
  /-- `rel_tol` -/
  tol : F
  add : F → F → F
  sub : F → F → F
  mul : F → F → F
  div : F → F → F
  lt : F → F → Bool
  le : F → F → Bool
  ofNat : Nat → F
  /-- an entry of the matrix of distances. kmeans_partition.hpp:117-131 -/
  gemm : List F → List F → F
  /-- the same number as a multiple of the smallest float; `none` = NaN -/
  fd : F → FDist

/-! ### k-means -/

/-- Squared distance, summed in order. kmeans_partition.hpp:223-230, 273-279 -/
def sq {F : Type} (A : Ar F) (v p : List F) : F := (v.zip p).foldl (fun acc x => A.add acc (A.mul (A.sub x.1 x.2) (A.sub x.1 x.2))) A.zero

/-- The scan for a dart. kmeans_partition.hpp:251-259 -/
def pickFrom {F : Type} (A : Ar F) (dart : F) : F → Nat → List F → Option Nat
  | _, _, [] => none
  | pre, i, d :: ds => if A.le pre dart && A.lt dart (A.add pre d) then some i else pickFrom A dart (A.add pre d) (i + 1) ds

def pickIdx {F : Type} (A : Ar F) (dist : List F) (dart : F) : Nat := (pickFrom A dart A.zero 0 dist).getD (dist.length - 1)

/-- The sum of the distances. kmeans_partition.hpp:242-245 -/
def total {F : Type} (A : Ar F) (dist : List F) : F := dist.foldl A.add A.zero

/-- `sum == 0.0`. kmeans_partition.hpp:246 -/
def isZero {F : Type} (A : Ar F) (x : F) : Bool := A.le x A.zero && A.le A.zero x

/-- The loop `while (true)`; the list holds the random numbers to come. kmeans_partition.hpp:249-266 -/
def redraw {F : Type} (A : Ar F) (dist : List F) (picked : List Nat) : List F → Option (Nat × List F)
  | [] => none
  | u :: us =>
    if isZero A (total A dist) || !picked.contains (pickIdx A dist (A.mul u (total A dist))) then some (pickIdx A dist (A.mul u (total A dist)), us)
    else redraw A dist picked us

/-- The smaller of the old distance and that to the new pivot. kmeans_partition.hpp:271-285 -/
def lower {F : Type} (A : Ar F) (data : List (List F)) (p : List F) (dist : List F) : List F :=
  (data.zip dist).map (fun x => if A.lt (sq A x.1 p) x.2 then sq A x.1 p else x.2)

/-- The remaining pivots. kmeans_partition.hpp:236-289 -/
def seedLoop {F : Type} (A : Ar F) (data : List (List F)) : Nat → List Nat → List F → List F → Option (List Nat)
  | 0, picked, _, _ => some picked
  | k + 1, picked, dist, us =>
    match redraw A dist picked us with
    | none => none
    | some (c, us') => seedLoop A data k (picked ++ [c]) (lower A data (data.getD c []) dist) us'

/-- `kmeanspp_init`: the indices of the pivots; `some none` = exception; `first` = the first random index. kmeans_partition.hpp:190-290 -/
def seed {F : Type} (A : Ar F) (data : List (List F)) (nc first : Nat) (us : List F) : Option (Option (List Nat)) :=
  if nc = 0 ∨ data.length = 0 then some none
  else if data.length < nc then some none
  else if 2 ^ 23 < data.length then some none
  else (seedLoop A data (nc - 1) [first] (data.map (fun v => sq A v (data.getD first []))) us).map some

/-- `compute_closest_centers` with `k = 1`. kmeans_partition.hpp:137-150 -/
def nearest {F : Type} (A : Ar F) (cents : List (List F)) (v : List F) : Nat :=
  (cents.zipIdx.foldl (fun (b : F × Nat) c => if A.lt (A.gemm v c.1) b.1 then (A.gemm v c.1, c.2) else b) (A.big, 0)).2

/-- The mean of the members, or zeros. kmeans_partition.hpp:316-342 -/
def centre {F : Type} (A : Ar F) (dim : Nat) (members : List (List F)) : List F :=
  if members = [] then List.replicate dim A.zero
  else (List.range dim).map (fun d => A.mul ((members.map (fun v => v.getD d A.zero)).foldl A.add A.zero) (A.div A.one (A.ofNat members.length)))

/-- The new centres. kmeans_partition.hpp:304-343 -/
def recentre {F : Type} (A : Ar F) (dim : Nat) (data cents : List (List F)) : List (List F) :=
  (List.range cents.length).map (fun c => centre A dim (data.filter (fun v => nearest A cents v = c)))

/-- The residual, with the old assignment and the new centres. kmeans_partition.hpp:345-363 -/
def residual {F : Type} (A : Ar F) (data old new : List (List F)) : F :=
  (data.map (fun v => sq A v (new.getD (nearest A old v) []))).foldl A.add A.zero

/-- `run_lloyds`; the residual of the round before is `none` in the first. kmeans_partition.hpp:369-393 -/
def lloyds {F : Type} (A : Ar F) (dim : Nat) (data : List (List F)) : Nat → Option F → List (List F) → List (List F)
  | 0, _, cents => cents
  | k + 1, old, cents =>
    let new := recentre A dim data cents
    let res := residual A data cents new
    if old.any (fun o => A.lt A.zero res && A.lt (A.div (A.sub o res) res) A.tol) || A.lt res A.eps then new
    else lloyds A dim data k (some res) new

/-- `kmeans_train`. kmeans_partition.hpp:449-472 -/
def train {F : Type} (A : Ar F) (dim reps : Nat) (data : List (List F)) (nc first : Nat) (us : List F) : Option (Option (List (List F))) :=
  match seed A data nc first us with
  | none => none
  | some none => some none
  | some (some picked) => some (some (lloyds A dim data reps none (picked.map (fun i => data.getD i []))))

/-! ### How many parts -/

/-- `gen_random_slice`; one random number per vector. build_dispatch.hpp:192-203 -/
def sample {F : Type} (A : Ar F) (rate : F) (us : List F) (data : List (List F)) : List (List F) :=
  ((data.zip us).filter (fun x => A.lt x.2 rate)).map Prod.fst

/-- The distances of a vector to the pivots. -/
def rowOf {F : Type} (A : Ar F) (piv : List (List F)) (v : List F) : List FDist := piv.map (fun c => A.fd (A.gemm v c))

/-- The counts of `estimate_cluster_sizes`. kmeans_partition.hpp:418-432 -/
def counts {F : Type} (A : Ar F) (M : Int) (k nc : Nat) (piv test : List (List F)) : List Nat :=
  (test.flatMap (fun v => closest M k (rowOf A piv v))).foldl (fun cs s => cs.modify s (· + 1)) (List.replicate nc 0)

/-- The growth loop of `determine_num_parts_with_ram_budget`. `km` trains, `est` estimates the sizes of the parts, `fits` says whether
a part of that size fits into memory. budget_estimator.hpp:133-178 -/
def numParts {F : Type} (km : Nat → Option (Option (List (List F)))) (est : Nat → List (List F) → List Nat) (fits : Nat → Bool) (nTrain maxParts : Nat) :
    Nat → Nat → Option (Option (Nat × List (List F)))
  | 0, _ => none
  | fuel + 1, p =>
    if maxParts < p then some none
    else if nTrain < p then some none
    else
      match km p with
      | none => none
      | some none => some none
      | some (some piv) => if (est p piv).all fits then some (some (p, piv)) else numParts km est fits nTrain maxParts fuel (p + 2)

/-- `round_up_8`. budget_estimator.hpp:28 -/
def roundUp8 (x : Nat) : Nat := (x + 7) % 2 ^ 32 / 8 * 8

/-- `estimate_ram_usage_bytes`, in exact arithmetic, with 40 bytes for a mutex and 8 for a pointer. budget_estimator.hpp:48-61 -/
def ram (n dim dtype degree : Nat) : Rat :=
  (11 / 10) * ((n : Rat) * roundUp8 dim * dtype + (n : Rat) * degree * 4 * (13 / 10) + (n : Rat) * 40 + (n : Rat) * 8)

/-! ### The build -/

inductive Out
  | throws
  | noReturn
  | ok (graph : Bytes)
  deriving DecidableEq, Repr

structure Env (F : Type) where
  A : Ar F
  /-- the largest float, scaled -/
  M : Int
  R : Nat
  L : Nat
  /-- alpha finite and at least one -/
  alphaOk : Bool
  /-- sampling rate negative, or positive and at most one -/
  rateOk : Bool
  /-- the rate that is used -/
  rate : F
  /-- budget not below or equal to zero -/
  budgetOk : Bool
  /-- everything fits into memory with degree `R` -/
  fitsAll : Nat → Bool
  /-- a part fits, with the degree of parts -/
  fits : Nat → Bool
  /-- scaling a count of the test sample -/
  ext : Nat → Nat
  /-- random numbers for the two samples -/
  us1 : List F
  us2 : List F
  /-- random numbers of k-means, which restarts its generator for every number of parts -/
  first : Nat → Nat
  us : List F
  /-- what the builder makes of the vectors, by degree and number of the part: graph and entry point -/
  bld : Nat → Nat → List (List F) → List (List Nat) × Nat
  /-- `std::shuffle` -/
  shuffle : Nat → List Nat → List Nat
  /-- the entry point of the merged graph -/
  medoid : Nat

/-- The degree of the parts. build_dispatch.hpp:292 -/
def shardR (R : Nat) : Nat := max 1 (2 * R / 3)

/-- The loop over the parts: `load_fbin` rejects a file without vectors. build_dispatch.hpp:355-389 -/
def shardGraphs {F : Type} (E : Env F) : Nat → List (List (Nat × List F)) → Option (List Bytes)
  | _, [] => some []
  | i, s :: ss =>
    if s = [] then none
    else
      let b := E.bld (shardR E.R) i (s.map Prod.snd)
      match shardGraphs E (i + 1) ss with
      | none => none
      | some gs => some (saveGraph b.1 (shardR E.R) b.2 0 :: gs)

/-- Number of parts and pivots. build_dispatch.hpp:268-312, budget_estimator.hpp:121-178 -/
def choose {F : Type} (E : Env F) (dim : Nat) (data : List (List F)) : Option (Option (Nat × List (List F))) :=
  let tr := sample E.A E.rate E.us1 data
  let te := sample E.A E.rate E.us2 data
  if tr.length < 3 ∨ te.length < 3 then some none
  else if E.budgetOk = false then some none
  else numParts (fun p => train E.A dim 10 tr p (E.first p) E.us) (fun p piv => (counts E.A E.M 2 p piv te).map E.ext) E.fits tr.length 1024 1024 3

/-- The contents of the parts. build_dispatch.hpp:346-351 -/
def parts {F : Type} (E : Env F) (np : Nat) (piv data : List (List F)) : Option (List (List (Nat × List F))) :=
  assign E.M np 2 (data.map (fun v => (v, rowOf E.A piv v)))

/-- `run_partition_merge`. build_dispatch.hpp:250-404 -/
def partition {F : Type} (E : Env F) (dim : Nat) (data : List (List F)) : Option Out :=
  match choose E dim data with
  | none => none
  | some none => some .throws
  | some (some (np, piv)) =>
    match parts E np piv data with
    | none => some .throws
    | some ss =>
      match shardGraphs E 0 ss with
      | none => some .throws
      | some gs =>
        match mergeShards E.shuffle gs (ss.map (fun s => idmapFile (shardIds s))) E.R E.medoid 0 with
        | .throws => some .throws
        | .noReturn => some .noReturn
        | .ok g _ => some (.ok g)

/-- `build_vamana`. build_dispatch.hpp:418-471, 218-244 -/
def build {F : Type} (E : Env F) (dim : Nat) (data : List (List F)) : Option Out :=
  if E.R = 0 then some .throws
  else if E.L < E.R then some .throws
  else if E.alphaOk = false then some .throws
  else if E.rateOk = false then some .throws
  else if data = [] ∨ dim = 0 then some .throws
  else if E.fitsAll data.length then some (.ok (saveGraph (E.bld E.R 0 data).1 E.R (E.bld E.R 0 data).2 0))
  else partition E dim data

/-- `compute_medoid_streaming`: for every block the indices that each thread scans, in the order in which the threads enter the critical
section. shard_merger.hpp:102-145 -/
def medoidStream (d : Nat → Int) (blocks : List (List (List Nat))) : Nat :=
  ((blocks.map (fun ps => (ps.map (fun p => Alaya.VBuild.localBest d p (none, 0))).foldl Alaya.VBuild.critical (none, 0))).foldl Alaya.VBuild.critical (none, 0)).2

end Alaya.VPart
