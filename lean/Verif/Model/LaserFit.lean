import Verif.Model.LaserFiles

/-
`laser.Index.fit` and `from_prefix`: a pipeline of steps that leave files next to each other and reuse what is there.
/repo/python/src/alayalite/laser/__init__.py, _idempotence.py, _pca.py, _io.py.

The files of one prefix are a map from names to contents.  PCA, medoids, Vamana and the LASER builder are parameters; threads,
memory budget and scheduling enter as `run`.  A crash (or an exception in the middle of a step) leaves in the files of that step
anything that is not longer than what was to be written.  Seeds are non-negative.
-/
namespace Alaya.LaserFit
open Alaya

/-- The files of a prefix: `_raw.fbin`, `_pca_base.fbin`, `_pca.bin`, `_medoids_indices`, `_medoids`, `_vamana_graph.index`,
`_R<R>_MD<md>.index` with `_rotator`, `_cache_ids` and `_cache_nodes`, `_seed.txt`, `_seed.txt.tmp`.
__init__.py:283, 309-310, 341-342, 347, _idempotence.py:83, 97-99, qg_builder.hpp:173-174, 349, 372-373 -/
inductive Name where
  | raw | base | pca | medIdx | med | vam
  | index (R md : Nat) | rot (R md : Nat) | cids (R md : Nat) | cnodes (R md : Nat)
  | seed | seedTmp
  deriving DecidableEq, Repr

abbrev Dir := Name → Option Bytes

def Dir.set (d : Dir) (x : Name) (c : Option Bytes) : Dir := fun y => if y = x then c else d y

/-- The vectors: an array, or a file of the user. -/
structure Input where
  n : Nat
  dim : Nat
  rows : List Bytes
  isFile : Bool
  deriving DecidableEq, Repr

/-- `BuildParams` and the arguments of `fit`. __init__.py:46-92, 214-227 -/
structure Args where
  input : Input
  mainDim : Option Nat
  R : Nat
  L : Nat
  alpha : Nat
  ef : Nat
  ep : Nat
  disable : Bool
  seed : Nat
  skip : Bool
  deriving DecidableEq, Repr

/-- `resolved_main_dim`. __init__.py:287 -/
def Args.md (A : Args) : Nat := A.mainDim.getD A.input.dim

/-- The raw file. _io.py:54-59 -/
def Args.raw (A : Args) : Bytes := LaserFiles.fbin A.input.n A.input.dim A.input.rows.flatten

/-- The steps; outer `none` of `laser` = undefined behaviour, `none` otherwise = an exception. -/
structure Env where
  pcaFit : Bytes → Nat → Option Bytes
  pcaRow : Bytes → Bytes → Bytes
  medoid : Bytes → Nat → Nat → Option (Bytes × Bytes)
  vamana : Bytes → Nat → Nat → Nat → Nat → Nat → Option Bytes
  laser : Nat → Nat → Nat → Nat → Nat → Bytes → Bytes → Nat → Option (Option (Bytes × Bytes × Bytes × Bytes))
  intText : Nat → Bytes
  intParse : Bytes → Option Nat

/-! ### Validators -/

def i32 (b : Bytes) : Int := if leNat b < 2 ^ 31 then leNat b else (leNat b : Int) - 2 ^ 32

/-- `validate_vamana_index`. _idempotence.py:23-38 -/
def validVamana (f : Option Bytes) (R : Nat) : Bool :=
  match f with
  | none => false
  | some f => decide (24 ≤ f.length) && f.length == leNat (f.take 8) && leNat ((f.drop 8).take 4) == R && leNat ((f.drop 16).take 8) == 0

/-- `validate_pca_base`. _idempotence.py:41-55 -/
def validBase (f : Option Bytes) (n dim : Nat) : Bool :=
  match f with
  | none => false
  | some f => f.length == 8 + n * dim * 4 && i32 (f.take 4) == n && i32 ((f.drop 4).take 4) == dim

/-- `validate_pca_params`. _idempotence.py:58-73 -/
def validPca (f : Option Bytes) (dim : Nat) : Bool :=
  match f with
  | none => false
  | some f => f.length == 8 + dim * 4 + dim * dim * 4 && leNat (f.take 8) == dim

def nonEmpty (f : Option Bytes) : Bool :=
  match f with
  | none => false
  | some f => decide (0 < f.length)

/-- `validate_medoids`. _idempotence.py:76-78 -/
def validMedoids (d : Dir) : Bool := nonEmpty (d .med) && nonEmpty (d .medIdx)

/-- `validate_laser_index`. _idempotence.py:81-94 -/
def validIndex (f : Option Bytes) (n : Nat) : Bool :=
  match f with
  | none => false
  | some f => decide (8 ≤ f.length) && leNat (f.take 8) == n

/-- `validate_seed_sidecar`. _idempotence.py:102-121 -/
def seedOk (E : Env) (d : Dir) (seed : Nat) : Bool :=
  match d .seed with
  | none => false
  | some f => decide (0 < f.length) && E.intParse f == some seed

/-! ### Steps -/

/-- What a step does to the files. -/
inductive Stage where
  | write (l : List (Name × Option Bytes))
  | raise
  | undef
  deriving DecidableEq, Repr

/-- Rows written at once. _pca.py:131 -/
def chunk : Nat := 100000

/-- `pca_transform_and_save`, which continues a file that is there. _pca.py:131-180 -/
def pcaSave (c n dim : Nat) (old : Option Bytes) (rows : List Bytes) : Bytes :=
  let w := dim * 4
  let start := match old with
    | none => 0
    | some f => if 8 < f.length then (f.length - 8) / w / c else 0
  if start = 0 then LaserFiles.fbin n dim rows.flatten
  else (old.getD []).take (8 + start * c * w) ++ (rows.drop (start * c)).flatten

/-- __init__.py:305-307 -/
def rawStage (A : Args) (eff : Bool) (d : Dir) : Stage :=
  if A.input.isFile || (eff && validBase (d .raw) A.input.n A.input.dim) then .write [] else .write [(.raw, some A.raw)]

/-- __init__.py:309-333 -/
def pcaStage (E : Env) (A : Args) (eff : Bool) (d : Dir) : Stage :=
  -- the raw file of the prefix, or that of the user
  let raw := if A.input.isFile then some A.raw else d .raw
  if A.md < A.input.dim then
    if eff && validBase (d .base) A.input.n A.input.dim && validPca (d .pca) A.input.dim then .write []
    else match raw with
      | none => .raise
      | some raw => match E.pcaFit raw A.seed with
        | none => .raise
        | some p =>
          let w := 4 * A.input.dim
          let rows := (List.range A.input.n).map (fun i => ((raw.drop (8 + w * i)).take w))
          .write [(.pca, some p), (.base, some (pcaSave chunk A.input.n A.input.dim (d .base) (rows.map (E.pcaRow p))))]
  else
    let drop : List (Name × Option Bytes) := if (d .pca).isSome then [(.pca, none)] else []
    if eff && validBase (d .base) A.input.n A.input.dim then .write drop
    else match raw with
      | none => .raise
      | some raw => .write ((.base, some raw) :: drop)

/-- __init__.py:335-345, _medoid.py:79-92 -/
def medStage (E : Env) (A : Args) (eff : Bool) (d : Dir) : Stage :=
  if A.disable || (eff && validMedoids d) then .write []
  else match d .base with
    | none => .raise
    | some b => match E.medoid b A.ep A.seed with
      | none => .raise
      | some (i, v) => .write [(.medIdx, some i), (.med, some v)]

/-- __init__.py:347-360 -/
def vamStage (E : Env) (A : Args) (eff : Bool) (run : Nat) (d : Dir) : Stage :=
  let raw := if A.input.isFile then some A.raw else d .raw
  if eff && validVamana (d .vam) A.R then .write []
  else match raw with
    | none => .raise
    | some raw => match E.vamana raw A.R A.L A.alpha A.seed run with
      | none => .raise
      | some f => .write [(.vam, some f)]

/-- The constructor checks the degree; then the build from the base and the graph. __init__.py:362-379, _bindings.hpp:60-79 -/
def laserStage (E : Env) (A : Args) (eff : Bool) (run : Nat) (d : Dir) : Stage :=
  if A.R < 32 ∨ A.R % 32 ≠ 0 then .raise
  else if eff && validIndex (d (.index A.R A.md)) A.input.n then .write []
  else match d .base, d .vam with
    | some b, some v => match E.laser A.input.n A.md A.input.dim A.R A.seed b v run with
      | none => .undef
      | some none => .raise
      | some (some (ix, rot, ids, nodes)) =>
        .write [(.index A.R A.md, some ix), (.rot A.R A.md, some rot), (.cids A.R A.md, some ids), (.cnodes A.R A.md, some nodes)]
    | _, _ => .raise

/-- The temporary side file. _idempotence.py:132-143 -/
def seedStage (E : Env) (A : Args) (_ : Dir) : Stage := .write [(.seedTmp, some (E.intText A.seed))]

def stages (E : Env) (A : Args) (eff : Bool) (run : Nat) : List (Dir → Stage) :=
  [rawStage A eff, pcaStage E A eff, medStage E A eff, vamStage E A eff run, laserStage E A eff run, seedStage E A]

/-! ### Execution -/

def Dir.apply (d : Dir) (l : List (Name × Option Bytes)) : Dir := l.foldl (fun d x => d.set x.1 x.2) d

/-- What a crash leaves of one file: something not longer; a removal happened or not. -/
def garbled (d : Dir) (g : Dir) (x : Name × Option Bytes) : Option Bytes :=
  match x.2 with
  | some c => (g x.1).map (·.take c.length)
  | none => if (g x.1).isSome then d x.1 else none

def Dir.garble (d : Dir) (l : List (Name × Option Bytes)) (g : Dir) : Dir := d.apply (l.map (fun x => (x.1, garbled d g x)))

inductive Out where
  | done (d : Dir)
  | raised (d : Dir)
  | crashed (d : Dir)
  | undef

/-- A crash: the step in which it happens and what it leaves. -/
abbrev Crash := Option (Nat × Dir)

def exec : List (Dir → Stage) → Crash → Dir → Out
  | [], _, d => .done d
  | s :: ss, c, d => match s d with
    | .raise => .raised d
    | .undef => .undef
    | .write l => match c with
      | some (0, g) => .crashed (d.garble l g)
      | some (k + 1, g) => exec ss (some (k, g)) (d.apply l)
      | none => exec ss none (d.apply l)

def pow2 (n : Nat) : Bool := n != 0 && (n &&& (n - 1)) == 0

/-- Checks before anything is touched. __init__.py:262-288 -/
def Args.ok (A : Args) : Bool := decide (128 ≤ A.input.dim) && pow2 A.md && decide (64 ≤ A.md) && decide (A.md ≤ A.input.dim)

/-- `fit`: the side file with the seed decides whether anything is reused; it is published last, by a rename.
__init__.py:262-381 -/
def fit (E : Env) (A : Args) (run : Nat) (c : Crash) (d : Dir) : Out :=
  if A.ok = false then .raised d
  else
    let same := seedOk E d A.seed
    let d1 := if same then d else d.set .seed none
    match exec (stages E A (A.skip && same) run) c d1 with
    | .done d2 => .done ((d2.set .seed (d2 .seedTmp)).set .seedTmp none)
    | o => o

/-! ### Opening -/

structure Opened where
  n : Nat
  rawDim : Nat
  md : Nat
  R : Nat
  deriving DecidableEq, Repr

/-- `from_prefix` up to the native loader; `found` are the index files of the prefix. __init__.py:406-431 -/
def fromPrefix (found : List (Nat × Nat)) (d : Dir) : Option Opened :=
  match found with
  | [(R, md)] => match d (.index R md) with
    | none => none
    | some f =>
      if f.length < 24 then none
      else
        let n := leNat (f.take 8)
        let hmd := leNat ((f.drop 8).take 8)
        if hmd ≠ 0 ∧ hmd ≠ md then none
        else match d .base with
          | none => some ⟨n, md, md, R⟩
          | some b =>
            if b.length < 8 then none
            else
              let bn := i32 (b.take 4)
              let bd := i32 ((b.drop 4).take 4)
              if bn ≤ 0 ∨ bd ≤ 0 then none
              else if (b.length : Int) ≠ 8 + bn * bd * 4 then none
              else if bn = n ∧ (md : Int) ≤ bd then some ⟨n, bd.toNat, md, R⟩
              else some ⟨n, md, md, R⟩
  | _ => none

end Alaya.LaserFit
