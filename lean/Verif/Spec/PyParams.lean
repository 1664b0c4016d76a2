import Verif.Model.PyParams

/-!
# What the parameters of an index mean (spec for C98)

The documented values are those of docs/CLIENT_USER_MANUAL.md:704-713.
-/

namespace Alaya.PyParams

/-- `s` is `name` (in small letters), possibly with some letters written as capitals. -/
def Spells (s name : Name) : Prop :=
  List.Forall₂ (fun a b => a = b ∨ (65 ≤ a.toNat ∧ a.toNat ≤ 90 ∧ b.toNat = a.toNat + 32)) s name

/-- Documented names of the index types. -/
def indexNames : IndexKind → List Name
  | .hnsw => [nHnsw]
  | .nsg => [nNsg]
  | .fusion => [nFusion]

/-- Documented names of the metrics. -/
def metricNames : MetricKind → List Name
  | .l2 => [nL2, nEuclidean]
  | .ip => [nIp]
  | .cos => [nCosine, nCos]

/-- Documented names of the quantisations. -/
def quantNames : QuantKind → List Name
  | .none => [nNone]
  | .sq8 => [nSq8]
  | .sq4 => [nSq4]
  | .rabitq => [nRabitq]

/-- `s` names the index type `k`, whatever the case of its letters. -/
def NamesIndex (s : Name) (k : IndexKind) : Prop := ∃ n ∈ indexNames k, Spells s n

/-- `s` names the metric `k`. -/
def NamesMetric (s : Name) (k : MetricKind) : Prop := ∃ n ∈ metricNames k, Spells s n

/-- `s` names the quantisation `k`. -/
def NamesQuant (s : Name) (k : QuantKind) : Prop := ∃ n ∈ quantNames k, Spells s n

/-- Types of vector components. -/
def VectorType (d : DType) : Prop := d = .f32 ∨ d = .i8 ∨ d = .u8

/-- Unsigned integer types (and bool): what is taken for an id type. -/
def UnsignedType (d : DType) : Prop := d = .bool ∨ d = .u8 ∨ d = .u16 ∨ d = .u32 ∨ d = .u64

/-- A given value satisfies `P`. -/
def Given {α : Type} (o : Option α) (P : α → Prop) : Prop := ∀ a, o = some a → P a

/-- The keyword arguments have documented values. -/
structure Documented (k : Kwargs) : Prop where
  index : Given k.indexType fun s => ∃ i, NamesIndex s i
  data : Given k.dataType VectorType
  id : Given k.idType UnsignedType
  quant : Given k.quant fun s => ∃ i, NamesQuant s i
  metric : Given k.metric fun s => ∃ i, NamesMetric s i
  capacity : Given k.capacity fun n => 0 < n.val
  maxNbrs : Given k.maxNbrs fun n => 0 < n.val ∧ n.val < 1000
  build : Given k.buildThreads fun n => 0 < n.val
  view : Given k.viewThreads fun n => 0 < n.val

/-- The parameter object has documented values that fit into the native types. -/
structure Usable (p : Params) : Prop where
  index : Given p.indexType fun s => ∃ i, NamesIndex s i
  id : Given p.idType UnsignedType
  quant : Given p.quant fun s => ∃ i, NamesQuant s i
  metric : Given p.metric fun s => ∃ i, NamesMetric s i
  capacity : Given p.capacity fun n => 0 < n.val ∧ n.val < 2 ^ 32
  maxNbrs : Given p.maxNbrs fun n => 0 < n.val ∧ n.val < 1000
  build : Given p.buildThreads fun n => 0 < n.val ∧ n.val < 2 ^ 32
  view : Given p.viewThreads fun n => 0 < n.val ∧ n.val < 2 ^ 32

/-- A native configuration follows the parameters for vectors of type `dt`: each given value is
used, each missing one is the documented default. -/
structure Follows (p : Params) (dt : DType) (n : Native) : Prop where
  index : NamesIndex (p.indexType.getD nHnsw) n.index
  data : n.data = dt
  id : n.id = p.idType.getD .u32
  quant : NamesQuant (p.quant.getD nNone) n.quant
  metric : NamesMetric (p.metric.getD nL2) n.metric
  capacity : (n.capacity : Int) = (p.capacity.getD (.py 100000)).val
  maxNbrs : (n.maxNbrs : Int) = (p.maxNbrs.getD (.py 32)).val
  build : (n.buildThreads : Int) = (p.buildThreads.getD (.py 0)).val
  view : (n.viewThreads : Int) = (p.viewThreads.getD (.py 0)).val
  rocksdb : n.rocksdb = p.rocksdb
  scalar : n.hasScalar = p.hasScalar
  fields : n.fields = p.fields.getD []

/-- Combinations that exist as native indexes: plain vectors of each type with 32- or 64-bit ids,
scalar quantisation of float vectors, RaBitQ of float vectors with 32-bit ids. -/
def Supported (d i : DType) : QuantKind → Prop
  | .none => (d = .f32 ∨ d = .i8 ∨ d = .u8) ∧ (i = .u32 ∨ i = .u64)
  | .sq8 => d = .f32 ∧ (i = .u32 ∨ i = .u64)
  | .sq4 => d = .f32 ∧ (i = .u32 ∨ i = .u64)
  | .rabitq => d = .f32 ∧ i = .u32

/-- Inner product. -/
def inner (v q : List ℝ) : ℝ := (List.zipWith (· * ·) v q).sum

/-- Euclidean length. -/
noncomputable def length2 (v : List ℝ) : ℝ := Real.sqrt (inner v v)

/-- The documented meaning of the metrics; smaller is nearer. -/
noncomputable def meaning : MetricKind → List ℝ → List ℝ → ℝ
  | .l2, v, q => (List.zipWith (fun x y => (x - y) ^ 2) v q).sum
  | .ip, v, q => - inner v q
  | .cos, v, q => - (inner v q / (length2 v * length2 q))

/-- No NumPy integer among the parameters. -/
def PlainNumbers (p : Params) : Prop :=
  ∀ n : Num, (p.capacity = some n ∨ p.maxNbrs = some n ∨ p.buildThreads = some n ∨ p.viewThreads = some n) →
    ∃ v, n = .py v

/-- Keys every schema document must have. schema.py:128-134 -/
def requiredKeys : List Key := [.indexType, .dataType, .idType, .quant, .metric, .capacity, .maxNbrs]

end Alaya.PyParams
