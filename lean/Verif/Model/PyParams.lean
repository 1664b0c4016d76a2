import Mathlib.Analysis.Real.Sqrt

/-!
# Parameters of an in-memory index, from the Python call to the native index

python/src/alayalite/schema.py, common.py, utils.py:105-118, index.py:112-164 and 268-310,
collection.py:237-283 and 506-546, client.py:119-164; python/include/params.hpp,
python/include/dispatch_generated.hpp, python/include/index.hpp:560-689;
include/space/raw_space.hpp:77-125.

Simplifications.
* Names are lists of characters; `lower` is `str.lower()` on the letters A–Z.  The only other
  characters whose lower-case form is an ASCII letter are the Kelvin sign (`k`, which occurs in no
  accepted name) and the dotted capital I (two characters), so membership in the lists of accepted
  names is not affected.
* Arguments have their documented types (a string where a string is expected, a dtype-like where a
  dtype is expected, an integer where a number is expected).
* numpy's builtin dtypes in native byte order, one object each, so that `py::dtype::is` is equality.
* JSON text is not modelled: a document is its decoded object.  The encoder refuses NumPy integers.
* Vectors are lists of real numbers: rounding is not modelled here (see C75 for the kernels).
* What happens inside the native index after its construction is C67–C71, C94 and C95.
-/

namespace Alaya.PyParams

/-- Text. -/
abbrev Name := List Char

/-- `str.lower()`, A–Z only. -/
def lowerChar (c : Char) : Char := if 65 ≤ c.toNat ∧ c.toNat ≤ 90 then Char.ofNat (c.toNat + 32) else c

/-- `str.lower()`. -/
def lower (s : Name) : Name := s.map lowerChar

def nHnsw : Name := ['h', 'n', 's', 'w']
def nNsg : Name := ['n', 's', 'g']
def nFusion : Name := ['f', 'u', 's', 'i', 'o', 'n']
def nEuclidean : Name := ['e', 'u', 'c', 'l', 'i', 'd', 'e', 'a', 'n']
def nL2 : Name := ['l', '2']
def nIp : Name := ['i', 'p']
def nCosine : Name := ['c', 'o', 's', 'i', 'n', 'e']
def nCos : Name := ['c', 'o', 's']
def nNone : Name := ['n', 'o', 'n', 'e']
def nSq8 : Name := ['s', 'q', '8']
def nSq4 : Name := ['s', 'q', '4']
def nRabitq : Name := ['r', 'a', 'b', 'i', 't', 'q']

/-- `_VALID_METRIC_TYPES`. common.py:50 -/
def validMetrics : List Name := [nEuclidean, nL2, nIp, nCosine, nCos]

/-- `_VALID_INDEX_TYPES`. common.py:51 -/
def validIndexTypes : List Name := [nHnsw, nNsg, nFusion]

/-- `_VALID_SQ_TYPES` without `None`. common.py:52 -/
def validQuants : List Name := [nNone, nSq8, nSq4, nRabitq]

/-- numpy dtypes. -/
inductive DType where
  | bool | u8 | u16 | u32 | u64 | i8 | i16 | i32 | i64 | f16 | f32 | f64
deriving DecidableEq, Repr

/-- `np.dtype(…).name`. -/
def DType.name : DType → Name
  | .bool => ['b', 'o', 'o', 'l']
  | .u8 => ['u', 'i', 'n', 't', '8']
  | .u16 => ['u', 'i', 'n', 't', '1', '6']
  | .u32 => ['u', 'i', 'n', 't', '3', '2']
  | .u64 => ['u', 'i', 'n', 't', '6', '4']
  | .i8 => ['i', 'n', 't', '8']
  | .i16 => ['i', 'n', 't', '1', '6']
  | .i32 => ['i', 'n', 't', '3', '2']
  | .i64 => ['i', 'n', 't', '6', '4']
  | .f16 => ['f', 'l', 'o', 'a', 't', '1', '6']
  | .f32 => ['f', 'l', 'o', 'a', 't', '3', '2']
  | .f64 => ['f', 'l', 'o', 'a', 't', '6', '4']

/-- All modelled dtypes. -/
def DType.all : List DType := [.bool, .u8, .u16, .u32, .u64, .i8, .i16, .i32, .i64, .f16, .f32, .f64]

/-- `np.dtype(text)`, `none` = `TypeError`. -/
def DType.parse (s : Name) : Option DType := DType.all.find? (fun d => d.name == s)

/-- `_VALID_DTYPES`. common.py:49 -/
def validDtypes : List DType := [.f32, .i8, .u8]

/-- `any(np.can_cast(id_type, d) for d in [np.uint64, np.uint32])`: numpy's safe casts into the
unsigned types. common.py:48 and 119-122 -/
def castsToId : DType → Bool
  | .bool | .u8 | .u16 | .u32 | .u64 => true
  | _ => false

/-- A Python integer or a NumPy integer scalar. -/
inductive Num where
  | py (v : Int)
  | np (v : Int)
deriving DecidableEq, Repr

/-- The number. -/
def Num.val : Num → Int
  | .py v => v
  | .np v => v

/-- Outcome of a call. -/
inductive Res (α : Type) where
  | ok (a : α)
  /-- a Python exception (or a C++ exception translated by pybind11) -/
  | raised
  /-- `exit(-1)`: the Python process is gone -/
  | exits
  /-- undefined behaviour -/
  | ub
deriving DecidableEq, Repr

/-- Sequencing. -/
def Res.bind {α β : Type} : Res α → (α → Res β) → Res β
  | .ok a, f => f a
  | .raised, _ => .raised
  | .exits, _ => .exits
  | .ub, _ => .ub

/-- `_assert(cond, …)`. common.py:222-224 -/
def require (c : Bool) : Res Unit := if c then .ok () else .raised

/-- `IndexParams`. schema.py:37-52 -/
structure Params where
  indexType : Option Name := none
  dataType : Option DType := none
  idType : Option DType := none
  quant : Option Name := none
  metric : Option Name := none
  capacity : Option Num := none
  maxNbrs : Option Num := none
  buildThreads : Option Num := none
  viewThreads : Option Num := none
  rocksdb : Name := []
  hasScalar : Bool := false
  fields : Option (List Name) := none
deriving DecidableEq, Repr

/-- The keyword arguments of `create_index` and `create_collection`.  `hasScalar` and `others` (any
further names) may be given; nothing reads them. client.py:119, 143 -/
structure Kwargs where
  indexType : Option Name := none
  dataType : Option DType := none
  idType : Option DType := none
  quant : Option Name := none
  metric : Option Name := none
  capacity : Option Num := none
  maxNbrs : Option Num := none
  buildThreads : Option Num := none
  viewThreads : Option Num := none
  rocksdb : Option Name := none
  hasScalar : Option Bool := none
  fields : Option (List Name) := none
  others : List Name := []
deriving DecidableEq, Repr

/-- An optional argument is checked and handed on. -/
def checked {α : Type} (ok : α → Bool) : Option α → Res (Option α)
  | none => .ok none
  | some a => (require (ok a)).bind fun _ => .ok (some a)

/-- `assert_valid_index_type`. common.py:174-178 -/
def okIndexType (s : Name) : Bool := decide (lower s ∈ validIndexTypes)

/-- `assert_valid_metric_type`. common.py:135-139 -/
def okMetric (s : Name) : Bool := decide (lower s ∈ validMetrics)

/-- `assert_valid_quantization_type` for a string. common.py:152-156 -/
def okQuant (s : Name) : Bool := decide (lower s ∈ validQuants)

/-- `valid_dtype`. common.py:110-116 -/
def okDtype (d : DType) : Bool := decide (d ∈ validDtypes)

/-- `valid_capacity_type`. common.py:127-132 -/
def okCapacity (n : Num) : Bool := decide (0 < n.val)

/-- `valid_max_nbrs`. common.py:192-197 -/
def okMaxNbrs (n : Num) : Bool := decide (0 < n.val ∧ n.val < 1000)

/-- `valid_thread_count`. common.py:200-204 -/
def okThreads (n : Num) : Bool := decide (0 < n.val)

/-- `IndexParams.from_kwargs`. schema.py:142-196 -/
def fromKwargs (k : Kwargs) : Res Params :=
  (checked okIndexType k.indexType).bind fun indexType =>
  (checked okDtype k.dataType).bind fun dataType =>
  (checked castsToId k.idType).bind fun idType =>
  (checked okQuant k.quant).bind fun quant =>
  (checked okMetric k.metric).bind fun metric =>
  (checked okCapacity k.capacity).bind fun capacity =>
  (checked okMaxNbrs k.maxNbrs).bind fun maxNbrs =>
  (checked okThreads k.buildThreads).bind fun buildThreads =>
  (checked okThreads k.viewThreads).bind fun viewThreads =>
  .ok { indexType := indexType, dataType := dataType, idType := idType, quant := quant,
        metric := metric, capacity := capacity, maxNbrs := maxNbrs,
        buildThreads := buildThreads, viewThreads := viewThreads,
        rocksdb := k.rocksdb.getD [], fields := k.fields }

/-- `fill_none_values`. schema.py:66-80 -/
def fillNone (p : Params) : Params :=
  { p with
    indexType := some (p.indexType.getD nHnsw)
    dataType := some (p.dataType.getD .f32)
    idType := some (p.idType.getD .u32)
    quant := some (p.quant.getD nNone)
    metric := some (p.metric.getD nL2)
    capacity := some (p.capacity.getD (.py 100000))
    maxNbrs := some (p.maxNbrs.getD (.py 32)) }

/-- `IndexType`, as far as Python reaches it. index_type.hpp:14-20 -/
inductive IndexKind where
  | hnsw | nsg | fusion
deriving DecidableEq, Repr

/-- `QuantizationType`. quantization_type.hpp:14-19 -/
inductive QuantKind where
  | none | sq8 | sq4 | rabitq
deriving DecidableEq, Repr

/-- `MetricType`, as far as Python reaches it. metric_type.hpp:13-18 -/
inductive MetricKind where
  | l2 | ip | cos
deriving DecidableEq, Repr

/-- `alaya::IndexParams`. params.hpp:19-58 -/
structure Native where
  index : IndexKind
  data : DType
  id : DType
  quant : QuantKind
  metric : MetricKind
  capacity : Nat
  maxNbrs : Nat
  buildThreads : Nat
  viewThreads : Nat
  rocksdb : Name
  hasScalar : Bool
  fields : List Name
deriving DecidableEq, Repr

/-- `valid_index_type`; `None` has no `lower`. common.py:181-189 -/
def validIndexType : Option Name → Res IndexKind
  | none => .raised
  | some s =>
    (require (okIndexType s)).bind fun _ =>
      if lower s = nHnsw then .ok .hnsw
      else if lower s = nNsg then .ok .nsg
      else .ok .fusion

/-- `valid_dtype`; `np.dtype(None)` is `float64`, which is refused. common.py:110-116 -/
def validDtype (d : Option DType) : Res DType :=
  (require (okDtype (d.getD .f64))).bind fun _ => .ok (d.getD .f64)

/-- `valid_id_type`; `np.can_cast(None, …)` means `float64`. common.py:119-124 -/
def validIdType (d : Option DType) : Res DType :=
  (require (castsToId (d.getD .f64))).bind fun _ => .ok (d.getD .f64)

/-- `valid_metric_type`. common.py:142-149 -/
def validMetric : Option Name → Res MetricKind
  | none => .raised
  | some s =>
    (require (okMetric s)).bind fun _ =>
      if lower s = nIp then .ok .ip
      else if lower s = nL2 ∨ lower s = nEuclidean then .ok .l2
      else .ok .cos

/-- `valid_quantization_type`. common.py:159-171 -/
def validQuant : Option Name → Res QuantKind
  | none => .ok .none
  | some s =>
    (require (okQuant s)).bind fun _ =>
      if lower s = nNone then .ok .none
      else if lower s = nSq8 then .ok .sq8
      else if lower s = nSq4 then .ok .sq4
      else .ok .rabitq

/-- A number that must be there and pass a check (`None > 0` raises). -/
def needNum (ok : Num → Bool) : Option Num → Res Int
  | none => .raised
  | some n => (require (ok n)).bind fun _ => .ok n.val

/-- `valid_thread_count(…) or 0`. schema.py:90-91, 101-102 -/
def threadNum : Option Num → Res Int
  | none => .ok 0
  | some n => (require (okThreads n)).bind fun _ => .ok n.val

/-- pybind11's conversion to `uint32_t`: out of range is a `TypeError`. pybind.cpp:130-154 -/
def toU32 (v : Int) : Res Nat :=
  (require (decide (0 ≤ v ∧ v < 4294967296))).bind fun _ => .ok v.toNat

/-- `to_cpp_params`. schema.py:82-106 -/
def toCpp (p : Params) : Res Native :=
  (validIndexType p.indexType).bind fun index =>
  (validDtype p.dataType).bind fun data =>
  (validIdType p.idType).bind fun id =>
  (validMetric p.metric).bind fun metric =>
  (validQuant p.quant).bind fun quant =>
  (needNum okCapacity p.capacity).bind fun capacity =>
  (needNum okMaxNbrs p.maxNbrs).bind fun maxNbrs =>
  (threadNum p.buildThreads).bind fun buildThreads =>
  (threadNum p.viewThreads).bind fun viewThreads =>
  (toU32 capacity).bind fun capacity' =>
  (toU32 maxNbrs).bind fun maxNbrs' =>
  (toU32 buildThreads).bind fun buildThreads' =>
  (toU32 viewThreads).bind fun viewThreads' =>
  .ok { index := index, data := data, id := id, quant := quant, metric := metric,
        capacity := capacity', maxNbrs := maxNbrs', buildThreads := buildThreads',
        viewThreads := viewThreads', rocksdb := p.rocksdb, hasScalar := p.hasScalar,
        fields := p.fields.getD [] }

/-- The 33 branches of `IndexFactory::create`. dispatch_generated.hpp:19-546 -/
def dispatchTable : List (DType × DType × QuantKind × IndexKind) :=
  [ (.f32, .u32, .none, .hnsw), (.f32, .u32, .none, .nsg), (.f32, .u32, .none, .fusion),
    (.f32, .u32, .sq8, .hnsw), (.f32, .u32, .sq8, .nsg), (.f32, .u32, .sq8, .fusion),
    (.f32, .u32, .sq4, .hnsw), (.f32, .u32, .sq4, .nsg), (.f32, .u32, .sq4, .fusion),
    (.f32, .u32, .rabitq, .hnsw), (.f32, .u32, .rabitq, .nsg), (.f32, .u32, .rabitq, .fusion),
    (.f32, .u64, .none, .hnsw), (.f32, .u64, .none, .nsg), (.f32, .u64, .none, .fusion),
    (.f32, .u64, .sq8, .hnsw), (.f32, .u64, .sq8, .nsg), (.f32, .u64, .sq8, .fusion),
    (.f32, .u64, .sq4, .hnsw), (.f32, .u64, .sq4, .nsg), (.f32, .u64, .sq4, .fusion),
    (.i8, .u32, .none, .hnsw), (.i8, .u32, .none, .nsg), (.i8, .u32, .none, .fusion),
    (.i8, .u64, .none, .hnsw), (.i8, .u64, .none, .nsg), (.i8, .u64, .none, .fusion),
    (.u8, .u32, .none, .hnsw), (.u8, .u32, .none, .nsg), (.u8, .u32, .none, .fusion),
    (.u8, .u64, .none, .hnsw), (.u8, .u64, .none, .nsg), (.u8, .u64, .none, .fusion) ]

/-- `IndexFactory::create`.  The text of the exception asks for the name of the index type, and the
table of names holds only FLAT, HNSW and QG: for the others its search runs into
`ALAYA_UNREACHABLE`. dispatch_generated.hpp:19-554, index_type.hpp:38-54, platform.hpp:69 -/
def create (n : Native) : Res Unit :=
  if (n.data, n.id, n.quant, n.index) ∈ dispatchTable then .ok ()
  else if n.index = .hnsw then .raised
  else .ub

/-- Graphs a native index can hold. -/
inductive GraphKind where
  | hnsw | nsg | fusion | qg
deriving DecidableEq, Repr

/-- Distance functions. -/
inductive DistKind where
  | sq | negIp
deriving DecidableEq, Repr

/-- `set_metric_function` of the spaces. raw_space.hpp:113-125, sq8_space.hpp:99-111,
rabitq_space.hpp:223-236 -/
def distOf : MetricKind → DistKind
  | .l2 => .sq
  | .ip => .negIp
  | .cos => .negIp

/-- `PyIndex::fit`, what kind of graph it builds.  The raw space of a type other than float ends
the process when the metric is COS; the graph is a QG for RaBitQ and HNSW otherwise.
index.hpp:596-661, raw_space.hpp:88-93 -/
def nativeFit (n : Native) : Res GraphKind :=
  match n.quant with
  | .rabitq => .ok .qg
  | _ => if n.data ≠ .f32 ∧ n.metric = .cos then .exits else .ok .hnsw

/-- A fitted index: the parameters Python keeps and what the native side was given and built. -/
structure Index where
  params : Params
  native : Native
  graph : GraphKind
deriving DecidableEq, Repr

/-- `Index.fit` on vectors of type `dt`, as far as the parameters are concerned.
index.py:128-164 -/
def indexFit (p : Params) (dt : DType) : Res Index :=
  (validDtype (some dt)).bind fun _ =>
  (match p.dataType with
    | none => Res.ok dt
    | some d => validDtype (some d)).bind fun d =>
  (require (decide (d = dt))).bind fun _ =>
  let q := fillNone { p with dataType := some d }
  (toCpp q).bind fun n =>
  (create n).bind fun _ =>
  (nativeFit n).bind fun g =>
  .ok ⟨q, n, g⟩

/-- The first `Collection.insert`, whose first embedding has type `dt`. collection.py:247-283 -/
def collectionFit (p : Params) (dt : DType) : Res Index :=
  (validDtype (some dt)).bind fun _ =>
  indexFit { fillNone { p with dataType := some dt } with hasScalar := true } dt

/-! ## Vectors -/

/-- `Σ x·y`. -/
def dot : List ℝ → List ℝ → ℝ
  | x :: xs, y :: ys => x * y + dot xs ys
  | _, _ => 0

/-- `np.linalg.norm`. -/
noncomputable def norm (v : List ℝ) : ℝ := Real.sqrt (dot v v)

/-- `normalize_vectors_for_cosine_metric` on one vector. utils.py:105-118 -/
noncomputable def prepare (metric : Option Name) (v : List ℝ) : List ℝ :=
  if metric ≠ some nCos ∧ metric ≠ some nCosine then v
  else if norm v = 0 then v
  else v.map (· / norm v)

/-- `Σ (x-y)²`. -/
def sqDist : List ℝ → List ℝ → ℝ
  | x :: xs, y :: ys => (x - y) ^ 2 + sqDist xs ys
  | _, _ => 0

/-- The distance function on two stored representations. distance_l2.ipp, distance_ip.ipp:33-40 -/
def distance : DistKind → List ℝ → List ℝ → ℝ
  | .sq, v, q => sqDist v q
  | .negIp, v, q => - dot v q

/-- The distance a search computes between an inserted vector and a query: both pass through
`prepare` once in Python.  index.py:146, 181, 203; collection.py:289, 312; common.py:91 -/
noncomputable def searchDistance (x : Index) (v q : List ℝ) : ℝ :=
  distance (distOf x.native.metric) (prepare x.params.metric v) (prepare x.params.metric q)

/-- The distance of `Collection.batch_query`: the query is prepared by the collection and again by
the index. collection.py:114-122, index.py:242-249 -/
noncomputable def collectionDistance (x : Index) (v q : List ℝ) : ℝ :=
  distance (distOf x.native.metric) (prepare x.params.metric v)
    (prepare x.params.metric (prepare x.params.metric q))

/-! ## Files -/

/-- `f"{n}"`. -/
def showNum (n : Option Num) : Name := match n with
  | none => ['N', 'o', 'n', 'e']
  | some n => (toString n.val).toList

/-- `f"{s}"` of an optional text. -/
def showName (s : Option Name) : Name := s.getD ['N', 'o', 'n', 'e']

/-- `.index`. -/
def dotIndex : Name := ['.', 'i', 'n', 'd', 'e', 'x']

/-- `.data`. -/
def dotData : Name := ['.', 'd', 'a', 't', 'a']

/-- File name of `index_path`. schema.py:54-55 -/
def indexFile (p : Params) : Name :=
  showName p.indexType ++ '_' :: showName p.metric ++ '_' :: showNum p.maxNbrs ++ dotIndex

/-- File name of `data_path`. schema.py:57-58 -/
def dataFile : Name := ['r', 'a', 'w'] ++ dotData

/-- File name of `quant_path`, `none` for the empty path. schema.py:60-64 -/
def quantFile (p : Params) : Option Name :=
  if p.quant = some nNone then none else some (showName p.quant ++ dotData)

/-! ## The schema document -/

/-- Keys of the schema object. schema.py:109-122 -/
inductive Key where
  | indexType | dataType | idType | quant | metric | capacity | maxNbrs | buildThreads | viewThreads
  | rocksdb | hasScalar | fields
deriving DecidableEq, Repr

/-- JSON values. -/
inductive JVal where
  | null
  | str (s : Name)
  | int (v : Int)
  | bool (b : Bool)
  | strs (l : List Name)
deriving DecidableEq, Repr

/-- A JSON object. -/
abbrev Doc := Key → Option JVal

/-- An optional text as JSON. -/
def jName : Option Name → JVal
  | none => .null
  | some s => .str s

/-- An optional number as JSON; `json.dump` raises `TypeError` on NumPy integers. -/
def jNum : Option Num → Res JVal
  | none => .ok .null
  | some (.py v) => .ok (.int v)
  | some (.np _) => .raised

/-- `to_json_dict` followed by `json.dump` (and the decoding of the text). schema.py:108-122,
206-215 -/
def save (p : Params) : Res Doc :=
  (jNum p.capacity).bind fun capacity =>
  (jNum p.maxNbrs).bind fun maxNbrs =>
  (jNum p.buildThreads).bind fun buildThreads =>
  (jNum p.viewThreads).bind fun viewThreads =>
  .ok fun
    | .indexType => some (jName p.indexType)
    | .dataType => some (.str (p.dataType.getD .f64).name)
    | .idType => some (.str (p.idType.getD .f64).name)
    | .quant => some (jName p.quant)
    | .metric => some (jName p.metric)
    | .capacity => some capacity
    | .maxNbrs => some maxNbrs
    | .buildThreads => some buildThreads
    | .viewThreads => some viewThreads
    | .rocksdb => some (.str p.rocksdb)
    | .hasScalar => some (.bool p.hasScalar)
    | .fields => some (.strs (p.fields.getD []))

/-- `data[key]` holding a text or null; other values are not modelled. -/
def getName (d : Doc) (k : Key) : Res (Option Name) := match d k with
  | some (.str s) => .ok (some s)
  | some .null => .ok none
  | _ => .raised

/-- `np.dtype(data[key]).type`. -/
def getDtype (d : Doc) (k : Key) : Res DType := match d k with
  | some (.str s) => (match DType.parse s with | some t => .ok t | none => .raised)
  | some .null => .ok .f64
  | _ => .raised

/-- `data[key]` holding a number or null. -/
def getNum (d : Doc) (k : Key) : Res (Option Num) := match d k with
  | some (.int v) => .ok (some (.py v))
  | some .null => .ok none
  | _ => .raised

/-- `data.get(key) or None`: absent, null and 0 give `None`. -/
def getThreads (d : Doc) (k : Key) : Res (Option Num) := match d k with
  | none => .ok none
  | some .null => .ok none
  | some (.int v) => .ok (if v = 0 then none else some (.py v))
  | _ => .raised

/-- `data.get(key, "")`. -/
def getText (d : Doc) (k : Key) : Res Name := match d k with
  | none => .ok []
  | some (.str s) => .ok s
  | _ => .raised

/-- `data.get(key, False)`. -/
def getBool (d : Doc) (k : Key) : Res Bool := match d k with
  | none => .ok false
  | some (.bool b) => .ok b
  | _ => .raised

/-- `data.get(key, [])`. -/
def getStrs (d : Doc) (k : Key) : Res (Option (List Name)) := match d k with
  | none => .ok (some [])
  | some (.strs l) => .ok (some l)
  | some .null => .ok none
  | _ => .raised

/-- `from_str_dict`. schema.py:124-140 -/
def load (d : Doc) : Res Params :=
  (getName d .indexType).bind fun indexType =>
  (getDtype d .dataType).bind fun dataType =>
  (getDtype d .idType).bind fun idType =>
  (getName d .quant).bind fun quant =>
  (getName d .metric).bind fun metric =>
  (getNum d .capacity).bind fun capacity =>
  (getNum d .maxNbrs).bind fun maxNbrs =>
  (getThreads d .buildThreads).bind fun buildThreads =>
  (getThreads d .viewThreads).bind fun viewThreads =>
  (getText d .rocksdb).bind fun rocksdb =>
  (getBool d .hasScalar).bind fun hasScalar =>
  (getStrs d .fields).bind fun fields =>
  .ok { indexType := indexType, dataType := some dataType, idType := some idType, quant := quant,
        metric := metric, capacity := capacity, maxNbrs := maxNbrs, buildThreads := buildThreads,
        viewThreads := viewThreads, rocksdb := rocksdb, hasScalar := hasScalar, fields := fields }

/-- `Index.load`: the parameters and what the native side is given. index.py:298-307 -/
def indexLoad (d : Doc) : Res (Params × Native) :=
  (load d).bind fun p => (toCpp p).bind fun n => (create n).bind fun _ => .ok (p, n)

end Alaya.PyParams
