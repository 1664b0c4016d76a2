import Verif.Model.MemSearch

/-
Search with a metadata filter over an in-memory graph.
/repo/include/executor/jobs/graph_hybrid_search_job.hpp (`GraphHybridSearchJob` for spaces other than RaBitQ),
/repo/include/executor/vector_iterator.hpp:58-160 (`VectorIterator::next_batch`, `GraphVectorIterator`),
/repo/include/executor/jobs/graph_search_job.hpp:835-860 (`search_solo` with a blocked mask),
/repo/include/utils/rabitq_utils/search_utils/buffer.hpp:35-151 (`SearchBuffer`).

Simplifications: distances are integers (NaN excluded), `dmax` stands for `numeric_limits::max()`, larger values for +infinity;
the two thresholds computed in floating point (`most` = ⌊total · 0.93⌋, `expected` = ⌊topk · total / matched⌋) are arbitrary functions,
⌊total · 0.5⌋ is `total / 2`; the filter executor is represented by what it decides (`Flt`, connected with the model of the executor
in `Props/C68.lean`); evaluation in batches of 1024 is one pass.
`none` = undefined behaviour or more rounds than the given bound.
-/
namespace Alaya.Hybrid
open Alaya.Pools Alaya.MemSearch

/-- `SearchBuffer`, never popped by the hybrid search (so without `cur_` and without checked bits). buffer.hpp:48-49 -/
structure SBuf where
  data : List (Nat × Int)
  size : Nat
  cap : Nat
  deriving DecidableEq, Repr

/-- `SearchBuffer(capacity)`. buffer.hpp:76 -/
def SBuf.new (cap : Nat) : SBuf := ⟨List.replicate (cap + 1) (0, 0), 0, cap⟩

/-- The halving loop of `binary_search`, at most `f` rounds. buffer.hpp:52-59 -/
def lbLoop (data : List (Nat × Int)) (d : Int) : Nat → Nat → Nat → Option Nat
  | 0, lo, _ => some lo
  | f + 1, lo, len =>
    if 1 < len then
      match data[lo + len / 2 - 1]? with
      | none => none
      | some e => lbLoop data d f (if e.2 < d then lo + len / 2 else lo) (len - len / 2)
    else some lo

/-- `binary_search`. buffer.hpp:51-61 -/
def SBuf.search (b : SBuf) (d : Int) : Option Nat :=
  match lbLoop b.data d b.size 0 b.size with
  | none => none
  | some lo =>
    if lo < b.size then
      match b.data[lo]? with
      | none => none
      | some e => some (if e.2 < d then lo + 1 else lo)
    else some lo

/-- `top_dist`. buffer.hpp:136-141 -/
def SBuf.topDist (dmax : Int) (b : SBuf) : Option Int :=
  if b.size = 0 ∨ b.cap = 0 then some dmax
  else if b.size = b.cap then (b.data[b.size - 1]?).map Prod.snd
  else some dmax

/-- `insert`. buffer.hpp:79-94 -/
def SBuf.insert (dmax : Int) (b : SBuf) (id : Nat) (d : Int) : Option SBuf :=
  if b.cap = 0 then some b
  else match b.topDist dmax with
    | none => none
    | some t =>
      if d > t then some b
      else match b.search d with
        | none => none
        | some lo =>
          match insertAt b.data lo b.size (id, d) with
          | none => none
          | some data => some ⟨data, if b.size < b.cap then b.size + 1 else b.size, b.cap⟩

/-- The ids written by `copy_results_to(knn, k)`. buffer.hpp:124-128 -/
def SBuf.ids (b : SBuf) (k : Nat) : List Nat := ((b.data.take b.size).take k).map Prod.fst

/-- Insertion of several candidates in order. -/
def SBuf.insertAll (dmax : Int) (exact : Nat → Int) : List Nat → SBuf → Option SBuf
  | [], b => some b
  | v :: vs, b =>
    match b.insert dmax v (exact v) with
    | none => none
    | some b' => SBuf.insertAll dmax exact vs b'

/-! ### The output array

`IDType *ids` is seen as 32-bit words: `w = 1` word per id for `uint32_t`, `w = 2` for `uint64_t`. -/

/-- `reinterpret_cast<uint32_t *>(ids)` and `copy_results_to`. graph_hybrid_search_job.hpp:146, graph_search_job.hpp:859 -/
def copyOut (words ids : List Nat) : List Nat := ids ++ words.drop ids.length

/-- All words of the array set to ones. graph_hybrid_search_job.hpp:86, graph_search_job.hpp:858 -/
def blank (w topk : Nat) : List Nat := List.replicate (topk * w) noId

/-- Writing an id of the full width (`ids[i] = id`); `none` is `numeric_limits<IDType>::max()`. -/
def wordsOf (w : Nat) : Option Nat → List Nat
  | none => List.replicate w noId
  | some id => id :: List.replicate (w - 1) 0

/-- The value of an id given by its words, lowest first. -/
def valueOf : List Nat → Nat
  | [] => 0
  | a :: as => a + 4294967296 * valueOf as

/-- Reading `ids[i]`. -/
def readId (w : Nat) (words : List Nat) (i : Nat) : Option Nat :=
  let ws := (words.drop (i * w)).take w
  if ws.all (· == noId) then none else some (valueOf ws)

def readIds (w topk : Nat) (words : List Nat) : List (Option Nat) := (List.range topk).map (readId w words)

/-! ### The iterator -/

/-- `prepare_next` followed by taking the candidate. vector_iterator.hpp:88-98, 113-152 -/
def next (g : MGraph) (n : Nat) (dist : Nat → Int) (blocked : Nat → Bool) : Nat → St → Option (St × Option Nat)
  | 0, s => if s.pool.hasNext then none else some (s, none)
  | fuel + 1, s =>
    if s.pool.hasNext then
      match s.pool.pop with
      | none => none
      | some (p, x) =>
        match g.rows[x.1]? with
        | none => none
        | some row =>
          match St.scan n dist row ⟨p, s.seen⟩ with
          | none => none
          | some s' => if blocked x.1 then next g n dist blocked fuel s' else some (s', some x.1)
    else some (s, none)

/-- `while (iterator->has_next())` of the search with a mask. graph_search_job.hpp:848-856 -/
def drain (g : MGraph) (n : Nat) (dist exact : Nat → Int) (dmax : Int) (blocked : Nat → Bool) (fuel : Nat) :
    Nat → St → SBuf → Option SBuf
  | 0, s, b =>
    match next g n dist blocked fuel s with
    | some (_, none) => some b
    | _ => none
  | f + 1, s, b =>
    match next g n dist blocked fuel s with
    | none => none
    | some (_, none) => some b
    | some (s', some v) =>
      match b.insert dmax v (exact v) with
      | none => none
      | some b' => drain g n dist exact dmax blocked fuel f s' b'

/-- `next_batch` without a mask. vector_iterator.hpp:40-56 -/
def nextBatch (g : MGraph) (n : Nat) (dist : Nat → Int) (fuel : Nat) : Nat → St → Option (St × List Nat)
  | 0, s => some (s, [])
  | k + 1, s =>
    match next g n dist (fun _ => false) fuel s with
    | none => none
    | some (s', none) => some (s', [])
    | some (s', some v) =>
      match nextBatch g n dist fuel k s' with
      | none => none
      | some (s'', l) => some (s'', v :: l)

/-! ### Filter and modes -/

/-- What the filter executor decides: `empty` = `is_trivially_true`, `fast` = `indexed_ids` if there is an index fast path, `sel` = the
evaluation of the stored record. metadata_filter_matcher.hpp:49-53 -/
structure Flt where
  empty : Bool
  fast : Option (List Nat)
  sel : Nat → Bool

/-- `match`, `eval_offsets` and the negated `blocked_` bit. metadata_filter_matcher.hpp:54-112 -/
def Flt.test (f : Flt) (id : Nat) : Bool :=
  if f.empty then true
  else match f.fast with
    | some l => decide (id ∈ l)
    | none => f.sel id

/-- `matched_count_` of `build_blocked_bitset()`. metadata_filter_matcher.hpp:114-163 -/
def Flt.count (f : Flt) (n : Nat) : Nat :=
  if f.empty then n
  else match f.fast with
    | some l => l.length
    | none => (List.range n).countP f.sel

/-- `FilterExecHint`. search_info.hpp -/
inductive Hint where
  | auto | iterative | noIterative
  deriving DecidableEq, Repr

/-- The index: graph, number of rows, words per id, distances of the search space and of the build space, item id of a row
(`""` if it has none), and the thresholds. -/
structure Space where
  g : MGraph
  n : Nat
  w : Nat
  dist : Nat → Int
  exact : Nat → Int
  item : Nat → String
  dmax : Int
  most : Nat → Nat
  expected : Nat → Nat → Nat → Nat
  quant : Bool
  heap : TopK.StdHeap TopK.Hit TopK.Hit.lt

/-- `should_use_brute_force_search`. graph_hybrid_search_job.hpp:186-207 -/
def Space.brutePays (s : Space) (topk matched : Nat) : Bool :=
  if matched = 0 then false
  else if topk ≥ s.n / 2 then true
  else if s.n - matched ≥ s.most s.n then true
  else decide (topk ≥ matched / 2)

/-- `adjust_ef_in_search_info`. graph_hybrid_search_job.hpp:158-184 -/
def Space.adjustEf (s : Space) (topk ef matched : Nat) : Nat :=
  if matched = 0 ∨ matched ≥ s.n then ef
  else
    let e := s.expected topk s.n matched
    min s.n (max ef (e + e / 2))

/-- `ids` and `res_size`; the candidates of `execute_brute_force_filter`. graph_hybrid_search_job.hpp:209-286, 142-148 -/
def Space.brute (s : Space) (topk : Nat) (f : Flt) (words : List Nat) : Option (List Nat × Nat) :=
  let cands := match f.fast with
    | some l => l
    | none => (List.range s.n).filter f.test
  match (SBuf.new topk).insertAll s.dmax s.exact cands with
  | none => none
  | some b => some (copyOut words (b.ids topk), min b.size topk)

/-- The loop over one batch: matching candidates until the buffer is full. graph_hybrid_search_job.hpp:312-321 -/
def takeBatch (dmax : Int) (exact : Nat → Int) (f : Flt) (topk : Nat) : List Nat → SBuf → Option SBuf
  | [], b => some b
  | v :: vs, b =>
    if f.test v then
      match b.insert dmax v (exact v) with
      | none => none
      | some b' => if b'.size = topk then some b' else takeBatch dmax exact f topk vs b'
    else takeBatch dmax exact f topk vs b

/-- The loop of `execute_iterative_filter`. graph_hybrid_search_job.hpp:305-322 -/
def iterLoop (s : Space) (f : Flt) (topk fuel : Nat) : Nat → St → SBuf → Option SBuf
  | 0, _, _ => none
  | r + 1, st, b =>
    if b.size < topk then
      match nextBatch s.g s.n s.dist fuel (topk - b.size) st with
      | none => none
      | some (_, []) => some b
      | some (st', v :: vs) =>
        match takeBatch s.dmax s.exact f topk (v :: vs) b with
        | none => none
        | some b' => iterLoop s f topk fuel r st' b'
    else some b

/-- `execute_iterative_filter`. graph_hybrid_search_job.hpp:288-330 -/
def Space.iterative (s : Space) (topk ef fuel : Nat) (f : Flt) (words : List Nat) : Option (List Nat × Nat) :=
  match s.g.start s.n s.dist fuel ⟨LinearPool.new ef, []⟩ with
  | none => none
  | some st =>
    match iterLoop s f topk fuel fuel st (SBuf.new topk) with
    | none => none
    | some b => some (copyOut words (b.ids topk), min b.size topk)

/-- `search_solo(query, ids, topk, ef)`: every id is written in full. graph_search_job.hpp:638-681 -/
def Space.plain (s : Space) (topk ef fuel : Nat) : Option (Option (List Nat)) :=
  if s.quant then
    match soloRerank s.heap s.g s.n s.dist s.exact topk ef fuel ⟨noId, 0⟩ with
    | none => none
    | some none => some none
    | some (some l) => some (some (l.flatMap (fun h => wordsOf s.w (if h.label = noId then none else some h.label))))
  else
    match solo s.g s.n s.dist topk ef fuel with
    | none => none
    | some none => some none
    | some (some l) => some (some (l.flatMap (fun h => wordsOf s.w (if h.1 = noId then none else some h.1))))

/-- `search_solo` with a mask. graph_search_job.hpp:847-859 -/
def Space.masked (s : Space) (topk ef fuel : Nat) (f : Flt) : Option (List Nat) :=
  match s.g.start s.n s.dist fuel ⟨LinearPool.new ef, []⟩ with
  | none => none
  | some st =>
    match drain s.g s.n s.dist s.exact s.dmax (fun i => !f.test i) fuel fuel st (SBuf.new topk) with
    | none => none
    | some b => some (copyOut (blank s.w topk) (b.ids topk))

/-- `count_materialized_results`. graph_hybrid_search_job.hpp:150-156 -/
def Space.counted (s : Space) (topk : Nat) (words : List Nat) : Nat :=
  ((readIds s.w topk words).takeWhile Option.isSome).length

/-- `execute_bitset_prefilter`; inner `none` = exception. graph_hybrid_search_job.hpp:332-410 -/
def Space.bitset (s : Space) (topk ef fuel : Nat) (f : Flt) (words : List Nat) : Option (Option (List Nat × Nat)) :=
  let m := f.count s.n
  if m = 0 then some (some (words, 0))
  else if m = s.n then
    match s.plain topk ef fuel with
    | none => none
    | some none => some none
    | some (some ws) => some (some (ws, min topk s.n))
  else if s.brutePays topk m then (s.brute topk f words).map some
  else
    match s.masked topk (s.adjustEf topk ef m) fuel f with
    | none => none
    | some ws =>
      if s.counted topk ws < min topk m then (s.brute topk f ws).map some
      else some (some (ws, s.counted topk ws))

/-- `materialize_item_ids` on top of the cleared strings. graph_hybrid_search_job.hpp:73-81, 87 -/
def Space.items (s : Space) (topk : Nat) (r : List Nat × Nat) : List (Option Nat) × List String :=
  let ids := readIds s.w topk r.1
  (ids, (ids.take r.2).map (fun i => (i.map s.item).getD "") ++ List.replicate (topk - r.2) "")

/-- `hybrid_search_solo`: the arrays `ids` and `res` after the call. graph_hybrid_search_job.hpp:412-454, 97-104, 120-140 -/
def Space.hybrid (s : Space) (topk ef fuel : Nat) (hint : Hint) (f : Flt) : Option (Option (List (Option Nat) × List String)) :=
  if topk = 0 ∨ ef < topk then some none
  else
    let words := blank s.w topk
    let r :=
      if f.empty then
        match s.plain topk ef fuel with
        | none => none
        | some none => some none
        | some (some ws) => some (some (ws, min topk s.n))
      else match hint with
        | .auto =>
          if f.fast.isSome && s.brutePays topk ((f.fast.getD []).length) then (s.brute topk f words).map some
          else s.bitset topk ef fuel f words
        | .iterative => (s.iterative topk ef fuel f words).map some
        | .noIterative => s.bitset topk ef fuel f words
    match r with
    | none => none
    | some none => some none
    | some (some r) => some (some (s.items topk r))

/-- `hybrid_search_brute_force_solo`. graph_hybrid_search_job.hpp:465-483 -/
def Space.hybridBrute (s : Space) (topk : Nat) (f : Flt) : Option (Option (List (Option Nat) × List String)) :=
  if topk = 0 then some none
  else match s.brute topk f (blank s.w topk) with
    | none => none
    | some r => some (some (s.items topk r))

end Alaya.Hybrid
