import Verif.Model.HybridSearch

/-
Search over a RaBitQ space.
/repo/include/executor/jobs/graph_search_job.hpp:66-107 (`rabitq_supplement_result`), 349-414 (`rabitq_search_solo`),
417-487 (`rabitq_search`, the same statements in a coroutine), 862-891 (`rabitq_search_solo` with a blocked mask),
/repo/include/executor/vector_iterator.hpp:165-305 (`RaBitQVectorIterator`),
/repo/include/utils/rabitq_utils/search_utils/buffer.hpp:35-151 (`SearchBuffer`),
/repo/include/utils/rabitq_utils/search_utils/hashset.hpp:35-118 (`HashBasedBooleanSet`).

Simplifications: distances are integers (NaN excluded), `dmax` stands for `numeric_limits::max()`, larger values for +infinity; the
estimate for an edge and the exact distance of a node are arbitrary functions (`Props/C78.lean` says how they are related); the pool of
hash sets is a fresh set (`acquire` clears the set it hands out); ids have 32 bits.
`none` = undefined behaviour, an exception of `at()`, or more rounds than the given bound; `some none` = `std::invalid_argument`.
-/
namespace Alaya.RSearch
open Alaya.Pools Alaya.Hybrid

/-! ### The candidate buffer -/

/-- `SearchBuffer` with the cursor; bit 31 of an id is the checked flag. buffer.hpp:48-49 -/
structure SPool where
  data : List (Nat × Int)
  size : Nat
  cur : Nat
  cap : Nat
  deriving DecidableEq, Repr

/-- `SearchBuffer(capacity)`. buffer.hpp:76 -/
def SPool.new (cap : Nat) : SPool := ⟨List.replicate (cap + 1) (0, 0), 0, 0, cap⟩

/-- The buffer without the cursor, for the functions that do not look at it. -/
def SPool.buf (p : SPool) : SBuf := ⟨p.data, p.size, p.cap⟩

/-- `is_full(dist)`. buffer.hpp:146 -/
def SPool.isFull (dmax : Int) (p : SPool) (d : Int) : Option Bool := (p.buf.topDist dmax).map (fun t => decide (d > t))

/-- `insert`. buffer.hpp:79-94 -/
def SPool.insert (dmax : Int) (p : SPool) (id : Nat) (d : Int) : Option SPool :=
  if p.cap = 0 then some p
  else match p.isFull dmax d with
    | none => none
    | some true => some p
    | some false =>
      match p.buf.search d with
      | none => none
      | some lo =>
        match insertAt p.data lo p.size (id, d) with
        | none => none
        | some data => some ⟨data, if p.size < p.cap then p.size + 1 else p.size, if lo < p.cur then lo else p.cur, p.cap⟩

/-- `has_next`. buffer.hpp:115 -/
def SPool.hasNext (p : SPool) : Bool := decide (p.cur < p.size)

/-- `pop`. buffer.hpp:97-105 -/
def SPool.pop (p : SPool) : Option (SPool × Nat) :=
  match p.data[p.cur]? with
  | none => none
  | some e =>
    let data := p.data.set p.cur (setChecked e.1, e.2)
    match skip data (fun x => isChecked x.1) p.size p.size (p.cur + 1) with
    | none => none
    | some c => some (⟨data, p.size, c, p.cap⟩, e.1)

/-- `next_id`. buffer.hpp:113 -/
def SPool.nextId (p : SPool) : Option Nat := (p.data[p.cur]?).map Prod.fst

/-! ### The sets of expanded nodes -/

/-- The two operations of a set of ids. -/
structure VOps (σ : Type) where
  get : σ → Nat → Option Bool
  set : σ → Nat → Option σ

/-- `HashBasedBooleanSet`; `stl` is the `unordered_set`. hashset.hpp:39-42 -/
structure HSet where
  table : List Nat
  mask : Nat
  stl : List Nat
  deriving DecidableEq, Repr

/-- `kEmptyHashId`. hashset.hpp:38 -/
def emptyId : Nat := 4294967295

/-- The loop of the constructor that counts the bits, at most `f` rounds. hashset.hpp:72-75 -/
def bitLoop : Nat → Nat → Nat
  | 0, _ => 0
  | f + 1, bit => if bit = 0 then 0 else bitLoop f (bit / 2) + 1

/-- `bit_size`; a 64-bit number is zero after 64 shifts. hashset.hpp:70-75 -/
def bitSize (n : Nat) : Nat := bitLoop 64 n

/-- The constructor and `clear`. hashset.hpp:69-96 -/
def HSet.new (size : Nat) : HSet :=
  let bucket := 2 ^ ((bitSize size + 4) / 2 + 3)
  ⟨List.replicate bucket emptyId, bucket - 1, []⟩

/-- `get`. hashset.hpp:99-105 -/
def HSet.get (h : HSet) (id : Nat) : Option Bool :=
  match h.table[id &&& h.mask]? with
  | none => none
  | some val => some (if val = id then true else decide (val ≠ emptyId) && decide (id ∈ h.stl))

/-- `set`. hashset.hpp:107-117 -/
def HSet.set (h : HSet) (id : Nat) : Option HSet :=
  match h.table[id &&& h.mask]? with
  | none => none
  | some val =>
    some (if val = id then h
      else if val = emptyId then { h with table := h.table.set (id &&& h.mask) id }
      else { h with stl := id :: h.stl })

def hashOps : VOps HSet := ⟨HSet.get, HSet.set⟩

/-- `DynamicBitset`, as the list of its bits (the words are the subject of `Model/Bitsets.lean`). query_utils.hpp:58-103 -/
def bitOps : VOps (List Bool) :=
  ⟨fun s v => s[v]?, fun s v => if v < s.length then some (s.set v true) else none⟩

/-! ### The search -/

/-- What the search reads: the edges of a node (`get_edges`), the estimate for its `i`-th edge (`q_computer(i)` after
`load_centroid`) and the exact distance of a node (`get_exact_qr_c_dist` after `load_centroid`, `dist_func` in the supplement). -/
structure Idx where
  ep : Nat
  rows : List (List Nat)
  est : Nat → Nat → Int
  exact : Nat → Int

/-- `search_pool`, `vis`. -/
structure St (σ : Type) where
  pool : SPool
  vis : σ

/-- The loop over the edges `i, i + 1, …` of node `c`; the prefetch reads the chunk of the next candidate with `at()`.
graph_search_job.hpp:386-399, vector_iterator.hpp:238-252 (there the two tests come in the other order) -/
def scan {σ : Type} (V : VOps σ) (dmax : Int) (I : Idx) (c : Nat) (vis : σ) : Nat → List Nat → SPool → Option SPool
  | _, [], p => some p
  | i, nb :: nbs, p =>
    match p.isFull dmax (I.est c i), V.get vis nb with
    | some full, some seen =>
      if full || seen then scan V dmax I c vis (i + 1) nbs p
      else match p.insert dmax nb (I.est c i) with
        | none => none
        | some p' =>
          match p'.nextId with
          | none => none
          | some x => if x < I.rows.length then scan V dmax I c vis (i + 1) nbs p' else none
    | _, _ => none

/-- One round of the `while` loop up to the insertion of the result; the node, when it has been expanded.
graph_search_job.hpp:375-399, vector_iterator.hpp:229-252 -/
def step {σ : Type} (V : VOps σ) (dmax : Int) (I : Idx) (s : St σ) : Option (St σ × Option Nat) :=
  match s.pool.pop with
  | none => none
  | some (p, c) =>
    match V.get s.vis c with
    | none => none
    | some true => some (⟨p, s.vis⟩, none)
    | some false =>
      match V.set s.vis c, I.rows[c]? with
      | some vis, some row =>
        match scan V dmax I c vis 0 row p with
        | none => none
        | some p' => some (⟨p', vis⟩, some c)
      | _, _ => none

/-- `while (search_pool.has_next())`, at most `fuel` rounds. graph_search_job.hpp:374-403 -/
def loop {σ : Type} (V : VOps σ) (dmax : Int) (I : Idx) : Nat → St σ → SBuf → Option (St σ × SBuf)
  | 0, s, res => if s.pool.hasNext then none else some (s, res)
  | fuel + 1, s, res =>
    if s.pool.hasNext then
      match step V dmax I s with
      | none => none
      | some (s', none) => loop V dmax I fuel s' res
      | some (s', some c) =>
        match res.insert dmax c (I.exact c) with
        | none => none
        | some res' => loop V dmax I fuel s' res'
    else some (s, res)

/-- The inner loop of `rabitq_supplement_result`. graph_search_job.hpp:92-100 -/
def suppRow {σ : Type} (V : VOps σ) (dmax : Int) (I : Idx) : List Nat → σ → SBuf → Option (σ × SBuf)
  | [], vis, res => some (vis, res)
  | nb :: nbs, vis, res =>
    match V.get vis nb with
    | none => none
    | some true => suppRow V dmax I nbs vis res
    | some false =>
      match V.set vis nb, res.insert dmax nb (I.exact nb) with
      | some vis', some res' => suppRow V dmax I nbs vis' res'
      | _, _ => none

/-- The outer loop of `rabitq_supplement_result`. graph_search_job.hpp:90-105 -/
def supp {σ : Type} (V : VOps σ) (dmax : Int) (I : Idx) : List Nat → σ → SBuf → Option (σ × SBuf)
  | [], vis, res => some (vis, res)
  | seed :: seeds, vis, res =>
    match I.rows[seed]? with
    | none => none
    | some row =>
      match suppRow V dmax I row vis res with
      | none => none
      | some (vis', res') => if res'.size = res'.cap then some (vis', res') else supp V dmax I seeds vis' res'

/-- `search_pool(ef)` with the entry point at distance `d0`. graph_search_job.hpp:367-369, vector_iterator.hpp:177-184 -/
def start {σ : Type} (d0 dmax : Int) (I : Idx) (ef : Nat) (vis : σ) : Option (St σ) :=
  match (SPool.new ef).insert dmax I.ep d0 with
  | none => none
  | some p => some ⟨p, vis⟩

/-- `rabitq_search_solo(query, k, ids, ef)`; `out` is the content of the array before the call. graph_search_job.hpp:349-414 -/
def search (dmax : Int) (I : Idx) (fuel k ef : Nat) (out : List Nat) : Option (Option (List Nat)) :=
  if ef < k then some none
  else match start dmax dmax I ef (HSet.new (I.rows.length / 10)) with
    | none => none
    | some s0 =>
      match loop hashOps dmax I fuel s0 (SBuf.new k) with
      | none => none
      | some (s, res) =>
        if res.size = res.cap then some (some (copyOut out (res.ids k)))
        else match supp hashOps dmax I (res.ids k) s.vis res with
          | none => none
          | some (_, res') => some (some (copyOut out (res'.ids k)))

/-- `search` and each row of `batch_search`: the array is created with `std::vector<IDType>(topk)`. python/include/index.hpp:899-915, 1088 -/
def pySearch (dmax : Int) (I : Idx) (fuel k ef : Nat) : Option (Option (List Nat)) :=
  search dmax I fuel k ef (List.replicate k 0)

/-! ### The iterator -/

/-- `search_pool_`, `expanded_`, `expanded_nodes_`, `supplement_candidates_` from the cursor on (`none` before it is built).
vector_iterator.hpp:290-304 -/
structure It where
  st : St (List Bool)
  nodes : List Nat
  supp : Option (List Nat)

/-- The constructor. vector_iterator.hpp:171-186 -/
def It.new (dmax : Int) (I : Idx) (ef : Nat) : Option It :=
  match start dmax dmax I ef (List.replicate I.rows.length false) with
  | none => none
  | some s => some ⟨s, [], none⟩

/-- The inner loop of `load_supplement_candidates`. vector_iterator.hpp:210-218 -/
def collectRow (vis : List Bool) : List Nat → List Nat → Option (List Nat)
  | [], acc => some acc
  | nb :: nbs, acc =>
    match vis[nb]? with
    | none => none
    | some true => collectRow vis nbs acc
    | some false => collectRow vis nbs (if nb ∈ acc then acc else acc ++ [nb])

/-- `load_supplement_candidates`. vector_iterator.hpp:200-220 -/
def collect (I : Idx) (vis : List Bool) : List Nat → List Nat → Option (List Nat)
  | [], acc => some acc
  | c :: cs, acc =>
    match I.rows[c]? with
    | none => none
    | some row =>
      match collectRow vis row acc with
      | none => none
      | some acc' => collect I vis cs acc'

/-- The part of `prepare_next` for the supplement, and taking the candidate. vector_iterator.hpp:267-279 -/
def It.nextSupp (blocked : Nat → Bool) (it : It) : List Nat → It × Option Nat
  | [] => ({ it with supp := some [] }, none)
  | v :: vs => if blocked v then it.nextSupp blocked vs else ({ it with supp := some vs }, some v)

/-- `prepare_next` and taking the candidate; the candidate comes with its exact distance. vector_iterator.hpp:190-197, 222-288 -/
def It.next (dmax : Int) (I : Idx) (blocked : Nat → Bool) : Nat → It → Option (It × Option Nat)
  | 0, it => if it.st.pool.hasNext then none else supplement it
  | fuel + 1, it =>
    if it.st.pool.hasNext then
      match step bitOps dmax I it.st with
      | none => none
      | some (s', none) => It.next dmax I blocked fuel { it with st := s' }
      | some (s', some c) =>
        let it' : It := { it with st := s', nodes := it.nodes ++ [c] }
        if blocked c then It.next dmax I blocked fuel it' else some (it', some c)
    else supplement it
where
  supplement (it : It) : Option (It × Option Nat) :=
    match it.supp with
    | some l => some (it.nextSupp blocked l)
    | none =>
      match collect I it.st.vis it.nodes [] with
      | none => none
      | some l => some (it.nextSupp blocked l)

/-- `while (iterator->has_next()) result_pool.insert(…)`, at most `m` candidates. graph_search_job.hpp:878-884 -/
def drain (dmax : Int) (I : Idx) (blocked : Nat → Bool) (fuel : Nat) : Nat → It → SBuf → Option SBuf
  | 0, it, res =>
    match It.next dmax I blocked fuel it with
    | some (_, none) => some res
    | _ => none
  | m + 1, it, res =>
    match It.next dmax I blocked fuel it with
    | none => none
    | some (_, none) => some res
    | some (it', some v) =>
      match res.insert dmax v (I.exact v) with
      | none => none
      | some res' => drain dmax I blocked fuel m it' res'

/-- `rabitq_search_solo` with a mask (`search_info.topk_ = topk`). graph_search_job.hpp:876-890 -/
def maskedSearch (dmax : Int) (I : Idx) (blocked : Nat → Bool) (fuel m topk ef : Nat) : Option (Option (List Nat)) :=
  if ef < topk then some none
  else match It.new dmax I ef with
    | none => none
    | some it =>
      match drain dmax I blocked fuel m it (SBuf.new topk) with
      | none => none
      | some res => some (some (copyOut (blank 1 topk) (res.ids topk)))

end Alaya.RSearch
