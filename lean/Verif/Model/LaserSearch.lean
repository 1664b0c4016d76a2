import Verif.Model.RaBitQSearch

/-
Search in a LASER segment.
/repo/include/index/graph/laser/qg/qg.hpp:313-352, 401-718 (`set_params`, `search`, `disk_search_qg`, `scan_neighbors`),
/repo/include/index/graph/laser/utils/buffer.hpp:33-138 (`SearchBuffer`, `ResultBuffer`),
/repo/include/third_party/ngt/hashset.hpp:31-116 (`HashBasedBooleanSet`, the same code as the one in `Model/RaBitQSearch.lean`),
/repo/include/index/graph/laser/utils/aligned_file_reader.hpp:394-488 (`submit_reqs`, `poll_events`),
/repo/include/index/disk/laser_segment_searcher.hpp:290-366 (`LaserSegmentSearcher::search`).

The device works between any two steps of the search: a submitted read may be executed at any time and in any order, and its completion is
handed out by some later poll.  Reading a page that a read in flight could still change would show (memory is a function of slots).
Simplifications: the query is fixed, so that a node of a page is its exact distance and its neighbours with their estimates (C77, C78 for the
estimates); distances are integers (NaN excluded); doubling the beam width in float is doubling; the timers and counters are left out;
pages are values, `decode` cuts a node out of a page.
`none` = undefined behaviour.
-/
namespace Alaya.Laser
open Alaya.Pools Alaya.Hybrid Alaya.RSearch

/-! ### The buffers -/

/-- `SearchBuffer::is_full`. buffer.hpp:70-72 -/
def isFull (p : SPool) (d : Int) : Option Bool :=
  if p.size = p.cap then
    if p.size = 0 then none else (p.data[p.size - 1]?).map (fun e => decide (d > e.2))
  else some false

/-- `SearchBuffer::insert`. buffer.hpp:62-68 -/
def insert (p : SPool) (id : Nat) (d : Int) : Option SPool :=
  match p.buf.search d with
  | none => none
  | some lo =>
    match insertAt p.data lo p.size (id, d) with
    | none => none
    | some data => some ⟨data, if p.size < p.cap then p.size + 1 else p.size, if lo < p.cur then lo else p.cur, p.cap⟩

/-- `ResultBuffer::insert`; the two arrays are one array of pairs. buffer.hpp:107-117 -/
def resInsert (b : SBuf) (id : Nat) (d : Int) : Option SBuf :=
  match isFull ⟨b.data, b.size, 0, b.cap⟩ d with
  | none => none
  | some true => some b
  | some false =>
    match b.search d with
    | none => none
    | some lo =>
      match insertAt b.data lo b.size (id, d) with
      | none => none
      | some data => some ⟨data, if b.size < b.cap then b.size + 1 else b.size, b.cap⟩

/-- `copy_results`: the whole array, whatever has been inserted. buffer.hpp:123 -/
def copyResults (b : SBuf) : List Nat := (b.data.take b.cap).map Prod.fst

/-! ### The index as a query sees it -/

/-- A node: its exact distance, its neighbours with their estimated distances. -/
structure Row where
  exact : Int
  nbs : List (Nat × Int)
  deriving DecidableEq, Repr

/-- `dev` are the pages of the file, `cache` the nodes held in memory, `fmax` is `FLT_MAX`. qg.hpp:83-139 -/
structure Index (α : Type) where
  n : Nat
  perPage : Nat
  dev : Nat → α
  decode : α → Nat → Row
  cache : Nat → Option Row
  medoids : List (Nat × Int)
  ep : Nat
  fmax : Int

/-- The page that holds a node. qg.hpp:165-167 -/
def Index.page {α : Type} (I : Index α) (c : Nat) : Nat := c / I.perPage

/-- The node in a page. qg.hpp:169-171 -/
def Index.nodeIn {α : Type} (I : Index α) (x : α) (c : Nat) : Row := I.decode x (c % I.perPage)

/-- The medoid nearest to the query; 0 if none is nearer than `FLT_MAX`. qg.hpp:451-466 -/
def bestMedoid (fmax : Int) (ms : List (Nat × Int)) : Nat :=
  (ms.foldl (fun (b : Nat × Int) m => if m.2 < b.2 then m else b) (0, fmax)).1

/-- `set_params` and the start of a search: the pool with its first candidates. qg.hpp:331, 412-413, 451-471 -/
def startPool {α : Type} (I : Index α) (ef : Nat) : Option SPool :=
  match (if I.medoids = [] then some (SPool.new ef) else insert (SPool.new ef) (bestMedoid I.fmax I.medoids) I.fmax) with
  | none => none
  | some p => insert p I.ep I.fmax

/-! ### One search -/

/-- Where the search is. -/
inductive Pc where
  /-- at `while (search_pool_.has_next())` -/
  | top
  /-- in the loop that builds the requests: requests (node, slot) and cached nodes so far -/
  | collect (reqs : List (Nat × Nat)) (cached : List Nat)
  /-- after the submission of `ops` requests: cached nodes still to be processed -/
  | cached (ops : Nat) (ids : List Nat)
  /-- in the loop `while (need_process_num > 0)` -/
  | work (need : Nat)
  /-- in the last loop -/
  | drain
  | fin
  /-- left with an exception -/
  | thrown
  deriving DecidableEq, Repr

/-- The variables of `disk_search_qg`, the slots of the workspace and the requests that are with the device. -/
structure Q (α : Type) where
  pool : SPool
  vis : HSet
  res : SBuf
  mem : Nat → α
  free : List Nat
  ongoing : List (Nat × Nat)
  prepared : List (Nat × Nat)
  /-- submitted and not executed -/
  flying : List (Nat × Nat)
  /-- executed and not yet handed out -/
  done : List Nat
  beam : Nat
  prev : Nat
  pc : Pc

/-- The start of a search for `k` results. qg.hpp:407-505, 552 -/
def start {α : Type} (I : Index α) (k ef maxBeam : Nat) (mem : Nat → α) : Option (Q α) :=
  match startPool I ef with
  | none => none
  | some p => some ⟨p, HSet.new (min (I.n / 10) (ef * ef)), SBuf.new k, mem, List.range (2 * maxBeam), [], [], [], [], 1, 0, .top⟩

/-- The loop of `scan_neighbors`. qg.hpp:708-715 -/
def scan (vis : HSet) : List (Nat × Int) → SPool → Option SPool
  | [], p => some p
  | nb :: nbs, p =>
    match isFull p nb.2 with
    | none => none
    | some true => scan vis nbs p
    | some false =>
      match vis.get nb.1 with
      | none => none
      | some true => scan vis nbs p
      | some false =>
        match insert p nb.1 nb.2 with
        | none => none
        | some p' => scan vis nbs p'

/-- `process_node`. qg.hpp:510-528 -/
def process {α : Type} (q : Q α) (c : Nat) (r : Row) : Option (Q α) :=
  match scan q.vis r.nbs q.pool, resInsert q.res c r.exact with
  | some p, some res => some { q with pool := p, res := res }
  | _, _ => none

/-- The loop over the completions of `wait_for_nodes`; `none` = throws. qg.hpp:538-548 -/
def take : List Nat → List (Nat × Nat) → List (Nat × Nat) → Option (List (Nat × Nat) × List (Nat × Nat))
  | [], ongoing, prepared => some (ongoing, prepared)
  | c :: cs, ongoing, prepared =>
    match ongoing.find? (fun e => e.1 == c) with
    | none => none
    | some e => take cs (ongoing.filter (fun x => x.1 != c)) (prepared ++ [e])

/-- How many completions a poll hands out when it could hand out `j`. -/
def polled {α : Type} (q : Q α) (j : Nat) : Nat := min j (min q.beam q.done.length)

/-- `wait_for_nodes`. qg.hpp:533-549 -/
def poll {α : Type} (q : Q α) (j : Nat) : Q α :=
  match take (q.done.take (polled q j)) q.ongoing q.prepared with
  | none => { q with pc := .thrown }
  | some (o, p) => { q with ongoing := o, prepared := p, done := q.done.drop (polled q j) }

/-- The next node of `prepared`, or a poll; `pc` is where the search goes on after a node. qg.hpp:634-649, 657-666 -/
def workOne {α : Type} (I : Index α) (q : Q α) (j : Nat) (pc : Pc) (prev : Nat) : Option (Q α) :=
  match q.prepared with
  | e :: ps =>
    match process q e.1 (I.nodeIn (q.mem e.2) e.1) with
    | none => none
    | some q' => some { q' with prepared := ps, free := q'.free ++ [e.2], pc := pc, prev := prev }
  | [] => some (poll q j)

/-- `MAX_EVENTS`. aligned_file_reader.hpp:59 -/
def maxEvents : Nat := 1024

/-- The submission of the requests. qg.hpp:605-615, aligned_file_reader.hpp:397-402 -/
def submit {α : Type} (q : Q α) (reqs : List (Nat × Nat)) (cached : List Nat) : Q α :=
  if reqs.length > maxEvents then { q with pc := .thrown }
  else { q with flying := q.flying ++ reqs, pc := .cached reqs.length cached }

/-- One step of the search. qg.hpp:560-667 -/
def prog {α : Type} (I : Index α) (maxBeam : Nat) (q : Q α) (j : Nat) : Option (Q α) :=
  match q.pc with
  | .top => if q.pool.hasNext then some { q with beam := min maxBeam (2 * q.beam), pc := .collect [] [] } else some { q with pc := .drain }
  | .collect reqs cached =>
    if q.pool.hasNext = true ∧ reqs.length < q.beam then
      match q.pool.pop with
      | none => none
      | some (p, c) =>
        match q.vis.get c with
        | none => none
        | some true => some { q with pool := p }
        | some false =>
          match q.vis.set c with
          | none => none
          | some vis =>
            match I.cache c with
            | some _ => some { q with pool := p, vis := vis, pc := .collect reqs (cached ++ [c]) }
            | none =>
              match q.free with
              | [] => some { q with pool := p, vis := vis, pc := .thrown }
              | s :: rest =>
                let ongoing := (c, s) :: q.ongoing.filter (fun x => x.1 != c)
                some { q with pool := p, vis := vis, free := rest, ongoing := ongoing, pc := .collect (reqs ++ [(c, s)]) cached }
    else some (submit q reqs cached)
  | .cached ops (c :: cs) =>
    match I.cache c with
    | none => none
    | some r => (process q c r).map (fun q' => { q' with pc := .cached ops cs })
  | .cached ops [] => some { q with pc := .work (ops + q.prev - ops / 2), prev := ops / 2 }
  | .work 0 => some { q with pc := .top }
  | .work (need + 1) => workOne I q j (.work need) q.prev
  | .drain => if q.prev = 0 then some { q with pc := .fin } else workOne I q j .drain (q.prev - 1)
  | .fin => some q
  | .thrown => some q

/-- What happens next. -/
inductive Ev where
  /-- the search makes a step; a poll hands out at most `j` completions -/
  | step (j : Nat)
  /-- the device executes the `i`-th request -/
  | complete (i : Nat)
  /-- the device fails to execute it; the completion says so -/
  | failed (i : Nat)
  /-- the submission is refused -/
  | refuse
  deriving DecidableEq, Repr

/-- One event.  A request that does not exist cannot be executed: nothing happens. -/
def event {α : Type} (I : Index α) (maxBeam : Nat) (q : Q α) : Ev → Option (Q α)
  | .step j => prog I maxBeam q j
  | .complete i => match q.flying[i]? with
    | none => some q
    | some (c, s) => some { q with mem := fun t => if t = s then I.dev (I.page c) else q.mem t, flying := q.flying.eraseIdx i, done := q.done ++ [c] }
  | .failed i => match q.flying[i]? with
    | none => some q
    | some (c, _) => some { q with flying := q.flying.eraseIdx i, done := q.done ++ [c] }
  | .refuse => match q.pc with
    | .collect reqs _ => if (q.pool.hasNext = true ∧ reqs.length < q.beam) ∨ reqs = [] then some q else some { q with pc := .thrown }
    | _ => some q

def run {α : Type} (I : Index α) (maxBeam : Nat) : List Ev → Q α → Option (Q α)
  | [], q => some q
  | e :: es, q => match event I maxBeam q e with
    | none => none
    | some q' => run I maxBeam es q'

/-- The ids written to the caller's array at the end. qg.hpp:677 -/
def Q.answer {α : Type} (q : Q α) : List Nat := copyResults q.res

/-! ### The segment -/

/-- A segment that is open: the labels of its rows, the options last set (none at first), whether the workspace is in the queue, whether a
thread holds the mutex for ever.  There is one workspace. laser_segment_searcher.hpp:293, 319-328, qg.hpp:313-343 -/
structure Searcher where
  ids : List Nat
  last : Option (Nat × Nat)
  idle : Bool
  stuck : Bool
  deriving DecidableEq, Repr

inductive Out where
  | badArg
  | raised
  /-- the call does not return -/
  | hangs
  | hits (labels : List Nat)
  deriving DecidableEq, Repr

def Searcher.opened (ids : List Nat) : Searcher := ⟨ids, none, false, false⟩

/-- The labels of the ids returned by the graph. laser_segment_searcher.hpp:333-342 -/
def labelsOf (ids : List Nat) : List Nat → Option (List Nat)
  | [] => some []
  | p :: ps =>
    match ids[p]?, labelsOf ids ps with
    | some l, some ls => some (l :: ls)
    | _, _ => none

/-- `LaserSegmentSearcher::search`; `inner k ef beam` is what the graph answers, `none` = it leaves with an exception, and then the workspace
is not given back.  laser_segment_searcher.hpp:301-343, qg.hpp:407-411, 680-681 -/
def Searcher.search (s : Searcher) (null : Bool) (topK ef beam : Nat) (inner : Nat → Nat → Nat → Option (List Nat)) : Searcher × Out :=
  if topK = 0 ∨ null = true ∨ beam > 2147483647 then (s, .badArg)
  else if s.stuck then (s, .hangs)
  else
    let k := min topK s.ids.length
    let want := (max ef k, beam)
    let s' := if s.last = some want then s else { s with last := some want, idle := true }
    if s'.idle = false then ({ s' with stuck := true }, .hangs)
    else
      match inner k want.1 want.2 with
      | none => ({ s' with idle := false }, .raised)
      | some ps =>
        match labelsOf s.ids ps with
        | none => (s', .raised)
        | some ls => (s', .hits ls)

end Alaya.Laser
