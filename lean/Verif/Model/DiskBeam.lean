import Verif.Model.Pools
import Verif.Model.Prune

/-
The disk searches of DiskANN: /repo/include/index/graph/diskann/beam_search.hpp and search_scratch.hpp.

What the environment decides is an input: every record a read returns (the graph may change between two reads; what a cache holds at
a moment is a function of the id), whether it comes from a cache or from the device, and in which order device reads complete.  A record is the distance of its vector to the query
and its neighbour list.  Distances are integers (a NaN coordinate is outside the model); PQ distances are a function of the id,
since `pq_mutex_` is held for the whole search.  The visited bitset is the list of the ids in it (C43 is about the
bits).  The neighbour buffer is a map from region starts to contents: regions have equal size and `cache_neighbors` checks the length.
-/
namespace Alaya.DiskBeam
open Alaya Alaya.Pools

/-- What a record contributes. -/
structure Rec where
  dist : Int
  nbrs : List Nat
  deriving DecidableEq, Repr

/-- A search ends early by an exception, by an access the language leaves undefined, or (`stuck`) because the description of the
environment ends; `fuel`: the bound given for a loop was too small. -/
inductive Err where
  | thrown
  | ub
  | stuck
  | fuel
  deriving DecidableEq, Repr

/-- Snapshot and sizes: `num_points`, the tombstones, the medoid, the page slots of the scratch, the regions of the neighbour buffer and
their length, the ids the scratch arrays cover. beam_search.hpp:84-102; search_scratch.hpp:101-160 -/
structure Ctx where
  n : Nat
  dead : Nat → Bool
  medoid : Nat
  slots : Nat
  regions : Nat
  degree : Nat
  bits : Nat

/-- The part of `ThreadData` a search uses. search_scratch.hpp:68-89 -/
structure TD where
  q : NPQ
  vis : List Nat
  offs : Nat → Nat × Nat
  free : List Nat
  buf : Nat → List Nat
  dirty : List Nat
  exact : Nat → Option Int

/-- `reset_query`. search_scratch.hpp:117-125, 300-324 -/
def TD.reset (c : Ctx) (t : TD) (list : Nat) : TD :=
  { t with
    q := t.q.reset list
    vis := []
    offs := fun i => if i ∈ t.dirty then (0, 0) else t.offs i
    dirty := []
    free := if c.degree = 0 then [] else (List.range c.regions).reverse
    exact := fun _ => none }

/-- `release_cached_neighbors`. search_scratch.hpp:250-261 -/
def release (c : Ctx) (t : TD) (id : Nat) : Except Err TD :=
  if id ≥ c.bits then .error .thrown
  else if (t.offs id).2 = 0 then .ok t
  else .ok { t with offs := fun i => if i = id then (0, 0) else t.offs i, free := (t.offs id).1 :: t.free }

/-- `cache_neighbors`. search_scratch.hpp:220-240 -/
def cache (c : Ctx) (t : TD) (id : Nat) (nbrs : List Nat) : Except Err TD :=
  if id ≥ c.bits then .error .thrown
  else if nbrs.length > c.degree then .error .thrown
  else if nbrs.length = 0 then .ok { t with offs := fun i => if i = id then (0, 0) else t.offs i }
  else match t.free with
    | [] => .error .thrown
    | s :: rest => .ok { t with
        offs := fun i => if i = id then (s, nbrs.length) else t.offs i
        free := rest
        buf := fun i => if i = s then nbrs else t.buf i
        dirty := id :: t.dirty }

/-- `cached_neighbors`. search_scratch.hpp:242-248 -/
def cached (c : Ctx) (t : TD) (id : Nat) : Except Err (List Nat) :=
  if id ≥ c.bits then .error .thrown
  else .ok ((t.buf (t.offs id).1).take (t.offs id).2)

/-- `absorb`. beam_search.hpp:207-221 -/
def absorb (c : Ctx) (t : TD) (id : Nat) (r : Rec) : Except Err TD :=
  match t.q.insert ⟨id, r.dist, false⟩ with
  | none => .error .ub
  | some (q, res) =>
    match (if res.evicted then release c { t with q := q } res.evictedId else .ok { t with q := q }) with
    | .error e => .error e
    | .ok t' => if res.inserted then cache c t' id r.nbrs else .ok t'

/-- `consider` for a neighbour list. beam_search.hpp:258-268 -/
def consider (c : Ctx) : List Nat → List Nat → List Nat → Except Err (List Nat × List Nat)
  | [], vis, pend => .ok (vis, pend)
  | m :: ms, vis, pend =>
    if m ≥ c.n then consider c ms vis pend
    else if m ≥ c.bits then .error .thrown
    else if m ∈ vis then consider c ms vis pend
    else if c.dead m then consider c ms (m :: vis) pend
    else consider c ms (m :: vis) (pend ++ [m])

/-- Expansion of the closest unexpanded node. beam_search.hpp:286-294, 373-380 -/
def expand (c : Ctx) (t : TD) (pend : List Nat) : Except Err (TD × List Nat) :=
  match t.q.closest with
  | none => .error .ub
  | some (q, x) => match cached c { t with q := q } x.id with
    | .error e => .error e
    | .ok nbrs => match consider c nbrs t.vis pend with
      | .error e => .error e
      | .ok (vis, pend') => .ok ({ t with q := q, vis := vis }, pend')

/-- What a read found: the record in a cache (`hit`), or a device read was started (`miss`); which reads completed, `none` = failed. -/
inductive Ans where
  | hit (f : Nat → Rec)
  | miss
  | events (l : List (Nat × Option Rec))

/-- State of the pipelined variant. -/
structure Pipe where
  t : TD
  pend : List Nat
  fly : List Nat
  free : Nat
  env : List Ans

/-- `refill_pending`. beam_search.hpp:371-382 -/
def refill (c : Ctx) (slotsFree : Nat) : Nat → TD → List Nat → Except Err (TD × List Nat)
  | fuel, t, pend =>
    if pend.length < slotsFree ∧ t.q.hasUnexpanded = true then match fuel with
      | 0 => .error .fuel
      | fuel + 1 => match expand c t pend with
        | .error e => .error e
        | .ok (t', pend') => refill c slotsFree fuel t' pend'
    else .ok (t, pend)

/-- `submit_pending`. beam_search.hpp:389-423 -/
def submit (c : Ctx) : List Nat → TD → List Nat → Nat → List Ans → Except Err Pipe
  | [], t, fly, free, env => .ok ⟨t, [], fly, free, env⟩
  | m :: pend, t, fly, free, env =>
    if free = 0 then .ok ⟨t, m :: pend, fly, free, env⟩
    else match env with
      | .hit f :: env => match absorb c t m (f m) with
        | .error e => .error e
        | .ok t' => submit c pend t' fly free env
      | .miss :: env => submit c pend t (fly ++ [m]) (free - 1) env
      | _ => .error .stuck

/-- The completions one `get_events` delivers. beam_search.hpp:432-448 -/
def complete (c : Ctx) : List (Nat × Option Rec) → TD → List Nat → Nat → Except Err (TD × List Nat × Nat)
  | [], t, fly, free => .ok (t, fly, free)
  | (_, none) :: _, _, _, _ => .error .thrown
  | (id, some r) :: es, t, fly, free =>
    if id ∈ fly then match absorb c t id r with
      | .error e => .error e
      | .ok t' => complete c es t' (fly.erase id) (free + 1)
    else complete c es t fly free

/-- `refill_pending(); submit_pending();` -/
def advance (c : Ctx) (fuel : Nat) (p : Pipe) : Except Err Pipe :=
  match refill c p.free fuel p.t p.pend with
  | .error e => .error e
  | .ok (t, pend) => submit c pend t p.fly p.free p.env

/-- The loop of the pipelined variant. beam_search.hpp:430-452 -/
def pipeLoop (c : Ctx) (inner : Nat) : Nat → Pipe → Except Err TD
  | fuel, p =>
    if p.fly = [] ∧ p.pend = [] ∧ p.t.q.hasUnexpanded = false then .ok p.t
    else match fuel with
      | 0 => .error .fuel
      | fuel + 1 =>
        match (if p.fly = [] then .ok p else match p.env with
          | .events l :: env => match complete c l p.t p.fly p.free with
            | .error e => .error e
            | .ok (t, fly, free) => .ok { p with t := t, fly := fly, free := free, env := env }
          | _ => .error .stuck : Except Err Pipe) with
        | .error e => .error e
        | .ok p' => match advance c inner p' with
          | .error e => .error e
          | .ok p'' => pipeLoop c inner fuel p''

/-- The neighbours of one expansion in the deterministic variant: read in chunks, then absorbed in list order; `none` = the read
throws (a short read is not noticed, see C66); what the storage holds when the read happens is a function of the id. The chunks do not show in the result. beam_search.hpp:295-348 -/
def absorbAll (c : Ctx) : List Nat → TD → List (Nat → Option Rec) → Except Err (TD × List (Nat → Option Rec))
  | [], t, env => .ok (t, env)
  | m :: ms, t, env => match env with
    | [] => .error .stuck
    | f :: env => match f m with
      | none => .error .thrown
      | some r => match absorb c t m r with
        | .error e => .error e
        | .ok t' => absorbAll c ms t' env

/-- The loop of the deterministic variant. beam_search.hpp:285-350 -/
def detLoop (c : Ctx) : Nat → TD → List (Nat → Option Rec) → Except Err TD
  | fuel, t, env =>
    if t.q.hasUnexpanded = true then match fuel with
      | 0 => .error .fuel
      | fuel + 1 => match expand c t [] with
        | .error e => .error e
        | .ok (t1, todo) => match absorbAll c todo t1 env with
          | .error e => .error e
          | .ok (t2, env') => detLoop c fuel t2 env'
    else .ok t

/-- The frontier without tombstoned nodes, at most `top_k`. beam_search.hpp:455-464 -/
def extract (c : Ctx) (topK : Nat) (es : List Nbr) : List (Nat × Int) :=
  ((es.filter fun e => !c.dead e.id).take topK).map fun e => (e.id, e.dist)

/-- The seed: the medoid is marked and absorbed; `none` = its read throws. A short read is not noticed (C66): the record is arbitrary. beam_search.hpp:200-204, 270-271 -/
def seed (c : Ctx) (t : TD) (list : Nat) (r : Option Rec) : Except Err TD :=
  if c.medoid ≥ c.bits then .error .thrown
  else match r with
    | none => .error .thrown
    | some r => absorb c { t.reset c list with vis := c.medoid :: (t.reset c list).vis } c.medoid r

/-- `disk_greedy_search`, pipelined. beam_search.hpp:184-465 -/
def greedyPipe (c : Ctx) (topK l inner fuel : Nat) (t : TD) (r : Option Rec) (env : List Ans) :
    Except Err (List (Nat × Int) × TD) :=
  match seed c t (max l topK) r with
  | .error e => .error e
  | .ok t1 => match advance c inner ⟨t1, [], [], max 1 c.slots, env⟩ with
    | .error e => .error e
    | .ok p => match pipeLoop c inner fuel p with
      | .error e => .error e
      | .ok t2 => .ok (extract c topK t2.q.entries, t2)

/-- `disk_greedy_search`, deterministic. beam_search.hpp:184-465 -/
def greedyDet (c : Ctx) (topK l fuel : Nat) (t : TD) (r : Option Rec) (env : List (Nat → Option Rec)) :
    Except Err (List (Nat × Int) × TD) :=
  match seed c t (max l topK) r with
  | .error e => .error e
  | .ok t1 => match detLoop c fuel t1 env with
    | .error e => .error e
    | .ok t2 => .ok (extract c topK t2.q.entries, t2)

/-- `scan_and_insert_neighbors`; the batches of 128 do not show in the result. beam_search.hpp:125-168 -/
def scan (c : Ctx) (pq : Nat → Int) : List Nat → TD → Except Err TD
  | [], t => .ok t
  | m :: ms, t =>
    if m ≥ c.n then scan c pq ms t
    else if c.dead m then scan c pq ms t
    else if m ≥ c.bits then .error .thrown
    else if m ∈ t.vis then scan c pq ms t
    else match t.q.insert ⟨m, pq m, false⟩ with
      | none => .error .ub
      | some (q, _) => scan c pq ms { t with q := q, vis := m :: t.vis }

/-- `process_node`. beam_search.hpp:513-534; search_scratch.hpp:192-200 -/
def process (c : Ctx) (pq : Nat → Int) (t : TD) (id : Nat) (r : Rec) : Except Err TD :=
  if id ≥ c.bits then .error .thrown
  else scan c pq r.nbrs { t with exact := fun i => if i = id then some r.dist else t.exact i }

/-- `fill_pipe`. beam_search.hpp:632-680 -/
def fillPipe (c : Ctx) (pq : Nat → Int) : Nat → TD → List Nat → Nat → List Ans → Except Err (TD × List Nat × Nat × List Ans)
  | fuel, t, fly, free, env =>
    if free ≠ 0 ∧ t.q.hasUnexpanded = true then match fuel with
      | 0 => .error .fuel
      | fuel + 1 => match t.q.closest with
        | none => .error .ub
        | some (q, x) => match env with
          | .hit f :: env => match process c pq { t with q := q } x.id (f x.id) with
            | .error e => .error e
            | .ok t' => fillPipe c pq fuel t' fly free env
          | .miss :: env => fillPipe c pq fuel { t with q := q } (fly ++ [x.id]) (free - 1) env
          | _ => .error .stuck
    else .ok (t, fly, free, env)

/-- Completions in PQ mode. beam_search.hpp:700-727 -/
def completePQ (c : Ctx) (pq : Nat → Int) : List (Nat × Option Rec) → TD → List Nat → Nat → Except Err (TD × List Nat × Nat)
  | [], t, fly, free => .ok (t, fly, free)
  | (_, none) :: _, _, _, _ => .error .thrown
  | (id, some r) :: es, t, fly, free =>
    if id ∈ fly then match process c pq t id r with
      | .error e => .error e
      | .ok t' => completePQ c pq es t' (fly.erase id) (free + 1)
    else completePQ c pq es t fly free

/-- The loop of the pipelined PQ search. beam_search.hpp:682-730 -/
def pqLoop (c : Ctx) (pq : Nat → Int) (inner : Nat) : Nat → TD → List Nat → Nat → List Ans → Except Err (TD × List Ans)
  | fuel, t, fly, free, env =>
    if fly = [] then .ok (t, env)
    else match fuel with
      | 0 => .error .fuel
      | fuel + 1 => match env with
        | .events l :: env => match completePQ c pq l t fly free with
          | .error e => .error e
          | .ok (t1, fly1, free1) => match fillPipe c pq inner t1 fly1 free1 env with
            | .error e => .error e
            | .ok (t2, fly2, free2, env2) => pqLoop c pq inner fuel t2 fly2 free2 env2
        | _ => .error .stuck

/-- How a node of a batch is read in the deterministic variant. -/
inductive BAns where
  | inCache (f : Nat → Rec)
  | inPages (f : Nat → Rec)
  | device (f : Nat → Option Rec)

/-- One batch: pop until enough requests are collected, remembering the records; `none` = a read failed, seen when all are waited
for. beam_search.hpp:565-600 -/
def popBatch (c : Ctx) (beam : Nat) : Nat → TD → Nat → Nat → List (Nat × Option Rec) → List BAns →
    Except Err (TD × List (Nat × Option Rec) × List BAns)
  | fuel, t, reqs, slot, batch, env =>
    if t.q.hasUnexpanded = true ∧ reqs < beam ∧ slot < max 1 c.slots then match fuel with
      | 0 => .error .fuel
      | fuel + 1 => match t.q.closest with
        | none => .error .ub
        | some (q, x) => match env with
          | .inCache f :: env => popBatch c beam fuel { t with q := q } reqs slot (batch ++ [(x.id, some (f x.id))]) env
          | .inPages f :: env => popBatch c beam fuel { t with q := q } reqs (slot + 1) (batch ++ [(x.id, some (f x.id))]) env
          | .device f :: env => popBatch c beam fuel { t with q := q } (reqs + 1) (slot + 1) (batch ++ [(x.id, f x.id)]) env
          | [] => .error .stuck
    else .ok (t, batch, env)

/-- The batch is processed in popped order. beam_search.hpp:624-626 -/
def processAll (c : Ctx) (pq : Nat → Int) : List (Nat × Option Rec) → TD → Except Err TD
  | [], t => .ok t
  | (_, none) :: _, _ => .error .thrown
  | (id, some r) :: es, t => match process c pq t id r with
    | .error e => .error e
    | .ok t' => processAll c pq es t'

/-- The loop of the deterministic PQ search. beam_search.hpp:556-628 -/
def pqDetLoop (c : Ctx) (pq : Nat → Int) (beam inner : Nat) : Nat → TD → List BAns → Except Err (TD × List BAns)
  | fuel, t, env =>
    if t.q.hasUnexpanded = true then match fuel with
      | 0 => .error .fuel
      | fuel + 1 => match popBatch c beam inner t 0 0 [] env with
        | .error e => .error e
        | .ok (t1, batch, env1) => match processAll c pq batch t1 with
          | .error e => .error e
          | .ok t2 => pqDetLoop c pq beam inner fuel t2 env1
    else .ok (t, env)

/-- `read_exact_sync` for the first live candidates; the reads that are needed return `reads`, `none` = thrown.
beam_search.hpp:742-778 -/
def rerank (t : TD) : List Nbr → List (Option Int) → Except Err (List Nbr)
  | [], _ => .ok []
  | e :: es, reads => match t.exact e.id with
    | some d => match rerank t es reads with
      | .error x => .error x
      | .ok out => .ok (⟨e.id, d, false⟩ :: out)
    | none => match reads with
      | [] => .error .stuck
      | none :: _ => .error .thrown
      | some d :: reads => match rerank t es reads with
        | .error x => .error x
        | .ok out => .ok (⟨e.id, d, false⟩ :: out)

/-- Result of the PQ search. `want = none`: no rerank. The sort order is total on different ids, so the sort is determined.
beam_search.hpp:733-792 -/
def extractPQ (c : Ctx) (topK : Nat) (want : Option Nat) (t : TD) (reads : List (Option Int)) : Except Err (List (Nat × Int)) :=
  let live := t.q.entries.filter fun e => !c.dead e.id
  match want with
  | some w => match rerank t (live.take (if w > 0 then w else topK * 3)) reads with
    | .error e => .error e
    | .ok out => .ok (((sortPool out).take topK).map fun e => (e.id, e.dist))
  | none => .ok (((sortPool ((live.take topK).map fun e =>
      ⟨e.id, match t.exact e.id with | some d => d | none => e.dist, false⟩)).take topK).map fun e => (e.id, e.dist))

/-- Start of the PQ search: the medoid enters the frontier. beam_search.hpp:494-508 -/
def seedPQ (c : Ctx) (pq : Nat → Int) (t : TD) (list : Nat) : Except Err TD :=
  if c.medoid ≥ c.bits then .error .thrown
  else match (t.reset c list).q.insert ⟨c.medoid, pq c.medoid, false⟩ with
    | none => .error .ub
    | some (q, _) => .ok { t.reset c list with q := q, vis := c.medoid :: (t.reset c list).vis }

/-- `cached_beam_search` with PQ, pipelined. beam_search.hpp:475-792 -/
def beamPipe (c : Ctx) (pq : Nat → Int) (topK l beam inner fuel : Nat) (want : Option Nat) (t : TD) (env : List Ans)
    (reads : List (Option Int)) : Except Err (List (Nat × Int)) :=
  match seedPQ c pq t (max l topK) with
  | .error e => .error e
  | .ok t1 => match fillPipe c pq inner t1 [] (max 1 beam) env with
    | .error e => .error e
    | .ok (t2, fly, free, env2) => match pqLoop c pq inner fuel t2 fly free env2 with
      | .error e => .error e
      | .ok (t3, _) => extractPQ c topK want t3 reads

/-- `cached_beam_search` with PQ, deterministic. beam_search.hpp:475-792 -/
def beamDet (c : Ctx) (pq : Nat → Int) (topK l beam inner fuel : Nat) (want : Option Nat) (t : TD) (env : List BAns)
    (reads : List (Option Int)) : Except Err (List (Nat × Int)) :=
  match seedPQ c pq t (max l topK) with
  | .error e => .error e
  | .ok t1 => match pqDetLoop c pq (max 1 beam) inner fuel t1 env with
    | .error e => .error e
    | .ok (t2, _) => extractPQ c topK want t2 reads

end Alaya.DiskBeam
