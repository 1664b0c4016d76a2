/-
The reads of one search thread: /repo/include/index/graph/diskann/beam_search.hpp, search_scratch.hpp and
/repo/include/index/graph/laser/utils/aligned_file_reader.hpp.

A `ThreadData` has page buffers (slots) and an asynchronous I/O context; both are reused by the next query on the same `ThreadData`. A
read of node `m` fills its buffer with `dev m` (one node per page; what the device holds does not change). What the search decides to
read next is arbitrary; the kernel completes outstanding reads in any order. A schedule is a list of steps of either side.
-/
namespace Alaya.DiskIo

/-- Between queries, in a query, or inside a blocking batch read of these nodes into slots 0, 1, …; `checked`: the results of the events
are looked at. -/
inductive Mode where
  | idle
  | busy
  | reading (ids : List Nat) (checked : Bool)
  deriving DecidableEq, Repr

/-- Buffers, reads not completed (id, slot), completions not fetched (id, success), `inflight` and `free_page_slots` of the query,
records the search has used so far. `threw`: some query ended by an exception. -/
structure St (α : Type) where
  buf : Nat → α
  out : List (Nat × Nat)
  done : List (Nat × Bool)
  fly : List (Nat × Nat)
  free : List Nat
  mode : Mode
  used : List (Nat × α)
  threw : Bool

inductive Op where
  | complete (i : Nat)
  | fail (i : Nat)
  | start
  | submit (id : Nat)
  | event
  | readBegin (ids : List Nat) (checked : Bool)
  | readEnd
  | finish
  deriving DecidableEq, Repr

variable {α : Type}

/-- The kernel completes the `i`-th outstanding read. -/
def complete (dev : Nat → α) (i : Nat) (s : St α) : Option (St α) :=
  match s.out[i]? with
  | none => none
  | some (id, slot) => some { s with
      buf := fun j => if j = slot then dev id else s.buf j
      out := s.out.eraseIdx i
      done := s.done ++ [(id, true)] }

/-- The `i`-th outstanding read fails: its buffer keeps what it held. -/
def fail (i : Nat) (s : St α) : Option (St α) :=
  match s.out[i]? with
  | none => none
  | some (id, _) => some { s with out := s.out.eraseIdx i, done := s.done ++ [(id, false)] }

/-- `reset_query` and the slot list of a query; nothing is drained. search_scratch.hpp:117-125, 326-330; beam_search.hpp:355-365 -/
def start (slots : Nat) (s : St α) : Option (St α) :=
  if s.mode = .idle then some { s with mode := .busy, fly := [], free := List.range slots } else none

/-- A node is submitted into a free slot. A query never asks for the same node again (C56: ids waiting are distinct).
beam_search.hpp:408-416 -/
def submit (id : Nat) (s : St α) : Option (St α) :=
  if s.mode = .busy ∧ id ∉ s.fly.map (·.1) then match s.free with
    | [] => none
    | slot :: free => some { s with free := free, fly := s.fly ++ [(id, slot)], out := s.out ++ [(id, slot)] }
  else none

/-- `get_events(ctx, 1)` and its use: a failed read throws out of the query, `search` hands the `ThreadData` back. An id that is not
tracked is ignored. beam_search.hpp:431-448, 699-727; diskann_index.hpp:483-486 -/
def event (s : St α) : Option (St α) :=
  if s.mode = .busy ∧ s.fly ≠ [] then match s.done with
    | [] => none
    | (_, false) :: done => some { s with done := done, mode := .idle, threw := true }
    | (id, true) :: done => match s.fly.find? (fun p => p.1 = id) with
      | none => some { s with done := done }
      | some (id', slot) => some { s with
          done := done
          fly := s.fly.erase (id', slot)
          free := slot :: s.free
          used := s.used ++ [(id, s.buf slot)] }
  else none

/-- A blocking read: the seed, a rerank read, a chunk of the deterministic mode (`execute_io`: results not looked at), or a beam of the
deterministic PQ mode (results looked at). aligned_file_reader.hpp:226-273, 366-374; beam_search.hpp:241, 327, 600-611, 750 -/
def readBegin (ids : List Nat) (checked : Bool) (s : St α) : Option (St α) :=
  if s.mode = .busy ∧ s.fly = [] then some { s with mode := .reading ids checked, out := s.out ++ ids.zipIdx } else none

/-- It returns when as many events have arrived as reads were submitted. -/
def readEnd (s : St α) : Option (St α) :=
  match s.mode with
  | .reading ids checked =>
    if ids.length ≤ s.done.length then
      if checked = true ∧ (s.done.take ids.length).any (fun e => !e.2) = true then
        some { s with done := s.done.drop ids.length, mode := .idle, threw := true }
      else some { s with
        done := s.done.drop ids.length
        mode := .busy
        used := s.used ++ ids.zipIdx.map (fun p => (p.1, s.buf p.2)) }
    else none
  | _ => none

/-- A query ends when nothing is in flight. -/
def finish (s : St α) : Option (St α) := if s.mode = .busy ∧ s.fly = [] then some { s with mode := .idle } else none

def step (dev : Nat → α) (slots : Nat) : Op → St α → Option (St α)
  | .complete i, s => complete dev i s
  | .fail i, s => fail i s
  | .start, s => start slots s
  | .submit id, s => submit id s
  | .event, s => event s
  | .readBegin ids ck, s => readBegin ids ck s
  | .readEnd, s => readEnd s
  | .finish, s => finish s

/-- A schedule; steps that are not possible are skipped. -/
def run (dev : Nat → α) (slots : Nat) : List Op → St α → St α
  | [], s => s
  | o :: os, s => match step dev slots o s with
    | some s' => run dev slots os s'
    | none => run dev slots os s

/-- A new `ThreadData`. -/
def init (buf : Nat → α) : St α := ⟨buf, [], [], [], [], .idle, [], false⟩

end Alaya.DiskIo
