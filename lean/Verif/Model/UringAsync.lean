/-!
Reads with callbacks through io_uring: `submit_async_read`, `check_completion` and `drain_pending` of one thread's ring. /repo/include/storage/io/io_uring_engine.hpp:125-182, 206-210, 213-216, 242-261

Simplifications: a read is the number of the context that `submit_async_read` allocates, `live` are the contexts not yet freed. What `io_uring_submit`
answers comes from outside (`none` = an error, `some n` = it took `min n` of the prepared reads), and so do the completions (`Act.kernel`) and the reads
that a callback itself submits (the list given with each round). `async_in_flight_` is an integer here; a negative value stands for a `size_t` that
wrapped around. `accepted` and `said` only record what `submit_async_read` accepted and what the kernel completed. `stray` tells whether a freed context
was used. Callbacks do not call `check_completion` or `drain_pending`; the batches of the same thread (Model/UringBatch.lean) are not mixed in; buffers
and offsets are not modelled.
-/

namespace Alaya.UAsync

/-- One thread's ring. io_uring_engine.hpp:206-216 -/
structure St where
  /-- Prepared, not yet submitted. -/
  sq : List Nat := []
  /-- With the kernel. -/
  flight : List Nat := []
  /-- Completed, not yet seen. -/
  cq : List (Nat × Int) := []
  /-- Contexts allocated and not freed. -/
  live : List Nat := []
  /-- `async_in_flight_`. -/
  count : Int := 0
  /-- Callbacks run, in order, with their result. -/
  ran : List (Nat × Int) := []
  /-- A freed context was used. -/
  stray : Bool := false
  /-- The next context. -/
  next : Nat := 0
  /-- Reads for which `submit_async_read` returned true. -/
  accepted : List Nat := []
  /-- What the kernel completed, in order. -/
  said : List (Nat × Int) := []
  /-- Places of the submission queue. -/
  entries : Nat

/-- `submit_async_read`. io_uring_engine.hpp:125-157 -/
def submitRead (s : St) (ans : Option Nat) : St :=
  if s.sq.length < s.entries then
    match ans with
    | none => { s with sq := s.sq ++ [s.next], next := s.next + 1 }
    | some n =>
      let sq := s.sq ++ [s.next]
      { s with
        sq := sq.drop n, flight := s.flight ++ sq.take n, live := s.next :: s.live, next := s.next + 1, count := s.count + 1,
        accepted := s.accepted ++ [s.next] }
  else s

/-- What happens beside the two loops: a read is submitted, or the kernel completes one. -/
inductive Act where
  | read (ans : Option Nat)
  | kernel (c : Nat) (res : Int)

def act (s : St) : Act → St
  | .read ans => submitRead s ans
  | .kernel c res =>
    if c ∈ s.flight then { s with flight := s.flight.erase c, cq := s.cq ++ [(c, res)], said := s.said ++ [(c, res)] } else s

/-- The callback of a completion is run and its context freed. io_uring_engine.hpp:169-174, 251-256 -/
def pop (s : St) (x : Nat × Int) (t : List (Nat × Int)) : St :=
  { s with cq := t, ran := s.ran ++ [x], live := s.live.erase x.1, stray := s.stray || !(s.live.contains x.1) }

/-- All the completions there are, with nothing happening beside. -/
def popAll : List (Nat × Int) → St → St
  | [], s => s
  | x :: t, s => popAll t (pop s x t)

/-- The loop of `check_completion`; the first argument is what happens during each callback (nothing in the rounds after its end).
io_uring_engine.hpp:168-176 -/
def checkLoop : List (List Act) → Nat → St → St × Nat
  | [], n, s => (popAll s.cq s, n + s.cq.length)
  | a :: rest, n, s =>
    match s.cq with
    | [] => (s, n)
    | x :: t => checkLoop rest (n + 1) (a.foldl act (pop s x t))

/-- `check_completion`: the new state and the number returned. io_uring_engine.hpp:159-180 -/
def check (rounds : List (List Act)) (s : St) : St × Nat :=
  if s.count = 0 then (s, 0)
  else
    let (s', n) := checkLoop rounds 0 s
    ({ s' with count := s'.count - n }, n)

/-- `drain_pending`: one entry for each wait, `none` for an error of it, otherwise what happens during the wait and the callback; with no entries left
the wait does not return. io_uring_engine.hpp:182, 242-260 -/
def drain : List (Option (List Act)) → St → St
  | [], s => s
  | w :: ws, s =>
    if s.count = 0 then s
    else
      match w with
      | none => s
      | some a =>
        match s.cq with
        | [] => drain ws (a.foldl act s)
        | x :: t =>
          let s' := a.foldl act (pop s x t)
          drain ws { s' with count := s'.count - 1 }

/-- What a thread does with its ring. -/
inductive Op where
  | act (a : Act)
  | check (rounds : List (List Act))
  | drain (waits : List (Option (List Act)))

def step (s : St) : Op → St
  | .act a => act s a
  | .check r => (check r s).1
  | .drain w => drain w s

def run (entries : Nat) (ops : List Op) : St := ops.foldl step { entries := entries }

end Alaya.UAsync
