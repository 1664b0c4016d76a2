/-
Reads of coroutines through one shared io_uring: any number of waves, any threads.
/repo/include/storage/io/uring_reactor.hpp:85-313.

A state is what ring, mutexes and coroutine frames hold between two atomic actions; an execution is any sequence of actions.  The thread
that runs an action does not matter, except that one at a time holds `sq_mutex_` and one at a time holds `cq_mutex_`.  The kernel takes
SQEs from the front of the submission queue, any number of them, and delivers completions in any order with any results
(IORING_FEAT_NODROP: none is lost).  A wave whose coroutine has ended has no frame any more; an access to it is undefined behaviour.
Memory is sequentially consistent; an atomic counter is an integer (that it stays in range is part of the proof, except for
`in_flight_`, a 64-bit number of which only `!= 0` is asked).
-/
namespace Alaya.UringReactor

/-- The `user_data` of a read: wave and position in the wave. :164-167 -/
structure Tok where
  w : Nat
  i : Nat
  deriving DecidableEq, Repr

/-- Where the coroutine of a wave is. -/
inductive Phase where
  /-- before `submit_reads`. :173-178 -/
  | ready
  /-- holds `sq_mutex_`, `i` of `c` SQEs are filled. :263-276 -/
  | prep (c i : Nat)
  /-- holds `sq_mutex_`, the kernel has taken `f` of `c`, `sp` fruitless attempts so far. :278-281 -/
  | flush (c f sp : Nat)
  /-- the same after the kernel has taken `j` more, before `in_flight_` is raised. :281-284 -/
  | account (c f sp j : Nat)
  /-- after a short count. :180-188 -/
  | short
  /-- waits for the rest. :190-196 -/
  | poll (bad : Bool)
  /-- has ended with the number of failed reads, or with an exception. :197-203 -/
  | over (r : Option Nat)
  deriving DecidableEq, Repr

/-- The frame of `read_batch`: sizes asked for, `result_` of the requests, `remaining`, `failures`, `submitted`. :154-174, 218-226 -/
structure Wave where
  sizes : List Nat
  res : List Int
  remaining : Int
  failures : Nat
  submitted : Nat
  phase : Phase
  deriving DecidableEq, Repr

/-- `depth_`, and the size of the submission queue (`depth_` rounded up to a power of two by the kernel). -/
structure Ring where
  depth : Nat
  cap : Nat
  deriving DecidableEq, Repr

/-- `reap`: a completion taken from the queue and how far its dispatch is; `fin`: the completions whose dispatch has ended (a record
for the statements, not in the code). -/
structure State where
  waves : List Wave
  owner : Option Nat
  sq : List Tok
  kernel : List Tok
  cq : List (Tok × Int)
  reap : Option (Tok × Int × Nat)
  fin : List (Tok × Int)
  poisoned : Bool
  inFlight : Int
  deriving DecidableEq, Repr

def State.init : State := ⟨[], none, [], [], [], none, [], false, 0⟩

/-- What `io_uring_submit` returns: a positive number, `-EINTR`, one of 0, `-EAGAIN`, `-EBUSY`, or another error. :281-300 -/
inductive Ret where
  | took (j : Nat)
  | eintr
  | again
  | hard
  deriving DecidableEq, Repr

/-- The actions. -/
inductive Ev where
  | start (sizes : List Nat) (old : List Int)
  | lock (w : Nat)
  | prep (w : Nat)
  | submit (w : Nat) (r : Ret)
  | account (w : Nat)
  | unlock (w : Nat)
  | deduct (w : Nat)
  | poll (w : Nat)
  | complete (p : Nat) (r : Int)
  | take
  | store
  | tally
  | finish
  deriving DecidableEq, Repr

/-- An action is not possible, is undefined behaviour, or leads to a state. -/
inductive Res where
  | no
  | ub
  | ok (s : State)
  deriving DecidableEq, Repr

/-- `kSubmitRetries`. :306 -/
def retries : Nat := 1024

def Phase.isOver : Phase → Bool
  | .over _ => true
  | _ => false

/-- `result < 0 || static_cast<size_t>(result) != slot->request->size_`. :234 -/
def bad (size : Nat) (r : Int) : Bool := decide (r < 0) || decide (r ≠ (size : Int))

def State.put (s : State) (w : Nat) (v : Wave) : State := { s with waves := s.waves.set w v }

/-- A hard failure: the ring is not used any more. :265-269, 295-300 -/
def State.poison (s : State) (w : Nat) (v : Wave) : State := { s.put w { v with phase := .short } with owner := none, poisoned := true }

/-- `read_batch` up to `submit_reads`; `old` is what the results held before. :154-173 -/
def State.start (s : State) (sizes : List Nat) (old : List Int) : Res :=
  if old.length ≠ sizes.length then .no
  else .ok { s with waves := s.waves ++ [⟨sizes, old, sizes.length, 0, 0, if sizes = [] then .over (some 0) else .ready⟩] }

/-- `sq_mutex_`, and the look at `poisoned_`. :175-178, 259-262 -/
def State.lock (R : Ring) (s : State) (w : Nat) (v : Wave) : Res :=
  if v.phase ≠ .ready ∨ s.owner.isSome then .no
  else if s.poisoned then .ok (s.put w { v with phase := .short })
  else .ok { s.put w { v with phase := .prep (min (v.sizes.length - v.submitted) R.depth) 0 } with owner := some w }

/-- `io_uring_get_sqe` and `io_uring_prep_read`. :263-276 -/
def State.prep (R : Ring) (s : State) (w : Nat) (v : Wave) : Res :=
  match v.phase with
  | .prep c i =>
    if i < c then
      if s.sq.length < R.cap then .ok { s.put w { v with phase := .prep c (i + 1) } with sq := s.sq ++ [⟨w, v.submitted + i⟩] }
      else .ok (s.poison w v)
    else .ok (s.put w { v with phase := .flush c 0 0 })
  | _ => .no

/-- `io_uring_submit`. :280-301 -/
def State.submit (s : State) (w : Nat) (v : Wave) (r : Ret) : Res :=
  match v.phase with
  | .flush c f sp =>
    if f < c then
      match r with
      | .took j =>
        if 0 < j ∧ j ≤ s.sq.length then
          .ok { s.put w { v with phase := .account c f sp j } with sq := s.sq.drop j, kernel := s.kernel ++ s.sq.take j }
        else .no
      | .eintr => .ok s
      | .again =>
        if sp + 1 < retries then .ok (s.put w { v with phase := .flush c f (sp + 1) })
        else .ok (s.poison w { v with submitted := v.submitted + f })
      | .hard => .ok (s.poison w { v with submitted := v.submitted + f })
    else .no
  | _ => .no

/-- `in_flight_.fetch_add`. :283-284 -/
def State.account (s : State) (w : Nat) (v : Wave) : Res :=
  match v.phase with
  | .account c f sp j => .ok { s.put w { v with phase := .flush c (f + j) sp } with inFlight := s.inFlight + j }
  | _ => .no

/-- The end of a complete `submit_reads`. :175-184, 303 -/
def State.unlock (s : State) (w : Nat) (v : Wave) : Res :=
  match v.phase with
  | .flush c f _ =>
    if f < c then .no
    else
      .ok { s.put w { v with submitted := v.submitted + f, phase := if v.submitted + f < v.sizes.length then .ready else .poll false } with
        owner := none }
  | _ => .no

/-- `wave.remaining.fetch_sub(count - submitted)`. :186-188 -/
def State.deduct (s : State) (w : Nat) (v : Wave) : Res :=
  match v.phase with
  | .short => .ok (s.put w { v with remaining := v.remaining - ((v.sizes.length : Int) - v.submitted), phase := .poll true })
  | _ => .no

/-- The loop is left. :190-203 -/
def State.poll (s : State) (w : Nat) (v : Wave) : Res :=
  match v.phase with
  | .poll bad =>
    if v.remaining = 0 then .ok (s.put w { v with phase := .over (if bad then none else some v.failures) }) else .no
  | _ => .no

/-- The kernel ends a read. -/
def State.complete (s : State) (p : Nat) (r : Int) : Res :=
  match s.kernel[p]? with
  | some t => .ok { s with kernel := s.kernel.eraseIdx p, cq := s.cq ++ [(t, r)] }
  | none => .no

/-- `io_uring_peek_cqe`, `io_uring_cqe_seen`, `in_flight_.fetch_sub`, under `cq_mutex_`. :136-148, 240-245 -/
def State.take (s : State) : Res :=
  match s.reap, s.cq with
  | none, (t, r) :: rest => .ok { s with cq := rest, inFlight := s.inFlight - 1, reap := some (t, r, 0) }
  | _, _ => .no

/-- An access to the frame of a wave. -/
def State.frame (s : State) (t : Tok) (k : Wave → State) : Res :=
  match s.waves[t.w]? with
  | some v => if v.phase.isOver then .ub else .ok (k v)
  | none => .ub

/-- `on_slot_complete`, first access. :233 -/
def State.store (s : State) : Res :=
  match s.reap with
  | some (t, r, 0) => s.frame t (fun v => { s.put t.w { v with res := v.res.set t.i r } with reap := some (t, r, 1) })
  | _ => .no

/-- The failures. :234-236 -/
def State.tally (s : State) : Res :=
  match s.reap with
  | some (t, r, 1) =>
    s.frame t (fun v => { s.put t.w { v with failures := if bad ((v.sizes[t.i]?).getD 0) r then v.failures + 1 else v.failures } with
      reap := some (t, r, 2) })
  | _ => .no

/-- The last access. :237 -/
def State.finish (s : State) : Res :=
  match s.reap with
  | some (t, r, 2) =>
    s.frame t (fun v => { s.put t.w { v with remaining := v.remaining - 1 } with reap := none, fin := s.fin ++ [(t, r)] })
  | _ => .no

def State.wave (s : State) (w : Nat) (k : Wave → Res) : Res :=
  match s.waves[w]? with
  | some v => k v
  | none => .no

def State.step (R : Ring) (s : State) : Ev → Res
  | .start sizes old => s.start sizes old
  | .lock w => s.wave w (s.lock R w)
  | .prep w => s.wave w (s.prep R w)
  | .submit w r => s.wave w (fun v => s.submit w v r)
  | .account w => s.wave w (s.account w)
  | .unlock w => s.wave w (s.unlock w)
  | .deduct w => s.wave w (s.deduct w)
  | .poll w => s.wave w (s.poll w)
  | .complete p r => s.complete p r
  | .take => s.take
  | .store => s.store
  | .tally => s.tally
  | .finish => s.finish

/-- An execution. -/
def State.run (R : Ring) : List Ev → State → Res
  | [], s => .ok s
  | e :: es, s =>
    match s.step R e with
    | .ok s' => State.run R es s'
    | x => x

/-- The loop of the destructor goes on. :103-115 -/
def State.draining (s : State) : Bool := decide (s.inFlight % 2 ^ 64 ≠ 0)

end Alaya.UringReactor
