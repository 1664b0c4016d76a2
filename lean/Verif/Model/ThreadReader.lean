/-
Aligned reads through a pool of threads: the portable backend of the LASER file reader.
/repo/include/index/graph/laser/utils/threadpool_file_reader.hpp:37-313.

A state is what the reader, its contexts, its threads and the calls of `get_events` hold between two atomic actions; an execution is any
sequence of actions.  The lock-free queues hand out any of their elements (they keep no order between producers) and may be found empty at
any time (the waits are timed: 50 microseconds).  A context that was destroyed is never used again for another one; an access to it is
undefined behaviour, and so is a read through a descriptor that was closed.  `file_desc_` is a plain integer: a submission while `close`
runs is a data race.
Simplifications: a batch is put into the queue in one action (the same as several submissions one after the other); a context is never
null; memory is sequentially consistent; `close` of the descriptor and starting threads do not fail.
-/
namespace Alaya.ThreadReader

/-- `AlignedRead`. aligned_file_reader.hpp:92-105 -/
structure Read where
  off : Nat
  len : Nat
  id : Nat
  buf : Nat
  deriving DecidableEq, Repr

/-- `AlignedReadEvent`. aligned_file_reader.hpp:107-110 -/
structure Event where
  id : Nat
  result : Int
  deriving DecidableEq, Repr

/-- `SubmittedRead`. :46-49 -/
structure Job where
  c : Nat
  read : Read
  deriving DecidableEq, Repr

/-- `ThreadPoolContext`, the thread it is registered for, and whether it still exists. :37-42, 52 -/
structure Ctx where
  owner : Nat
  completions : List Event
  active : Bool
  alive : Bool
  deriving DecidableEq, Repr

/-- Where a worker is. :278-313 -/
inductive Worker where
  /-- before `try_dequeue`. :280-281 -/
  | idle
  /-- has found the queue empty, before it looks at `stop_`. :297 -/
  | miss
  /-- in `pread`. :282-287 -/
  | busy (j : Job)
  /-- before it looks at `active`. :308 -/
  | got (j : Job) (r : Int)
  /-- before `enqueue`. :311 -/
  | push (j : Job) (r : Int)
  /-- before `notify_one`. :312 -/
  | wake (c : Nat)
  /-- has ended. :298 -/
  | gone
  deriving DecidableEq, Repr

/-- A call of `get_events`: context, `n_ops`, `out`, and whether it has returned. :233-258 -/
structure Call where
  c : Nat
  n : Nat
  out : List Event
  over : Bool
  deriving DecidableEq, Repr

/-- The reader is closed, open, or `close` waits for the workers. -/
inductive Phase where
  | closed
  | opened
  | closing
  deriving DecidableEq, Repr

structure State where
  phase : Phase
  fd : Bool
  stop : Bool
  queue : List Job
  workers : List Worker
  ctxs : List Ctx
  calls : List Call
  deriving DecidableEq, Repr

def State.init : State := ⟨.closed, false, false, [], [], [], []⟩

/-- What can be seen from outside: reads accepted by `submit_reqs`, reads performed (the buffer is filled) and their results, events handed
to the caller. -/
inductive Obs where
  | submitted (c : Nat) (r : Read)
  | performed (c : Nat) (r : Read) (result : Int)
  | handed (c : Nat) (e : Event)
  deriving DecidableEq, Repr

/-- The actions.  Callers: `open`, `register`, `mark`/`free` (the halves of `deregister_thread`), `submit`, `poll`, `get` (start of
`get_events`), `collect` (it takes an event), `ret` (it returns), `stop`/`finish` (begin and end of `close`).  The others are the workers'. -/
inductive Ev where
  | open (n : Nat)
  | register (t : Nat)
  | mark (c : Nat)
  | free (c : Nat)
  | submit (c : Nat) (rs : List Read)
  | poll (c : Nat) (max : Nat) (ps : List Nat)
  | get (c : Nat) (n : Nat)
  | collect (k : Nat) (p : Nat)
  | ret (k : Nat)
  | stop
  | finish
  | take (w : Nat) (p : Nat)
  | miss (w : Nat)
  | look (w : Nat)
  | pread (w : Nat) (r : Int)
  | active (w : Nat)
  | push (w : Nat)
  | wake (w : Nat)
  deriving DecidableEq, Repr

/-- An action is not possible, is undefined behaviour, throws (nothing changes), or leads to a state and shows something. -/
inductive Res where
  | no
  | ub
  | throw
  | ok (s : State) (o : List Obs)
  deriving DecidableEq, Repr

/-- `MAX_IO_DEPTH`, `MAX_EVENTS`. aligned_file_reader.hpp:57, 71 -/
def maxDepth : Nat := 128
def maxEvents : Nat := 1024

/-- `worker_count_from_env`; `env`: `none` = unset or empty, `some none` = not a number (or out of range). :81-100, thread_config.hpp -/
def workerCount (hardware : Nat) (env : Option (Option Nat)) : Nat :=
  let sys := if hardware = 0 then 1 else hardware
  let dflt := min maxDepth (2 * sys)
  match env with
  | some (some n) => if n = 0 then dflt else min maxDepth n
  | _ => dflt

def State.putW (s : State) (w : Nat) (x : Worker) : State := { s with workers := s.workers.set w x }

def State.putC (s : State) (c : Nat) (x : Ctx) : State := { s with ctxs := s.ctxs.set c x }

def State.putK (s : State) (k : Nat) (x : Call) : State := { s with calls := s.calls.set k x }

/-- `open` after its `close`; the workers are started. :153-170 -/
def State.openFile (s : State) (n : Nat) : Res :=
  if s.phase ≠ .closed ∨ n = 0 then .no
  else .ok { s with phase := .opened, fd := true, stop := false, workers := List.replicate n .idle } []

/-- `register_thread`. :113-124 -/
def State.register (s : State) (t : Nat) : Res :=
  if s.ctxs.any (fun x => x.alive && x.owner == t) then .throw
  else .ok { s with ctxs := s.ctxs ++ [⟨t, [], true, true⟩] } []

/-- `active.store(false)`. :133-136, 143-148 -/
def State.mark (s : State) (c : Nat) : Res :=
  match s.ctxs[c]? with
  | some x => if x.alive ∧ x.active then .ok (s.putC c { x with active := false }) [] else .no
  | none => .no

/-- The context is erased. :137-138, 149-150 -/
def State.free (s : State) (c : Nat) : Res :=
  match s.ctxs[c]? with
  | some x => if x.alive ∧ ¬ x.active then .ok (s.putC c { x with alive := false, completions := [] }) [] else .no
  | none => .no

/-- `submit_reqs`; the context exists or once did. :213-231 -/
def State.submit (s : State) (c : Nat) (rs : List Read) : Res :=
  if ¬ c < s.ctxs.length then .no
  else match s.phase with
  | .closing => .ub
  | .closed => .throw
  | .opened =>
    if rs.length > maxEvents then .throw
    else .ok { s with queue := s.queue ++ rs.map (Job.mk c) } (rs.map (Obs.submitted c))

/-- Elements taken from a queue one after the other. -/
def takeAll : List Event → List Nat → Option (List Event × List Event)
  | l, [] => some ([], l)
  | l, p :: ps =>
    match l[p]? with
    | none => none
    | some e => (takeAll (l.eraseIdx p) ps).map (fun (o, rest) => (e :: o, rest))

/-- `poll_events`. :260-276 -/
def State.poll (s : State) (c max : Nat) (ps : List Nat) : Res :=
  if ps.length > max then .no
  else match s.ctxs[c]? with
    | none => .no
    | some x =>
      if x.alive then
        match takeAll x.completions ps with
        | none => .no
        | some (o, rest) => .ok (s.putC c { x with completions := rest }) (o.map (Obs.handed c))
      else .ub

/-- `get_events` is called. :236-244 -/
def State.get (s : State) (c n : Nat) : Res :=
  if ¬ c < s.ctxs.length then .no
  else .ok { s with calls := s.calls ++ [⟨c, n, [], false⟩] } []

/-- `ctx->completions.try_dequeue`. :245-249 -/
def State.collect (s : State) (k p : Nat) : Res :=
  match s.calls[k]? with
  | none => .no
  | some v =>
    if v.over ∨ ¬ v.out.length < v.n then .no
    else match s.ctxs[v.c]? with
      | none => .no
      | some x =>
        if x.alive then
          match x.completions[p]? with
          | none => .no
          | some e => .ok ((s.putC v.c { x with completions := x.completions.eraseIdx p }).putK k { v with out := v.out ++ [e] }) []
        else .ub

/-- `get_events` returns. :237-239, 250-252, 257 -/
def State.ret (s : State) (k : Nat) : Res :=
  match s.calls[k]? with
  | none => .no
  | some v =>
    if v.over ∨ v.out.length < v.n then .no
    else .ok (s.putK k { v with over := true }) (v.out.map (Obs.handed v.c))

/-- `close` begins. :173-174 -/
def State.stopAll (s : State) : Res :=
  if s.phase = .closing then .no else .ok { s with phase := .closing, stop := true } []

/-- The workers have been joined; `close` ends. :175-194 -/
def State.finish (s : State) : Res :=
  if s.phase = .closing ∧ s.workers.all (· == .gone) then
    .ok { s with phase := .closed, fd := false, queue := [], workers := [],
                 ctxs := s.ctxs.map (fun x => { x with active := false, alive := false, completions := [] }) } []
  else .no

/-- A worker takes a read. :281 -/
def State.take (s : State) (w p : Nat) : Res :=
  match s.workers[w]?, s.queue[p]? with
  | some .idle, some j => .ok { s.putW w (.busy j) with queue := s.queue.eraseIdx p } []
  | _, _ => .no

/-- A worker finds the queue empty. :281 -/
def State.miss (s : State) (w : Nat) : Res :=
  match s.workers[w]? with
  | some .idle => .ok (s.putW w .miss) []
  | _ => .no

/-- It looks at `stop_`; if not set it waits and begins again. :297-302 -/
def State.look (s : State) (w : Nat) : Res :=
  match s.workers[w]? with
  | some .miss => .ok (s.putW w (if s.stop then .gone else .idle)) []
  | _ => .no

/-- `pread` returns; `r` is what it returned, or `-errno`. :284-292 -/
def State.pread (s : State) (w : Nat) (r : Int) : Res :=
  match s.workers[w]? with
  | some (.busy j) => if s.fd then .ok (s.putW w (.got j r)) [.performed j.c j.read r] else .ub
  | _ => .no

/-- `!ctx->active.load()`. :308-310 -/
def State.active (s : State) (w : Nat) : Res :=
  match s.workers[w]? with
  | some (.got j r) =>
    match s.ctxs[j.c]? with
    | none => .ub
    | some x => if x.alive then .ok (s.putW w (if x.active then .push j r else .idle)) [] else .ub
  | _ => .no

/-- `ctx->completions.enqueue(event)`. :293, 311 -/
def State.push (s : State) (w : Nat) : Res :=
  match s.workers[w]? with
  | some (.push j r) =>
    match s.ctxs[j.c]? with
    | none => .ub
    | some x =>
      if x.alive then .ok ((s.putC j.c { x with completions := x.completions ++ [⟨j.read.id, r⟩] }).putW w (.wake j.c)) [] else .ub
  | _ => .no

/-- `ctx->completion_cv.notify_one()`. :312 -/
def State.wake (s : State) (w : Nat) : Res :=
  match s.workers[w]? with
  | some (.wake c) =>
    match s.ctxs[c]? with
    | none => .ub
    | some x => if x.alive then .ok (s.putW w .idle) [] else .ub
  | _ => .no

def step (s : State) : Ev → Res
  | .open n => s.openFile n
  | .register t => s.register t
  | .mark c => s.mark c
  | .free c => s.free c
  | .submit c rs => s.submit c rs
  | .poll c m ps => s.poll c m ps
  | .get c n => s.get c n
  | .collect k p => s.collect k p
  | .ret k => s.ret k
  | .stop => s.stopAll
  | .finish => s.finish
  | .take w p => s.take w p
  | .miss w => s.miss w
  | .look w => s.look w
  | .pread w r => s.pread w r
  | .active w => s.active w
  | .push w => s.push w
  | .wake w => s.wake w

/-- An execution and what it shows; `none`: one of the actions is not possible; `some none`: undefined behaviour. -/
def run (s : State) : List Ev → Option (Option (State × List Obs))
  | [] => some (some (s, []))
  | e :: es =>
    match step s e with
    | .no => none
    | .ub => some none
    | .throw => run s es
    | .ok s' o =>
      match run s' es with
      | none => none
      | some none => some none
      | some (some (s'', o')) => some (some (s'', o ++ o'))

/-- `read` throws if the number of events differs; the events themselves are ignored. :197-211 -/
def readThrows (submitted : Nat) (out : List Event) : Bool := out.length != submitted

end Alaya.ThreadReader
