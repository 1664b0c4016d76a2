import Verif.Model.Bytes

/-
/repo/include/utils/thread_pool.hpp and the way the graph builders use it: one client thread that enqueues tasks, waits for them, resets
the counter and finally destroys the pool (hnsw_builder.hpp:105-180, nndescent.hpp:170-430, nsg_builder.hpp:110-330).

A transition system: one action is one critical section of `queue_mutex_`, the execution of a task, or a notification.  The scheduler
(which thread moves next, which sleeping worker a `notify_one` wakes, spurious wake-ups) is arbitrary.  Simplifications: a task is a number
and always ends; an exception of a task ends it (it is kept in the future); memory is sequentially consistent; futures are left out.
-/
namespace Alaya.Pool

/-- A worker thread.  `lock`: about to take the mutex and look at the queue (at the start, after a task and after a wake-up).
thread_pool.hpp:31-53 -/
inductive Wk where
  | lock
  | sleep
  | run (t : Nat)
  | fin
  | gone
  deriving DecidableEq, Repr

/-- What the client calls. -/
inductive Cmd where
  | enqueue (t : Nat)
  | wait (n : Nat)
  | reset
  deriving DecidableEq, Repr

/-- Where the client is: before the next call, between the push and the `notify_one` of `enqueue`, asleep in a wait, and in the
destructor after `stop_ = true`, after `notify_all`, and at its end. -/
inductive Cl where
  | at (rest : List Cmd)
  | notify (rest : List Cmd)
  | sleep (n : Nat) (rest : List Cmd)
  | notifyAll
  | join
  | done
  deriving DecidableEq, Repr

/-- The pool with its threads.  The last four are records for the statements: what was enqueued, the order in which tasks were taken,
the tasks that have ended, and for every wait that has returned what had been enqueued and had ended at that moment. -/
structure St where
  queue : List Nat
  stop : Bool
  completed : Nat
  ws : List Wk
  cl : Cl
  sent : List Nat
  started : List Nat
  ended : List Nat
  returned : List (List Nat × List Nat)
  deriving DecidableEq, Repr

/-- `notify_one` for the client (the only one who waits for completions), or a spurious wake-up. -/
def Cl.woken : Cl → Cl
  | .sleep n rest => .at (.wait n :: rest)
  | c => c

/-- `condition_.notify_one()`: wakes a sleeping worker if there is one, `pick` if it sleeps. thread_pool.hpp:84 -/
def wakeOne (pick : Nat) (ws : List Wk) : List Wk :=
  if ws[pick]? = some .sleep then ws.set pick .lock
  else match ws.findIdx? (· == .sleep) with
    | some i => ws.set i .lock
    | none => ws

/-- `condition_.notify_all()`. thread_pool.hpp:133 -/
def wakeAll (ws : List Wk) : List Wk := ws.map (fun k => if k = .sleep then .lock else k)

/-- The loop of a worker. thread_pool.hpp:31-53 -/
def St.work (s : St) (w : Nat) : St :=
  match s.ws[w]? with
  | some .lock =>
    match s.queue with
    | t :: q => { s with queue := q, started := s.started ++ [t], ws := s.ws.set w (.run t) }
    | [] => { s with ws := s.ws.set w (if s.stop then .gone else .sleep) }
  | some (.run t) => { s with ended := s.ended ++ [t], ws := s.ws.set w .fin }
  | some .fin => { s with completed := (s.completed + 1) % 2 ^ 32, ws := s.ws.set w .lock, cl := s.cl.woken }
  | _ => s

/-- The client: `enqueue`, `wait_until_all_tasks_completed`, `reset_task`, the destructor. thread_pool.hpp:70-139 -/
def St.client (s : St) (pick : Nat) : St :=
  match s.cl with
  | .at (.enqueue t :: rest) => { s with queue := s.queue ++ [t], sent := s.sent ++ [t], cl := .notify rest }
  | .at (.wait n :: rest) =>
    if s.completed = n then { s with cl := .at rest, returned := s.returned ++ [(s.sent, s.ended)] } else { s with cl := .sleep n rest }
  | .at (.reset :: rest) => { s with completed := 0, cl := .at rest }
  | .at [] => { s with stop := true, cl := .notifyAll }
  | .notify rest => { s with ws := wakeOne pick s.ws, cl := .at rest }
  | .sleep _ _ => s
  | .notifyAll => { s with ws := wakeAll s.ws, cl := .join }
  | .join => if s.ws.all (· == .gone) then { s with cl := .done } else s
  | .done => s

/-- A move of worker `w` or of the client, or a spurious wake-up. -/
inductive Act where
  | work (w : Nat)
  | client (pick : Nat)
  | spurious (w : Nat)
  | spuriousClient
  deriving DecidableEq, Repr

def step (s : St) : Act → St
  | .work w => s.work w
  | .client pick => s.client pick
  | .spurious w => if s.ws[w]? = some .sleep then { s with ws := s.ws.set w .lock } else s
  | .spuriousClient => { s with cl := s.cl.woken }

/-- A finite schedule. -/
def run (s : St) (as : List Act) : St := as.foldl step s

/-- The first `n` actions of an infinite schedule. -/
def after (s : St) (f : Nat → Act) : Nat → St
  | 0 => s
  | n + 1 => step (after s f n) (f n)

/-- `ThreadPool pool(threads)` and a client that makes the calls `cs` and then destroys the pool. thread_pool.hpp:29-55 -/
def start (threads : Nat) (cs : List Cmd) : St :=
  ⟨[], false, 0, List.replicate threads .lock, .at cs, [], [], [], []⟩

/-- One phase of a builder: enqueue the tasks, wait for as many completions, reset the counter. -/
def phase (tasks : List Nat) : List Cmd := tasks.map .enqueue ++ [.wait tasks.length, .reset]

/-- `HNSWBuilder::build_graph` for `n` vectors: tasks 1..n-1 insert, tasks n..2n-1 copy the upper layers.
/repo/include/index/graph/hnsw/hnsw_builder.hpp:105-180 -/
def hnswBuild (n : Nat) : List Cmd :=
  (List.range' 1 (n - 1)).map .enqueue ++ [.wait (n - 1), .reset, .reset] ++ (List.range' n n).map .enqueue ++ [.wait n]

/-- `for (auto &future : futures) future.get()` has come to its end or has thrown: the frame that owns the queries, the filter and the
result arrays of the batch is left.  `throws t`: task `t` ends with an exception. /repo/python/include/index.hpp:1014-1035 -/
def leaves (throws : Nat → Bool) (s : St) : List Nat → Bool
  | [] => true
  | t :: ts => s.ended.contains t && (throws t || leaves throws s ts)

end Alaya.Pool
