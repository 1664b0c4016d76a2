import Mathlib.Logic.Function.Basic

/-!
# The workspaces of the disk searches

/repo/include/index/graph/laser/utils/concurrent_queue.hpp:61-104 (`push`, `pop`, `wait_for_push_notify`) as used by
/repo/include/index/graph/diskann/diskann_index.hpp:356-408 (workspaces made), 2192-2203 (`acquire`, `release`), 450-487 (`search`) and
1195-1219 (`run_update_search`).

Any number of threads take turns in any order.  One step is one critical section of the queue.  A thread that finds the queue empty waits
at most 10 microseconds and looks again, whether or not it is notified, so a notification only changes when it looks.

Simplifications: a workspace is named by its place in `thread_data_storage_`, so that none is `nullptr`; its contents and the search itself
are those of C64-C66; loading and closing are not concurrent with searches.
-/

namespace Alaya.SPool

/-- How many workspaces `load` makes; it refuses 0 for the last two of an updatable index. diskann_index.hpp:356-365 -/
def poolSize (numThreads : Nat) (updatable : Bool) (ins rec : Nat) : Nat :=
  let pool := max 1 numThreads
  if updatable then max (max pool ins) rec else pool

/-- Where a thread is. -/
inductive Pc where
  | idle
  /-- In the loop of `acquire`. -/
  | asking
  /-- Between `acquire` and `release`. -/
  | busy (w : Nat)
  deriving DecidableEq, Repr

structure St where
  queue : List Nat
  pcs : Nat → Pc

/-- After `load`. diskann_index.hpp:405-409 -/
def start (n : Nat) : St := ⟨List.range n, fun _ => .idle⟩

inductive Act where
  /-- A search begins. -/
  | call
  /-- One `pop` of the loop. -/
  | pop
  /-- The search ends. -/
  | finish
  /-- The search throws; the handler gives the workspace back. -/
  | throws
  deriving DecidableEq, Repr

/-- One step of thread `i`; `none` = a step the thread cannot take. concurrent_queue.hpp:61-91, diskann_index.hpp:2192-2203, 483-487 -/
def step (s : St) (i : Nat) (a : Act) : Option St :=
  match a, s.pcs i with
  | .call, .idle => some { s with pcs := Function.update s.pcs i .asking }
  | .pop, .asking =>
    match s.queue with
    | [] => some s
    | w :: ws => some ⟨ws, Function.update s.pcs i (.busy w)⟩
  | .finish, .busy w => some ⟨s.queue ++ [w], Function.update s.pcs i .idle⟩
  | .throws, .busy w => some ⟨s.queue ++ [w], Function.update s.pcs i .idle⟩
  | _, _ => none

/-- Any execution. -/
def run (s : St) : List (Nat × Act) → Option St
  | [] => some s
  | (i, a) :: t => (step s i a).bind (run · t)

end Alaya.SPool
