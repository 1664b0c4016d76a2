/-!
The suspending object pool: /repo/include/utils/coro_gate.hpp.

Objects and coroutines are numbered.  Every critical section (under `mutex_`) is one step; so are the hand-over to the thread pool
(`pool.resume`) and the continuation of a resumed coroutine.  Simplification: the thread pool runs what it accepted in any order, and a
rejected `resume` (a pool that was shut down, only logged by the code) is a step of its own, `reject`.
-/
namespace Alaya.CoroGate

/-- `free_` (back of the vector = head of the list) and `waiters_` (front first). coro_gate.hpp:123-126 -/
structure Gate where
  free : List Nat
  waiters : List Nat

/-- `add`. coro_gate.hpp:46-49 -/
def Gate.add (g : Gate) (o : Nat) : Gate := { g with free := o :: g.free }

/-- `Awaiter::await_suspend`: an object at once, or parked. coro_gate.hpp:57-70 -/
def Gate.acquire (g : Gate) (c : Nat) : Gate × Option Nat :=
  match g.free with
  | o :: rest => ({ g with free := rest }, some o)
  | [] => ({ g with waiters := g.waiters ++ [c] }, none)

/-- The locked part of `release`: the waiter that gets the object, if any. coro_gate.hpp:88-100 -/
def Gate.release (g : Gate) (o : Nat) : Gate × Option Nat :=
  match g.waiters with
  | [] => ({ g with free := o :: g.free }, none)
  | w :: rest => ({ g with waiters := rest }, some w)

/-- The gate and where the objects outside it are: `held` by a coroutine, `handed` to a popped waiter (`item_` set, `resume` not called),
`ready` (accepted by the thread pool, coroutine not yet continued), `lost` (resume rejected). -/
structure Sys where
  gate : Gate
  held : List (Nat × Nat)
  handed : List (Nat × Nat)
  ready : List (Nat × Nat)
  lost : List (Nat × Nat)

def Sys.init : Sys := ⟨⟨[], []⟩, [], [], [], []⟩

/-- The coroutine is not suspended inside `acquire`. -/
def Sys.running (s : Sys) (c : Nat) : Prop :=
  c ∉ s.gate.waiters ∧ c ∉ s.handed.map (·.1) ∧ c ∉ s.ready.map (·.1) ∧ c ∉ s.lost.map (·.1)

/-- What can happen. -/
inductive Ev
  | add (o : Nat)
  | acquire (c : Nat)
  | release (c o : Nat)
  | resume (c o : Nat)
  | reject (c o : Nat)
  | run (c o : Nat)

/-- The effect of an event; `none` when it cannot happen in the state. -/
def Sys.step (s : Sys) : Ev → Option Sys
  | .add o => some { s with gate := s.gate.add o }
  | .acquire c => match s.gate.acquire c with
    | (g, some o) => some { s with gate := g, held := (c, o) :: s.held }
    | (g, none) => some { s with gate := g }
  | .release c o =>
    if (c, o) ∈ s.held then match s.gate.release o with
      | (g, none) => some { s with gate := g, held := s.held.erase (c, o) }
      | (g, some w) => some { s with gate := g, held := s.held.erase (c, o), handed := (w, o) :: s.handed }
    else none
  | .resume c o => if (c, o) ∈ s.handed then some { s with handed := s.handed.erase (c, o), ready := (c, o) :: s.ready } else none
  | .reject c o => if (c, o) ∈ s.handed then some { s with handed := s.handed.erase (c, o), lost := (c, o) :: s.lost } else none
  | .run c o => if (c, o) ∈ s.ready then some { s with ready := s.ready.erase (c, o), held := (c, o) :: s.held } else none

/-- A schedule: coroutines act only while they run; objects are added once. -/
def Sys.allowed (s : Sys) (added : List Nat) : Ev → Prop
  | .add o => o ∉ added ∧ s.gate.waiters = []
  | .acquire c => s.running c
  | .release c _ => s.running c
  | _ => True

end Alaya.CoroGate
