import Verif.Model.MemSearch

/-
The coroutine scheduler and the batch search over an in-memory index that uses it.
/repo/include/executor/worker.hpp:108-136 (`Worker::run`), /repo/include/executor/scheduler.hpp:113-181 (`begin`, `join`, `schedule`,
`resume`), /repo/include/executor/task_queue.hpp:34-56, /repo/python/include/index.hpp:1078-1124, 1154-1197 (`batch_search`,
`batch_search_with_distance`), /repo/include/executor/jobs/graph_search_job.hpp:502-554 (`search`).

Any number of workers, one atomic action per step, any schedule.  A coroutine is a local state with a `resume` function and a `done`
predicate: what it shares with others (graph, vectors) is only read, so a resume is one step.  The concurrent queue may hand out any
of its entries, and a pop may fail although there are entries.
-/
namespace Alaya.Sched

/-- The code of a coroutine. -/
structure Coro (S : Type) where
  resume : S → S
  done : S → Bool

/-- Where a worker is: top of the loop; before the first load of the comparison of the counters; before the second load; before
`handle.resume()` of slot `i`; before `handle = nullptr; fetch_add(1)` of slot `i`; returned from `run`. worker.hpp:113-135 -/
inductive Pc
  | top
  | load
  | cmp (v : Nat)
  | run (i : Nat)
  | fin (i : Nat)
  | exited
  deriving DecidableEq, Repr

/-- `local_tasks_`, `navigator`. worker.hpp:47, 111, 180 -/
structure Wk where
  slots : List (Option Nat)
  nav : Nat
  pc : Pc
  deriving DecidableEq, Repr

/-- `local_task_cnt_`. worker.hpp:41 -/
def perWorker : Nat := 4

structure St (S : Type) where
  queue : List Nat
  /-- `total_task_count_`, `total_finish_count_` -/
  total : Nat
  finish : Nat
  ws : List Wk
  coro : Nat → S
  /-- resumes per coroutine (history variable) -/
  cnt : Nat → Nat
  /-- a null or finished handle was resumed, or a slot outside of the array used -/
  bad : Bool

/-- A worker moves (`pick`: the entry a pop gets, if it gets one); the first half of `schedule`; the second half, also `resume`. -/
inductive Act
  | work (w : Nat) (pick : Option Nat)
  | count
  | push (t : Nat)
  deriving DecidableEq, Repr

def St.put {S : Type} (s : St S) (w : Nat) (k : Wk) : St S := { s with ws := s.ws.set w k }

/-- `navigator++`, a `uint32_t`. worker.hpp:114 -/
def Wk.next (k : Wk) (pc : Pc) : Wk := { k with nav := (k.nav + 1) % 4294967296, pc := pc }

/-- One atomic action of worker `w`.  `finishFirst`: which of the two counters is loaded first (unspecified in C++).
worker.hpp:113-135 -/
def St.work {S : Type} (c : Coro S) (finishFirst : Bool) (s : St S) (w : Nat) (k : Wk) (pick : Option Nat) : St S :=
  match k.pc with
  | .exited => s
  | .top =>
    match k.slots[k.nav % perWorker]? with
    | none => { s with bad := true }
    | some (some _) => s.put w (k.next (.run (k.nav % perWorker)))
    | some none =>
      match pick with
      | none => s.put w (k.next .load)
      | some j =>
        match s.queue[j]? with
        | none => s.put w (k.next .load)
        | some t =>
          { (s.put w { k.next (.run (k.nav % perWorker)) with slots := k.slots.set (k.nav % perWorker) (some t) }) with
            queue := s.queue.eraseIdx j }
  | .load => s.put w { k with pc := .cmp (if finishFirst then s.finish else s.total) }
  | .cmp v => s.put w { k with pc := if v = (if finishFirst then s.total else s.finish) then .exited else .top }
  | .run i =>
    match k.slots[i]? with
    | some (some t) =>
      { (s.put w { k with pc := if c.done (c.resume (s.coro t)) then .fin i else .top }) with
        coro := fun t' => if t' = t then c.resume (s.coro t) else s.coro t'
        cnt := fun t' => if t' = t then s.cnt t + 1 else s.cnt t'
        bad := s.bad || c.done (s.coro t) }
    | _ => { s with bad := true }
  | .fin i => { (s.put w { k with slots := k.slots.set i none, pc := .top }) with finish := s.finish + 1 }

def step {S : Type} (c : Coro S) (finishFirst : Bool) (s : St S) : Act → St S
  | .work w pick => match s.ws[w]? with
    | none => s
    | some k => s.work c finishFirst w k pick
  | .count => { s with total := s.total + 1 }
  | .push t => { s with queue := s.queue ++ [t] }

def run {S : Type} (c : Coro S) (finishFirst : Bool) (s : St S) : List Act → St S
  | [] => s
  | a :: as => run c finishFirst (step c finishFirst s a) as

/-- The same for an endless schedule: the state after `j` actions. -/
def after {S : Type} (c : Coro S) (finishFirst : Bool) (s : St S) (f : Nat → Act) : Nat → St S
  | 0 => s
  | j + 1 => step c finishFirst (after c finishFirst s f j) (f j)

/-- `begin()` after `n` calls of `schedule`: `workers` threads are started. scheduler.hpp:113-124, index.hpp:1102-1114 -/
def start {S : Type} (n workers : Nat) (init : Nat → S) : St S :=
  ⟨List.range n, n, 0, List.replicate workers ⟨List.replicate perWorker none, 0, .top⟩, init, fun _ => 0, false⟩

/-- `join()` has returned. scheduler.hpp:131-139 -/
def St.joined {S : Type} (s : St S) : Prop := ∀ k ∈ s.ws, k.pc = .exited

/-- The coroutine a worker is about to resume or resuming. -/
def Wk.resuming (k : Wk) : Option Nat :=
  match k.pc with
  | .run i => (k.slots[i]?).join
  | _ => none

/-! ## The search coroutine -/

open Alaya.Pools Alaya.MemSearch

/-- Where the coroutine of a query is: not started; suspended before a row; suspended before the insertion of `v`; returned with these
slots; ended by an exception (kept in the promise, nobody asks for it); undefined behaviour. -/
inductive Q
  | fresh
  | row (s : MemSearch.St) (rest : List Nat)
  | ins (s : MemSearch.St) (v : Nat) (rest : List Nat)
  | ret (out : List (Nat × Option Int))
  | threw
  | ub
  deriving DecidableEq, Repr

/-- `while (pool.has_next())` up to the first `co_await`, or the end. graph_search_job.hpp:516-520, 541-553 -/
def head (g : MGraph) (topk : Nat) (s : MemSearch.St) : Q :=
  if s.pool.hasNext then
    match s.pool.pop with
    | none => .ub
    | some (p, x) =>
      match g.rows[x.1]? with
      | none => .ub
      | some row => .row ⟨p, s.seen⟩ row
  else .ret (padded topk (s.pool.entries.take (min s.pool.size topk)))

/-- The inner loop up to its next `co_await`. graph_search_job.hpp:522-535 -/
def scanOn (g : MGraph) (n topk : Nat) : List Nat → MemSearch.St → Q
  | [], s => head g topk s
  | v :: vs, s =>
    if v = noId then head g topk s
    else if v < bits n then
      if v ∈ s.seen then scanOn g n topk vs s else .ins ⟨s.pool, s.seen ++ [v]⟩ v vs
    else .ub

/-- `resume()` of a `search` coroutine. graph_search_job.hpp:502-554 -/
def resume (g : MGraph) (n : Nat) (dist : Nat → Int) (topk ef fuel : Nat) : Q → Q
  | .fresh =>
    if ef < topk then .threw
    else match g.start n dist fuel ⟨LinearPool.new ef, []⟩ with
      | none => .ub
      | some s => head g topk s
  | .row s rest => scanOn g n topk rest s
  | .ins s v rest =>
    match s.pool.insert v (dist v) with
    | none => .ub
    | some (p, _) => scanOn g n topk rest ⟨p, s.seen⟩
  | q => q

def Q.done : Q → Bool
  | .ret _ => true
  | .threw => true
  | .ub => true
  | _ => false

/-- The coroutines of a batch: query number and state. index.hpp:1102-1113 -/
def coroutines (g : MGraph) (n : Nat) (dist : Nat → Nat → Int) (topk ef fuel : Nat) : Coro (Nat × Q) :=
  ⟨fun x => (x.1, resume g n (dist x.1) topk ef fuel x.2), fun x => x.2.done⟩

/-- The row of a query in the result: what the coroutine wrote, otherwise the zeros of the new vector. index.hpp:1086, 1175-1176 -/
def written (topk : Nat) : Q → List (Nat × Option Int)
  | .ret out => out
  | _ => List.replicate topk (0, some 0)

/-- The state when the workers of a batch of `m` queries start. index.hpp:1101-1114, 1181-1191 -/
def batch (m workers : Nat) : St (Nat × Q) := start m workers (fun i => (i, Q.fresh))

/-- The rows handed back. index.hpp:1118-1123, 1195-1197 -/
def rows (topk m : Nat) (s : St (Nat × Q)) : List (List (Nat × Option Int)) :=
  (List.range m).map (fun i => written topk (s.coro i).2)

end Alaya.Sched
