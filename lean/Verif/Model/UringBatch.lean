import Mathlib.Logic.Function.Basic

/-!
# Batches of reads and writes through a thread's io_uring

/repo/include/storage/io/io_uring_engine.hpp:271-396 (`submit_batch`, `prepare_chunk`, `submit_chunk`, `mark_pending`, `mark_not_submitted`) and the
completions of `wait` (398-403).

The kernel is open: each `io_uring_submit` answers with an error or takes any number of the prepared entries, in order.  An error leaves the prepared
entries in the submission queue.  A read or write that was submitted completes later with any result.

Simplifications: a request is named by a number; what it transfers, its 32-bit size, initialisation failure of the ring and the log are left out.
-/

namespace Alaya.UBatch

/-- `kRequestNotSubmitted`. io_uring_engine.hpp:37 -/
def notSubmitted : Int := -2147483648

structure Ring where
  /-- Prepared, not yet submitted. -/
  sq : List Nat
  /-- With the kernel. -/
  flight : List Nat
  /-- `result_` of the requests. -/
  res : Nat → Int
  /-- Places of the submission queue. -/
  entries : Nat

/-- `mark_pending`, `mark_not_submitted`. io_uring_engine.hpp:305-309, 392-396 -/
def mark (r : Ring) (l : List Nat) : Ring := { r with res := fun q => if q ∈ l then notSubmitted else r.res q }

/-- `prepare_chunk`: the new ring and how many were prepared. io_uring_engine.hpp:311-343 -/
def prepare (r : Ring) : List Nat → Ring × Nat
  | [] => (r, 0)
  | q :: t =>
    if r.sq.length < r.entries then
      let (r', n) := prepare { r with sq := r.sq ++ [q], res := Function.update r.res q 0 } t
      (r', n + 1)
    else (r, 0)

/-- `submit_chunk` from request `done` on, with the kernel's answers (`none` = error); answers that are left over are returned; a missing answer counts
as an error. io_uring_engine.hpp:345-390 -/
def submitChunk (chunk : List Nat) : List (Option Nat) → Nat → Nat → Ring → Ring × Nat × Bool × List (Option Nat)
  | [], done, total, r => if done < chunk.length then (mark r (chunk.drop done), total, false, []) else (r, total, true, [])
  | a :: as, done, total, r =>
    if done < chunk.length then
      match a with
      | none => (mark r (chunk.drop done), total, false, as)
      | some s =>
        let t := min s r.sq.length
        if t = 0 then (mark r (chunk.drop done), total, false, as)
        else submitChunk chunk as (done + t) (total + t) { r with sq := r.sq.drop t, flight := r.flight ++ r.sq.take t }
    else (r, total, true, a :: as)

/-- The loop of `submit_batch`; every round takes at least one request, so that `fuel` is enough. io_uring_engine.hpp:286-300 -/
def batchLoop (depth : Nat) : Nat → List Nat → List (Option Nat) → Nat → Ring → Ring × Nat
  | 0, _, _, total, r => (r, total)
  | fuel + 1, rest, as, total, r =>
    if rest = [] then (r, total)
    else
      let chunk := rest.take (min depth rest.length)
      let (r1, prepared) := prepare r chunk
      if prepared = 0 then (r1, total)
      else
        match submitChunk (rest.take prepared) as 0 total r1 with
        | (r2, total2, false, _) => (r2, total2)
        | (r2, total2, true, as2) => batchLoop depth fuel (rest.drop prepared) as2 total2 r2

/-- `submit_reads`, `submit_writes`: the new ring and the number returned. io_uring_engine.hpp:271-303 -/
def submitBatch (depth : Nat) (reqs : List Nat) (as : List (Option Nat)) (r : Ring) : Ring × Nat :=
  batchLoop depth reqs.length reqs as 0 (mark r reqs)

/-- Completions taken by `wait`, in the order of the kernel. io_uring_engine.hpp:398-412 -/
def reap (r : Ring) (l : List (Nat × Int)) : Ring :=
  l.foldl (fun r x => { r with flight := r.flight.erase x.1, res := Function.update r.res x.1 x.2 }) r

end Alaya.UBatch
