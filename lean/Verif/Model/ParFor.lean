/-
Workers that draw blocks of a loop from a shared counter.
/repo/include/index/graph/diskann/pq_table.hpp:123-153 (`train`, blocks of one), 175-208 (`encode`, blocks of 4096).

One step of the model: a worker draws its next block, or runs one iteration, which writes its own part of the result.  The counter does not
wrap.
-/
namespace Alaya.ParFor

structure State (β : Type) where
  /-- the shared counter -/
  next : Nat
  /-- for every worker the iterations left of its block -/
  thr : List (List Nat)
  /-- the parts of the result; `none` = not written -/
  out : List (Option β)

def State.init (n workers : Nat) {β : Type} : State β := ⟨0, List.replicate workers [], List.replicate n none⟩

/-- A step of worker `t`; `none` = it has left the loop (or does not exist). -/
def State.step {β : Type} (n block : Nat) (f : Nat → β) (s : State β) (t : Nat) : Option (State β) :=
  match s.thr[t]? with
  | none => none
  | some [] =>
    if s.next < n then some { s with next := s.next + block, thr := s.thr.set t (List.range' s.next (min (s.next + block) n - s.next)) } else none
  | some (i :: rest) => some { s with thr := s.thr.set t rest, out := s.out.set i (some (f i)) }

end Alaya.ParFor
