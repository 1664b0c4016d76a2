/-!
# Locks

include/utils/locks.hpp:29-167.  Any number of threads (or processes, for `FileLock`) that take turns in any order; one
step is one atomic operation.  `none` stands for a call made by a thread that does not hold what it gives back (such
callers are not considered) and for an assertion that fails.

Simplifications: the order of memory accesses is sequentially consistent (the code uses acquire/release for `SpinLock` and
the default for `SharedLock`); `SharedLock` counts without overflow of `int`; `reset` is left out; `FileLock` is modelled
for POSIX.
-/

namespace Alaya.Locks

/-! ## SpinLock -/

inductive SPc where
  | idle
  | spin
  | held
  deriving DecidableEq, Repr

structure Spin where
  flag : Bool
  threads : List SPc
  deriving DecidableEq, Repr

inductive SAct where
  | lock
  | go
  | tryLock
  | unlock
  deriving DecidableEq, Repr

/-- `lock`, `try_lock`, `unlock`; `go` is one turn of the loop in `lock`. locks.hpp:81-89 -/
def spinStep (s : Spin) (i : Nat) (a : SAct) : Option Spin :=
  match a, s.threads[i]? with
  | .lock, some .idle => some { s with threads := s.threads.set i .spin }
  | .go, some .spin => if s.flag then some { s with flag := true } else some ⟨true, s.threads.set i .held⟩
  | .tryLock, some .idle => if s.flag then some { s with flag := true } else some ⟨true, s.threads.set i .held⟩
  | .unlock, some .held => some ⟨false, s.threads.set i .idle⟩
  | _, _ => none

def spinRun (s : Spin) : List (Nat × SAct) → Option Spin
  | [] => some s
  | (i, a) :: t => (spinStep s i a).bind (spinRun · t)

/-! ## SharedLock -/

inductive Pc where
  | idle
  | sload
  | scas (expected : Int)
  | reader
  | wcas
  | writer
  deriving DecidableEq, Repr

structure Shared where
  state : Int
  threads : List Pc
  deriving DecidableEq, Repr

/-- Calls, and `go`, the next atomic operation of a call that has not returned.  The flag of `go`, `degrade` and `upgrade`:
`compare_exchange_weak` fails although the values are equal. -/
inductive Act where
  | lockShared
  | lock
  | go (spurious : Bool)
  | unlockShared
  | unlock
  | degrade (spurious : Bool)
  | upgrade (spurious : Bool)
  deriving DecidableEq, Repr

/-- `compare_exchange_weak`: the new value and whether it was stored. -/
def cas (state expected desired : Int) (spurious : Bool) : Int × Bool :=
  if state = expected ∧ spurious = false then (desired, true) else (state, false)

/-- `asserts`: compiled with assertions. locks.hpp:118-158 -/
def step (asserts : Bool) (s : Shared) (i : Nat) (a : Act) : Option Shared :=
  match a, s.threads[i]? with
  | .lockShared, some .idle => some { s with threads := s.threads.set i .sload }
  | .lock, some .idle => some { s with threads := s.threads.set i .wcas }
  | .go _, some .sload => if s.state = -1 then some s else some { s with threads := s.threads.set i (.scas s.state) }
  | .go sp, some (.scas e) =>
    let r := cas s.state e (e + 1) sp
    some ⟨r.1, s.threads.set i (if r.2 then .reader else .sload)⟩
  | .go sp, some .wcas =>
    let r := cas s.state 0 (-1) sp
    some ⟨r.1, s.threads.set i (if r.2 then .writer else .wcas)⟩
  | .unlockShared, some .reader => some ⟨s.state - 1, s.threads.set i .idle⟩
  | .unlock, some .writer => some ⟨0, s.threads.set i .idle⟩
  | .degrade sp, some .writer =>
    let r := cas s.state (-1) 1 sp
    if asserts && !r.2 then none else some ⟨r.1, s.threads.set i .reader⟩
  | .upgrade sp, some .reader =>
    let r := cas s.state 1 (-1) sp
    if asserts && !r.2 then none else some ⟨r.1, s.threads.set i .writer⟩
  | _, _ => none

def run (asserts : Bool) (s : Shared) : List (Nat × Act) → Option Shared
  | [] => some s
  | (i, a) :: t => (step asserts s i a).bind (run asserts · t)

/-! ## FileLock -/

inductive FPc where
  | out
  | waiting
  | inside (fd : Bool)
  deriving DecidableEq, Repr

structure Files where
  owner : Option Nat
  procs : List FPc
  deriving DecidableEq, Repr

/-- `construct ok`: `open` succeeds or not.  `granted`, `interrupted`: `flock(LOCK_EX)` returns with the lock, or with an
error that nobody looks at. -/
inductive FAct where
  | construct (ok : Bool)
  | granted
  | interrupted
  | destruct
  deriving DecidableEq, Repr

/-- The constructor and the destructor; the system gives the lock only while nobody has it. locks.hpp:31-65 -/
def fileStep (s : Files) (i : Nat) (a : FAct) : Option Files :=
  match a, s.procs[i]? with
  | .construct ok, some .out => some { s with procs := s.procs.set i (if ok then .waiting else .inside false) }
  | .granted, some .waiting => if s.owner = none then some ⟨some i, s.procs.set i (.inside true)⟩ else none
  | .interrupted, some .waiting => some { s with procs := s.procs.set i (.inside true) }
  | .destruct, some (.inside fd) =>
    some ⟨if fd ∧ s.owner = some i then none else s.owner, s.procs.set i .out⟩
  | _, _ => none

def fileRun (s : Files) : List (Nat × FAct) → Option Files
  | [] => some s
  | (i, a) :: t => (fileStep s i a).bind (fileRun · t)

end Alaya.Locks
