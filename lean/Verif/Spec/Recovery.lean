import Verif.Model.Recovery

/-! What a user may rely on across crashes, independent of logs and snapshots: a content and whether the index is
running. -/
namespace Alaya.Recovery
open Wal

variable {σ : Type}

/-- The possible contents after a call: thrown calls change nothing. -/
def effect (sem : Sem σ) (s : σ) (kind : Mutation) (payload : Bytes) : σ :=
  if sem.refuse s kind payload then s
  else if payload.length > 2 ^ 30 then s
  else match sem.exec s kind payload with
    | none => s
    | some s' => s'

/-- Possible outcomes of an event: a returned call has taken effect; the call interrupted by a crash may or may not
have taken effect; nothing else changes the content. -/
def specNext (sem : Sem σ) (p : σ × Bool) : Event → List (σ × Bool)
  | .op kind payload => if p.2 then [(effect sem p.1 kind payload, true)] else [p]
  | .opCrash kind payload _ => if p.2 then [(p.1, false), (effect sem p.1 kind payload, false)] else [p]
  | .crash _ => [(p.1, false)]
  | .checkpoint _ => [p]
  | .checkpointCrash _ _ _ => [(p.1, false)]
  | .recover _ => [(p.1, true)]
  | .recoverCrash _ _ _ => [p]

/-- `q` is a possible outcome of the history. -/
def SpecRun (sem : Sem σ) (p : σ × Bool) : List Event → σ × Bool → Prop
  | [], q => q = p
  | e :: es, q => ∃ r ∈ specNext sem p e, SpecRun sem r es q

/-- Time that passes in a history. -/
def Event.dt : Event → Nat
  | .checkpoint dt => dt
  | .checkpointCrash dt _ _ => dt
  | .recover dt => dt
  | .recoverCrash dt _ _ => dt
  | _ => 0

/-- The clock moves between snapshots. -/
def Event.ticks : Event → Bool
  | .checkpoint dt => decide (0 < dt)
  | .checkpointCrash dt _ _ => decide (0 < dt)
  | .recover dt => decide (0 < dt)
  | .recoverCrash dt _ _ => decide (0 < dt)
  | _ => true

/-- The bytes after the frames of a log (where the scanner stops). -/
def restFuel : Nat → Bytes → Bytes
  | 0, bs => bs
  | n + 1, bs =>
    match readFrame bs with
    | none => bs
    | some p => restFuel n p.2

def scanRest (bs : Bytes) : Bytes := restFuel bs.length bs

/-- The log can be continued after a recovery from this disk: it ends with a complete frame, or something is replayed
(then `load` takes a checkpoint, which removes the log). -/
def cleanRecovery (sem : Sem σ) (d : Disk σ) : Bool :=
  (scanRest (walBytes d)).isEmpty ||
    match loadMem sem d with
    | none => true
    | some p => p.2

/-- Every completed recovery of the history is clean. -/
def CleanRecoveries (sem : Sem σ) : Sys σ → List Event → Bool
  | _, [] => true
  | y, e :: es =>
    (match e with
      | .recover _ => y.mem.isSome || cleanRecovery sem y.disk
      | _ => true) &&
    (match step sem y e with
      | none => true
      | some y' => CleanRecoveries sem y' es)

/-- Replaying a record repeats what the successful call did. -/
def SemOk (sem : Sem σ) : Prop := ∀ s kind payload s', sem.exec s kind payload = some s' → sem.replay s kind payload = some s'

/-- The id of an operation that returned to the caller. -/
def returnedId (sem : Sem σ) (y : Sys σ) : Event → Option Nat
  | .op kind payload =>
    match y.mem with
    | none => none
    | some m =>
      if sem.refuse m.state kind payload then none
      else if payload.length > 2 ^ 30 then none
      else match sem.exec m.state kind payload with
        | none => none
        | some _ => some m.next
  | _ => none

/-- Ids of the operations of a history that returned, in order. -/
def returnedIds (sem : Sem σ) : Sys σ → List Event → List Nat
  | _, [] => []
  | y, e :: es =>
    (returnedId sem y e).toList ++
    match step sem y e with
    | none => []
    | some y' => returnedIds sem y' es

/-- The content a user finds: in memory when running, else what `load` produces. -/
def Content (sem : Sem σ) (y : Sys σ) (s : σ) : Prop :=
  match y.mem with
  | some m => m.state = s
  | none => ∃ m b, loadMem sem y.disk = some (m, b) ∧ m.state = s

end Alaya.Recovery
