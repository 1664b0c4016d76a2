import Verif.Model.ThreadReader

/-! What a user of the thread-pool reader sees and has to do. -/
namespace Alaya.ThreadReader

/-- The reads submitted for a context. -/
def submittedTo (c : Nat) (t : List Obs) : List Read :=
  t.filterMap (fun o => match o with | .submitted d r => if d = c then some r else none | _ => none)

/-- The reads of a context that were performed, with their results. -/
def performedFor (c : Nat) (t : List Obs) : List (Read × Int) :=
  t.filterMap (fun o => match o with | .performed d r x => if d = c then some (r, x) else none | _ => none)

/-- The events handed to the users of a context. -/
def handedTo (c : Nat) (t : List Obs) : List Event :=
  t.filterMap (fun o => match o with | .handed d e => if d = c then some e else none | _ => none)

/-- The event that reports a read. -/
def report (x : Read × Int) : Event := ⟨x.1.id, x.2⟩

/-- The context exists and its thread is registered. -/
def Live (s : State) (c : Nat) : Prop := ∃ x, s.ctxs[c]? = some x ∧ x.alive = true ∧ x.active = true

/-- A call of `get_events` on the context has not returned. -/
def Waiting (s : State) (c : Nat) : Prop := ∃ (k : Nat) (v : Call), s.calls[k]? = some v ∧ v.c = c ∧ v.over = false

/-- The worker uses the context. -/
def Worker.holds (c : Nat) : Worker → Prop
  | .busy j => j.c = c
  | .got j _ => j.c = c
  | .push j _ => j.c = c
  | .wake d => d = c
  | _ => False

/-- Something is going on for the context. -/
def Held (s : State) (c : Nat) : Prop :=
  (∃ j ∈ s.queue, j.c = c) ∨ ∃ (w : Nat) (x : Worker), s.workers[w]? = some x ∧ x.holds c

/-- What the caller of an action has to see to: contexts in use are registered, a thread is deregistered only when nothing is going on for
its context, and no other call runs while the reader is being closed. -/
def Careful (s : State) : Ev → Prop
  | .submit c _ => Live s c ∧ s.phase ≠ .closing
  | .poll c _ _ => Live s c
  | .get c _ => Live s c
  | .mark c => ¬ Held s c ∧ ¬ Waiting s c
  | .finish => ∀ c, ¬ Waiting s c
  | _ => True

/-- An execution in which all callers are careful. -/
def CarefulRun (s : State) : List Ev → Prop
  | [] => True
  | e :: es =>
    Careful s e ∧
    match step s e with
    | .ok s' _ => CarefulRun s' es
    | .throw => CarefulRun s es
    | _ => True

/-- An action of a worker, or of a call of `get_events` that waits. -/
def Internal : Ev → Prop
  | .take _ _ => True
  | .miss _ => True
  | .look _ => True
  | .pread _ _ => True
  | .active _ => True
  | .push _ => True
  | .wake _ => True
  | .collect _ _ => True
  | .ret _ => True
  | _ => False

/-- An action of a worker that is not looking for work, or of a call. -/
def Productive : Ev → Bool
  | .miss _ => false
  | .look _ => false
  | _ => true

end Alaya.ThreadReader
