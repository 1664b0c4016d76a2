/-
The codes of a product quantisation table while other threads insert and remove.
/repo/include/index/graph/diskann/diskann_index.hpp: `encode_pq_slot` (1557-1563), the order of an insertion (833-842, 1764-1785),
`publish_slots` (1818-1824), `remove_unlocked_with_neighbors` (1678-1688), `make_search_snapshot` (1089-1103), searches with the shared lock
(442-448, 1189-1194) and without it (698-711, 1252-1265; also 1393-1435, 1842-1850, 1879-1883); pq_table.hpp:222-229, 280, 312, 340, 354.

A row of codes is one value of type `ρ`.  The array is a buffer on the heap that is replaced (and freed) when it has to grow beyond its
capacity; the new capacity is any number that suffices.  One step of the model is one critical section of an inserter or remover, or for a
reader: taking its snapshot of the visible slots, taking the lock, loading the address of the codes, reading one row.  Loading the address
and reading the row are separate steps, as in `pq_distance` and `pq_distance_batch`.  Readers read visible slots of their snapshot only
(beam_search.hpp:154); that the entry point is read even if it was removed (beam_search_async.hpp:290) is left out, it adds races only.
-/
namespace Alaya.PQShare

/-- Where a thread is. -/
inductive Phase (ρ : Type) where
  | idle
  /-- has allocated a slot -/
  | ins (slot : Nat) (row : ρ)
  /-- holds `pq_mutex_` exclusively -/
  | enc (slot : Nat) (row : ρ)
  /-- the array is large enough; about to write -/
  | grown (slot : Nat) (row : ρ)
  /-- has written and released the lock; about to publish -/
  | wrote (slot : Nat)
  /-- a reader with its snapshot of visible slots -/
  | snap (ids : List Nat)
  /-- between two rows -/
  | reading (ids : List Nat)
  /-- has loaded the address of the codes -/
  | got (base : Nat) (ids : List Nat)
  deriving DecidableEq, Repr

structure State (ρ : Type) where
  /-- buffers; `none` = freed -/
  heap : List (Option (List ρ))
  /-- the buffer of `codes_` -/
  cur : Nat
  cap : Nat
  visible : List Nat
  free : List Nat
  fresh : Nat
  thr : List (Phase ρ)
  deriving DecidableEq, Repr

/-- Threads that hold `pq_mutex_` exclusively. -/
def Phase.writer {ρ : Type} : Phase ρ → Bool
  | .enc _ _ => true
  | .grown _ _ => true
  | _ => false

/-- Threads that hold it shared, if readers take it. -/
def Phase.reader {ρ : Type} : Phase ρ → Bool
  | .reading _ => true
  | .got _ _ => true
  | _ => false

inductive Act (ρ : Type) where
  | insert (row : ρ)
  | remove (slot : Nat)
  | lock
  | grow (newCap : Nat)
  | write
  | publish
  | snapshot
  | start
  | load
  | read (slot : Nat)
  | finish
  deriving DecidableEq, Repr

/-- `codes_.resize` to at least `n` rows; `zero` = a row of zeros. pq_table.hpp:222-226 -/
def State.resize {ρ : Type} (zero : ρ) (s : State ρ) (n newCap : Nat) : Option (State ρ) :=
  match s.heap[s.cur]? with
  | some (some rows) =>
    if n ≤ rows.length then some s
    else if n ≤ s.cap then some { s with heap := s.heap.set s.cur (some (rows ++ List.replicate (n - rows.length) zero)) }
    else if n ≤ newCap then
      some { s with heap := s.heap.set s.cur none ++ [some (rows ++ List.replicate (n - rows.length) zero)], cur := s.heap.length, cap := newCap }
    else none
  | _ => none

/-- Writing a row. pq_table.hpp:229 -/
def State.put {ρ : Type} (s : State ρ) (slot : Nat) (row : ρ) : Option (State ρ) :=
  match s.heap[s.cur]? with
  | some (some rows) => if slot < rows.length then some { s with heap := s.heap.set s.cur (some (rows.set slot row)) } else none
  | _ => none

/-- A step of thread `t`; `none` = not possible now.  `locked`: readers hold the shared lock from their start to their end. -/
def State.step {ρ : Type} (locked : Bool) (zero : ρ) (s : State ρ) (t : Nat) (a : Act ρ) : Option (State ρ) :=
  match s.thr[t]?, a with
  | some .idle, .insert row =>
    match s.free with
    | slot :: rest => some { s with free := rest, thr := s.thr.set t (.ins slot row) }
    | [] => some { s with fresh := s.fresh + 1, thr := s.thr.set t (.ins s.fresh row) }
  | some .idle, .remove slot =>
    if slot ∈ s.visible then some { s with visible := s.visible.filter (· ≠ slot), free := slot :: s.free } else none
  | some (.ins slot row), .lock =>
    if s.thr.any Phase.writer = false ∧ (locked = true → s.thr.any Phase.reader = false) then some { s with thr := s.thr.set t (.enc slot row) } else none
  | some (.enc slot row), .grow newCap => (s.resize zero (slot + 1) newCap).map (fun s' => { s' with thr := s'.thr.set t (.grown slot row) })
  | some (.grown slot row), .write => (s.put slot row).map (fun s' => { s' with thr := s'.thr.set t (.wrote slot) })
  | some (.wrote slot), .publish => some { s with visible := slot :: s.visible, thr := s.thr.set t .idle }
  | some .idle, .snapshot => some { s with thr := s.thr.set t (.snap s.visible) }
  | some (.snap ids), .start =>
    if locked = true → s.thr.any Phase.writer = false then some { s with thr := s.thr.set t (.reading ids) } else none
  | some (.reading ids), .load => some { s with thr := s.thr.set t (.got s.cur ids) }
  | some (.got _ ids), .read slot => if slot ∈ ids then some { s with thr := s.thr.set t (.reading ids) } else none
  | some (.reading _), .finish => some { s with thr := s.thr.set t .idle }
  | _, _ => none

/-- The row that a reader sees; `none` = the buffer is freed or the row outside of it. -/
def State.look {ρ : Type} (s : State ρ) (base slot : Nat) : Option ρ :=
  match s.heap[base]? with
  | some (some rows) => rows[slot]?
  | _ => none

def State.run {ρ : Type} (locked : Bool) (zero : ρ) (s : State ρ) : List (Nat × Act ρ) → Option (State ρ)
  | [] => some s
  | (t, a) :: as =>
    match s.step locked zero t a with
    | none => none
    | some s' => s'.run locked zero as

/-- An index with `rows` stored and visible points. -/
def State.init {ρ : Type} (rows : List ρ) (cap threads : Nat) : State ρ :=
  ⟨[some rows], 0, cap, List.range rows.length, [], rows.length, List.replicate threads .idle⟩

end Alaya.PQShare
