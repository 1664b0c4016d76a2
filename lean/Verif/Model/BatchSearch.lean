/-
Parallel batch search as a transition system: any number of workers, one atomic action per step, any schedule.
/repo/include/index/disk/disk_collection.hpp:1122-1229 (`DiskCollection::batch_search`),
/repo/include/index/graph/diskann/diskann_index.hpp:512-562 (`DiskANNIndex::batch_search`).

A query's search is represented by the sequence of writes it makes into its row (`none` = it throws); `false` is the label
array, `true` the distance array.  The shared counter is a machine word of modulus `M` (2^64 and 2^32).
-/
namespace Alaya.Batch

/-- Array, offset inside the row, value. -/
abbrev Write (V : Type) := Bool × Nat × V

structure Cfg (V : Type) where
  n : Nat
  k : Nat
  /-- modulus of the atomic counter -/
  M : Nat
  /-- exceptions of workers are captured (DiskCollection) or terminate the process (DiskANNIndex) -/
  capture : Bool
  writes : Nat → Option (List (Write V))

/-- `write_to_output`: labels of the first min(|hits|, k) hits, then their distances unless the distance buffer is null.
disk_collection.hpp:1161-1172 -/
def collWrites {V : Type} (k : Nat) (dists : Bool) (hits : List (V × V)) : List (Write V) :=
  let hs := hits.take k
  (hs.zipIdx.map (fun p => (false, p.2, p.1.1))) ++ (if dists then hs.zipIdx.map (fun p => (true, p.2, p.1.2)) else [])

/-- The output loop of `DiskANNIndex::search`: label and distance of each hit, then sentinels.
diskann_index.hpp:486-502 -/
def annWrites {V : Type} (k : Nat) (noLabel maxDist : V) (hits : List (V × V)) : List (Write V) :=
  (hits.zipIdx.flatMap (fun p => [(false, p.2, p.1.1), (true, p.2, p.1.2)])) ++
    ((List.range (k - hits.length)).flatMap (fun j => [(false, hits.length + j, noLabel), (true, hits.length + j, maxDist)]))

abbrev Mem (V : Type) := Bool → Nat → V

def store {V : Type} (m : Mem V) (b : Bool) (a : Nat) (v : V) : Mem V :=
  fun b' a' => if b' = b ∧ a' = a then v else m b' a'

/-- All writes of one query, one after the other. -/
def applyAt {V : Type} (base : Nat) : List (Write V) → Mem V → Mem V
  | [], m => m
  | w :: ws, m => applyAt base ws (store m w.1 (base + w.2.1) w.2.2)

/-- The single-threaded path. `none` = throws. disk_collection.hpp:1178-1184, diskann_index.hpp:537-542 -/
def sequential {V : Type} (c : Cfg V) (i : Nat) : Nat → Mem V → Option (Mem V)
  | 0, m => some m
  | r + 1, m => match c.writes i with
    | none => none
    | some ws => sequential c (i + 1) r (applyAt (i * c.k) ws m)

/-- Where a worker is. -/
inductive W (V : Type) where
  /-- before `aborted.load()` -/
  | head
  /-- before `fetch_add` -/
  | fetch
  /-- drew query `i`, the search is running -/
  | run (i : Nat)
  /-- the search returned, these writes are left -/
  | wr (i : Nat) (ws : List (Write V))
  | done

structure St (V : Type) where
  next : Nat
  aborted : Bool
  firstErr : Option Nat
  terminated : Bool
  mem : Mem V
  ws : List (W V)
  /-- queries drawn so far, in order (history variable) -/
  log : List Nat

/-- One atomic action of worker `t`. disk_collection.hpp:1203-1222, diskann_index.hpp:548-556 -/
def step {V : Type} (c : Cfg V) (t : Nat) (s : St V) : St V :=
  if s.terminated then s
  else match s.ws[t]? with
    | none => s
    | some .done => s
    | some .head => { s with ws := s.ws.set t (if s.aborted then .done else .fetch) }
    | some .fetch =>
      if s.next < c.n then { s with next := (s.next + 1) % c.M, ws := s.ws.set t (.run s.next), log := s.log ++ [s.next] }
      else { s with next := (s.next + 1) % c.M, ws := s.ws.set t .done }
    | some (.run i) => match c.writes i with
      | some l => { s with ws := s.ws.set t (.wr i l) }
      | none =>
        if c.capture then
          { s with aborted := true, firstErr := (match s.firstErr with | none => some i | some e => some e), ws := s.ws.set t .done }
        else { s with terminated := true }
    | some (.wr i []) => { s with ws := s.ws.set t .head }
    | some (.wr i (w :: l)) => { s with mem := store s.mem w.1 (i * c.k + w.2.1) w.2.2, ws := s.ws.set t (.wr i l) }

/-- Any schedule. -/
def runSched {V : Type} (c : Cfg V) : List Nat → St V → St V
  | [], s => s
  | t :: ts, s => runSched c ts (step c t s)

def start {V : Type} (workers : Nat) (m : Mem V) : St V :=
  ⟨0, false, none, false, m, List.replicate workers .head, []⟩

/-- All threads have been joined. -/
def St.joined {V : Type} (s : St V) : Prop := ∀ w ∈ s.ws, w = .done

end Alaya.Batch
