/-
Bounded sorted candidate pools: `LinearPool` (/repo/include/utils/query_utils.hpp:279-360) and
`NeighborPriorityQueue` (/repo/include/index/graph/vamana/robust_prune.hpp:40-122).

Distances are `Int`: the code only compares them (floats other than NaN are order-isomorphic to a subset).  The vector
`data_` is a list of `capacity + 1` entries; an access outside of it is undefined behaviour (`none`).
-/
namespace Alaya.Pools

/-- The binary search of both pools: first position in `[l, r)` whose entry is greater (`gt`) than the argument;
`stop` ends the search early (`some none`).  The first argument bounds the number of rounds.
query_utils.hpp:284-296, robust_prune.hpp:67-77. -/
def bsearch {α : Type} (data : List α) (gt stop : α → Bool) : Nat → Nat → Nat → Option (Option Nat)
  | 0, l, _ => some (some l)
  | f + 1, l, r =>
    if l < r then
      match data[(l + r) / 2]? with
      | none => none
      | some e =>
        if gt e then bsearch data gt stop f l ((l + r) / 2)
        else if stop e then some none
        else bsearch data gt stop f ((l + r) / 2 + 1) r
    else some (some l)

/-- `memmove(&data[lo + 1], &data[lo], size - lo); data[lo] = x`. -/
def insertAt {α : Type} (data : List α) (lo size : Nat) (x : α) : Option (List α) :=
  if lo ≤ size ∧ size < data.length then
    some (data.take lo ++ (x :: (data.drop lo).take (size - lo) ++ data.drop (size + 1)))
  else none

/-- `while (cur < size && done(data[cur])) cur++`, at most `f` rounds. -/
def skip {α : Type} (data : List α) (done : α → Bool) (size : Nat) : Nat → Nat → Option Nat
  | 0, cur => some cur
  | f + 1, cur =>
    if cur < size then
      match data[cur]? with
      | none => none
      | some e => if done e then skip data done size f (cur + 1) else some cur
    else some cur

/-- An entry of `LinearPool`; bit 31 of the id is the visited flag. query_utils.hpp:349-354. -/
structure LEntry where
  id : Nat
  dist : Int
  deriving DecidableEq, Repr

def setChecked (id : Nat) : Nat := id ||| 2147483648
def isChecked (id : Nat) : Bool := ((id >>> 31) &&& 1) != 0
def getId (id : Nat) : Nat := id &&& 2147483647

/-- `struct LinearPool`. query_utils.hpp:281-282, 356. -/
structure LinearPool where
  data : List LEntry
  size : Nat
  cur : Nat
  cap : Nat
  deriving DecidableEq, Repr

def LinearPool.new (cap : Nat) : LinearPool := ⟨List.replicate (cap + 1) ⟨0, 0⟩, 0, 0, cap⟩

/-- The part of `insert` after the test for a full pool. query_utils.hpp:302-316. -/
def LinearPool.place (p : LinearPool) (u : Nat) (dist : Int) : Option (LinearPool × Bool) :=
  match bsearch p.data (fun e => decide (e.dist > dist)) (fun _ => false) p.size 0 p.size with
  | some (some lo) =>
    match insertAt p.data lo p.size ⟨u, dist⟩ with
    | none => none
    | some data =>
      some (⟨data, if p.size < p.cap then p.size + 1 else p.size, if lo < p.cur then lo else p.cur, p.cap⟩, true)
  | _ => none

/-- `insert`. query_utils.hpp:298-317.  With capacity 0 the first test reads `data_[-1]`. -/
def LinearPool.insert (p : LinearPool) (u : Nat) (dist : Int) : Option (LinearPool × Bool) :=
  if p.size = p.cap then
    if p.size = 0 then none
    else
      match p.data[p.size - 1]? with
      | none => none
      | some last => if dist ≥ last.dist then some (p, false) else p.place u dist
  else p.place u dist

/-- `has_next`. -/
def LinearPool.hasNext (p : LinearPool) : Bool := decide (p.cur < p.size)

/-- `pop(dist)`. query_utils.hpp:329-337. -/
def LinearPool.pop (p : LinearPool) : Option (LinearPool × (Nat × Int)) :=
  match p.data[p.cur]? with
  | none => none
  | some e =>
    let data := p.data.set p.cur ⟨setChecked e.id, e.dist⟩
    match skip data (fun x => isChecked x.id) p.size (p.size - p.cur) p.cur with
    | none => none
    | some cur => some (⟨data, p.size, cur, p.cap⟩, (getId (setChecked e.id), e.dist))

/-- `id(i)`, `dist(i)` for the stored entries. query_utils.hpp:345-346. -/
def LinearPool.entries (p : LinearPool) : List (Nat × Int) := (p.data.take p.size).map (fun e => (getId e.id, e.dist))

inductive LOp where
  | insert (u : Nat) (dist : Int)
  | pop
  deriving DecidableEq, Repr

/-- A history; `pop` is called under `has_next()` as in the search loops (otherwise nothing happens).
The result lists the popped entries. -/
def LinearPool.run (p : LinearPool) : List LOp → Option (LinearPool × List (Nat × Int))
  | [] => some (p, [])
  | .insert u d :: ops =>
    match p.insert u d with
    | none => none
    | some (p1, _) => p1.run ops
  | .pop :: ops =>
    if p.hasNext then
      match p.pop with
      | none => none
      | some (p1, x) =>
        match p1.run ops with
        | none => none
        | some (p2, xs) => some (p2, x :: xs)
    else p.run ops

/-- `vamana::Neighbor`. robust_prune.hpp:20-32. -/
structure Nbr where
  id : Nat
  dist : Int
  expanded : Bool := false
  deriving DecidableEq, Repr

/-- `operator<`. robust_prune.hpp:28-30. -/
def Nbr.lt (a b : Nbr) : Bool := decide (a.dist < b.dist) || (decide (a.dist = b.dist) && decide (a.id < b.id))

structure NPQ where
  data : List Nbr
  size : Nat
  cur : Nat
  cap : Nat
  deriving DecidableEq, Repr

def NPQ.new (cap : Nat) : NPQ := ⟨List.replicate (cap + 1) ⟨0, 0, false⟩, 0, 0, cap⟩

/-- `clear()` and then `reserve(capacity)`; the old entries stay in the array. robust_prune.hpp:49-54, 112-115. -/
def NPQ.reset (q : NPQ) (cap : Nat) : NPQ :=
  ⟨if cap + 1 > q.data.length then q.data ++ List.replicate (cap + 1 - q.data.length) ⟨0, 0, false⟩ else q.data, 0, 0, cap⟩

/-- `NeighborQueueInsertResult`. robust_prune.hpp:34-38. -/
structure InsRes where
  inserted : Bool := false
  evicted : Bool := false
  evictedId : Nat := 0
  deriving DecidableEq, Repr

/-- The part of `insert_with_result` after the tests for a full queue. robust_prune.hpp:66-93. -/
def NPQ.place (q : NPQ) (n : Nbr) : Option (NPQ × InsRes) :=
  match bsearch q.data (fun e => n.lt e) (fun e => e.id == n.id) q.size 0 q.size with
  | none => none
  | some none => some (q, {})
  | some (some lo) =>
    match (if q.size = q.cap then q.data[q.cap - 1]? else some ⟨0, 0, false⟩),
      (if lo < q.cap then insertAt q.data lo q.size ⟨n.id, n.dist, false⟩
       else if lo < q.data.length then some (q.data.set lo ⟨n.id, n.dist, false⟩) else none) with
    | some ev, some data =>
      some (⟨data, if q.size < q.cap then q.size + 1 else q.size, if lo < q.cur then lo else q.cur, q.cap⟩,
        ⟨true, decide (q.size = q.cap), if q.size = q.cap then ev.id else 0⟩)
    | _, _ => none

/-- `insert_with_result`. robust_prune.hpp:58-94. -/
def NPQ.insert (q : NPQ) (n : Nbr) : Option (NPQ × InsRes) :=
  if q.cap = 0 then some (q, {})
  else if q.size = q.cap then
    match q.data[q.size - 1]? with
    | none => none
    | some last => if last.lt n then some (q, {}) else q.place n
  else q.place n

def NPQ.hasUnexpanded (q : NPQ) : Bool := decide (q.cur < q.size)

/-- `closest_unexpanded`. robust_prune.hpp:96-103. -/
def NPQ.closest (q : NPQ) : Option (NPQ × Nbr) :=
  match q.data[q.cur]? with
  | none => none
  | some e =>
    let data := q.data.set q.cur { e with expanded := true }
    match skip data (fun x => x.expanded) q.size (q.size - q.cur) q.cur with
    | none => none
    | some cur => some (⟨data, q.size, cur, q.cap⟩, { e with expanded := true })

/-- The stored entries `queue[0..size)`. -/
def NPQ.entries (q : NPQ) : List Nbr := q.data.take q.size

end Alaya.Pools
