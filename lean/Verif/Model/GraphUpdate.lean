import Verif.Model.MemSearch

/-
Insertion into and removal from an in-memory index.
/repo/include/executor/jobs/graph_update_job.hpp:47-198, /repo/include/executor/jobs/job_context.hpp,
/repo/include/executor/jobs/graph_search_job.hpp:753-805 (`search_solo_updated`), /repo/include/space/raw_space.hpp:164-190, 449-455.

Simplifications: one space serves as search and build space; graph and space hold the same number of rows and have the same capacity
(they are filled together, C20); storing the scalar record succeeds (it is checked beforehand); assertions are compiled out.
Vectors are values of an arbitrary type with an arbitrary distance into the integers (NaN excluded).  `near` is the query computer of
the space searched (`Ix.near` for `RawSpace`: a removed row is at distance `fmax`).  The hash containers are lists; the order in which they are walked is given
by `ord`.
`none` = undefined behaviour, `some none` = exception.
-/
namespace Alaya.GraphUpdate
open Alaya.MemSearch Alaya.Pools

/-- Graph, space and `JobContext`.  `g.rows` has one row per slot of the capacity; `live` and `vecs` have one entry per row in use. -/
structure Ix (V : Type) where
  g : MGraph
  live : List Bool
  vecs : List V
  maxNbrs : Nat
  inserted : List (Nat × List Nat)
  removed : List Nat
  removedNbrs : List (Nat × List Nat)
  deriving DecidableEq

/-- `QueryComputer::operator()` of `RawSpace`: removed rows are at the largest distance. raw_space.hpp:449-455 -/
def Ix.near {V : Type} (d : V → V → Int) (fmax : Int) (s : Ix V) (q : V) (u : Nat) : Int :=
  match s.live.getD u false, s.vecs[u]? with
  | true, some v => d q v
  | _, _ => fmax

section
variable {V : Type} (near : Ix V → V → Nat → Int)

/-- `map[k].push_back(v)`. -/
def push (m : List (Nat × List Nat)) (k v : Nat) : List (Nat × List Nat) :=
  match m with
  | [] => [(k, [v])]
  | (k', l) :: m => if k' = k then (k', l ++ [v]) :: m else (k', l) :: push m k v

/-- The lists `search_solo_updated` follows: for a node with an entry in `removed_node_nbrs_` that entry, otherwise its row.
graph_search_job.hpp:766-798 -/
def Ix.eff (s : Ix V) : MGraph :=
  { s.g with rows := s.g.rows.mapIdx (fun u row => (s.removedNbrs.lookup u).getD row) }

/-- `search_solo_updated`: the loop of `search_solo` over these lists. graph_search_job.hpp:753-805 -/
def Ix.candidates (s : Ix V) (q : V) (ef topk fuel : Nat) : Option (Option (List Nat)) :=
  if ef < topk then some none
  else match walk s.eff s.vecs.length (near s q) ef fuel with
    | none => none
    | some st =>
      let hits := (st.pool.entries.take (min st.pool.size topk)).map Prod.fst
      some (some (hits ++ List.replicate (topk - hits.length) noId))

/-- `graph_->insert` and `insert_spaces`; `none` = full. graph_update_job.hpp:86-101 -/
def Ix.store (s : Ix V) (row : List Nat) (q : V) : Option (Ix V) :=
  if s.vecs.length ≥ s.g.rows.length then none
  else some { s with g := { s.g with rows := s.g.rows.set s.vecs.length row }, live := s.live ++ [true], vecs := s.vecs ++ [q] }

/-- `candidate_nbrs` of `update` from the row; `none` = `removed_node_nbrs_.at` throws. graph_update_job.hpp:161-174 -/
def Ix.fromRow (s : Ix V) : List Nat → Option (List Nat)
  | [] => some []
  | v :: vs =>
    if v = noId then some []
    else match (if v ∈ s.removed then s.removedNbrs.lookup v else some []), s.fromRow vs with
      | some l, some r => some (l ++ v :: r)
      | _, _ => none

/-- Each element once. -/
def distinct : List Nat → List Nat
  | [] => []
  | v :: vs => if v ∈ distinct vs then distinct vs else v :: distinct vs

/-- The pool of `update`. graph_update_job.hpp:180-184 -/
def insertAll (dist : Nat → Int) : List Nat → LinearPool → Option LinearPool
  | [], p => some p
  | v :: vs, p =>
    match p.insert v (dist v) with
    | none => none
    | some (p', _) => insertAll dist vs p'

/-- `update(node_id)`: the new row is padded with zeros, and written if the node has not been removed. graph_update_job.hpp:160-191 -/
def Ix.update (ord : List Nat → List Nat) (s : Ix V) (k : Nat) : Option (Option (Ix V)) :=
  match s.g.rows[k]? with
  | none => none
  | some row =>
    match s.fromRow row with
    | none => some none
    | some cs =>
      match s.vecs[k]? with
      | none => some (some s)
      | some q =>
        match insertAll (near s q) (ord (distinct (cs ++ (s.inserted.lookup k).getD []))) (LinearPool.new s.maxNbrs) with
        | none => none
        | some p =>
          let ids := (p.entries.take s.maxNbrs).map Prod.fst
          let row' := ids ++ List.replicate (s.maxNbrs - ids.length) 0
          if s.live.getD k false then some (some { s with g := { s.g with rows := s.g.rows.set k row' } }) else some (some s)

/-- `for (const auto &[k, v] : inserted_edges_) update(k);` -/
def Ix.updateAll (ord : List Nat → List Nat) : List Nat → Ix V → Option (Option (Ix V))
  | [], s => some (some s)
  | k :: ks, s =>
    match s.update near ord k with
    | none => none
    | some none => some none
    | some (some s') => Ix.updateAll ord ks s'

/-- `for (i ...) if (invert_node != -1) inserted_edges_[invert_node].push_back(node_id)`. graph_update_job.hpp:103-109 -/
def pushAll (m : List (Nat × List Nat)) (id : Nat) : List Nat → List (Nat × List Nat)
  | [] => m
  | v :: vs => pushAll (if v = noId then m else push m v id) id vs

/-- `insert_and_update`; the id of the new row, `none` = full. graph_update_job.hpp:77-115 -/
def Ix.insert (ord : List Nat → List Nat) (s : Ix V) (q : V) (ef fuel : Nat) : Option (Option (Ix V × Option Nat)) :=
  match s.candidates near q ef s.maxNbrs fuel with
  | none => none
  | some none => some none
  | some (some row) =>
    match s.store row q with
    | none => some (some (s, none))
    | some s1 =>
      let s2 := { s1 with inserted := pushAll s1.inserted s.vecs.length row }
      match s2.updateAll near ord (ord (s2.inserted.map Prod.fst)) with
      | none => none
      | some none => some none
      | some (some s3) => some (some ({ s3 with inserted := [] }, some s.vecs.length))

end

/-- `for (...) removed_node_nbrs_[node_id].push_back(nbr)`. -/
def pushRow (m : List (Nat × List Nat)) (id : Nat) : List Nat → List (Nat × List Nat)
  | [] => m
  | v :: vs => if v = noId then m else pushRow (push m id v) id vs

/-- `remove(node_id)`. graph_update_job.hpp:117-132 -/
def Ix.remove {V : Type} (s : Ix V) (id : Nat) : Option (Ix V) :=
  match s.g.rows[id]? with
  | none => none
  | some row =>
    some { s with removedNbrs := pushRow s.removedNbrs id row, removed := id :: s.removed, live := s.live.set id false }

/-- A history. -/
inductive Op (V : Type) where
  | insert (q : V) (ef : Nat)
  | remove (id : Nat)

/-- The ids the insertions return. -/
def Ix.run {V : Type} (near : Ix V → V → Nat → Int) (ord : List Nat → List Nat) (fuel : Nat) :
    List (Op V) → Ix V → Option (Option (Ix V × List (Option Nat)))
  | [], s => some (some (s, []))
  | .insert q ef :: ops, s =>
    match s.insert near ord q ef fuel with
    | none => none
    | some none => some none
    | some (some (s', r)) =>
      match Ix.run near ord fuel ops s' with
      | some (some (s'', rs)) => some (some (s'', r :: rs))
      | x => x
  | .remove id :: ops, s =>
    match s.remove id with
    | none => none
    | some s' => Ix.run near ord fuel ops s'

/-- A search for ids. graph_search_job.hpp:638-681 -/
def Ix.search {V : Type} (near : Ix V → V → Nat → Int) (s : Ix V) (q : V) (topk ef fuel : Nat) :
    Option (Option (List (Nat × Option Int))) :=
  solo s.g s.vecs.length (near s q) topk ef fuel

end Alaya.GraphUpdate
