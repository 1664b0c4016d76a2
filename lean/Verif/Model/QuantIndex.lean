import Verif.Model.GraphUpdate

/-
An in-memory index whose search space is quantised (`SQ8Space`, `SQ4Space`) and whose build space is a `RawSpace`.
/repo/include/executor/jobs/graph_update_job.hpp:75-152, 224-256, /repo/include/executor/jobs/graph_search_job.hpp:638-805,
/repo/include/space/sq8_space.hpp:125-140, 279-320, 395-438 (sq4_space.hpp: the same, one line later).

The graph and the quantised space form an `Ix` over the codes; the build space has its own rows and marks.  `enc` is `encode` of the
fitted quantiser (it does not change after `fit`), an arbitrary function here.  Simplifications: as in Model/GraphUpdate.lean; the rows
of the graph and of the quantised space are filled together.  `none` = undefined behaviour, `some none` = exception.
-/
namespace Alaya.QuantIndex
open Alaya.MemSearch Alaya.GraphUpdate

/-- `QueryComputer::operator()` of a quantised space: the distance between codes, without a look at the validity bit; `junk` is what is
computed from a row that is not in use. sq8_space.hpp:431-437, sq4_space.hpp:431-437 -/
def nearCode {C : Type} (dq : C → C → Int) (junk : C → Nat → Int) (s : Ix C) (q : C) (u : Nat) : Int :=
  match s.vecs[u]? with
  | some c => dq q c
  | none => junk q u

/-- Graph, quantised space, `JobContext`, and the build space with its capacity. -/
structure QIx (V C : Type) where
  ix : Ix C
  raw : List V
  rawLive : List Bool
  rawCap : Nat
  deriving DecidableEq

/-- `fit` with `vectors`: both spaces, and the graph built over the build space.
/repo/python/include/index.hpp:623-680 -/
def QIx.fit {V C : Type} (enc : V → C) (vectors : List V) (g : MGraph) (maxNbrs : Nat) : QIx V C :=
  ⟨⟨g, vectors.map (fun _ => true), vectors.map enc, maxNbrs, [], [], []⟩, vectors, vectors.map (fun _ => true), g.rows.length⟩

section
variable {V C : Type} (enc : V → C) (dq : C → C → Int) (junk : C → Nat → Int)

/-- The id `build_space_->insert` returns. raw_space.hpp:164-175, /repo/include/storage/sequential_storage.hpp:64-71 -/
def QIx.rawId (s : QIx V C) : Nat := if s.raw.length < s.rawCap then s.raw.length else noId

/-- `insert_and_update`.  The build space is written between the search and the updates of the graph, and must return the id of the
graph. graph_update_job.hpp:77-115, 239-245 -/
def QIx.insert (ord : List Nat → List Nat) (s : QIx V C) (q : V) (ef fuel : Nat) : Option (Option (QIx V C × Option Nat)) :=
  match s.ix.insert (nearCode dq junk) ord (enc q) ef fuel with
  | none => none
  | some none => some none
  | some (some (ix', none)) => some (some ({ s with ix := ix' }, none))
  | some (some (ix', some id)) =>
    if s.rawId = id then some (some (⟨ix', s.raw ++ [q], s.rawLive ++ [true], s.rawCap⟩, some id)) else some none

/-- `remove`: graph and record of the removed rows, then both spaces. graph_update_job.hpp:117-132 -/
def QIx.remove (s : QIx V C) (id : Nat) : Option (QIx V C) :=
  match s.ix.remove id with
  | none => none
  | some ix' => some { s with ix := ix', rawLive := s.rawLive.set id false }

/-- A history and the ids its insertions return. -/
def QIx.run (ord : List Nat → List Nat) (fuel : Nat) : List (Op V) → QIx V C → Option (Option (QIx V C × List (Option Nat)))
  | [], s => some (some (s, []))
  | .insert q ef :: ops, s =>
    match s.insert enc dq junk ord q ef fuel with
    | none => none
    | some none => some none
    | some (some (s', r)) =>
      match QIx.run ord fuel ops s' with
      | some (some (s'', rs)) => some (some (s'', r :: rs))
      | x => x
  | .remove id :: ops, s =>
    match s.remove id with
    | none => none
    | some s' => QIx.run ord fuel ops s'

/-- The query computer of the build space. raw_space.hpp:449-455 -/
def QIx.exact (d : V → V → Int) (fmax : Int) (s : QIx V C) (q : V) (u : Nat) : Int :=
  match s.rawLive.getD u false, s.raw[u]? with
  | true, some v => d q v
  | _, _ => fmax

/-- `search_solo`: a search by codes, then `rerank`. graph_search_job.hpp:638-681, 694-752 -/
def QIx.search (H : TopK.StdHeap TopK.Hit TopK.Hit.lt) (d : V → V → Int) (fmax : Int) (s : QIx V C) (q : V) (topk ef fuel : Nat) :
    Option (Option (List TopK.Hit)) :=
  soloRerank H s.ix.g s.ix.vecs.length (nearCode dq junk s.ix (enc q)) (s.exact d fmax q) topk ef fuel ⟨noId, fmax⟩

end

end Alaya.QuantIndex
