import Verif.Model.Filter
import Verif.Model.RocksKeys

/-
Materialised-view partition selection: /repo/python/include/materialized_view.hpp.

Simplifications: null sub-filter pointers are not representable; the records are given by id and metadata (the storage
is used through C17/C05); the candidate list is the one of the exact (brute-force) path before the top-k cut, the graph
path returns a part of the same partition.
-/
namespace Alaya.MatView

/-- `std::find(values, value) != end`. -/
def hasValue (vs : List MetaValue) (v : MetaValue) : Bool := vs.any fun u => u.eqv v

/-- `append_unique_metadata_value`. materialized_view.hpp:201-206. -/
def appendUnique (vs : List MetaValue) (v : MetaValue) : List MetaValue := if hasValue vs v then vs else vs ++ [v]

/-- `intersect_metadata_values`. materialized_view.hpp:208-218. -/
def intersect (lhs rhs : List MetaValue) : List MetaValue :=
  lhs.foldl (fun acc v => if hasValue rhs v then appendUnique acc v else acc) []

mutual
/-- `collect_conjunctive_filter_conditions`; `none` = false. materialized_view.hpp:220-240. -/
def collectConj : Filter → Option (List FilterCond)
  | .mk op conds subs =>
    if conds.isEmpty && subs.isEmpty then some []
    else if op ≠ .and then none
    else (collectSubs subs).map (conds ++ ·)
/-- The loop over `sub_filters`. materialized_view.hpp:234-238. -/
def collectSubs : List Filter → Option (List FilterCond)
  | [] => some []
  | f :: fs =>
    match collectConj f with
    | none => none
    | some cs => (collectSubs fs).map (cs ++ ·)
end

/-- The `switch` on the operator; `none` = `return {}`. materialized_view.hpp:263-274. -/
def condValues (c : FilterCond) : Option (List MetaValue) :=
  match c.op with
  | .eq => some (appendUnique [] c.value)
  | .inSet => some (c.values.foldl appendUnique [])
  | _ => none

/-- The loop over the conditions: `allowed_values` and `filter_covered`. materialized_view.hpp:255-281. -/
def analyzeLoop (field : Bytes) : List FilterCond → Option (List MetaValue) → Bool →
    Option (Option (List MetaValue) × Bool)
  | [], allowed, covered => some (allowed, covered)
  | c :: cs, allowed, covered =>
    if c.field ≠ field then analyzeLoop field cs allowed false
    else match condValues c with
      | none => none
      | some vs =>
        match allowed with
        | none => analyzeLoop field cs (some vs) covered
        | some a => analyzeLoop field cs (some (intersect a vs)) covered

def isEmpty : Filter → Bool
  | .mk _ conds subs => conds.isEmpty && subs.isEmpty

/-- `analyze_materialized_view_filter`: `none` = not eligible, else `values_` and `filter_covered_`.
materialized_view.hpp:242-290. -/
def analyze (f : Filter) (field : Bytes) : Option (List MetaValue × Bool) :=
  if isEmpty f || field.isEmpty then none
  else match collectConj f with
    | none => none
    | some cs =>
      match analyzeLoop field cs none true with
      | some (some vs, covered) => some (vs, covered)
      | _ => none

/-- A partition: encoded value and global ids. materialized_view.hpp:462-466. -/
abbrev Parts := List (Bytes × List Nat)

def findPart (k : Bytes) : Parts → Option (List Nat)
  | [] => none
  | (e, ids) :: ps => if e = k then some ids else findPart k ps

/-- Append an id to the partition with this key, or create it. materialized_view.hpp:637-645. -/
def addPart (k : Bytes) (id : Nat) : Parts → Parts
  | [] => [(k, [id])]
  | (e, ids) :: ps => if e = k then (e, ids ++ [id]) :: ps else (e, ids) :: addPart k id ps

/-- `collect_partition_seeds`; `none` = more than `kMaxPartitions`. materialized_view.hpp:615-649. -/
def collectSeeds (field : Bytes) : List (Nat × MetaMap) → Parts → Option Parts
  | [], ps => some ps
  | (id, m) :: rest, ps =>
    match m.get field with
    | none => collectSeeds field rest ps
    | some v =>
      let ps' := addPart (encodeValue v) id ps
      if ps'.length > 128 then none else collectSeeds field rest ps'

/-- `rebuild`: `none` = no view (`ready_` stays false). materialized_view.hpp:315-368. -/
def rebuild (field : Bytes) (recs : List (Nat × MetaMap)) : Option Parts :=
  match collectSeeds field recs [] with
  | none => none
  | some ps => if ps.length ≤ 1 then none else some ps

def metaOf (recs : List (Nat × MetaMap)) (id : Nat) : Option MetaMap :=
  match recs with
  | [] => none
  | (i, m) :: rest => if i = id then some m else metaOf rest id

/-- The residual filter of a partition that is not covered. materialized_view.hpp:873-890. -/
def residual (f : Filter) (recs : List (Nat × MetaMap)) (covered : Bool) (ids : List Nat) : List Nat :=
  if covered then ids else ids.filter fun id => match metaOf recs id with
    | some m => f.eval m
    | none => false

/-- The candidates of `try_hybrid_search`: the selected partitions, in the order of the values; `none` = not eligible,
the caller falls back to the normal search. materialized_view.hpp:380-430. -/
def candidates (f : Filter) (field : Bytes) (ps : Parts) (recs : List (Nat × MetaMap)) : Option (List Nat) :=
  match analyze f field with
  | none => none
  | some (vs, covered) =>
    some (vs.flatMap fun v => match findPart (encodeValue v) ps with
      | none => []
      | some ids => residual f recs covered ids)

end Alaya.MatView
