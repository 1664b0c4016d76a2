import Verif.Model.DiskFlat

/-
`DiskCollection::search`: merging the hits of the segments.
/repo/include/index/disk/disk_collection.hpp:657-669 (comparison), 1036-1106 (search).
A distance is `none` for NaN.  `std::sort` is represented by its contract (`StdSort`).
-/
namespace Alaya.DiskColl

structure DHit where
  label : Nat
  dist : Option Int
  deriving DecidableEq, Repr

/-- `disk_search_distance_less`. disk_collection.hpp:657-664 -/
def distLess : Option Int → Option Int → Bool
  | none, _ => false
  | some _, none => true
  | some a, some b => decide (a < b)

/-- `disk_search_distance_equal_for_order`. disk_collection.hpp:666-668 -/
def distEq : Option Int → Option Int → Bool
  | none, none => true
  | some a, some b => decide (a = b)
  | _, _ => false

/-- The order for one segment. disk_collection.hpp:1053-1058 -/
def hitLess (a b : DHit) : Bool := if !distEq a.dist b.dist then distLess a.dist b.dist else decide (a.label < b.label)

structure Tagged where
  hit : DHit
  seg : Nat
  rank : Nat
  deriving DecidableEq, Repr

/-- The order for several segments. disk_collection.hpp:1084-1098 -/
def tagLess (laser : Bool) (a b : Tagged) : Bool :=
  if !distEq a.hit.dist b.hit.dist then distLess a.hit.dist b.hit.dist
  else if laser then (if a.rank ≠ b.rank then decide (a.rank < b.rank) else decide (a.seg < b.seg))
  else if a.hit.label ≠ b.hit.label then decide (a.hit.label < b.hit.label)
  else decide (a.seg < b.seg)

/-- Contract of `std::sort`. -/
structure StdSort (α : Type) (lt : α → α → Bool) where
  sort : List α → List α
  sort_perm : ∀ l, (sort l).Perm l
  sort_sorted : ∀ l, (sort l).Pairwise (fun a b => lt b a = false)

/-- Hits of one segment with rank and segment number. disk_collection.hpp:1078-1080 -/
def tagFrom (s : Nat) (r : Nat) : List DHit → List Tagged
  | [] => []
  | h :: hs => ⟨h, s, r⟩ :: tagFrom s (r + 1) hs

/-- All tagged hits, in the order they are collected. disk_collection.hpp:1075-1082 -/
def tagAll (s : Nat) : List (List DHit) → List Tagged
  | [] => []
  | hs :: segs => tagFrom s 0 hs ++ tagAll (s + 1) segs

/-- `search`; `none` = throws. `segs`: the hits every segment returns for this query. All segments of a collection have
the same index type. disk_collection.hpp:1036-1106 -/
def search (S1 : StdSort DHit hitLess) (S2 : (laser : Bool) → StdSort Tagged (tagLess laser)) (laser : Bool)
    (segs : List (List DHit)) (topk : Nat) : Option (List DHit) :=
  if topk = 0 then none
  else match segs with
    | [] => some []
    | [hits] => if laser then some (hits.take topk) else some ((S1.sort hits).take topk)
    | _ => some ((((S2 laser).sort (tagAll 0 segs)).take topk).map Tagged.hit)

end Alaya.DiskColl
