import Verif.Model.PyFilter
import Verif.Spec.FilterMeaning

/-! Meaning of a Python filter dict: the conjunction of its entries. -/
namespace Alaya.PyFilter
open Spec

/-- The comparison `op` of a field's value `a` with `v`. -/
def OpHolds (a : MetaValue) (op : Bytes) (v : PyV) : Prop :=
  match v with
  | .val x => (op = kEq ∧ VEq a x) ∨ (op = kGt ∧ VLt x a) ∨ (op = kGe ∧ (VLt x a ∨ VEq a x)) ∨ (op = kLt ∧ VLt a x) ∨ (op = kLe ∧ (VLt a x ∨ VEq a x))
  | .list l => op = kIn ∧ ∃ vs, toValues l = some vs ∧ ∃ w ∈ vs, VEq a w
  | _ => False

/-- All comparisons of a field hold (the field is present). -/
def OpsHold (m : MetaMap) (field : Bytes) : PyDict → Prop
  | .nil => True
  | .cons op v d => (∃ a, (field, a) ∈ m ∧ OpHolds a op v) ∧ OpsHold m field d

mutual
/-- The record `m` satisfies the filter. -/
def Sat (m : MetaMap) : PyV → Prop
  | .none => True
  | .dict d => SatDict m d
  | _ => False
/-- Every entry is satisfied. -/
def SatDict (m : MetaMap) : PyDict → Prop
  | .nil => True
  | .cons k v d => SatEntry m k v ∧ SatDict m d
/-- `$and`: all parts; `$or`: some part; otherwise a field. -/
def SatEntry (m : MetaMap) (k : Bytes) : PyV → Prop
  | .none => False
  | .val x => if k = kAnd then True else if k = kOr then False else ∃ a, (k, a) ∈ m ∧ VEq a x
  | .list l => if k = kAnd then SatAll m l else if k = kOr then SatSome m l else False
  | .dict ops => if k = kAnd then True else if k = kOr then False else OpsHold m k ops
def SatAll (m : MetaMap) : PyList → Prop
  | .nil => True
  | .cons v l => Sat m v ∧ SatAll m l
def SatSome (m : MetaMap) : PyList → Prop
  | .nil => False
  | .cons v l => Sat m v ∨ SatSome m l
end

mutual
/-- Every dict that has an `$or` has no other entry, and the list of the `$or` is not empty. -/
def OrAlone : PyV → Prop
  | .none => True
  | .val _ => True
  | .list l => OrAloneL l
  | .dict d => OrAloneD d
def OrAloneD : PyDict → Prop
  | .nil => True
  | .cons k v d => if k = kOr then d = .nil ∧ ∃ x l, v = .list (.cons x l) ∧ OrAlone v else NoOr d ∧ OrAlone v ∧ OrAloneD d
def OrAloneL : PyList → Prop
  | .nil => True
  | .cons v l => OrAlone v ∧ OrAloneL l
/-- No `$or` among the keys. -/
def NoOr : PyDict → Prop
  | .nil => True
  | .cons k _ d => k ≠ kOr ∧ NoOr d
end

end Alaya.PyFilter
