import Verif.Model.ScalarData
import Verif.Spec.Double

/-
/repo/include/utils/metadata_filter.hpp and the raw evaluator of
/repo/include/utils/metadata_filter_matcher.hpp.
-/
namespace Alaya

/-- `enum class FilterOp`. metadata_filter.hpp:20-30. -/
inductive FilterOp where
  | eq | ne | gt | ge | lt | le | inSet | notInSet | contains
  deriving DecidableEq, Repr

/-- `enum class LogicOp`. metadata_filter.hpp:33-37. -/
inductive LogicOp where
  | and | or | not
  deriving DecidableEq, Repr

/-- `struct FilterCondition`. metadata_filter.hpp:45-49. -/
structure FilterCond where
  field : Bytes
  op : FilterOp
  value : MetaValue
  values : List MetaValue
  deriving DecidableEq, Repr

/-- `operator==` of the variant: same alternative and equal values; doubles compare as IEEE numbers
(NaN differs from itself, -0 equals +0). metadata_filter.hpp:66, 85. -/
def MetaValue.eqv : MetaValue → MetaValue → Bool
  | .int a, .int b => a == b
  | .double a, .double b => decide (Spec.dblEq a.toNat b.toNat)
  | .string a, .string b => a == b
  | .bool a, .bool b => a == b
  | _, _ => false

/-- `operator<` inside one alternative (int64: signed, double: IEEE, string: unsigned bytes
lexicographic, bool: false < true). metadata_filter.hpp:112. -/
def MetaValue.ltv : MetaValue → MetaValue → Bool
  | .int a, .int b => decide (a.toInt < b.toInt)
  | .double a, .double b => decide (Spec.dblLt a.toNat b.toNat)
  | .string a, .string b => decide (a < b)
  | .bool a, .bool b => !a && b
  | _, _ => false

/-- Alternative index of the variant. -/
def MetaValue.index : MetaValue → Nat
  | .int _ => 0
  | .double _ => 1
  | .string _ => 2
  | .bool _ => 3

/-- `FilterCondition::compare`. metadata_filter.hpp:101-120. -/
def compareValues (a b : MetaValue) : Option Int :=
  if a.index ≠ b.index then none
  else if a.ltv b then some (-1)
  else if b.ltv a then some 1
  else some 0

/-- `std::string::find(pattern) != npos`. -/
def hasSubstr (pat : Bytes) : Bytes → Bool
  | [] => pat.isEmpty
  | c :: cs => pat.isPrefixOf (c :: cs) || hasSubstr pat cs

/-- `FilterCondition::contains_string`. metadata_filter.hpp:125-131. -/
def containsString (actual pattern : MetaValue) : Bool :=
  match actual, pattern with
  | .string a, .string p => hasSubstr p a
  | _, _ => false

/-- `FilterCondition::evaluate`. metadata_filter.hpp:56-94. -/
def FilterCond.eval (c : FilterCond) (m : MetaMap) : Bool :=
  match m.get c.field with
  | none => false
  | some actual =>
    match c.op with
    | .eq => actual.eqv c.value
    | .ne => !actual.eqv c.value
    | .gt => match compareValues actual c.value with | some x => decide (x > 0) | none => false
    | .ge => match compareValues actual c.value with | some x => decide (x ≥ 0) | none => false
    | .lt => match compareValues actual c.value with | some x => decide (x < 0) | none => false
    | .le => match compareValues actual c.value with | some x => decide (x ≤ 0) | none => false
    | .inSet => c.values.any fun v => v.eqv actual
    | .notInSet => !(c.values.any fun v => v.eqv actual)
    | .contains => containsString actual c.value

/-- `struct MetadataFilter`. metadata_filter.hpp:150-153. -/
inductive Filter where
  | mk (op : LogicOp) (conds : List FilterCond) (subs : List Filter)

/-- Combination of the collected results. metadata_filter.hpp:179-202. -/
def combine (op : LogicOp) (results : List Bool) : Bool :=
  match results with
  | [] => true
  | r :: rs =>
    match op with
    | .and => (r :: rs).all id
    | .or => (r :: rs).any id
    | .not => !r

mutual
/-- `MetadataFilter::evaluate`. metadata_filter.hpp:160-203. -/
def Filter.eval (m : MetaMap) : Filter → Bool
  | .mk op conds subs =>
    if conds.isEmpty && subs.isEmpty then true
    else combine op (conds.map (fun c => c.eval m) ++ Filter.evalSubs m subs)
/-- The loop over `sub_filters`. metadata_filter.hpp:173-175. -/
def Filter.evalSubs (m : MetaMap) : List Filter → List Bool
  | [] => []
  | f :: fs => f.eval m :: Filter.evalSubs m fs
end

/-- Insert into an `unordered_set`. -/
def setInsert (s : List Bytes) (x : Bytes) : List Bytes := if x ∈ s then s else s ++ [x]

mutual
/-- `collect_required_fields`. metadata_filter_matcher.hpp:285-293. -/
def Filter.collect : Filter → List Bytes → List Bytes
  | .mk _ conds subs, acc =>
    Filter.collectSubs subs (conds.foldl (fun s c => setInsert s c.field) acc)
/-- Loop over the sub-filters. -/
def Filter.collectSubs : List Filter → List Bytes → List Bytes
  | [], acc => acc
  | f :: fs, acc => Filter.collectSubs fs (f.collect acc)
end

/-- `evaluate_raw_value`: decode only the collected fields, then evaluate.
metadata_filter_matcher.hpp:278-283 (with `required_fields_` from the constructor, line 44). -/
def Filter.evalRaw (f : Filter) (raw : Bytes) : PR Bool :=
  (desSelected raw (f.collect [])).bind fun m => .ok (f.eval m)

end Alaya
