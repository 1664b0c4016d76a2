import Verif.Model.Filter

/-! Meaning of a filter as a formula about a metadata map, in terms of numbers, strings and membership. -/
namespace Alaya.Spec

/-- Same type and equal value. -/
def VEq : MetaValue → MetaValue → Prop
  | .int a, .int b => a.toInt = b.toInt
  | .double a, .double b => dblEq a.toNat b.toNat
  | .string a, .string b => a = b
  | .bool a, .bool b => a = b
  | _, _ => False

/-- Same type and smaller value. -/
def VLt : MetaValue → MetaValue → Prop
  | .int a, .int b => a.toInt < b.toInt
  | .double a, .double b => dblLt a.toNat b.toNat
  | .string a, .string b => a < b
  | .bool a, .bool b => a = false ∧ b = true
  | _, _ => False

/-- A condition holds when the field is present and its value satisfies the comparison. -/
def CondHolds (m : MetaMap) (c : FilterCond) : Prop :=
  ∃ v, (c.field, v) ∈ m ∧
    match c.op with
    | .eq => VEq v c.value
    | .ne => ¬ VEq v c.value
    | .gt => VLt c.value v
    | .ge => VLt c.value v ∨ VEq v c.value
    | .lt => VLt v c.value
    | .le => VLt v c.value ∨ VEq v c.value
    | .inSet => ∃ w ∈ c.values, VEq v w
    | .notInSet => ¬ ∃ w ∈ c.values, VEq v w
    | .contains => ∃ pre pat post, v = .string (pre ++ pat ++ post) ∧ c.value = .string pat

mutual
/-- An empty filter holds; AND = all parts, OR = some part, NOT = not (all parts). -/
def Holds (m : MetaMap) : Filter → Prop
  | .mk op conds subs =>
    (conds = [] ∧ subs = []) ∨
    match op with
    | .and => (∀ c ∈ conds, CondHolds m c) ∧ AllHold m subs
    | .or => (∃ c ∈ conds, CondHolds m c) ∨ SomeHolds m subs
    | .not => ¬ ((∀ c ∈ conds, CondHolds m c) ∧ AllHold m subs)
def AllHold (m : MetaMap) : List Filter → Prop
  | [] => True
  | f :: fs => Holds m f ∧ AllHold m fs
def SomeHolds (m : MetaMap) : List Filter → Prop
  | [] => False
  | f :: fs => Holds m f ∨ SomeHolds m fs
end

mutual
/-- Every NOT has at most one part. -/
def SingleNot : Filter → Bool
  | .mk op conds subs => (op != .not || decide (conds.length + subs.length ≤ 1)) && SingleNots subs
def SingleNots : List Filter → Bool
  | [] => true
  | f :: fs => SingleNot f && SingleNots fs
end

mutual
/-- The tree has no `ge`/`le` comparison with a NaN value. -/
def NoNaN : Filter → Bool
  | .mk _ conds subs => (conds.all fun c => match c.value with | .double b => !decide (dblIsNaN b.toNat) | _ => true) && NoNaNs subs
def NoNaNs : List Filter → Bool
  | [] => true
  | f :: fs => NoNaN f && NoNaNs fs
end

/-- The record has no NaN. -/
def NoNaNMap (m : MetaMap) : Prop := ∀ k b, (k, MetaValue.double b) ∈ m → ¬ dblIsNaN b.toNat

end Alaya.Spec
