import Verif.Model.Filter

/-!
The filter dictionaries of the Python collection: /repo/python/src/alayalite/collection.py, `_build_filter` (460-501).

A Python value is `None`, a metadata value, a list or a dict with string keys (in insertion order).  Simplifications: metadata values are
already converted (pybind11 casts), and a ready-made `_MetadataFilter` object, which `_build_filter` passes through, is left out.
Raising (`ValueError`, `TypeError`, `AttributeError`) is `none`.
-/
namespace Alaya.PyFilter

mutual
inductive PyV where
  | none
  | val (v : MetaValue)
  | list (l : PyList)
  | dict (d : PyDict)
inductive PyList where
  | nil
  | cons (v : PyV) (l : PyList)
inductive PyDict where
  | nil
  | cons (k : Bytes) (v : PyV) (d : PyDict)
end

/-- `"$and"`, `"$or"` and the operator names. -/
def kAnd : Bytes := [36, 97, 110, 100]
def kOr : Bytes := [36, 111, 114]
def kEq : Bytes := [36, 101, 113]
def kGt : Bytes := [36, 103, 116]
def kGe : Bytes := [36, 103, 101]
def kLt : Bytes := [36, 108, 116]
def kLe : Bytes := [36, 108, 101]
def kIn : Bytes := [36, 105, 110]

/-- The list argument of `add_in`. -/
def toValues : PyList → Option (List MetaValue)
  | .nil => some []
  | .cons (.val v) l => (toValues l).map (v :: ·)
  | .cons _ _ => none

/-- One operator of a field. collection.py:481-497 -/
def buildOp (field op : Bytes) (v : PyV) : Option FilterCond :=
  if op = kIn then match v with
    | .list l => (toValues l).map (fun vs => ⟨field, .inSet, .int 0, vs⟩)
    | _ => none
  else match v with
    | .val x =>
      if op = kEq then some ⟨field, .eq, x, []⟩
      else if op = kGt then some ⟨field, .gt, x, []⟩
      else if op = kGe then some ⟨field, .ge, x, []⟩
      else if op = kLt then some ⟨field, .lt, x, []⟩
      else if op = kLe then some ⟨field, .le, x, []⟩
      else none
    | _ => none

/-- The operators of a field, in order. collection.py:480-497 -/
def buildOps (field : Bytes) : PyDict → Option (List FilterCond)
  | .nil => some []
  | .cons op v d => match buildOp field op v with
    | none => none
    | some c => (buildOps field d).map (c :: ·)

mutual
/-- `_build_filter`. collection.py:460-468 -/
def build : PyV → Option Filter
  | .none => some (.mk .and [] [])
  | .dict d => buildItems d .and [] []
  | _ => none
/-- The loop over the items, with the filter built so far. collection.py:470-499 -/
def buildItems : PyDict → LogicOp → List FilterCond → List Filter → Option Filter
  | .nil, op, cs, fs => some (.mk op cs fs)
  | .cons k v d, op, cs, fs =>
    if k = kAnd then match buildSubs v with
      | none => none
      | some gs => buildItems d op cs (fs ++ gs)
    else if k = kOr then match buildSubs v with
      | none => none
      | some gs => buildItems d .or cs (fs ++ gs)
    else match v with
      | .dict ops => match buildOps k ops with
        | none => none
        | some c2 => buildItems d op (cs ++ c2) fs
      | .val x => buildItems d op (cs ++ [⟨k, .eq, x, []⟩]) fs
      | _ => none
/-- `for sub_dict in value`: a list of filters; an empty dict or string has no elements, other elements are strings and raise.
collection.py:472-474, 477-479 -/
def buildSubs : PyV → Option (List Filter)
  | .list l => buildList l
  | .dict .nil => some []
  | .val (.string []) => some []
  | _ => none
def buildList : PyList → Option (List Filter)
  | .nil => some []
  | .cons v l => match build v with
    | none => none
    | some f => match buildList l with
      | none => none
      | some fs => some (f :: fs)
end

end Alaya.PyFilter
