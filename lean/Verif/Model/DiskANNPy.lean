/-!
# Arrays handed to the DiskANN index from Python

/repo/python/src/diskann_bindings.cpp:22-184, 198-203: the checks of `build`, `search`, `batch_search`, `insert`, `batch_insert`, `batch_remove`, and what
the index is then called with.

An array is what NumPy gives: type, shape, strides in bytes, the flag C-contiguous and its memory by byte offset from the first element (`mem o` is the
element that begins there).  The index gets the address of the first element and reads one element after the other.

Simplifications: the GIL, messages, parameters, the conversion of the scalar arguments by pybind11 (`top_k` and `num_threads` are 32-bit numbers) and
what the index does are left out; the index is its dimension.
-/

namespace Alaya.DPy

inductive DType where
  | f32
  | u64
  | other (n : Nat)
deriving DecidableEq

/-- Bytes of an element. -/
def DType.size : DType → Nat
  | .f32 => 4
  | .u64 => 8
  | .other n => n

structure Arr (α : Type) where
  dtype : DType
  shape : List Nat
  strides : List Int
  cflag : Bool
  mem : Int → α

inductive Err where
  | type
  | value
deriving DecidableEq

/-- `require_array`. diskann_bindings.cpp:22-36 -/
def requireArray {α : Type} (a : Arr α) (t : DType) (dims : Nat) : Except Err Unit :=
  if a.dtype ≠ t then .error .type
  else if a.shape.length ≠ dims then .error .value
  else if a.cflag = false then .error .value
  else .ok ()

def Arr.dim {α : Type} (a : Arr α) (k : Nat) : Nat := a.shape.getD k 0

/-- `checked_u32`. diskann_bindings.cpp:38-43 -/
def checkedU32 (n : Nat) : Except Err Nat := if n > 4294967295 then .error .value else .ok (n % 4294967296)

/-- What the index sees behind a pointer: the element number `k`. -/
def Arr.read {α : Type} (a : Arr α) (k : Nat) : α := a.mem ((k * a.dtype.size : Nat) : Int)

/-- A call of the index: number of vectors, their dimension, component `j` of vector `i`, label `i`. -/
structure Call (α β : Type) where
  count : Nat
  dim : Nat
  vec : Nat → Nat → α
  label : Nat → β

/-- `build`. diskann_bindings.cpp:48-66 -/
def build {α β : Type} (vectors : Arr α) (labels : Arr β) : Except Err (Call α β) := do
  requireArray vectors .f32 2
  requireArray labels .u64 1
  if vectors.dim 0 = 0 ∨ vectors.dim 1 = 0 then throw .value
  if labels.dim 0 ≠ vectors.dim 0 then throw .value
  return ⟨vectors.dim 0, vectors.dim 1, fun i j => vectors.read (i * vectors.dim 1 + j), labels.read⟩

/-- `search` up to the call of the index. diskann_bindings.cpp:78-98 -/
def search {α : Type} (dim : Nat) (query : Arr α) (topK : Nat) : Except Err (Call α Unit) := do
  requireArray query .f32 1
  if query.dim 0 ≠ dim then throw .value
  if topK = 0 then throw .value
  return ⟨1, dim, fun _ j => query.read j, fun _ => ()⟩

/-- `insert`. diskann_bindings.cpp:143-147, 198-203 -/
def insert {α β : Type} (dim : Nat) (vector : Arr α) (id : β) : Except Err (Call α β) := do
  requireArray vector .f32 1
  if vector.dim 0 ≠ dim then throw .value
  return ⟨1, dim, fun _ j => vector.read j, fun _ => id⟩

/-- `batch_search` up to the call of the index. diskann_bindings.cpp:106-133 -/
def batchSearch {α : Type} (dim : Nat) (queries : Arr α) (topK threads : Nat) : Except Err (Call α Unit) := do
  requireArray queries .f32 2
  if queries.dim 0 = 0 then throw .value
  if queries.dim 1 ≠ dim then throw .value
  if topK = 0 ∨ threads = 0 then throw .value
  let count ← checkedU32 (queries.dim 0)
  return ⟨count, dim, fun i j => queries.read (i * dim + j), fun _ => ()⟩

/-- `batch_insert`. diskann_bindings.cpp:149-164 -/
def batchInsert {α β : Type} (dim : Nat) (vectors : Arr α) (ids : Arr β) : Except Err (Call α β) := do
  requireArray vectors .f32 2
  requireArray ids .u64 1
  if vectors.dim 1 ≠ dim then throw .value
  if vectors.dim 0 ≠ ids.dim 0 then throw .value
  let count ← checkedU32 (vectors.dim 0)
  return ⟨count, dim, fun i j => vectors.read (i * dim + j), ids.read⟩

/-- `batch_remove`. diskann_bindings.cpp:175-184 -/
def batchRemove {β : Type} (ids : Arr β) : Except Err (Call Unit β) := do
  requireArray ids .u64 1
  let count ← checkedU32 (ids.dim 0)
  return ⟨count, 0, fun _ _ => (), ids.read⟩

end Alaya.DPy
