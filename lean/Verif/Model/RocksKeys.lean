import Verif.Model.Decimal
import Verif.Model.ScalarData

/-
Key construction and parsing of /repo/include/storage/rocksdb_storage.hpp and
/repo/include/utils/index_encoding.hpp.
-/
namespace Alaya

/-- The id type: `digits = kSortableDigits = numeric_limits<UnsignedIDType>::digits10 + 1`
(rocksdb_storage.hpp:743) and `size = sizeof(IDType)`. -/
structure IdCfg where
  digits : Nat
  size : Nat
  deriving DecidableEq, Repr

/-- Number of values of the id type. -/
def IdCfg.bound (c : IdCfg) : Nat := 256 ^ c.size

/-- `IDType = uint32_t`. -/
def cfg32 : IdCfg := ⟨10, 4⟩
/-- `IDType = uint64_t`. -/
def cfg64 : IdCfg := ⟨20, 8⟩

/-- What the two instantiations have in common. -/
structure IdCfg.Ok (c : IdCfg) : Prop where
  digits_pos : 0 < c.digits
  bound_digits : c.bound ≤ 10 ^ c.digits
  bound_u64 : c.bound ≤ 2 ^ 64

/-- The character '_'. -/
def us : UInt8 := 95
/-- `data_key_prefix()` = "d_". rocksdb_storage.hpp:740. -/
def dataPre : Bytes := [100, 95]
/-- "i_". rocksdb_storage.hpp:988. -/
def itemPre : Bytes := [105, 95]
/-- "f_". index_encoding.hpp:114. -/
def fieldPre : Bytes := [102, 95]
/-- `count_key()`. rocksdb_storage.hpp:991. -/
def countKey : Bytes := str "__COUNT__"

/-- `data_key`. rocksdb_storage.hpp:751-758. -/
def dataKey (c : IdCfg) (id : Nat) : Bytes :=
  let d := decStr id
  if d.length ≥ c.digits then dataPre ++ d
  else dataPre ++ List.replicate (c.digits - d.length) (decDigit 0) ++ d

/-- `legacy_data_key`. rocksdb_storage.hpp:760-762. -/
def legacyKey (id : Nat) : Bytes := dataPre ++ decStr id

/-- `parse_data_key`; `.bad` = `std::stoull` throws `out_of_range`. rocksdb_storage.hpp:764-781. -/
def parseDataKey (c : IdCfg) (key : Bytes) : PR (Option Nat) :=
  if dataPre.isPrefixOf key then
    let digits := key.drop 2
    if digits = [] ∨ !(digits.all fun ch => (decVal ch).isSome) then .ok none
    else
      match stoull10 digits with
      | none => .bad
      | some n => if n < c.bound then .ok (some n) else .ok none
  else .ok none

/-- `item_id_index_key`. rocksdb_storage.hpp:987-989. -/
def itemKey (item : Bytes) : Bytes := itemPre ++ item

/-- `encode_value`. index_encoding.hpp:88-105. -/
def encodeValue : MetaValue → Bytes
  | .string s => [115, 95] ++ s
  | .bool b => [98, 95, if b then 49 else 48]
  | .int v => [105, 95] ++ encodeInt64 v
  | .double v => [100, 95] ++ encodeDouble v

/-- `make_field_prefix`. index_encoding.hpp:128-130. -/
def fieldPrefix (field : Bytes) : Bytes := fieldPre ++ field ++ [us]

/-- `make_field_index_prefix`. index_encoding.hpp:120-123. -/
def fieldIndexPrefix (field enc : Bytes) : Bytes := fieldPre ++ field ++ [us] ++ enc ++ [us]

/-- `make_field_index_key`. index_encoding.hpp:111-115. -/
def fieldIndexKey (field enc : Bytes) (id : Nat) : Bytes :=
  fieldPre ++ field ++ [us] ++ enc ++ [us] ++ decStr id

/-- Split at the last occurrence of `c` (`rfind`): text before and after it. -/
def rsplit (c : UInt8) : Bytes → Option (Bytes × Bytes)
  | [] => none
  | x :: xs =>
    match rsplit c xs with
    | some p => some (x :: p.1, p.2)
    | none => if x = c then some ([], xs) else none

/-- `extract_id_from_key`; `none` = exception of `std::stoull`. index_encoding.hpp:136-142. -/
def extractId (c : IdCfg) (key : Bytes) : Option Nat :=
  match rsplit us key with
  | none => some 0
  | some p => (stoull10 p.2).map (· % c.bound)

end Alaya
