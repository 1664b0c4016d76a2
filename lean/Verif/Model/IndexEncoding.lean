import Verif.Model.Bytes

/-
Sortable value encodings for the secondary index.
/repo/include/utils/index_encoding.hpp
-/
namespace Alaya

/-- Fixed number of digits in base `B`, most significant digit first, digit `d` printed as `dig d`.
Used for `%016x` (base 16) and the zero padded ids of `data_key` (base 10). -/
def fixedDigits (B : Nat) (dig : Nat → UInt8) : Nat → Nat → Bytes
  | 0, _ => []
  | w + 1, n => dig (n / B ^ w % B) :: fixedDigits B dig w n

/-- A lower case hexadecimal digit as printed by `%x`. -/
def hexDigit (d : Nat) : UInt8 := if d < 10 then UInt8.ofNat (48 + d) else UInt8.ofNat (87 + d)

/-- `snprintf("%016" PRIx64, v)` of a 64-bit value: exactly 16 hexadecimal digits.
/repo/include/utils/index_encoding.hpp:32, 60. -/
def hex16 (v : BitVec 64) : Bytes := fixedDigits 16 hexDigit 16 v.toNat

/-- Value of a hexadecimal digit character (upper or lower case), as accepted by `std::stoull(…,16)`. -/
def hexVal (c : UInt8) : Option Nat :=
  if 48 ≤ c.toNat ∧ c.toNat ≤ 57 then some (c.toNat - 48)
  else if 97 ≤ c.toNat ∧ c.toNat ≤ 102 then some (c.toNat - 87)
  else if 65 ≤ c.toNat ∧ c.toNat ≤ 70 then some (c.toNat - 55)
  else none

/-- Digit loop of `std::stoull`: consume digits until the first non-digit. -/
def parseDigits (B : Nat) (val : UInt8 → Option Nat) : Nat → Bytes → Nat
  | acc, [] => acc
  | acc, c :: cs =>
    match val c with
    | some d => parseDigits B val (acc * B + d) cs
    | none => acc

/-- `std::stoull(s, nullptr, 16)`: `none` = exception (no digit, or out of the 64-bit range).
Simplification: leading white space, sign and a `0x` prefix are not modelled (never produced by
the encoders).  /repo/include/utils/index_encoding.hpp:40, 68. -/
def stoull16 (s : Bytes) : Option (BitVec 64) :=
  match s with
  | [] => none
  | c :: _ =>
    if (hexVal c).isNone then none
    else
      let n := parseDigits 16 hexVal 0 s
      if n < 2 ^ 64 then some (BitVec.ofNat 64 n) else none

/-- The constant `1ULL << 63`. -/
def signBit : BitVec 64 := 0x8000000000000000#64

/-- `encode_int64`; the argument is the two's complement bit pattern of the `int64_t`.
/repo/include/utils/index_encoding.hpp:29-34. -/
def encodeInt64 (value : BitVec 64) : Bytes := hex16 (value ^^^ signBit)

/-- `decode_int64`. /repo/include/utils/index_encoding.hpp:39-42. -/
def decodeInt64 (s : Bytes) : Option (BitVec 64) := (stoull16 s).map (· ^^^ signBit)

/-- `encode_double` on the bit pattern of the double. /repo/include/utils/index_encoding.hpp:51-62. -/
def encodeDouble (bits : BitVec 64) : Bytes :=
  if bits >>> 63 ≠ 0 then hex16 (~~~bits) else hex16 (bits ^^^ signBit)

/-- `decode_double`, result as bit pattern. /repo/include/utils/index_encoding.hpp:67-77. -/
def decodeDouble (s : Bytes) : Option (BitVec 64) :=
  (stoull16 s).map fun (bits : BitVec 64) => if bits >>> 63 ≠ 0 then bits ^^^ signBit else ~~~bits

end Alaya
