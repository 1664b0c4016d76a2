import Verif.Model.Decimal

/-
Decimal parsers of the manifests:
/repo/include/index/disk/segment_manifest.hpp:41-65 and /repo/include/recovery/snapshot_manifest.hpp:23-46.
-/
namespace Alaya

/-- `2^64 - 1` (`kMax`). -/
def u64Max : Nat := 18446744073709551615

/-- The loop of `detail::parse_uint64` (uint64 arithmetic: the division test precedes the multiplication; the
new value is reduced mod 2^64 as in C++). `none` = `std::invalid_argument`.
/repo/include/index/disk/segment_manifest.hpp:46-63. -/
def parseUint64Loop : Nat → Bytes → Option Nat
  | out, [] => some out
  | out, c :: cs =>
    if c.toNat < 48 ∨ c.toNat > 57 then none
    else
      if out > (u64Max - (c.toNat - 48)) / 10 then none
      else parseUint64Loop ((out * 10 + (c.toNat - 48)) % (u64Max + 1)) cs

/-- `detail::parse_uint64`. /repo/include/index/disk/segment_manifest.hpp:41-65. -/
def parseUint64 (s : Bytes) : Option Nat :=
  if s = [] then none else parseUint64Loop 0 s

/-- What `isspace` accepts in the C locale. -/
def isSpace (c : UInt8) : Bool := c == 32 || (decide (9 ≤ c.toNat) && decide (c.toNat ≤ 13))

/-- `std::stoull(s, &pos)` followed by `pos == s.size()`: white space, a sign (a negative number is taken modulo 2^64), digits up
to the end; `none` = throws.  disk_collection.hpp:529-568, segment_factory.hpp:79-102 -/
def stoullAll (s : Bytes) : Option Nat :=
  match s.dropWhile isSpace with
  | [] => none
  | c :: cs =>
    if c = 43 then parseUint64 cs
    else if c = 45 then (parseUint64 cs).map (fun n => (2 ^ 64 - n) % 2 ^ 64)
    else parseUint64 (c :: cs)

/-- `std::from_chars` for an unsigned 64-bit integer, base 10 (library behaviour: the longest run of digits is
consumed; no digit is `invalid_argument`, a value above 2^64-1 is `result_out_of_range`; no sign, no white space).
Returns the value and the unconsumed rest, `none` on error. -/
def fromCharsU64 (s : Bytes) : Option (Nat × Bytes) :=
  let ds := s.takeWhile (fun c => (decVal c).isSome)
  if ds = [] then none
  else
    let n := parseDigits 10 decVal 0 ds
    if n ≤ u64Max then some (n, s.drop ds.length) else none

/-- `detail::parse_uint64_decimal`. /repo/include/recovery/snapshot_manifest.hpp:23-36. -/
def parseUint64Decimal (s : Bytes) : Option Nat :=
  if s = [] then none
  else
    match fromCharsU64 s with
    | none => none
    | some p => if p.2 = [] then some p.1 else none

/-- `detail::parse_uint32_decimal`. /repo/include/recovery/snapshot_manifest.hpp:38-46. -/
def parseUint32Decimal (s : Bytes) : Option Nat :=
  match parseUint64Decimal s with
  | none => none
  | some n => if n > 4294967295 then none else some n

end Alaya
