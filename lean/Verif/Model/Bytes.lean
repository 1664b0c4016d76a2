/-
Byte strings and fixed width little-endian integers.

The code base targets little-endian hosts and copies integers with `memcpy`
(/repo/include/utils/binary_io.hpp:62-65, /repo/include/utils/scalar_data.hpp:213-218); an integer
of `w` bytes is therefore its `w` little-endian bytes.
-/
namespace Alaya

/-- A byte buffer (`std::string`, `std::vector<char>`, file content). -/
abbrev Bytes := List UInt8

/-- The `w` little-endian bytes of `n` (a `memcpy` from a `w`-byte unsigned integer; higher bits of
`n` are cut off, which is what a narrowing `static_cast` before the copy does).
/repo/include/utils/binary_io.hpp:60-65 (`write_pod`). -/
def leBytes : Nat → Nat → Bytes
  | 0, _ => []
  | w + 1, n => UInt8.ofNat n :: leBytes w (n / 256)

/-- The unsigned integer stored in little-endian bytes (a `memcpy` into an unsigned integer).
/repo/include/utils/binary_io.hpp:121-130 (`read_pod`). -/
def leNat : Bytes → Nat
  | [] => 0
  | b :: bs => b.toNat + 256 * leNat bs

/-- Split off the first `n` bytes if that many remain (the pattern
`if (remaining() < n) fail; use data[offset .. offset+n); offset += n`).
/repo/include/utils/binary_io.hpp:109-116. -/
def splitN (n : Nat) (bs : Bytes) : Option (Bytes × Bytes) :=
  if bs.length < n then none else some (bs.take n, bs.drop n)

/-- The modulus of `size_t`/`uint64_t` arithmetic.  Irreducible so that the elaborator never evaluates
arithmetic with it on open terms. -/
@[irreducible] def U64 : Nat := 2 ^ 64

theorem U64_eq : U64 = 2 ^ 64 := by unfold U64; rfl

/-- ASCII string literal as bytes (only used for literals of the code). -/
def str (s : String) : Bytes := s.toList.map (fun c => UInt8.ofNat c.toNat)

end Alaya
