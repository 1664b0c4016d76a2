import Verif.Lemmas.IndexEncoding

/-! C01: the integer index encoding preserves order and round-trips. -/
namespace Alaya

/-- Byte-wise comparison of the encodings is exactly signed integer comparison. -/
theorem C01_encode_int64_lt_iff (a b : BitVec 64) :
    encodeInt64 a < encodeInt64 b ↔ a.toInt < b.toInt := by
  unfold encodeInt64
  rw [hex16_lt_iff, toNat_xor_signBit, toNat_xor_signBit, BitVec.toInt_eq_toNat_cond,
    BitVec.toInt_eq_toNat_cond]
  have := a.isLt
  have := b.isLt
  split <;> split <;> split <;> split <;> omega

example : (BitVec.ofInt 64 (-5)).toInt < (3#64).toInt := by decide

/-- All encodings have the same length (16 bytes), so no encoding is a prefix of another one. -/
theorem C01_encode_int64_length (a : BitVec 64) : (encodeInt64 a).length = 16 := by
  simp [encodeInt64, hex16]

example : encodeInt64 (BitVec.ofInt 64 (-1)) = str "7fffffffffffffff" := by decide

/-- The encoding is injective. -/
theorem C01_encode_int64_injective (a b : BitVec 64) (h : encodeInt64 a = encodeInt64 b) : a = b := by
  have h1 := C01_encode_int64_lt_iff a b
  have h2 := C01_encode_int64_lt_iff b a
  rw [h] at h1 h2
  have irr : ¬ encodeInt64 b < encodeInt64 b := List.lt_irrefl _
  apply BitVec.eq_of_toInt_eq
  have := mt h1.2 irr
  have := mt h2.2 irr
  omega

example : encodeInt64 1#64 = encodeInt64 1#64 := rfl

/-- `decode_int64 ∘ encode_int64 = id`. -/
theorem C01_decode_encode_int64 (a : BitVec 64) : decodeInt64 (encodeInt64 a) = some a := by
  simp [decodeInt64, encodeInt64, stoull16_hex16, BitVec.xor_assoc]

/-- The closed byte range between two encoded bounds holds exactly the encodings of the integers in
the closed interval. -/
theorem C01_range_iff (lo hi v : BitVec 64) :
    (¬ encodeInt64 v < encodeInt64 lo ∧ ¬ encodeInt64 hi < encodeInt64 v)
      ↔ (lo.toInt ≤ v.toInt ∧ v.toInt ≤ hi.toInt) := by
  rw [C01_encode_int64_lt_iff, C01_encode_int64_lt_iff]
  omega

example : (BitVec.ofInt 64 (-2)).toInt ≤ (0#64).toInt ∧ (0#64).toInt ≤ (7#64).toInt := by decide

end Alaya
