import Verif.Lemmas.IndexEncoding

/-! C02: the double index encoding preserves the numeric order and round-trips bit-exactly. -/
namespace Alaya
open Spec

/-- Byte-wise comparison of the encodings is the numeric order of the exact values, except that
`-0` (0x8000…) is placed directly below `+0`.  (Holds for every pair of bit patterns; NaN patterns are
placed beyond the infinities.) -/
theorem C02_encode_double_lt_iff (a b : BitVec 64) :
    encodeDouble a < encodeDouble b ↔
      dblVal a.toNat < dblVal b.toNat ∨ (a = 0x8000000000000000#64 ∧ b = 0#64) := by
  obtain ⟨ka, ha, hka⟩ := encodeDouble_eq a
  obtain ⟨kb, hb, hkb⟩ := encodeDouble_eq b
  rw [ha, hb, hex16_lt_iff, hka, hkb, dblKey_lt_iff a.isLt b.isLt]
  rw [← BitVec.toNat_inj, ← BitVec.toNat_inj]
  rfl

/-- For numbers (no NaN), IEEE `<` implies byte order. -/
theorem C02_ieee_lt_imp (a b : BitVec 64) (h : dblLt a.toNat b.toNat) :
    encodeDouble a < encodeDouble b :=
  (C02_encode_double_lt_iff a b).2 (Or.inl h.2.2)

-- -1.5 < 2.25
set_option exponentiation.threshold 2100 in
example : dblLt (0xBFF8000000000000#64).toNat (0x4002000000000000#64).toNat := by decide

/-- `decode_double (encode_double x) = x` bit by bit, for every bit pattern. -/
theorem C02_decode_encode_double (a : BitVec 64) : decodeDouble (encodeDouble a) = some a := by
  unfold decodeDouble encodeDouble
  have hlt := a.isLt
  by_cases h : a >>> 63 ≠ 0
  · rw [if_pos h, stoull16_hex16]
    simp only [Option.map_some]
    have : ¬ ((~~~a) >>> 63 ≠ 0) := by
      rw [shift63_ne_zero] at *
      rw [toNat_not64]; omega
    rw [if_neg this, BitVec.not_not]
  · rw [if_neg h, stoull16_hex16]
    simp only [Option.map_some]
    have : (a ^^^ signBit) >>> 63 ≠ 0 := by
      rw [shift63_ne_zero] at *
      rw [toNat_xor_signBit]; split <;> omega
    rw [if_pos this]
    simp [BitVec.xor_assoc]

/-- Same length, hence no encoding is a proper prefix of another. -/
theorem C02_encode_double_length (a : BitVec 64) : (encodeDouble a).length = 16 := by
  obtain ⟨k, h, _⟩ := encodeDouble_eq a
  rw [h]; simp [hex16]

/-- A closed byte range between two encoded numeric bounds contains every number of the closed numeric
interval whenever the bounds are not zeros (the two zeros are the only distinct patterns with equal
value). -/
theorem C02_range_iff_partial (lo hi v : BitVec 64)
    (hlo : dblVal lo.toNat ≠ 0) (hhi : dblVal hi.toNat ≠ 0) :
    (¬ encodeDouble v < encodeDouble lo ∧ ¬ encodeDouble hi < encodeDouble v)
      ↔ (dblVal lo.toNat ≤ dblVal v.toNat ∧ dblVal v.toNat ≤ dblVal hi.toNat) := by
  have hz : lo ≠ 0#64 := by
    rintro rfl; exact hlo (by decide)
  have hz2 : hi ≠ 0x8000000000000000#64 := by
    rintro rfl; exact hhi (by decide)
  rw [C02_encode_double_lt_iff, C02_encode_double_lt_iff]
  simp only [hz, hz2, and_false, false_and, or_false]
  omega

-- bounds -1.5 and 2.25
set_option exponentiation.threshold 2100 in
example : dblVal (0xBFF8000000000000#64).toNat ≠ 0 ∧ dblVal (0x4002000000000000#64).toNat ≠ 0 := by
  decide

/-- The full range statement fails at zero: with lower bound `+0` the value `-0`, which is numerically
`≥ +0`, lies outside of the byte range. -/
theorem C02_range_zero_refuted :
    ¬ ∀ lo hi v : BitVec 64, ¬ dblIsNaN lo.toNat → ¬ dblIsNaN hi.toNat → ¬ dblIsNaN v.toNat →
      ((¬ encodeDouble v < encodeDouble lo ∧ ¬ encodeDouble hi < encodeDouble v)
        ↔ (dblVal lo.toNat ≤ dblVal v.toNat ∧ dblVal v.toNat ≤ dblVal hi.toNat)) := by
  intro h
  have := h 0#64 1#64 0x8000000000000000#64 (by decide) (by decide) (by decide)
  revert this
  decide

end Alaya
