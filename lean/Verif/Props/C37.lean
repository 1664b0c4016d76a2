import Verif.Lemmas.DecimalParse

/-! C37: decimal parsing is exact with overflow detection. -/
namespace Alaya

/-- `detail::parse_uint64` (disk manifests) accepts exactly the non-empty digit strings that denote a number
below 2^64, and returns that number. -/
theorem C37_parse_uint64_exact (s : Bytes) (n : Nat) :
    parseUint64 s = some n ↔
      s ≠ [] ∧ (∀ c ∈ s, 48 ≤ c.toNat ∧ c.toNat ≤ 57) ∧ decimalValue s = n ∧ n < 2 ^ 64 := by
  unfold parseUint64
  by_cases hs : s = []
  · rw [if_pos hs]; simp [hs]
  · rw [if_neg hs, parseUint64Loop_spec s 0 (by simp)]
    simp only [Nat.zero_mul, Nat.zero_add]
    have := u64Max_eq
    constructor
    · rintro ⟨h1, h2, h3⟩; exact ⟨hs, h1, h2, by omega⟩
    · rintro ⟨_, h1, h2, h3⟩; exact ⟨h1, h2, by omega⟩

/-- `detail::parse_uint64_decimal` (snapshot manifests) accepts and returns exactly the same. -/
theorem C37_parse_uint64_decimal_exact (s : Bytes) (n : Nat) :
    parseUint64Decimal s = some n ↔
      s ≠ [] ∧ (∀ c ∈ s, 48 ≤ c.toNat ∧ c.toNat ≤ 57) ∧ decimalValue s = n ∧ n < 2 ^ 64 := by
  rw [parseUint64Decimal_iff]
  unfold IsDecimal
  have := u64Max_eq
  constructor
  · rintro ⟨⟨h1, h2, h3⟩, h4⟩; exact ⟨h1, h2, h3, by omega⟩
  · rintro ⟨h1, h2, h3, h4⟩; exact ⟨⟨h1, h2, h3⟩, by omega⟩

/-- `detail::parse_uint32_decimal`: the same with the bound 2^32. -/
theorem C37_parse_uint32_decimal_exact (s : Bytes) (n : Nat) :
    parseUint32Decimal s = some n ↔
      s ≠ [] ∧ (∀ c ∈ s, 48 ≤ c.toNat ∧ c.toNat ≤ 57) ∧ decimalValue s = n ∧ n < 2 ^ 32 := by
  unfold parseUint32Decimal
  constructor
  · intro h
    cases hp : parseUint64Decimal s with
    | none => rw [hp] at h; simp at h
    | some k =>
      rw [hp] at h
      simp only at h
      by_cases hk : k > 4294967295
      · rw [if_pos hk] at h; simp at h
      · rw [if_neg hk] at h
        injection h with h
        subst h
        obtain ⟨h1, h2, h3, _⟩ := (C37_parse_uint64_decimal_exact s k).1 hp
        exact ⟨h1, h2, h3, by omega⟩
  · rintro ⟨h1, h2, h3, h4⟩
    have h64 : n < 2 ^ 64 := by omega
    rw [(C37_parse_uint64_decimal_exact s n).2 ⟨h1, h2, h3, h64⟩]
    simp only
    rw [if_neg (by omega)]

/-- Printing (`std::to_string`) followed by parsing gives the number back. -/
theorem C37_print_parse (n : Nat) (h : n < 2 ^ 64) :
    parseUint64 (decStr n) = some n ∧ parseUint64Decimal (decStr n) = some n := by
  obtain ⟨h1, h2, h3⟩ := decStr_isDecimal n
  exact ⟨(C37_parse_uint64_exact _ n).2 ⟨h1, h2, h3, h⟩, (C37_parse_uint64_decimal_exact _ n).2 ⟨h1, h2, h3, h⟩⟩

-- 2^64 - 1 is accepted, 2^64 refused, leading zeros accepted
example : parseUint64 (str "18446744073709551615") = some (2 ^ 64 - 1) := by decide
example : parseUint64 (str "18446744073709551616") = none := by decide
example : parseUint64 (str "007") = some 7 := by decide

end Alaya
