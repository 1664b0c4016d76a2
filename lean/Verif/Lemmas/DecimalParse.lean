import Verif.Model.DecimalParse
import Verif.Lemmas.Decimal

namespace Alaya

/-- Specification: the number denoted by a digit string, positional. -/
def decimalValue : Bytes → Nat
  | [] => 0
  | c :: cs => (c.toNat - 48) * 10 ^ cs.length + decimalValue cs

/-- Specification: a plain decimal number. -/
def IsDecimal (s : Bytes) (n : Nat) : Prop :=
  s ≠ [] ∧ (∀ c ∈ s, 48 ≤ c.toNat ∧ c.toNat ≤ 57) ∧ decimalValue s = n

theorem u64Max_eq : u64Max + 1 = 2 ^ 64 := by decide

theorem parseUint64Loop_spec (s : Bytes) (out : Nat) (ho : out ≤ u64Max) (n : Nat) :
    parseUint64Loop out s = some n ↔
      (∀ c ∈ s, 48 ≤ c.toNat ∧ c.toNat ≤ 57) ∧ out * 10 ^ s.length + decimalValue s = n ∧ n ≤ u64Max := by
  induction s generalizing out with
  | nil =>
    simp only [parseUint64Loop, Option.some.injEq, List.length_nil, decimalValue]
    constructor
    · rintro rfl; exact ⟨by simp, by simp, ho⟩
    · rintro ⟨_, h, _⟩; simpa using h
  | cons c cs ih =>
    simp only [parseUint64Loop, List.length_cons, decimalValue]
    by_cases hd : c.toNat < 48 ∨ c.toNat > 57
    · rw [if_pos hd]
      constructor
      · intro h; simp at h
      · rintro ⟨h, _⟩
        have := h c (by simp); omega
    · rw [if_neg hd]
      have hexp : out * 10 ^ (cs.length + 1) + ((c.toNat - 48) * 10 ^ cs.length + decimalValue cs)
          = (out * 10 + (c.toNat - 48)) * 10 ^ cs.length + decimalValue cs := by
        rw [Nat.pow_succ, Nat.add_mul, Nat.mul_assoc out 10, Nat.mul_comm 10 (10 ^ cs.length), Nat.add_assoc]
      by_cases hov : out > (u64Max - (c.toNat - 48)) / 10
      · rw [if_pos hov]
        constructor
        · intro h; simp at h
        · rintro ⟨_, h, hle⟩
          rw [hexp] at h
          have h1 : out * 10 + (c.toNat - 48) > u64Max := by
            have : u64Max = 18446744073709551615 := rfl
            omega
          have h2 : (out * 10 + (c.toNat - 48)) * 1 ≤ (out * 10 + (c.toNat - 48)) * 10 ^ cs.length :=
            Nat.mul_le_mul_left _ (Nat.pow_pos (by decide))
          omega
      · rw [if_neg hov]
        have hle : out * 10 + (c.toNat - 48) ≤ u64Max := by
          have : u64Max = 18446744073709551615 := rfl
          omega
        rw [Nat.mod_eq_of_lt (by omega), ih _ hle, hexp]
        constructor
        · rintro ⟨h1, h2, h3⟩
          refine ⟨?_, h2, h3⟩
          intro x hx
          rcases List.mem_cons.1 hx with rfl | hx
          · omega
          · exact h1 x hx
        · rintro ⟨h1, h2, h3⟩
          exact ⟨fun x hx => h1 x (by simp [hx]), h2, h3⟩

theorem decVal_isSome {c : UInt8} : (decVal c).isSome = true ↔ 48 ≤ c.toNat ∧ c.toNat ≤ 57 := by
  unfold decVal; split <;> simp_all

theorem parseDigits_value (s : Bytes) (acc : Nat) (h : ∀ c ∈ s, 48 ≤ c.toNat ∧ c.toNat ≤ 57) :
    parseDigits 10 decVal acc s = acc * 10 ^ s.length + decimalValue s := by
  induction s generalizing acc with
  | nil => simp [parseDigits, decimalValue]
  | cons c cs ih =>
    have hc := h c (by simp)
    have hv : decVal c = some (c.toNat - 48) := by unfold decVal; rw [if_pos hc]
    simp only [parseDigits, hv, List.length_cons, decimalValue]
    rw [ih _ (fun x hx => h x (by simp [hx])), Nat.pow_succ, Nat.add_mul, Nat.mul_assoc acc 10,
      Nat.mul_comm 10 (10 ^ cs.length), Nat.add_assoc]

theorem takeWhile_self_iff {α : Type} (p : α → Bool) (l : List α) : l.takeWhile p = l ↔ ∀ x ∈ l, p x = true := by
  induction l with
  | nil => simp
  | cons a l ih =>
    rw [List.takeWhile_cons]
    by_cases h : p a = true
    · rw [if_pos h]; simp [ih, h]
    · rw [if_neg h]; simp [h]

theorem parseUint64Decimal_iff (s : Bytes) (n : Nat) :
    parseUint64Decimal s = some n ↔ IsDecimal s n ∧ n ≤ u64Max := by
  unfold parseUint64Decimal IsDecimal
  by_cases hs : s = []
  · rw [if_pos hs]; simp [hs]
  · rw [if_neg hs]
    unfold fromCharsU64
    simp only
    by_cases hall : ∀ c ∈ s, 48 ≤ c.toNat ∧ c.toNat ≤ 57
    · have htw : s.takeWhile (fun c => (decVal c).isSome) = s := by
        rw [takeWhile_self_iff]
        intro c hc; exact decVal_isSome.2 (hall c hc)
      rw [htw, if_neg hs, parseDigits_value s 0 hall]
      simp only [Nat.zero_mul, Nat.zero_add]
      by_cases hle : decimalValue s ≤ u64Max
      · rw [if_pos hle]
        simp only [List.drop_length, if_true, Option.some.injEq]
        constructor
        · rintro rfl; exact ⟨⟨hs, hall, rfl⟩, hle⟩
        · rintro ⟨⟨_, _, h⟩, _⟩; exact h
      · rw [if_neg hle]
        constructor
        · intro h; simp at h
        · rintro ⟨⟨_, _, h⟩, h2⟩; omega
    · have hne : ∀ p, (if s.takeWhile (fun c => (decVal c).isSome) = [] then none
          else if parseDigits 10 decVal 0 (s.takeWhile (fun c => (decVal c).isSome)) ≤ u64Max
            then some (parseDigits 10 decVal 0 (s.takeWhile (fun c => (decVal c).isSome)),
              s.drop (s.takeWhile (fun c => (decVal c).isSome)).length) else none) = some p → p.2 ≠ [] := by
        intro p hp he
        split at hp
        · simp at hp
        · split at hp
          · injection hp with hp
            subst hp
            simp only at he
            rw [List.drop_eq_nil_iff] at he
            have hpre := List.takeWhile_prefix (fun c : UInt8 => (decVal c).isSome) (l := s)
            have heq := hpre.eq_of_length_le he
            apply hall
            rw [takeWhile_self_iff] at heq
            intro c hc; exact decVal_isSome.1 (heq c hc)
          · simp at hp
      constructor
      · intro h
        split at h
        · simp at h
        · rename_i p hp
          rw [if_neg (hne p hp)] at h
          simp at h
      · rintro ⟨⟨_, h, _⟩, _⟩; exact absurd h hall

/-- `std::to_string` output is the decimal number. -/
theorem decStr_isDecimal (n : Nat) : IsDecimal (decStr n) n := by
  have hd : ∀ c ∈ decStr n, 48 ≤ c.toNat ∧ c.toNat ≤ 57 := by
    intro c hc
    obtain ⟨d, hd, rfl⟩ := decStr_digits n c hc
    rw [decDigit_toNat hd]; omega
  refine ⟨decStr_ne_nil n, hd, ?_⟩
  have := parseDigits_value (decStr n) 0 hd
  rw [parseDigits_decStr] at this
  omega

end Alaya
