import Verif.Model.IndexEncoding
import Verif.Spec.Double

namespace Alaya

section digits
variable {B : Nat} {dig : Nat → UInt8}

@[simp] theorem fixedDigits_length (w n : Nat) : (fixedDigits B dig w n).length = w := by
  induction w with
  | zero => rfl
  | succ w ih => simp [fixedDigits, ih]

theorem fixedDigits_mod (w k n : Nat) (hk : w ≤ k) :
    fixedDigits B dig w (n % B ^ k) = fixedDigits B dig w n := by
  induction w with
  | zero => rfl
  | succ w ih =>
    simp only [fixedDigits]
    rw [ih (by omega)]
    congr 2
    have : B ^ k = B ^ w * (B ^ (k - w)) := by rw [← Nat.pow_add]; congr 1; omega
    rw [this, Nat.mod_mul_right_div_self]
    have h2 : B ^ (k - w) = B * B ^ (k - w - 1) := by
      rw [Nat.mul_comm, ← Nat.pow_succ]; congr 1; omega
    rw [h2, Nat.mod_mul_right_mod]

/-- Fixed width digit strings compare (lexicographically, byte-wise) like the numbers. -/
theorem fixedDigits_lt_iff (hB : 0 < B)
    (hdig : ∀ a b, a < B → b < B → (dig a < dig b ↔ a < b))
    (w m n : Nat) (hm : m < B ^ w) (hn : n < B ^ w) :
    fixedDigits B dig w m < fixedDigits B dig w n ↔ m < n := by
  have hinj : ∀ a b, a < B → b < B → (dig a = dig b ↔ a = b) := by
    intro a b ha hb
    constructor
    · intro h
      have h1 := hdig a b ha hb
      have h2 := hdig b a hb ha
      have irr : ¬ dig a < dig a := by simp [UInt8.lt_irrefl]
      have h1' : ¬ a < b := fun hlt => by have := h1.2 hlt; rw [← h] at this; exact irr this
      have h2' : ¬ b < a := fun hlt => by have := h2.2 hlt; rw [← h] at this; exact irr this
      omega
    · rintro rfl; rfl
  induction w generalizing m n with
  | zero =>
    simp at hm hn; subst hm hn
    simp [fixedDigits]
  | succ w ih =>
    have hpos : 0 < B ^ w := Nat.pow_pos hB
    rw [Nat.pow_succ] at hm hn
    have hm' : m / B ^ w < B := Nat.div_lt_of_lt_mul hm
    have hn' : n / B ^ w < B := Nat.div_lt_of_lt_mul hn
    simp only [fixedDigits, List.cons_lt_cons_iff]
    rw [Nat.mod_eq_of_lt hm', Nat.mod_eq_of_lt hn', hdig _ _ hm' hn', hinj _ _ hm' hn']
    rw [← fixedDigits_mod w w m (Nat.le_refl _), ← fixedDigits_mod w w n (Nat.le_refl _)]
    have ih' : fixedDigits B dig w (m % B ^ w) < fixedDigits B dig w (n % B ^ w)
        ↔ m % B ^ w < n % B ^ w := ih _ _ (Nat.mod_lt _ hpos) (Nat.mod_lt _ hpos)
    rw [ih']
    clear ih ih'
    have e1 := Nat.div_add_mod m (B ^ w)
    have e2 := Nat.div_add_mod n (B ^ w)
    have l1 := Nat.mod_lt m hpos
    have l2 := Nat.mod_lt n hpos
    generalize m / B ^ w = qm at *
    generalize n / B ^ w = qn at *
    generalize m % B ^ w = rm at *
    generalize n % B ^ w = rn at *
    subst e1 e2
    constructor
    · rintro (h | ⟨rfl, h⟩)
      · have : B ^ w * (qm + 1) ≤ B ^ w * qn := Nat.mul_le_mul_left _ h
        rw [Nat.mul_add, Nat.mul_one] at this
        omega
      · omega
    · intro h
      rcases Nat.lt_trichotomy qm qn with h1 | h1 | h1
      · exact Or.inl h1
      · subst h1; exact Or.inr ⟨rfl, by omega⟩
      · have : B ^ w * (qn + 1) ≤ B ^ w * qm := Nat.mul_le_mul_left _ h1
        rw [Nat.mul_add, Nat.mul_one] at this
        omega

theorem parseDigits_fixedDigits {val : UInt8 → Option Nat}
    (hB : 0 < B) (hval : ∀ d, d < B → val (dig d) = some d) (w n acc : Nat) (rest : Bytes) :
    parseDigits B val acc (fixedDigits B dig w n ++ rest)
      = parseDigits B val (acc * B ^ w + n % B ^ w) rest := by
  induction w generalizing acc with
  | zero => simp [fixedDigits, Nat.mod_one]
  | succ w ih =>
    simp only [fixedDigits, List.cons_append, parseDigits]
    rw [hval _ (Nat.mod_lt _ hB)]
    simp only
    rw [ih]
    congr 1
    rw [Nat.pow_succ, Nat.mod_mul, Nat.add_mul, Nat.mul_assoc, Nat.mul_comm B (B ^ w),
      Nat.mul_comm (n / B ^ w % B)]
    omega

end digits

theorem hexDigit_lt_iff (a b : Nat) (ha : a < 16) (hb : b < 16) :
    hexDigit a < hexDigit b ↔ a < b := by
  unfold hexDigit
  rw [UInt8.lt_iff_toNat_lt]
  split <;> split <;> simp only [UInt8.toNat_ofNat'] <;> omega

theorem hexVal_hexDigit (d : Nat) (hd : d < 16) : hexVal (hexDigit d) = some d := by
  unfold hexVal hexDigit
  split
  · simp only [UInt8.toNat_ofNat']
    rw [if_pos (by omega)]; congr 1; omega
  · simp only [UInt8.toNat_ofNat']
    rw [if_neg (by omega), if_pos (by omega)]; congr 1; omega

theorem hex16_lt_iff (a b : BitVec 64) : hex16 a < hex16 b ↔ a.toNat < b.toNat := by
  unfold hex16
  have h : (16:Nat) ^ 16 = 2 ^ 64 := by decide
  exact fixedDigits_lt_iff (by decide) hexDigit_lt_iff 16 _ _ (by rw [h]; exact a.isLt)
    (by rw [h]; exact b.isLt)

theorem stoull16_hex16 (a : BitVec 64) : stoull16 (hex16 a) = some a := by
  have h : (16:Nat) ^ 16 = 2 ^ 64 := by decide
  have hp : parseDigits 16 hexVal 0 (hex16 a) = a.toNat := by
    have := parseDigits_fixedDigits (B := 16) (dig := hexDigit) (val := hexVal) (by decide)
      hexVal_hexDigit 16 a.toNat 0 []
    rw [List.append_nil] at this
    unfold hex16
    rw [this]
    simp only [parseDigits, Nat.zero_mul, Nat.zero_add]
    rw [h, Nat.mod_eq_of_lt a.isLt]
  have hne : ∃ c cs, hex16 a = c :: cs ∧ (hexVal c).isSome := by
    refine ⟨_, _, rfl, ?_⟩
    rw [hexVal_hexDigit _ (Nat.mod_lt _ (by decide))]; rfl
  obtain ⟨c, cs, he, hc⟩ := hne
  have hc' : (hexVal c).isNone = false := by
    cases hv : hexVal c <;> simp_all
  unfold stoull16
  rw [he]
  simp only [hc', Bool.false_eq_true, if_false]
  rw [← he, hp, if_pos a.isLt]
  simp

theorem signBit_toNat : signBit.toNat = 2 ^ 63 := by decide

theorem toNat_xor_signBit (a : BitVec 64) :
    (a ^^^ signBit).toNat = if a.toNat < 2 ^ 63 then a.toNat + 2 ^ 63 else a.toNat - 2 ^ 63 := by
  rw [BitVec.toNat_xor, signBit_toNat]
  split
  · rename_i h
    have h2 := Nat.two_pow_add_eq_or_of_lt (i := 63) h 1
    have : a.toNat ^^^ 2 ^ 63 = 2 ^ 63 + a.toNat := by
      apply Nat.eq_of_testBit_eq
      intro i
      rw [Nat.mul_one] at h2
      rw [h2, Nat.testBit_xor, Nat.testBit_or]
      by_cases hi : i = 63
      · subst hi
        simp [Nat.testBit_lt_two_pow h]
      · simp [Nat.testBit_two_pow_of_ne (Ne.symm hi)]
    omega
  · rename_i h
    have hlt := a.isLt
    obtain ⟨r, hr⟩ : ∃ r, a.toNat = 2 ^ 63 + r := ⟨a.toNat - 2 ^ 63, by omega⟩
    have hr63 : r < 2 ^ 63 := by omega
    rw [hr]
    have h2 := Nat.two_pow_add_eq_or_of_lt (i := 63) hr63 1
    rw [Nat.mul_one] at h2
    have : (2 ^ 63 + r) ^^^ 2 ^ 63 = r := by
      apply Nat.eq_of_testBit_eq
      intro i
      rw [h2, Nat.testBit_xor, Nat.testBit_or]
      by_cases hi : i = 63
      · subst hi
        simp [Nat.testBit_lt_two_pow hr63]
      · simp [Nat.testBit_two_pow_of_ne (Ne.symm hi)]
    omega

theorem toNat_not64 (a : BitVec 64) : (~~~a).toNat = 2 ^ 64 - 1 - a.toNat := by
  rw [BitVec.toNat_not]

theorem shift63_ne_zero (a : BitVec 64) : (a >>> 63 ≠ 0) ↔ 2 ^ 63 ≤ a.toNat := by
  rw [Ne, ← BitVec.toNat_inj, BitVec.toNat_ushiftRight, Nat.shiftRight_eq_div_pow]
  have := a.isLt
  simp only [BitVec.ofNat_eq_ofNat, BitVec.toNat_ofNat]
  omega

/-- Sort key of a double: the number printed by `encode_double`. -/
def dblKey (b : Nat) : Nat := if 2 ^ 63 ≤ b then 2 ^ 64 - 1 - b else b + 2 ^ 63

theorem encodeDouble_eq (a : BitVec 64) :
    ∃ k : BitVec 64, encodeDouble a = hex16 k ∧ k.toNat = dblKey a.toNat := by
  unfold encodeDouble dblKey
  by_cases h : a >>> 63 ≠ 0
  · rw [if_pos h, if_pos ((shift63_ne_zero a).1 h)]
    exact ⟨_, rfl, toNat_not64 a⟩
  · rw [if_neg h, if_neg (fun h' => h ((shift63_ne_zero a).2 h'))]
    refine ⟨_, rfl, ?_⟩
    rw [toNat_xor_signBit, if_pos]
    have := mt (shift63_ne_zero a).2 h
    omega

open Spec in
theorem dblMag_strictMono {j k : Nat} (hk : k < 2 ^ 63) (h : j < k) : dblMag j < dblMag k := by
  unfold dblMag dblExp dblFrac
  have ej : j / 2 ^ 52 % 2 ^ 11 = j / 2 ^ 52 := Nat.mod_eq_of_lt (by omega)
  have ek : k / 2 ^ 52 % 2 ^ 11 = k / 2 ^ 52 := Nat.mod_eq_of_lt (by omega)
  rw [ej, ek]
  have hjf := Nat.mod_lt j (show 0 < 2 ^ 52 by decide)
  have hkf := Nat.mod_lt k (show 0 < 2 ^ 52 by decide)
  have djm := Nat.div_add_mod j (2 ^ 52)
  have dkm := Nat.div_add_mod k (2 ^ 52)
  generalize j / 2 ^ 52 = qj at *
  generalize k / 2 ^ 52 = qk at *
  generalize j % 2 ^ 52 = rj at *
  generalize k % 2 ^ 52 = rk at *
  have hq : qj ≤ qk := by omega
  by_cases hqe : qj = qk
  · subst hqe
    have : rj < rk := by omega
    split
    · exact this
    · exact Nat.mul_lt_mul_of_pos_right (by omega) (Nat.pow_pos (by decide))
  · have hlt : qj < qk := by omega
    have hk0 : qk ≠ 0 := by omega
    rw [if_neg hk0]
    split
    · have h1 : 1 ≤ 2 ^ (qk - 1) := Nat.pow_pos (by decide)
      calc rj < 2 ^ 52 * 1 := by omega
        _ ≤ (2 ^ 52 + rk) * 2 ^ (qk - 1) := Nat.mul_le_mul (by omega) h1
    · rename_i hj0
      have hp : 2 ^ qj ≤ 2 ^ (qk - 1) := Nat.pow_le_pow_right (by decide) (by omega)
      have hpe : 2 ^ qj = 2 ^ (qj - 1) * 2 := by rw [← Nat.pow_succ]; congr 1; omega
      have hpp : 0 < 2 ^ (qj - 1) := Nat.pow_pos (by decide)
      calc (2 ^ 52 + rj) * 2 ^ (qj - 1) < (2 ^ 52 * 2) * 2 ^ (qj - 1) :=
            Nat.mul_lt_mul_of_pos_right (by omega) hpp
        _ = 2 ^ 52 * 2 ^ qj := by rw [hpe, Nat.mul_assoc, Nat.mul_comm 2]
        _ ≤ (2 ^ 52 + rk) * 2 ^ (qk - 1) := Nat.mul_le_mul (by omega) hp

open Spec in
theorem dblMag_mod (b : Nat) : dblMag (b % 2 ^ 63) = dblMag b := by
  unfold dblMag dblExp dblFrac
  have h1 : b % 2 ^ 63 / 2 ^ 52 % 2 ^ 11 = b / 2 ^ 52 % 2 ^ 11 := by omega
  have h2 : b % 2 ^ 63 % 2 ^ 52 = b % 2 ^ 52 := by omega
  rw [h1, h2]

open Spec in
theorem dblMag_lt_iff {j k : Nat} (hj : j < 2 ^ 63) (hk : k < 2 ^ 63) :
    dblMag j < dblMag k ↔ j < k := by
  constructor
  · intro h
    rcases Nat.lt_trichotomy j k with h1 | h1 | h1
    · exact h1
    · subst h1; omega
    · have := dblMag_strictMono hj h1; omega
  · exact dblMag_strictMono hk

open Spec in
theorem dblMag_pos {k : Nat} (hk : k < 2 ^ 63) (h : 0 < k) : 0 < dblMag k := by
  have := dblMag_strictMono hk h
  have h0 : dblMag 0 = 0 := by decide
  omega

open Spec in
theorem dblNeg_iff {b : Nat} (hb : b < 2 ^ 64) : dblNeg b = true ↔ 2 ^ 63 ≤ b := by
  unfold dblNeg
  rw [beq_iff_eq]
  omega

open Spec in
/-- The sort key orders bit patterns by value, with `-0` immediately below `+0`. -/
theorem dblKey_lt_iff {a b : Nat} (ha : a < 2 ^ 64) (hb : b < 2 ^ 64) :
    dblKey a < dblKey b ↔ dblVal a < dblVal b ∨ (a = 2 ^ 63 ∧ b = 0) := by
  unfold dblKey dblVal
  rw [← dblMag_mod a, ← dblMag_mod b]
  have hma := Nat.mod_lt a (show 0 < 2 ^ 63 by decide)
  have hmb := Nat.mod_lt b (show 0 < 2 ^ 63 by decide)
  by_cases h1 : 2 ^ 63 ≤ a <;> by_cases h2 : 2 ^ 63 ≤ b
  · rw [if_pos h1, if_pos h2, if_pos ((dblNeg_iff ha).2 h1), if_pos ((dblNeg_iff hb).2 h2)]
    have := dblMag_lt_iff hmb hma
    omega
  · rw [if_pos h1, if_neg h2, if_pos ((dblNeg_iff ha).2 h1), if_neg (mt (dblNeg_iff hb).1 h2)]
    by_cases e1 : a % 2 ^ 63 = 0
    · by_cases e2 : b % 2 ^ 63 = 0
      · have h0 : dblMag 0 = 0 := by decide
        rw [e1, e2, h0]; omega
      · have := dblMag_pos hmb (by omega)
        omega
    · have := dblMag_pos hma (by omega)
      omega
  · rw [if_neg h1, if_pos h2, if_neg (mt (dblNeg_iff ha).1 h1), if_pos ((dblNeg_iff hb).2 h2)]
    omega
  · rw [if_neg h1, if_neg h2, if_neg (mt (dblNeg_iff ha).1 h1), if_neg (mt (dblNeg_iff hb).1 h2)]
    have := dblMag_lt_iff hma hmb
    omega

end Alaya
