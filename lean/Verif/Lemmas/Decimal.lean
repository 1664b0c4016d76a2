import Verif.Model.Decimal
import Verif.Lemmas.IndexEncoding

namespace Alaya

theorem decDigit_toNat {d : Nat} (h : d < 10) : (decDigit d).toNat = 48 + d := by
  unfold decDigit; rw [UInt8.toNat_ofNat']; omega

theorem decVal_decDigit (d : Nat) (h : d < 10) : decVal (decDigit d) = some d := by
  unfold decVal; rw [decDigit_toNat h, if_pos (by omega)]; congr 1; omega

theorem decDigit_lt_iff (a b : Nat) (ha : a < 10) (hb : b < 10) : decDigit a < decDigit b ↔ a < b := by
  rw [UInt8.lt_iff_toNat_lt, decDigit_toNat ha, decDigit_toNat hb]; omega

theorem decDigit_inj {a b : Nat} (ha : a < 10) (hb : b < 10) (h : decDigit a = decDigit b) : a = b := by
  have := congrArg UInt8.toNat h
  rw [decDigit_toNat ha, decDigit_toNat hb] at this; omega

theorem decFuel_stable (f g n : Nat) (hf : n < f) (hg : n < g) : decFuel f n = decFuel g n := by
  induction f generalizing g n with
  | zero => omega
  | succ f ih =>
    cases g with
    | zero => omega
    | succ g =>
      simp only [decFuel]
      by_cases h : n < 10
      · rw [if_pos h, if_pos h]
      · rw [if_neg h, if_neg h, ih g (n / 10) (by omega) (by omega)]

theorem decStr_lt {n : Nat} (h : n < 10) : decStr n = [decDigit n] := by
  simp [decStr, decFuel, h]

theorem decStr_ge {n : Nat} (h : ¬ n < 10) : decStr n = decStr (n / 10) ++ [decDigit (n % 10)] := by
  unfold decStr
  conv => lhs; unfold decFuel
  rw [if_neg h, decFuel_stable n (n / 10 + 1) (n / 10) (by omega) (by omega)]

theorem decStr_ne_nil (n : Nat) : decStr n ≠ [] := by
  by_cases h : n < 10
  · rw [decStr_lt h]; simp
  · rw [decStr_ge h]; simp

theorem decStr_digits (n : Nat) : ∀ c ∈ decStr n, ∃ d, d < 10 ∧ c = decDigit d := by
  induction n using Nat.strongRecOn with
  | _ n ih =>
    intro c hc
    by_cases h : n < 10
    · rw [decStr_lt h] at hc
      simp only [List.mem_singleton] at hc
      exact ⟨n, h, hc⟩
    · rw [decStr_ge h] at hc
      simp only [List.mem_append, List.mem_singleton] at hc
      rcases hc with hc | hc
      · exact ih (n / 10) (by omega) c hc
      · exact ⟨n % 10, by omega, hc⟩

theorem parseDigits_append {B : Nat} {val : UInt8 → Option Nat} (a b : Bytes) (acc : Nat)
    (h : ∀ c ∈ a, (val c).isSome) :
    parseDigits B val acc (a ++ b) = parseDigits B val (parseDigits B val acc a) b := by
  induction a generalizing acc with
  | nil => rfl
  | cons c a ih =>
    obtain ⟨d, hd⟩ := Option.isSome_iff_exists.1 (h c (by simp))
    simp only [List.cons_append, parseDigits, hd]
    exact ih _ (fun c hc => h c (by simp [hc]))

theorem decStr_isSome (n : Nat) : ∀ c ∈ decStr n, (decVal c).isSome := by
  intro c hc
  obtain ⟨d, hd, rfl⟩ := decStr_digits n c hc
  rw [decVal_decDigit d hd]; rfl

theorem parseDigits_decStr (n : Nat) : parseDigits 10 decVal 0 (decStr n) = n := by
  induction n using Nat.strongRecOn with
  | _ n ih =>
    by_cases h : n < 10
    · rw [decStr_lt h]; simp [parseDigits, decVal_decDigit n h]
    · rw [decStr_ge h, parseDigits_append _ _ _ (decStr_isSome _), ih (n / 10) (by omega)]
      simp only [parseDigits, decVal_decDigit (n % 10) (by omega)]
      omega

theorem stoull10_decStr {n : Nat} (h : n < 2 ^ 64) : stoull10 (decStr n) = some n := by
  have hne := decStr_ne_nil n
  have hp := parseDigits_decStr n
  have hs := decStr_isSome n
  unfold stoull10
  cases hd : decStr n with
  | nil => exact absurd hd hne
  | cons c cs =>
    simp only
    have hc := hs c (by rw [hd]; simp)
    rw [if_neg (by intro hn; rw [Option.isNone_iff_eq_none] at hn; rw [hn] at hc; exact absurd hc (by simp)), ← hd, hp, if_pos h]

theorem decStr_inj {a b : Nat} (h : decStr a = decStr b) : a = b := by
  rw [← parseDigits_decStr a, h, parseDigits_decStr]

/-- Digit strings with the last digit split off. -/
theorem fixedDigits_snoc {B : Nat} {dig : Nat → UInt8} (w n : Nat) :
    fixedDigits B dig (w + 1) n = fixedDigits B dig w (n / B) ++ [dig (n % B)] := by
  induction w with
  | zero => simp [fixedDigits]
  | succ w ih =>
    conv => lhs; unfold fixedDigits
    rw [ih]
    simp only [fixedDigits, List.cons_append]
    congr 3
    rw [Nat.pow_succ, Nat.mul_comm, Nat.div_div_eq_div_mul]

theorem fixedDigits_zero {B : Nat} {dig : Nat → UInt8} (w : Nat) :
    fixedDigits B dig w 0 = List.replicate w (dig 0) := by
  induction w with
  | zero => rfl
  | succ w ih => simp [fixedDigits, ih, List.replicate_succ]

/-- Zero padding of `to_string`. -/
theorem pad_decStr (w n : Nat) (h : n < 10 ^ w) (hw : 0 < w) :
    (decStr n).length ≤ w ∧
      List.replicate (w - (decStr n).length) (decDigit 0) ++ decStr n = fixedDigits 10 decDigit w n := by
  induction w generalizing n with
  | zero => omega
  | succ w ih =>
    rw [fixedDigits_snoc]
    by_cases h10 : n < 10
    · rw [decStr_lt h10, Nat.div_eq_of_lt h10, fixedDigits_zero, Nat.mod_eq_of_lt h10]
      simp
    · have hw' : 0 < w := by
        rcases Nat.eq_zero_or_pos w with h0 | h0
        · subst h0; omega
        · exact h0
      have := ih (n / 10) (by rw [Nat.pow_succ] at h; omega) hw'
      rw [decStr_ge h10]
      simp only [List.length_append, List.length_cons, List.length_nil]
      refine ⟨by omega, ?_⟩
      rw [← this.2]
      simp only [List.append_assoc]
      congr 2
      omega

theorem decStr_length_gt {w n : Nat} (h : 10 ^ w ≤ n) : w < (decStr n).length := by
  induction w generalizing n with
  | zero =>
    exact List.length_pos_iff.2 (decStr_ne_nil n)
  | succ w ih =>
    rw [Nat.pow_succ] at h
    have hp : 0 < 10 ^ w := Nat.pow_pos (by decide)
    have h10 : ¬ n < 10 := by omega
    rw [decStr_ge h10]
    have := ih (n := n / 10) (by omega)
    simp; exact this

/-- A decimal number has no leading zero unless it is 0. -/
theorem decStr_head (n : Nat) (hn : n ≠ 0) : ∃ d, d ≠ 0 ∧ d < 10 ∧ (decStr n).head? = some (decDigit d) := by
  induction n using Nat.strongRecOn with
  | _ n ih =>
    by_cases h : n < 10
    · exact ⟨n, hn, h, by rw [decStr_lt h]; rfl⟩
    · obtain ⟨d, h1, h2, h3⟩ := ih (n / 10) (by omega) (by omega)
      refine ⟨d, h1, h2, ?_⟩
      rw [decStr_ge h, List.head?_append, h3]; rfl

end Alaya
