import Verif.Model.RocksKeys
import Verif.Lemmas.Decimal
import Verif.Lemmas.KV
import Verif.Lemmas.Bytes

namespace Alaya

theorem cfg32_ok : cfg32.Ok := ⟨by decide, by decide, by decide⟩
theorem cfg64_ok : cfg64.Ok := ⟨by decide, by decide, by decide⟩

theorem IdCfg.bound_pos (c : IdCfg) : 0 < c.bound := Nat.pow_pos (by decide)

theorem dataKey_eq {c : IdCfg} (hc : c.Ok) {id : Nat} (h : id < c.bound) :
    dataKey c id = dataPre ++ fixedDigits 10 decDigit c.digits id := by
  have hp := pad_decStr c.digits id (Nat.lt_of_lt_of_le h hc.bound_digits) hc.digits_pos
  unfold dataKey
  simp only
  split
  · rename_i hl
    have : (decStr id).length = c.digits := by omega
    rw [← hp.2, this]; simp
  · rw [← hp.2, List.append_assoc]

theorem dataKey_lt_iff {c : IdCfg} (hc : c.Ok) {a b : Nat} (ha : a < c.bound) (hb : b < c.bound) :
    dataKey c a < dataKey c b ↔ a < b := by
  rw [dataKey_eq hc ha, dataKey_eq hc hb, append_lt_append_left]
  exact fixedDigits_lt_iff (by decide) decDigit_lt_iff _ _ _
    (Nat.lt_of_lt_of_le ha hc.bound_digits) (Nat.lt_of_lt_of_le hb hc.bound_digits)

theorem fixedDigits_dec_isSome (w n : Nat) : ∀ ch ∈ fixedDigits 10 decDigit w n, (decVal ch).isSome := by
  induction w with
  | zero => simp [fixedDigits]
  | succ w ih =>
    intro ch hch
    simp only [fixedDigits, List.mem_cons] at hch
    rcases hch with rfl | hch
    · rw [decVal_decDigit _ (Nat.mod_lt _ (by decide))]; rfl
    · exact ih ch hch

theorem parse_fixed {w n : Nat} (h : n < 10 ^ w) :
    parseDigits 10 decVal 0 (fixedDigits 10 decDigit w n) = n := by
  have := parseDigits_fixedDigits (B := 10) (dig := decDigit) (by decide) decVal_decDigit w n 0 []
  rw [List.append_nil] at this
  rw [this, Nat.mod_eq_of_lt h]; simp [parseDigits]

/-- Parsing `"d_"` followed by digits of value `n`. -/
theorem parseDataKey_digits {c : IdCfg} (hc : c.Ok) {ds : Bytes} {n : Nat} (hne : ds ≠ [])
    (hd : ∀ ch ∈ ds, (decVal ch).isSome) (hp : parseDigits 10 decVal 0 ds = n) (h : n < c.bound) :
    parseDataKey c (dataPre ++ ds) = .ok (some n) := by
  unfold parseDataKey
  rw [if_pos (by simp [dataPre])]
  have hdrop : (dataPre ++ ds).drop 2 = ds := by simp [dataPre]
  simp only [hdrop]
  rw [if_neg]
  · have hs : stoull10 ds = some n := by
      unfold stoull10
      cases ds with
      | nil => exact absurd rfl hne
      | cons x xs =>
        simp only
        have hx := hd x (by simp)
        rw [if_neg (by rw [Option.isNone_iff_eq_none]; intro hn; rw [hn] at hx; simp at hx), hp,
          if_pos (Nat.lt_of_lt_of_le h hc.bound_u64)]
    simp only [hs]
    rw [if_pos h]
  · rintro (h1 | h1)
    · exact hne h1
    · have : (ds.all fun ch => (decVal ch).isSome) = true := by
        rw [List.all_eq_true]; exact hd
      simp [this] at h1

theorem parseDataKey_dataKey {c : IdCfg} (hc : c.Ok) {id : Nat} (h : id < c.bound) :
    parseDataKey c (dataKey c id) = .ok (some id) := by
  rw [dataKey_eq hc h]
  apply parseDataKey_digits hc _ (fixedDigits_dec_isSome _ _)
    (parse_fixed (Nat.lt_of_lt_of_le h hc.bound_digits)) h
  intro h0
  have := congrArg List.length h0
  rw [fixedDigits_length] at this
  have := hc.digits_pos
  simp at *; omega

theorem parseDataKey_legacyKey {c : IdCfg} (hc : c.Ok) {id : Nat} (h : id < c.bound) :
    parseDataKey c (legacyKey id) = .ok (some id) :=
  parseDataKey_digits hc (decStr_ne_nil _) (decStr_isSome _) (parseDigits_decStr _) h

theorem dataKey_inj {c : IdCfg} (hc : c.Ok) {a b : Nat} (ha : a < c.bound) (hb : b < c.bound)
    (h : dataKey c a = dataKey c b) : a = b := by
  have := parseDataKey_dataKey hc ha
  rw [h, parseDataKey_dataKey hc hb] at this
  injection this with h1; injection h1 with h1; exact h1.symm

theorem legacyKey_inj {a b : Nat} (h : legacyKey a = legacyKey b) : a = b :=
  decStr_inj (List.append_cancel_left h)

theorem dataKey_legacyKey {c : IdCfg} (hc : c.Ok) {a b : Nat} (ha : a < c.bound) (hb : b < c.bound)
    (h : dataKey c a = legacyKey b) : a = b := by
  have := parseDataKey_dataKey hc ha
  rw [h, parseDataKey_legacyKey hc hb] at this
  injection this with h1; injection h1 with h1; exact h1.symm

/-! ### key classes are told apart by their first byte -/

theorem dataKey_head (c : IdCfg) (id : Nat) : (dataKey c id).head? = some 100 := by
  unfold dataKey; simp only; split <;> simp [dataPre]

theorem dataKey_prefix (c : IdCfg) (id : Nat) : dataPre <+: dataKey c id := by
  unfold dataKey; simp only; split
  · exact List.prefix_append _ _
  · rw [List.append_assoc]; exact List.prefix_append _ _

theorem legacyKey_head (id : Nat) : (legacyKey id).head? = some 100 := rfl
theorem itemKey_head (s : Bytes) : (itemKey s).head? = some 105 := rfl
theorem fieldIndexKey_head (f e : Bytes) (id : Nat) : (fieldIndexKey f e id).head? = some 102 := rfl
theorem countKey_head : countKey.head? = some 95 := rfl

theorem ne_of_head {a b : Bytes} {x y : UInt8} (ha : a.head? = some x) (hb : b.head? = some y) (h : x ≠ y) :
    a ≠ b := by
  rintro rfl; rw [ha] at hb; injection hb with hb; exact h hb

theorem itemKey_inj {a b : Bytes} (h : itemKey a = itemKey b) : a = b := List.append_cancel_left h

/-! ### last component -/

theorem rsplit_none {c : UInt8} {b : Bytes} (h : c ∉ b) : rsplit c b = none := by
  induction b with
  | nil => rfl
  | cons x b ih =>
    simp only [List.mem_cons, not_or] at h
    simp [rsplit, ih h.2, Ne.symm h.1]

theorem rsplit_append {c : UInt8} (a b : Bytes) (h : c ∉ b) :
    rsplit c (a ++ c :: b) = some (a, b) := by
  induction a with
  | nil => simp [rsplit, rsplit_none h]
  | cons x a ih => simp [rsplit, ih]

theorem us_not_mem_decStr (n : Nat) : us ∉ decStr n := by
  intro h
  obtain ⟨d, hd, he⟩ := decStr_digits n us h
  have := congrArg UInt8.toNat he
  rw [decDigit_toNat hd] at this
  simp [us] at this; omega

theorem rsplit_fieldIndexKey (f e : Bytes) (id : Nat) :
    rsplit us (fieldIndexKey f e id) = some (fieldPre ++ f ++ [us] ++ e, decStr id) := by
  unfold fieldIndexKey
  rw [List.append_assoc _ [us] (decStr id)]
  exact rsplit_append _ _ (us_not_mem_decStr id)

theorem extractId_fieldIndexKey {c : IdCfg} (hc : c.Ok) (f e : Bytes) {id : Nat} (h : id < c.bound) :
    extractId c (fieldIndexKey f e id) = some id := by
  unfold extractId
  rw [rsplit_fieldIndexKey]
  simp only [stoull10_decStr (Nat.lt_of_lt_of_le h hc.bound_u64), Option.map_some, Nat.mod_eq_of_lt h]

/-- Index keys of different ids never collide. -/
theorem fieldIndexKey_id_inj {f f' e e' : Bytes} {a b : Nat}
    (h : fieldIndexKey f e a = fieldIndexKey f' e' b) : a = b := by
  have h1 := rsplit_fieldIndexKey f e a
  rw [h, rsplit_fieldIndexKey] at h1
  injection h1 with h1
  exact (decStr_inj (congrArg Prod.snd h1)).symm

end Alaya
