import Verif.Model.FilterMatcher
import Verif.Lemmas.FieldIndex
import Verif.Lemmas.Bitsets
import Verif.Props.C05

namespace Alaya
open Spec

/-! ### doubles -/

/-- Finite double. -/
def dblFinite (b : BitVec 64) : Prop := dblExp b.toNat ≠ 2047

instance (b : BitVec 64) : Decidable (dblFinite b) := by unfold dblFinite; infer_instance

theorem encodeDouble_lt_key (a b : BitVec 64) :
    encodeDouble a < encodeDouble b ↔ dblKey a.toNat < dblKey b.toNat := by
  obtain ⟨ka, ha, hka⟩ := encodeDouble_eq a
  obtain ⟨kb, hb, hkb⟩ := encodeDouble_eq b
  rw [ha, hb, hex16_lt_iff, hka, hkb]

theorem dblKey_of_pos {b : Nat} (h : b < 2 ^ 63) : dblKey b = b + 2 ^ 63 := by
  unfold dblKey; exact if_neg (by omega)

theorem dblKey_of_neg {b : Nat} (h : 2 ^ 63 ≤ b) : dblKey b = 2 ^ 64 - 1 - b := by
  unfold dblKey; exact if_pos h

theorem finite_notNaN {b : BitVec 64} (h : dblFinite b) : ¬ dblIsNaN b.toNat := fun hn => h hn.1

theorem dblMax_toNat : dblMax.toNat = 0x7FEFFFFFFFFFFFFF := by decide
theorem dblLowest_toNat : dblLowest.toNat = 0xFFEFFFFFFFFFFFFF := by decide
theorem dblMax_notNaN : ¬ dblIsNaN dblMax.toNat := by decide
theorem dblLowest_notNaN : ¬ dblIsNaN dblLowest.toNat := by decide

theorem finite_bits {b : BitVec 64} (h : dblFinite b) :
    (b.toNat < 2 ^ 63 → b.toNat ≤ 0x7FEFFFFFFFFFFFFF) ∧ (2 ^ 63 ≤ b.toNat → b.toNat ≤ 0xFFEFFFFFFFFFFFFF) := by
  unfold dblFinite dblExp at h
  have := b.isLt
  constructor <;> intro h2 <;> omega

theorem finite_key {b : BitVec 64} (h : dblFinite b) :
    dblKey dblLowest.toNat ≤ dblKey b.toNat ∧ dblKey b.toNat ≤ dblKey dblMax.toNat := by
  have hb := finite_bits h
  rw [dblMax_toNat, dblLowest_toNat]
  have := b.isLt
  have e1 : dblKey 0xFFEFFFFFFFFFFFFF = 4503599627370496 := by decide
  have e2 : dblKey 0x7FEFFFFFFFFFFFFF = 18442240474082181119 := by decide
  rw [e1, e2]
  unfold dblKey
  by_cases h2 : 2 ^ 63 ≤ b.toNat
  · rw [if_pos h2]; omega
  · rw [if_neg h2]; omega

theorem dblKey_inj {a b : BitVec 64} (h : dblKey a.toNat = dblKey b.toNat) : a = b := by
  apply encodeDouble_inj
  have h1 := encodeDouble_lt_key a b
  have h2 := encodeDouble_lt_key b a
  rcases blt_tri (encodeDouble a) (encodeDouble b) with h3 | h3 | h3
  · have := h1.1 h3; omega
  · exact h3
  · have := h2.1 h3; omega

theorem key_lt_val (a b : BitVec 64) :
    dblKey a.toNat < dblKey b.toNat ↔ dblVal a.toNat < dblVal b.toNat ∨
      (a = 0x8000000000000000#64 ∧ b = 0#64) := by
  rw [← encodeDouble_lt_key, C02_encode_double_lt_iff]

/-- Among bit patterns other than `-0`, the key order is the numeric order. -/
theorem key_lt_val' {a b : BitVec 64} (ha : a ≠ 0x8000000000000000#64) :
    dblKey a.toNat < dblKey b.toNat ↔ dblVal a.toNat < dblVal b.toNat := by
  rw [key_lt_val]; simp [ha]

theorem val_eq_iff {a b : BitVec 64} (ha : a ≠ 0x8000000000000000#64) (hb : b ≠ 0x8000000000000000#64) :
    dblVal a.toNat = dblVal b.toNat ↔ a = b := by
  constructor
  · intro h
    apply dblKey_inj
    have h1 := key_lt_val' (b := b) ha
    have h2 := key_lt_val' (b := a) hb
    omega
  · rintro rfl; rfl

theorem dblVal_zero : dblVal (0#64).toNat = 0 := by decide

theorem dblKey_zero : dblKey (0#64).toNat = 2 ^ 63 := by decide
theorem dblKey_negzero : dblKey (0x8000000000000000#64).toNat = 2 ^ 63 - 1 := by decide

/-- `nextafter` towards `max` is the next key. -/
theorem nextafter_up {v : BitVec 64} (hf : dblFinite v) (hz : v ≠ 0x8000000000000000#64) (hm : v ≠ dblMax) :
    dblKey (nextafter v dblMax).toNat = dblKey v.toNat + 1 := by
  have hb := finite_bits hf
  have hk := finite_key hf
  have hmz : dblMax ≠ 0x8000000000000000#64 := by decide
  have hlt : dblVal v.toNat < dblVal dblMax.toNat := by
    rw [← key_lt_val' hz]
    rcases Nat.lt_or_eq_of_le hk.2 with h | h
    · exact h
    · exact absurd (dblKey_inj h) hm
  have hvlt := v.isLt
  have hvm : v.toNat ≠ 0x7FEFFFFFFFFFFFFF := by
    intro h; apply hm; apply BitVec.eq_of_toNat_eq; rw [h, dblMax_toNat]
  have hvz : v.toNat ≠ 2 ^ 63 := by
    intro h; apply hz; apply BitVec.eq_of_toNat_eq; rw [h]; decide
  unfold nextafter
  rw [if_neg (finite_notNaN hf), if_neg dblMax_notNaN, if_neg (fun h => by have := h.2.2; omega)]
  by_cases h0 : dblVal v.toNat = 0
  · rw [if_pos h0, if_neg (by decide)]
    have : v = 0#64 := (val_eq_iff hz (by decide)).1 (by rw [h0, dblVal_zero])
    subst this; decide
  · rw [if_neg h0]
    have hz0 := dblVal_zero
    by_cases hpos : 0 < dblVal v.toNat
    · rw [if_pos ⟨fun _ => hpos, fun _ => hlt⟩]
      have hk0 : dblKey (0#64).toNat < dblKey v.toNat := (key_lt_val' (by decide)).2 (by omega)
      rw [dblKey_zero] at hk0
      have hneg : v.toNat < 2 ^ 63 := by
        unfold dblKey at hk0; split at hk0 <;> omega
      have hle := hb.1 hneg
      have hadd : (v + 1#64).toNat = v.toNat + 1 := by
        rw [BitVec.toNat_add]; simp; omega
      rw [hadd]
      have k1 := dblKey_of_pos hneg
      have k2 : dblKey (v.toNat + 1) = _ := dblKey_of_pos (by omega)
      omega
    · rw [if_neg (fun h => hpos (h.1 hlt))]
      have hk0 : dblKey v.toNat < dblKey (0#64).toNat := (key_lt_val' hz).2 (by omega)
      rw [dblKey_zero] at hk0
      have hneg : 2 ^ 63 ≤ v.toNat := by
        unfold dblKey at hk0; split at hk0 <;> omega
      have hsub : (v - 1#64).toNat = v.toNat - 1 := by
        rw [BitVec.toNat_sub]; simp; omega
      rw [hsub]
      have k1 := dblKey_of_neg hneg
      have k2 : dblKey (v.toNat - 1) = _ := dblKey_of_neg (by omega)
      omega

/-- `nextafter` towards `lowest` is the previous key, skipping `-0` when starting at `+0`. -/
theorem nextafter_down {v : BitVec 64} (hf : dblFinite v) (hz : v ≠ 0x8000000000000000#64) (hm : v ≠ dblLowest) :
    (v ≠ 0#64 → dblKey (nextafter v dblLowest).toNat + 1 = dblKey v.toNat) ∧
    (v = 0#64 → dblKey (nextafter v dblLowest).toNat = 2 ^ 63 - 2) := by
  have hb := finite_bits hf
  have hk := finite_key hf
  have hmz : dblLowest ≠ 0x8000000000000000#64 := by decide
  have hlt : dblVal dblLowest.toNat < dblVal v.toNat := by
    rw [← key_lt_val' hmz]
    rcases Nat.lt_or_eq_of_le hk.1 with h | h
    · exact h
    · exact absurd (dblKey_inj h).symm hm
  have hvlt := v.isLt
  have hvm : v.toNat ≠ 0xFFEFFFFFFFFFFFFF := by
    intro h; apply hm; apply BitVec.eq_of_toNat_eq; rw [h, dblLowest_toNat]
  have hvz : v.toNat ≠ 2 ^ 63 := by
    intro h; apply hz; apply BitVec.eq_of_toNat_eq; rw [h]; decide
  have hnl : ¬ dblVal v.toNat < dblVal dblLowest.toNat := by omega
  unfold nextafter
  rw [if_neg (finite_notNaN hf), if_neg dblLowest_notNaN, if_neg (fun h => by have := h.2.2; omega)]
  by_cases h0 : dblVal v.toNat = 0
  · rw [if_pos h0, if_pos (by decide)]
    have : v = 0#64 := (val_eq_iff hz (by decide)).1 (by rw [h0, dblVal_zero])
    subst this
    exact ⟨fun h => absurd rfl h, fun _ => by decide⟩
  · rw [if_neg h0]
    have hz0 := dblVal_zero
    have hv0 : v ≠ 0#64 := by rintro rfl; exact h0 hz0
    refine ⟨fun _ => ?_, fun h => absurd h hv0⟩
    by_cases hpos : 0 < dblVal v.toNat
    · rw [if_neg (fun h => hnl (h.2 hpos))]
      have hk0 : dblKey (0#64).toNat < dblKey v.toNat := (key_lt_val' (by decide)).2 (by omega)
      rw [dblKey_zero] at hk0
      have hneg : v.toNat < 2 ^ 63 := by
        unfold dblKey at hk0; split at hk0 <;> omega
      have h1 : v.toNat ≠ 0 := by
        intro h; apply hv0; apply BitVec.eq_of_toNat_eq; rw [h]; rfl
      have hsub : (v - 1#64).toNat = v.toNat - 1 := by
        rw [BitVec.toNat_sub]; simp; omega
      rw [hsub]
      have k1 := dblKey_of_pos hneg
      have k2 : dblKey (v.toNat - 1) = _ := dblKey_of_pos (by omega)
      omega
    · rw [if_pos ⟨fun h => absurd h hnl, fun h => absurd h hpos⟩]
      have hk0 : dblKey v.toNat < dblKey (0#64).toNat := (key_lt_val' hz).2 (by omega)
      rw [dblKey_zero] at hk0
      have hneg : 2 ^ 63 ≤ v.toNat := by
        unfold dblKey at hk0; split at hk0 <;> omega
      have hle := hb.2 hneg
      have hadd : (v + 1#64).toNat = v.toNat + 1 := by
        rw [BitVec.toNat_add]; simp; omega
      rw [hadd]
      have k1 := dblKey_of_neg hneg
      have k2 : dblKey (v.toNat + 1) = _ := dblKey_of_neg (by omega)
      omega

/-! ### conditions on which index and evaluation agree -/

/-- A number for which byte order and IEEE order agree: finite and not `-0`. Other types are unrestricted. -/
def SafeVal : MetaValue → Prop
  | .double b => dblFinite b ∧ b ≠ 0x8000000000000000#64
  | _ => True

instance (v : MetaValue) : Decidable (SafeVal v) := by
  cases v <;> simp only [SafeVal] <;> infer_instance

/-- The stored value does not continue the searched string with an underscore. -/
def NoContinuation (v w : MetaValue) : Prop :=
  match v, w with
  | .string a, .string b => ¬ (a ++ [us] <+: b)
  | _, _ => True

instance (v w : MetaValue) : Decidable (NoContinuation v w) := by
  unfold NoContinuation; split <;> infer_instance

/-- Condition values for which the index lookup is exact with respect to `FilterCondition::evaluate` on
records with field values satisfying `SafeVal`. -/
def SafeCond (cond : FilterCond) : Prop :=
  match cond.op with
  | .eq => SafeVal cond.value
  | .inSet => ∀ v ∈ cond.values, SafeVal v
  | .ge => SafeVal cond.value
  | .le => SafeVal cond.value
  | .gt => SafeVal cond.value ∧ cond.value ≠ .double dblMax
  | .lt => SafeVal cond.value ∧ cond.value ≠ .double dblLowest
  | _ => True

/-- Values searched for by equality. -/
def eqTargets (cond : FilterCond) : List MetaValue :=
  match cond.op with
  | .eq => [cond.value]
  | .inSet => cond.values
  | _ => []

/-- Stored records are unproblematic for the condition. -/
def SafeRecs (m : RecordMap) (cond : FilterCond) : Prop :=
  ∀ id r w, m.get id = some r → r.metadata.get cond.field = some w →
    SafeVal w ∧ ∀ v ∈ eqTargets cond, NoContinuation v w

theorem hit_iff_eqv {v w : MetaValue} (hv : SafeVal v) (hw : SafeVal w) (hn : NoContinuation v w) :
    IndexHit v w ↔ w.eqv v = true := by
  constructor
  · rintro (rfl | ⟨a, b, rfl, rfl, h⟩)
    · cases w with
      | double b =>
        simp only [MetaValue.eqv, decide_eq_true_eq]
        exact ⟨finite_notNaN hw.1, finite_notNaN hw.1, rfl⟩
      | int b => simp [MetaValue.eqv]
      | string b => simp [MetaValue.eqv]
      | bool b => simp [MetaValue.eqv]
    · exact absurd h hn
  · intro h
    left
    cases w <;> cases v <;> simp only [MetaValue.eqv, beq_iff_eq, decide_eq_true_eq, Bool.false_eq_true] at h
    · rw [h]
    · rw [(val_eq_iff hw.2 hv.2).1 h.2.2]
    · rw [h]
    · rw [h]

theorem eqv_symm (v w : MetaValue) : v.eqv w = w.eqv v := by
  cases v <;> cases w <;> simp only [MetaValue.eqv]
  · exact BEq.comm
  · apply Bool.eq_iff_iff.2
    rw [decide_eq_true_eq, decide_eq_true_eq]
    constructor <;> (rintro ⟨h1, h2, h3⟩; exact ⟨h2, h1, h3.symm⟩)
  · exact BEq.comm
  · exact BEq.comm

theorem inSetIds_spec {cfg : StoreCfg} (hc : cfg.id.Ok) {kv : KV} {m : RecordMap} (h : Rel cfg kv m)
    {f : Bytes} (hs : FieldSep cfg.fields f) (vs : List MetaValue) :
    ∃ l, inSetIds cfg.id kv f vs = some l ∧
      ∀ id, id ∈ l ↔ f ∈ cfg.fields ∧ ∃ r w, m.get id = some r ∧ r.metadata.get f = some w ∧
        ∃ v ∈ vs, IndexHit v w := by
  induction vs with
  | nil => exact ⟨[], rfl, by simp⟩
  | cons v vs ih =>
    obtain ⟨l1, h1, _, h2⟩ := idsByFieldValue_spec hc h hs v
    obtain ⟨l2, h3, h4⟩ := ih
    refine ⟨l1 ++ l2, by simp [inSetIds, h1, h3], ?_⟩
    intro id
    rw [List.mem_append, h2, h4]
    constructor
    · rintro (⟨hf, r, w, e1, e2, e3⟩ | ⟨hf, r, w, e1, e2, v', e3, e4⟩)
      · exact ⟨hf, r, w, e1, e2, v, by simp, e3⟩
      · exact ⟨hf, r, w, e1, e2, v', by simp [e3], e4⟩
    · rintro ⟨hf, r, w, e1, e2, v', e3, e4⟩
      rcases List.mem_cons.1 e3 with rfl | e3
      · exact Or.inl ⟨hf, r, w, e1, e2, e4⟩
      · exact Or.inr ⟨hf, r, w, e1, e2, v', e3, e4⟩

theorem uniqueAdj_spec (l : List Nat) (h : l.Pairwise (· ≤ ·)) :
    (uniqueAdj l).Pairwise (· < ·) ∧ (∀ x, x ∈ uniqueAdj l ↔ x ∈ l) := by
  induction l with
  | nil => exact ⟨List.Pairwise.nil, by simp [uniqueAdj]⟩
  | cons a l ih =>
    cases l with
    | nil => exact ⟨by simp [uniqueAdj], by simp [uniqueAdj]⟩
    | cons b l =>
      rw [List.pairwise_cons] at h
      obtain ⟨i1, i2⟩ := ih h.2
      simp only [uniqueAdj]
      by_cases hab : a = b
      · rw [if_pos hab]
        refine ⟨i1, ?_⟩
        intro x
        rw [i2]; subst hab; simp
      · rw [if_neg hab]
        refine ⟨?_, ?_⟩
        · rw [List.pairwise_cons]
          refine ⟨?_, i1⟩
          intro x hx
          rw [i2] at hx
          have h1 := h.1 b (by simp)
          rcases List.mem_cons.1 hx with rfl | hx
          · omega
          · have := (List.pairwise_cons.1 h.2).1 x hx
            omega
        · intro x; rw [List.mem_cons, i2]; simp

theorem sort_unique_spec (l : List Nat) :
    (uniqueAdj (l.mergeSort fun a b => decide (a ≤ b))).Nodup ∧
      ∀ x, x ∈ uniqueAdj (l.mergeSort fun a b => decide (a ≤ b)) ↔ x ∈ l := by
  have hp : (l.mergeSort fun a b => decide (a ≤ b)).Pairwise (· ≤ ·) := by
    have := List.pairwise_mergeSort (le := fun a b : Nat => decide (a ≤ b))
      (fun a b c h1 h2 => by simp at *; omega) (fun a b => by simp; omega) l
    exact this.imp (by intro a b h; simpa using h)
  obtain ⟨h1, h2⟩ := uniqueAdj_spec _ hp
  refine ⟨h1.imp (fun h => Nat.ne_of_lt h), ?_⟩
  intro x
  rw [h2, List.mem_mergeSort]

theorem double_cmp {w v : BitVec 64} (hw : dblFinite w) (hv : dblFinite v) :
    ((MetaValue.double w).ltv (.double v) = true ↔ dblVal w.toNat < dblVal v.toNat) := by
  simp only [MetaValue.ltv, decide_eq_true_eq]
  exact ⟨fun h => h.2.2, fun h => ⟨finite_notNaN hw, finite_notNaN hv, h⟩⟩

theorem int_cmp {w v : BitVec 64} : ((MetaValue.int w).ltv (.int v) = true ↔ w.toInt < v.toInt) := by
  simp only [MetaValue.ltv, decide_eq_true_eq]

/-- Meaning of the four order operators through `compare`. -/
theorem cond_order {cond : FilterCond} {mm : MetaMap} {w : MetaValue} (hw : mm.get cond.field = some w)
    (hi : w.index = cond.value.index) (hasym : w.ltv cond.value = true → cond.value.ltv w = true → False) :
    (cond.op = .ge → (cond.eval mm = true ↔ ¬ w.ltv cond.value = true)) ∧
    (cond.op = .gt → (cond.eval mm = true ↔ cond.value.ltv w = true)) ∧
    (cond.op = .le → (cond.eval mm = true ↔ ¬ cond.value.ltv w = true)) ∧
    (cond.op = .lt → (cond.eval mm = true ↔ w.ltv cond.value = true)) := by
  have hcmp : compareValues w cond.value = if w.ltv cond.value then some (-1) else if cond.value.ltv w
      then some 1 else some 0 := by
    unfold compareValues; rw [if_neg (by simp [hi])]
  refine ⟨?_, ?_, ?_, ?_⟩ <;> intro ho <;> unfold FilterCond.eval <;> rw [hw, ho] <;> simp only <;> rw [hcmp] <;>
    by_cases h1 : w.ltv cond.value = true <;> by_cases h2 : cond.value.ltv w = true <;>
    first
    | exact absurd h2 (fun h2 => hasym h1 h2)
    | simp [h1, h2]

theorem cond_type_mismatch {cond : FilterCond} {mm : MetaMap} {w : MetaValue} (hw : mm.get cond.field = some w)
    (hi : w.index ≠ cond.value.index)
    (ho : cond.op = .ge ∨ cond.op = .gt ∨ cond.op = .le ∨ cond.op = .lt) : cond.eval mm = false := by
  have hcmp : compareValues w cond.value = none := by unfold compareValues; rw [if_pos hi]
  unfold FilterCond.eval
  rcases ho with ho | ho | ho | ho <;> rw [hw, ho] <;> simp only <;> rw [hcmp]

theorem toInt_add_one {v : BitVec 64} (h : v ≠ intMax) : (v + 1#64).toInt = v.toInt + 1 := by
  have hlt := v.isLt
  have hne : v.toNat ≠ 2 ^ 63 - 1 := by
    intro he; apply h; apply BitVec.eq_of_toNat_eq; rw [he]; decide
  rw [BitVec.toInt_eq_toNat_cond, BitVec.toInt_eq_toNat_cond, BitVec.toNat_add]
  simp only [BitVec.toNat_ofNat]
  split <;> split <;> omega

theorem toInt_sub_one {v : BitVec 64} (h : v ≠ intMin) : (v - 1#64).toInt = v.toInt - 1 := by
  have hlt := v.isLt
  have hne : v.toNat ≠ 2 ^ 63 := by
    intro he; apply h; apply BitVec.eq_of_toNat_eq; rw [he]; decide
  rw [BitVec.toInt_eq_toNat_cond, BitVec.toInt_eq_toNat_cond, BitVec.toNat_sub]
  simp only [BitVec.toNat_ofNat]
  split <;> split <;> omega

theorem intMax_ge (v : BitVec 64) : v.toInt ≤ intMax.toInt := by
  have h1 : intMax.toInt = 2 ^ 63 - 1 := by decide
  have := v.isLt
  rw [h1, BitVec.toInt_eq_toNat_cond]
  split <;> omega

theorem intMin_le (v : BitVec 64) : intMin.toInt ≤ v.toInt := by
  have h1 : intMin.toInt = -2 ^ 63 := by decide
  have := v.isLt
  rw [h1, BitVec.toInt_eq_toNat_cond]
  split <;> omega

/-- Evaluation of a condition on the record of an id. -/
def condSel (m : RecordMap) (cond : FilterCond) (id : Nat) : Prop :=
  ∃ r, m.get id = some r ∧ cond.eval r.metadata = true

theorem lookup_int_range {cfg : StoreCfg} (hc : cfg.id.Ok) {kv : KV} {m : RecordMap} (h : Rel cfg kv m)
    {cond : FilterCond} {v : BitVec 64} (hs : FieldSep cfg.fields cond.field) (hf : cond.field ∈ cfg.fields)
    (hval : cond.value = .int v) (lo hi : BitVec 64)
    (ho : cond.op = .ge ∨ cond.op = .gt ∨ cond.op = .le ∨ cond.op = .lt)
    (hx : ∀ x : BitVec 64, (lo.toInt ≤ x.toInt ∧ x.toInt ≤ hi.toInt) ↔
      ((cond.op = .ge → v.toInt ≤ x.toInt) ∧ (cond.op = .gt → v.toInt < x.toInt) ∧
       (cond.op = .le → x.toInt ≤ v.toInt) ∧ (cond.op = .lt → x.toInt < v.toInt))) :
    ∃ l, idsByIntRange cfg.id kv cond.field lo hi = some l ∧ l.Nodup ∧ ∀ id, id ∈ l ↔ condSel m cond id := by
  obtain ⟨l, h1, h2, h3⟩ := idsByIntRange_spec hc h hs lo hi
  refine ⟨l, h1, h2, ?_⟩
  intro id
  rw [h3]
  have hev : ∀ (r : ScalarData) (x : BitVec 64), r.metadata.get cond.field = some (.int x) →
      (cond.eval r.metadata = true ↔ lo.toInt ≤ x.toInt ∧ x.toInt ≤ hi.toInt) := by
    intro r x hg
    have hco := cond_order (cond := cond) hg (by rw [hval]; rfl) (by
      rw [hval, int_cmp, int_cmp]; omega)
    rw [hval, int_cmp, int_cmp] at hco
    rw [hx]
    rcases ho with ho | ho | ho | ho
    · rw [hco.1 ho]; simp [ho]
    · rw [hco.2.1 ho]; simp [ho]
    · rw [hco.2.2.1 ho]; simp [ho]
    · rw [hco.2.2.2 ho]; simp [ho]
  constructor
  · rintro ⟨_, r, x, e1, e2, e3⟩
    exact ⟨r, e1, (hev r x e2).2 e3⟩
  · rintro ⟨r, e1, e2⟩
    cases hg : r.metadata.get cond.field with
    | none => unfold FilterCond.eval at e2; rw [hg] at e2; simp at e2
    | some w =>
      cases w with
      | int x => exact ⟨hf, r, x, e1, hg, (hev r x hg).1 e2⟩
      | double x => rw [cond_type_mismatch hg (by rw [hval]; simp [MetaValue.index]) ho] at e2; simp at e2
      | string x => rw [cond_type_mismatch hg (by rw [hval]; simp [MetaValue.index]) ho] at e2; simp at e2
      | bool x => rw [cond_type_mismatch hg (by rw [hval]; simp [MetaValue.index]) ho] at e2; simp at e2

theorem lookup_double_range {cfg : StoreCfg} (hc : cfg.id.Ok) {kv : KV} {m : RecordMap} (h : Rel cfg kv m)
    {cond : FilterCond} {v : BitVec 64} (hs : FieldSep cfg.fields cond.field) (hf : cond.field ∈ cfg.fields)
    (hval : cond.value = .double v) (hv : dblFinite v) (lo hi : BitVec 64)
    (ho : cond.op = .ge ∨ cond.op = .gt ∨ cond.op = .le ∨ cond.op = .lt) (hr : SafeRecs m cond)
    (hx : ∀ x : BitVec 64, dblFinite x → x ≠ 0x8000000000000000#64 →
      ((¬ dblKey x.toNat < dblKey lo.toNat ∧ ¬ dblKey hi.toNat < dblKey x.toNat) ↔
      ((cond.op = .ge → dblVal v.toNat ≤ dblVal x.toNat) ∧ (cond.op = .gt → dblVal v.toNat < dblVal x.toNat) ∧
       (cond.op = .le → dblVal x.toNat ≤ dblVal v.toNat) ∧ (cond.op = .lt → dblVal x.toNat < dblVal v.toNat)))) :
    ∃ l, idsByDoubleRange cfg.id kv cond.field lo hi = some l ∧ l.Nodup ∧ ∀ id, id ∈ l ↔ condSel m cond id := by
  obtain ⟨l, h1, h2, h3⟩ := idsByDoubleRange_spec hc h hs lo hi
  refine ⟨l, h1, h2, ?_⟩
  intro id
  rw [h3]
  have hev : ∀ (r : ScalarData) (x : BitVec 64), m.get id = some r →
      r.metadata.get cond.field = some (.double x) →
      (cond.eval r.metadata = true ↔ ¬ encodeDouble x < encodeDouble lo ∧ ¬ encodeDouble hi < encodeDouble x) := by
    intro r x hm hg
    have hsx : SafeVal (.double x) := (hr id r _ hm hg).1
    have hco := cond_order (cond := cond) hg (by rw [hval]; rfl) (by
      rw [hval, double_cmp hsx.1 hv, double_cmp hv hsx.1]; omega)
    rw [hval, double_cmp hsx.1 hv, double_cmp hv hsx.1] at hco
    rw [encodeDouble_lt_key, encodeDouble_lt_key, hx x hsx.1 hsx.2]
    rcases ho with ho | ho | ho | ho
    · rw [hco.1 ho]; simp [ho]
    · rw [hco.2.1 ho]; simp [ho]
    · rw [hco.2.2.1 ho]; simp [ho]
    · rw [hco.2.2.2 ho]; simp [ho]
  constructor
  · rintro ⟨_, r, x, e1, e2, e3⟩
    exact ⟨r, e1, (hev r x e1 e2).2 e3⟩
  · rintro ⟨r, e1, e2⟩
    cases hg : r.metadata.get cond.field with
    | none => unfold FilterCond.eval at e2; rw [hg] at e2; simp at e2
    | some w =>
      cases w with
      | double x => exact ⟨hf, r, x, e1, hg, (hev r x e1 hg).1 e2⟩
      | int x => rw [cond_type_mismatch hg (by rw [hval]; simp [MetaValue.index]) ho] at e2; simp at e2
      | string x => rw [cond_type_mismatch hg (by rw [hval]; simp [MetaValue.index]) ho] at e2; simp at e2
      | bool x => rw [cond_type_mismatch hg (by rw [hval]; simp [MetaValue.index]) ho] at e2; simp at e2

/-- The index lookup, when it is used, returns exactly the ids of the records that satisfy the condition. -/
theorem lookup_spec {cfg : StoreCfg} (hc : cfg.id.Ok) {kv : KV} {m : RecordMap} (h : Rel cfg kv m)
    {cond : FilterCond} (hs : FieldSep cfg.fields cond.field) (hsafe : SafeCond cond) (hr : SafeRecs m cond) :
    lookupIndexed cfg kv cond = some none ∨
    ∃ l, lookupIndexed cfg kv cond = some (some l) ∧ l.Nodup ∧ ∀ id, id ∈ l ↔ condSel m cond id := by
  unfold lookupIndexed
  by_cases hnf : cond.field ∉ cfg.fields
  · left; rw [if_neg hnf]
  have hf : cond.field ∈ cfg.fields := Classical.not_not.1 hnf
  rw [if_pos hf]
  have evEq : ∀ (r : ScalarData) (w : MetaValue), cond.op = .eq → r.metadata.get cond.field = some w →
      cond.eval r.metadata = w.eqv cond.value := by
    intro r w ho hg; unfold FilterCond.eval; rw [hg, ho]
  have evIn : ∀ (r : ScalarData) (w : MetaValue), cond.op = .inSet → r.metadata.get cond.field = some w →
      cond.eval r.metadata = cond.values.any fun v => v.eqv w := by
    intro r w ho hg; unfold FilterCond.eval; rw [hg, ho]
  have getOf : ∀ r : ScalarData, cond.eval r.metadata = true → ∃ w, r.metadata.get cond.field = some w := by
    intro r he
    cases hg : r.metadata.get cond.field with
    | none => unfold FilterCond.eval at he; rw [hg] at he; simp at he
    | some w => exact ⟨w, rfl⟩
  cases hop : cond.op with
  | eq =>
    right
    simp only
    obtain ⟨l, h1, h2, h3⟩ := idsByFieldValue_spec hc h hs cond.value
    refine ⟨l, by rw [h1]; rfl, h2, ?_⟩
    have hsv : SafeVal cond.value := by unfold SafeCond at hsafe; rw [hop] at hsafe; exact hsafe
    have hit : ∀ id r w, m.get id = some r → r.metadata.get cond.field = some w →
        (IndexHit cond.value w ↔ w.eqv cond.value = true) := by
      intro id r w e1 e2
      obtain ⟨g1, g2⟩ := hr id r w e1 e2
      exact hit_iff_eqv hsv g1 (g2 _ (by unfold eqTargets; rw [hop]; simp))
    intro id
    rw [h3]
    constructor
    · rintro ⟨_, r, w, e1, e2, e3⟩
      exact ⟨r, e1, by rw [evEq r w hop e2]; exact (hit id r w e1 e2).1 e3⟩
    · rintro ⟨r, e1, e2⟩
      obtain ⟨w, hg⟩ := getOf r e2
      rw [evEq r w hop hg] at e2
      exact ⟨hf, r, w, e1, hg, (hit id r w e1 hg).2 e2⟩
  | inSet =>
    right
    simp only
    obtain ⟨l, h1, h3⟩ := inSetIds_spec hc h hs cond.values
    obtain ⟨s1, s2⟩ := sort_unique_spec l
    refine ⟨_, by rw [h1]; rfl, s1, ?_⟩
    have hsv : ∀ v ∈ cond.values, SafeVal v := by unfold SafeCond at hsafe; rw [hop] at hsafe; exact hsafe
    have hit : ∀ id r w, m.get id = some r → r.metadata.get cond.field = some w →
        ∀ v ∈ cond.values, (IndexHit v w ↔ v.eqv w = true) := by
      intro id r w e1 e2 v hv
      obtain ⟨g1, g2⟩ := hr id r w e1 e2
      rw [eqv_symm]
      exact hit_iff_eqv (hsv v hv) g1 (g2 _ (by unfold eqTargets; rw [hop]; exact hv))
    intro id
    rw [s2, h3]
    constructor
    · rintro ⟨_, r, w, e1, e2, v, hv, e3⟩
      refine ⟨r, e1, ?_⟩
      rw [evIn r w hop e2, List.any_eq_true]
      exact ⟨v, hv, (hit id r w e1 e2 v hv).1 e3⟩
    · rintro ⟨r, e1, e2⟩
      obtain ⟨w, hg⟩ := getOf r e2
      rw [evIn r w hop hg, List.any_eq_true] at e2
      obtain ⟨v, hv, e3⟩ := e2
      exact ⟨hf, r, w, e1, hg, v, hv, (hit id r w e1 hg v hv).2 e3⟩
  | ge =>
    simp only
    cases hval : cond.value with
    | int v =>
      right
      simp only
      obtain ⟨l, h1, h2, h3⟩ := lookup_int_range hc h hs hf hval v intMax (Or.inl hop) (by
        intro x; have := intMax_ge x; simp [hop, this])
      exact ⟨l, by rw [h1]; rfl, h2, h3⟩
    | double v =>
      right
      simp only
      have hsv : SafeVal (.double v) := by
        unfold SafeCond at hsafe; rw [hop] at hsafe; simp only at hsafe; rw [hval] at hsafe; exact hsafe
      obtain ⟨l, h1, h2, h3⟩ := lookup_double_range hc h hs hf hval hsv.1 v dblMax (Or.inl hop) hr (by
        intro x hx hz
        have h1 := (finite_key hx).2
        have h2 := key_lt_val' (b := v) hz
        simp [hop]; omega)
      exact ⟨l, by rw [h1]; rfl, h2, h3⟩
    | string v => left; rfl
    | bool v => left; rfl
  | gt =>
    simp only
    cases hval : cond.value with
    | int v =>
      right
      simp only
      by_cases hmax : v = intMax
      · rw [if_pos hmax]
        refine ⟨[], rfl, by simp, ?_⟩
        intro id
        constructor
        · intro hm; simp at hm
        · rintro ⟨r, e1, e2⟩
          exfalso
          obtain ⟨w, hg⟩ := getOf r e2
          cases w with
          | int x =>
            have hco := (cond_order (cond := cond) hg (by rw [hval]; rfl) (by
              rw [hval, int_cmp, int_cmp]; omega)).2.1 hop
            rw [hval, int_cmp] at hco
            have := hco.1 e2
            have := intMax_ge x
            rw [hmax] at *; omega
          | double x => rw [cond_type_mismatch hg (by rw [hval]; simp [MetaValue.index]) (Or.inr (Or.inl hop))] at e2; simp at e2
          | string x =>
            rw [cond_type_mismatch hg (by rw [hval]; simp [MetaValue.index]) (Or.inr (Or.inl hop))] at e2; simp at e2
          | bool x =>
            rw [cond_type_mismatch hg (by rw [hval]; simp [MetaValue.index]) (Or.inr (Or.inl hop))] at e2; simp at e2
      · rw [if_neg hmax]
        obtain ⟨l, h1, h2, h3⟩ := lookup_int_range hc h hs hf hval (v + 1#64) intMax (Or.inr (Or.inl hop)) (by
          intro x; have := intMax_ge x
          rw [toInt_add_one hmax]; simp [hop, this]; omega)
        exact ⟨l, by rw [h1]; rfl, h2, h3⟩
    | double v =>
      right
      simp only
      have hsv : SafeVal (.double v) ∧ v ≠ dblMax := by
        unfold SafeCond at hsafe; rw [hop] at hsafe; simp only at hsafe; rw [hval] at hsafe
        exact ⟨hsafe.1, fun he => hsafe.2 (by rw [he])⟩
      obtain ⟨l, h1, h2, h3⟩ := lookup_double_range hc h hs hf hval hsv.1.1 (nextafter v dblMax) dblMax
        (Or.inr (Or.inl hop)) hr (by
        intro x hx hz
        have h1 := (finite_key hx).2
        have h2 := key_lt_val' (b := x) hsv.1.2
        have h3 := nextafter_up hsv.1.1 hsv.1.2 hsv.2
        simp [hop]; omega)
      exact ⟨l, by rw [h1]; rfl, h2, h3⟩
    | string v => left; rfl
    | bool v => left; rfl
  | le =>
    simp only
    cases hval : cond.value with
    | int v =>
      right
      simp only
      obtain ⟨l, h1, h2, h3⟩ := lookup_int_range hc h hs hf hval intMin v (Or.inr (Or.inr (Or.inl hop))) (by
        intro x; have := intMin_le x; simp [hop, this])
      exact ⟨l, by rw [h1]; rfl, h2, h3⟩
    | double v =>
      right
      simp only
      have hsv : SafeVal (.double v) := by
        unfold SafeCond at hsafe; rw [hop] at hsafe; simp only at hsafe; rw [hval] at hsafe; exact hsafe
      obtain ⟨l, h1, h2, h3⟩ := lookup_double_range hc h hs hf hval hsv.1 dblLowest v
        (Or.inr (Or.inr (Or.inl hop))) hr (by
        intro x hx hz
        have h1 := (finite_key hx).1
        have h2 := key_lt_val' (b := x) hsv.2
        simp [hop]; omega)
      exact ⟨l, by rw [h1]; rfl, h2, h3⟩
    | string v => left; rfl
    | bool v => left; rfl
  | lt =>
    simp only
    cases hval : cond.value with
    | int v =>
      right
      simp only
      by_cases hmin : v = intMin
      · rw [if_pos hmin]
        refine ⟨[], rfl, by simp, ?_⟩
        intro id
        constructor
        · intro hm; simp at hm
        · rintro ⟨r, e1, e2⟩
          exfalso
          obtain ⟨w, hg⟩ := getOf r e2
          cases w with
          | int x =>
            have hco := (cond_order (cond := cond) hg (by rw [hval]; rfl) (by
              rw [hval, int_cmp, int_cmp]; omega)).2.2.2 hop
            rw [hval, int_cmp] at hco
            have := hco.1 e2
            have := intMin_le x
            rw [hmin] at *; omega
          | double x => rw [cond_type_mismatch hg (by rw [hval]; simp [MetaValue.index]) (Or.inr (Or.inr (Or.inr hop)))] at e2; simp at e2
          | string x =>
            rw [cond_type_mismatch hg (by rw [hval]; simp [MetaValue.index]) (Or.inr (Or.inr (Or.inr hop)))] at e2
            simp at e2
          | bool x =>
            rw [cond_type_mismatch hg (by rw [hval]; simp [MetaValue.index]) (Or.inr (Or.inr (Or.inr hop)))] at e2
            simp at e2
      · rw [if_neg hmin]
        obtain ⟨l, h1, h2, h3⟩ := lookup_int_range hc h hs hf hval intMin (v - 1#64) (Or.inr (Or.inr (Or.inr hop))) (by
          intro x; have := intMin_le x
          rw [toInt_sub_one hmin]; simp [hop, this]; omega)
        exact ⟨l, by rw [h1]; rfl, h2, h3⟩
    | double v =>
      right
      simp only
      have hsv : SafeVal (.double v) ∧ v ≠ dblLowest := by
        unfold SafeCond at hsafe; rw [hop] at hsafe; simp only at hsafe; rw [hval] at hsafe
        exact ⟨hsafe.1, fun he => hsafe.2 (by rw [he])⟩
      obtain ⟨l, h1, h2, h3⟩ := lookup_double_range hc h hs hf hval hsv.1.1 dblLowest (nextafter v dblLowest)
        (Or.inr (Or.inr (Or.inr hop))) hr (by
        intro x hx hz
        have h1 := (finite_key hx).1
        have h2 := key_lt_val' (b := v) hz
        have h3 := nextafter_down hsv.1.1 hsv.1.2 hsv.2
        have h4 : dblKey x.toNat ≠ 2 ^ 63 - 1 := by
          intro he; rw [← dblKey_negzero] at he; exact hz (dblKey_inj he)
        by_cases hv0 : v = 0#64
        · have h5 := h3.2 hv0
          have h6 : dblKey v.toNat = 2 ^ 63 := by rw [hv0, dblKey_zero]
          simp [hop]; omega
        · have h5 := h3.1 hv0
          simp [hop]; omega)
      exact ⟨l, by rw [h1]; rfl, h2, h3⟩
    | string v => left; rfl
    | bool v => left; rfl
  | ne => left; rfl
  | notInSet => left; rfl
  | contains => left; rfl

/-! ### bitset loops -/

theorem setAllOf_spec {n : Nat} (ids : List Nat) (b : DynBitset) (hl : b.words.length = (n + 63) / 64)
    (h : ∀ id ∈ ids, id < n) :
    ∃ b', setAllOf b ids = some b' ∧ b'.words.length = (n + 63) / 64 ∧
      ∀ q, bitOf b'.words q = (decide (q ∈ ids) || bitOf b.words q) := by
  induction ids generalizing b with
  | nil => exact ⟨b, rfl, hl, by simp⟩
  | cons p ps ih =>
    obtain ⟨b1, e1, _, e2, e3⟩ := b.set_eq (p := p) (by have := h p (by simp); omega)
    obtain ⟨b2, f1, f2, f3⟩ := ih b1 (by omega) fun id hid => h id (by simp [hid])
    refine ⟨b2, by simp [setAllOf, e1, f1], f2, ?_⟩
    intro q
    rw [f3, e3]
    by_cases hq : q = p
    · subst hq; simp
    · simp [hq]

theorem resetAllOf_spec {n : Nat} (ids : List Nat) (b : DynBitset) (hl : b.words.length = (n + 63) / 64)
    (h : ∀ id ∈ ids, id < n) :
    ∃ b', resetAllOf b ids = some b' ∧ b'.words.length = (n + 63) / 64 ∧
      ∀ q, bitOf b'.words q = (!decide (q ∈ ids) && bitOf b.words q) := by
  induction ids generalizing b with
  | nil => exact ⟨b, rfl, hl, by simp⟩
  | cons p ps ih =>
    obtain ⟨b1, e1, _, e2, e3⟩ := b.reset_eq (p := p) (by have := h p (by simp); omega)
    obtain ⟨b2, f1, f2, f3⟩ := ih b1 (by omega) fun id hid => h id (by simp [hid])
    refine ⟨b2, by simp [resetAllOf, e1, f1], f2, ?_⟩
    intro q
    rw [f3, e3]
    by_cases hq : q = p
    · subst hq; simp
    · simp [hq]

theorem blockIdsLoop_spec (p : Nat → PR Bool) (g : Nat → Bool) (ids : List Nat) (i n : Nat) (b : DynBitset)
    (cnt : Nat) (hp : ∀ id ∈ ids, p id = .ok (g id)) (hl : b.words.length = (n + 63) / 64)
    (hn : i + ids.length ≤ n) :
    ∃ b', blockIdsLoop p ids i b cnt = .ok (b', cnt + ids.countP g) ∧ b'.words.length = (n + 63) / 64 ∧
      ∀ q, bitOf b'.words q = (bitOf b.words q || (decide (i ≤ q) && (ids[q - i]?).any fun id => !g id)) := by
  induction ids generalizing i b cnt with
  | nil => exact ⟨b, rfl, hl, by simp⟩
  | cons id ids ih =>
    simp only [List.length_cons] at hn
    have hp1 := hp id (by simp)
    have hp2 : ∀ id' ∈ ids, p id' = .ok (g id') := fun id' h => hp id' (by simp [h])
    by_cases hg : g id = true
    · obtain ⟨b', e1, e2, e3⟩ := ih (i + 1) b (cnt + 1) hp2 hl (by omega)
      refine ⟨b', ?_, e2, ?_⟩
      · simp only [blockIdsLoop, hp1, PR.bind, hg, if_true]
        rw [e1, List.countP_cons_of_pos hg, Nat.add_comm (ids.countP g) 1, Nat.add_assoc]
      · intro q
        rw [e3]
        congr 1
        by_cases hq : q = i
        · subst hq; simp [hg, show ¬ q + 1 ≤ q by omega]
        · by_cases hlt : i + 1 ≤ q
          · have : q - i = (q - (i + 1)) + 1 := by omega
            rw [this, List.getElem?_cons_succ]
            simp [hlt, show i ≤ q by omega]
          · simp [hlt, show ¬ i ≤ q by omega]
    · have hg' : g id = false := by simpa using hg
      obtain ⟨b1, f1, _, f2, f3⟩ := b.set_eq (p := i) (by omega)
      obtain ⟨b', e1, e2, e3⟩ := ih (i + 1) b1 cnt hp2 (by omega) (by omega)
      refine ⟨b', ?_, e2, ?_⟩
      · simp only [blockIdsLoop, hp1, PR.bind, hg', Bool.false_eq_true, if_false, f1]
        rw [e1, List.countP_cons_of_neg hg]
      · intro q
        rw [e3, f3]
        by_cases hq : q = i
        · subst hq; simp [hg']
        · rw [if_neg hq]
          congr 1
          by_cases hlt : i + 1 ≤ q
          · have : q - i = (q - (i + 1)) + 1 := by omega
            rw [this, List.getElem?_cons_succ]
            simp [hlt, show i ≤ q by omega]
          · simp [hlt, show ¬ i ≤ q by omega]

theorem copyBlocked_spec {n : Nat} (part : DynBitset) (start len i : Nat) (b : DynBitset)
    (hpart : (i + len + 63) / 64 ≤ part.words.length)
    (hl : b.words.length = (n + 63) / 64) (hn : start + len ≤ n) :
    ∃ b', copyBlocked part (List.range' start len) i b = some b' ∧ b'.words.length = (n + 63) / 64 ∧
      ∀ q, bitOf b'.words q = (bitOf b.words q ||
        (decide (start ≤ q) && decide (q < start + len) && bitOf part.words (q - start + i))) := by
  induction len generalizing start i b with
  | zero =>
    refine ⟨b, rfl, hl, ?_⟩
    intro q
    by_cases h1 : start ≤ q
    · simp [show ¬ q < start by omega]
    · simp [h1]
  | succ len ih =>
    rw [List.range'_succ]
    simp only [copyBlocked]
    rw [part.get_eq (by omega)]
    cases hb : bitOf part.words i with
    | true =>
      simp only
      obtain ⟨b1, f1, _, f2, f3⟩ := b.set_eq (p := start) (by omega)
      obtain ⟨b', e1, e2, e3⟩ := ih (start + 1) (i + 1) b1 (by omega) (by omega) (by omega)
      refine ⟨b', by rw [f1]; exact e1, e2, ?_⟩
      intro q
      rw [e3, f3]
      by_cases hq : q = start
      · subst hq; simp [hb]
      · rw [if_neg hq]
        congr 1
        by_cases h1 : start + 1 ≤ q
        · rw [show q - (start + 1) + (i + 1) = q - start + i by omega]
          simp [h1, show start ≤ q by omega, show (q < start + 1 + len) = (q < start + (len + 1)) by
            rw [Nat.add_assoc, Nat.add_comm 1]]
        · simp [h1, show ¬ start ≤ q by omega]
    | false =>
      simp only
      obtain ⟨b', e1, e2, e3⟩ := ih (start + 1) (i + 1) b (by omega) (by omega) (by omega)
      refine ⟨b', e1, e2, ?_⟩
      intro q
      rw [e3]
      congr 1
      by_cases hq : q = start
      · subst hq; simp [hb, show ¬ q + 1 ≤ q by omega]
      · by_cases h1 : start + 1 ≤ q
        · rw [show q - (start + 1) + (i + 1) = q - start + i by omega]
          simp [h1, show start ≤ q by omega, show (q < start + 1 + len) = (q < start + (len + 1)) by
            rw [Nat.add_assoc, Nat.add_comm 1]]
        · simp [h1, show ¬ start ≤ q by omega]

theorem batchLoop_spec (cfg : StoreCfg) (s : Store) (e : FilterExec) (g : Nat → Bool)
    (hne : e.filter.isEmpty = false) (hp : ∀ id, id < e.dataNum → e.test cfg s id = .ok (g id))
    (k : Nat) (start : Nat) (hk : e.dataNum - start ≤ k) (b : DynBitset) (cnt : Nat)
    (hl : b.words.length = (e.dataNum + 63) / 64)
    (hb : ∀ q, q < e.dataNum → bitOf b.words q = (decide (q < start) && !g q))
    (hcnt : cnt = (List.range (min start e.dataNum)).countP g) :
    ∃ b', e.batchLoop cfg s start b cnt = .ok (b', (List.range e.dataNum).countP g) ∧
      b'.words.length = (e.dataNum + 63) / 64 ∧ ∀ q, q < e.dataNum → bitOf b'.words q = !g q := by
  induction k generalizing start b cnt with
  | zero =>
    rw [FilterExec.batchLoop, dif_neg (by omega)]
    refine ⟨b, ?_, hl, ?_⟩
    · rw [hcnt, Nat.min_eq_right (by omega)]
    · intro q hq
      rw [hb q hq]; simp [show q < start by omega]
  | succ k ih =>
    rw [FilterExec.batchLoop]
    by_cases hge : ¬ start < e.dataNum
    · rw [dif_neg hge]
      refine ⟨b, ?_, hl, ?_⟩
      · rw [hcnt, Nat.min_eq_right (by omega)]
      · intro q hq
        rw [hb q hq]; simp [show q < start by omega]
    · have hlt : start < e.dataNum := Classical.not_not.1 hge
      rw [dif_pos hlt]
      have hkp := kBatchSize_pos
      generalize hlen : min e.dataNum (start + kBatchSize) - start = len
      simp only
      have hle : start + len ≤ e.dataNum := by omega
      unfold FilterExec.blockIds
      rw [hne]
      simp only [Bool.false_eq_true, if_false, List.length_range']
      obtain ⟨b1, e1, e2, e3⟩ := blockIdsLoop_spec (e.test cfg s) g (List.range' start len) 0 len
        (DynBitset.new len) 0 (by
          intro id hid
          rw [List.mem_range'_1] at hid
          exact hp id (by omega)) (by simp [DynBitset.new]) (by simp)
      rw [e1]
      simp only [PR.bind]
      obtain ⟨b2, f1, f2, f3⟩ := copyBlocked_spec (n := e.dataNum) b1 start len 0 b (by omega) hl hle
      rw [f1]
      simp only
      apply ih (start + kBatchSize) (by omega) b2 _ f2
      · intro q hq
        rw [f3, hb q hq]
        by_cases h1 : q < start
        · simp [h1, show q < start + kBatchSize by omega, show ¬ start ≤ q by omega]
        · by_cases h2 : q < start + len
          · rw [e3]
            have : bitOf (DynBitset.new len).words (q - start + 0) = false := bitOf_replicate _ _
            rw [this]
            have hget : (List.range' start len)[q - start]? = some q := by
              rw [List.getElem?_range' (by omega)]; simp; omega
            simp [h1, h2, show start ≤ q by omega, show q < start + kBatchSize by omega, hget]
          · simp [h1, h2, show ¬ q < start + kBatchSize by omega]
      · rw [hcnt, Nat.zero_add]
        have hr : List.range (min (start + kBatchSize) e.dataNum)
            = List.range (min start e.dataNum) ++ List.range' start len := by
          rw [List.range_eq_range', List.range_eq_range', Nat.min_eq_left (by omega : start ≤ e.dataNum)]
          have : min (start + kBatchSize) e.dataNum = start + len := by omega
          rw [this, List.range'_eq_append_iff]
          exact ⟨start, by omega, rfl, by simp⟩
        rw [hr, List.countP_append]

/-- Selection of the record at `id`. -/
def sel (m : RecordMap) (f : Filter) (id : Nat) : Bool :=
  match m.get id with
  | none => false
  | some r => f.eval r.metadata

theorem rawMatch_spec {cfg : StoreCfg} {s : Store} {m : RecordMap} (h : Rel cfg s.kv m) (f : Filter) {id : Nat}
    (hid : id < cfg.id.bound) : rawMatch cfg s f id = .ok (sel m f id) := by
  unfold rawMatch sel
  rw [rawValue_spec h hid]
  cases hm : m.get id with
  | none => simp
  | some r =>
    simp only [Option.map_some, Option.getD_some]
    rw [if_neg (serialize_ne_nil r)]
    have := C05_raw_eval_stored f r [] (h.ids id r hm).2
    rw [List.append_nil] at this
    exact this

end Alaya
