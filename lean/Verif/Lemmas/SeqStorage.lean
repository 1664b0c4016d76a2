import Verif.Spec.Slots
import Verif.Lemmas.Bytes

namespace Alaya.Seq
open Spec

theorem roundUp_eq {x k : Nat} (hk : k < 64) (h : x + 2 ^ k - 1 < 2 ^ 64) :
    roundUp x (2 ^ k) = (x + 2 ^ k - 1) / 2 ^ k * 2 ^ k := by
  have hp : 2 ^ k - 1 < 2 ^ 64 := by
    have : 2 ^ k < 2 ^ 64 := Nat.pow_lt_pow_right (by omega) hk
    omega
  unfold roundUp
  generalize x + 2 ^ k - 1 = y at h ⊢
  apply Nat.eq_of_testBit_eq
  intro i
  rw [← Nat.shiftRight_eq_div_pow, ← Nat.shiftLeft_eq, Nat.testBit_shiftLeft, Nat.testBit_shiftRight]
  rw [BitVec.testBit_toNat, BitVec.getLsbD_and, BitVec.getLsbD_not, BitVec.getLsbD_ofNat, BitVec.getLsbD_ofNat]
  rw [Nat.testBit_two_pow_sub_one]
  by_cases hi : i < 64
  · by_cases hik : k ≤ i
    · have e : k + (i - k) = i := by omega
      have e2 : ¬ i < k := by omega
      simp [hi, hik, e, e2]
    · have e2 : i < k := by omega
      simp [hik, e2]
  · have : y.testBit i = false := Nat.testBit_lt_two_pow (Nat.lt_of_lt_of_le h (Nat.pow_le_pow_right (by omega) (by omega)))
    by_cases hik : k ≤ i
    · have e : k + (i - k) = i := by omega
      simp [hi, e, this]
    · simp [hi, hik]

theorem roundUp_ge {x k : Nat} (hk : k < 64) (h : x + 2 ^ k - 1 < 2 ^ 64) : x ≤ roundUp x (2 ^ k) := by
  rw [roundUp_eq hk h]
  have hp : 0 < 2 ^ k := Nat.two_pow_pos k
  generalize 2 ^ k = a at hp
  have h1 := Nat.div_add_mod (x + a - 1) a
  have h2 := Nat.mod_lt (x + a - 1) hp
  rw [Nat.mul_comm] at h1
  omega

theorem getLsbD_one_shl8 {i j : Nat} (hi : i < 8) : (1#8 <<< i).getLsbD j = decide (j = i) := by
  rw [BitVec.getLsbD_shiftLeft]
  by_cases h : j = i
  · subst h; simp [hi]
  · by_cases h2 : j < i
    · simp [h, h2]
    · simp [h, h2]; omega

theorem mask_nonzero8 (w : BitVec 8) {i : Nat} (hi : i < 8) : ((w &&& (1#8 <<< i)) != 0#8) = w.getLsbD i := by
  by_cases hb : w.getLsbD i = true
  · rw [hb, bne_iff_ne]
    intro h
    have : (w &&& (1#8 <<< i)).getLsbD i = (0#8).getLsbD i := by rw [h]
    rw [BitVec.getLsbD_and, getLsbD_one_shl8 hi, hb] at this
    simp at this
  · rw [Bool.not_eq_true] at hb
    rw [hb]
    have : (w &&& (1#8 <<< i)) = 0#8 := by
      apply BitVec.eq_of_getLsbD_eq
      intro j hj
      rw [BitVec.getLsbD_and, getLsbD_one_shl8 hi]
      by_cases hj0 : j = i
      · subst hj0; simp [hb]
      · simp [hj0]
    rw [this]; rfl

/-- Bit `i` of a byte array. -/
def bit8 (bm : List (BitVec 8)) (i : Nat) : Bool := (bm[i / 8]?.getD 0#8).getLsbD (i % 8)

theorem isValid_eq {s : Storage} {i : Nat} (h : i / 8 < s.bitmap.length) : s.isValid i = some (bit8 s.bitmap i) := by
  unfold Storage.isValid bit8
  rw [List.getElem?_eq_getElem h]
  simp only [mask_nonzero8 _ (Nat.mod_lt i (by omega : 0 < 8)), Option.getD_some]

theorem bit8_set {bm : List (BitVec 8)} {b : Nat} (hb : b < bm.length) (w : BitVec 8) (p : Nat) :
    bit8 (bm.set b w) p = if p / 8 = b then w.getLsbD (p % 8) else bit8 bm p := by
  unfold bit8
  rw [List.getElem?_set]
  by_cases h : p / 8 = b
  · subst h; simp [hb]
  · rw [if_neg h, if_neg (fun e => h e.symm)]

theorem setBit_eq {bm : List (BitVec 8)} {i : Nat} (h : i / 8 < bm.length) :
    ∃ bm', setBit bm i = some bm' ∧ bm'.length = bm.length ∧
      ∀ p, bit8 bm' p = if p = i then true else bit8 bm p := by
  unfold setBit
  rw [List.getElem?_eq_getElem h]
  refine ⟨_, rfl, by simp, ?_⟩
  intro p
  rw [bit8_set h, BitVec.getLsbD_or, getLsbD_one_shl8 (Nat.mod_lt i (by omega))]
  by_cases hp : p = i
  · subst hp; simp
  · by_cases h2 : p / 8 = i / 8
    · have : p % 8 ≠ i % 8 := by omega
      rw [if_pos h2, if_neg hp]
      simp [this, bit8, h2, h]
    · rw [if_neg h2, if_neg hp]

theorem clearBit_eq {bm : List (BitVec 8)} {i : Nat} (h : i / 8 < bm.length) :
    ∃ bm', clearBit bm i = some bm' ∧ bm'.length = bm.length ∧
      ∀ p, bit8 bm' p = if p = i then false else bit8 bm p := by
  unfold clearBit
  rw [List.getElem?_eq_getElem h]
  refine ⟨_, rfl, by simp, ?_⟩
  intro p
  have hm : p % 8 < 8 := Nat.mod_lt p (by omega)
  rw [bit8_set h, BitVec.getLsbD_and, BitVec.getLsbD_not, getLsbD_one_shl8 (Nat.mod_lt i (by omega))]
  by_cases hp : p = i
  · subst hp; simp
  · by_cases h2 : p / 8 = i / 8
    · have : p % 8 ≠ i % 8 := by omega
      rw [if_pos h2, if_neg hp]
      simp [this, bit8, h2, h, hm]
    · rw [if_neg h2, if_neg hp]

/-- The `n` bytes at `off`. -/
def slice (data : Bytes) (off n : Nat) : Bytes := (data.drop off).take n

theorem memWrite_eq {data bs : Bytes} {off : Nat} (h : off + bs.length ≤ data.length) :
    ∃ d', memWrite data off bs = some d' ∧ d'.length = data.length ∧ slice d' off bs.length = bs ∧
      (∀ o n, o + n ≤ off ∨ off + bs.length ≤ o → slice d' o n = slice data o n) := by
  unfold memWrite
  rw [if_pos h]
  have hto : (data.take off).length = off := by simp; omega
  refine ⟨_, rfl, by simp; omega, ?_, ?_⟩
  · unfold slice
    rw [List.drop_append, hto, Nat.sub_self, List.drop_zero, List.drop_eq_nil_of_le (by omega), List.nil_append]
    simp
  · intro o n ho
    unfold slice
    apply List.ext_getElem?
    intro i
    rw [List.getElem?_take, List.getElem?_take]
    by_cases hi : i < n
    · rw [if_pos hi, if_pos hi, List.getElem?_drop, List.getElem?_drop]
      rcases ho with ho | ho
      · rw [List.getElem?_append_left (by omega), List.getElem?_take, if_pos (by omega)]
      · rw [List.getElem?_append_right (by omega), hto, List.getElem?_append_right (by omega),
          List.getElem?_drop]
        congr 1
        omega
    · rw [if_neg hi, if_neg hi]

/-- The storage `s` represents the abstract slots `l`. -/
structure Rep (cap isz : Nat) (blank : Bytes) (s : Storage) (l : Slots) : Prop where
  hcap : s.cap = cap
  hisz : s.itemSize = isz
  pos : s.pos = l.length
  le : l.length ≤ cap
  fit : isz ≤ s.aligned
  dlen : s.data.length = s.aligned * cap
  blen : bitmapBytes cap ≤ s.bitmap.length
  bit : ∀ i, i < cap → bit8 s.bitmap i = (l[i]?.map Prod.fst).getD false
  cont : ∀ i, i < cap → slice s.data (i * s.aligned) isz = (l[i]?.map Prod.snd).getD blank

theorem slotEnd_le {i cap a : Nat} (h : i < cap) : i * a + a ≤ a * cap := by
  have := Nat.mul_le_mul_left a (show i + 1 ≤ cap from h)
  rw [Nat.mul_add, Nat.mul_one, Nat.mul_comm a i] at this
  exact this

theorem slot_disjoint {i j a : Nat} (h : i ≠ j) : i * a + a ≤ j * a ∨ j * a + a ≤ i * a := by
  rcases Nat.lt_or_gt_of_ne h with hl | hl
  · left
    have := Nat.mul_le_mul_right a (show i + 1 ≤ j from hl)
    rw [Nat.add_mul, Nat.one_mul] at this
    exact this
  · right
    have := Nat.mul_le_mul_right a (show j + 1 ≤ i from hl)
    rw [Nat.add_mul, Nat.one_mul] at this
    exact this

theorem div8_lt {i cap n : Nat} (h : i < cap) (hb : bitmapBytes cap ≤ n) : i / 8 < n := by
  unfold bitmapBytes at hb; omega

theorem Rep.isValid {cap isz : Nat} {blank : Bytes} {s : Storage} {l : Slots} (r : Rep cap isz blank s l)
    {i : Nat} (h : i < cap) : s.isValid i = some ((l[i]?.map Prod.fst).getD false) := by
  rw [isValid_eq (div8_lt h r.blen), r.bit i h]

theorem Rep.read {cap isz : Nat} {blank : Bytes} {s : Storage} {l : Slots} (r : Rep cap isz blank s l)
    {i : Nat} (h : i < cap) : s.read i = some ((l[i]?.map Prod.snd).getD blank) := by
  unfold Storage.read
  have h1 := slotEnd_le (a := s.aligned) h
  have h2 := r.fit
  have h3 := r.dlen
  have h4 := r.hisz
  rw [if_pos (by omega), r.hisz]
  exact congrArg some (r.cont i h)

theorem Rep.init {cap isz k : Nat} (fill : UInt8) (hk : k < 64) (h1 : isz + 2 ^ k - 1 < 2 ^ 64)
    (h2 : cap + 2 ^ k < 2 ^ 64) :
    Rep cap isz (List.replicate isz fill) (init isz cap fill (2 ^ k)) [] := by
  have hf : isz ≤ roundUp isz (2 ^ k) := roundUp_ge hk h1
  refine ⟨rfl, rfl, rfl, by simp, hf, by simp [Seq.init], ?_, ?_, ?_⟩
  · have : bitmapBytes cap + 2 ^ k - 1 < 2 ^ 64 := by unfold bitmapBytes; omega
    simpa [Seq.init] using roundUp_ge hk this
  · intro i _
    simp only [Seq.init, bit8, List.getElem?_replicate, List.getElem?_nil, Option.map_none, Option.getD_none]
    split <;> simp
  · intro i hi
    have he := slotEnd_le (a := roundUp isz (2 ^ k)) hi
    simp only [Seq.init, slice, List.drop_replicate, List.take_replicate, List.getElem?_nil, Option.map_none,
      Option.getD_none]
    congr 1
    omega

/-- The vector passed to the call has `item_size` bytes and the id is below the capacity. -/
def OpIn (cap isz : Nat) : Op → Prop
  | .insert d => d.length = isz
  | .reserve => True
  | .remove id => id < cap
  | .update id d => id < cap ∧ d.length = isz

theorem Rep.step {cap isz : Nat} {blank : Bytes} {s : Storage} {l : Slots} (r : Rep cap isz blank s l) (op : Op)
    (h : OpIn cap isz op) : ∃ s', s.step op = some (s', (l.step cap blank op).2) ∧
      Rep cap isz blank s' (l.step cap blank op).1 := by
  have r0 := r
  obtain ⟨rcap, risz, rpos, rle, rfit, rdlen, rblen, rbit, rcont⟩ := r
  cases op with
  | insert d =>
    have hd : d.length = isz := h
    simp only [Storage.step, Storage.insert, Slots.step, rcap, rpos]
    by_cases hl : l.length < cap
    · rw [if_neg (by omega), if_pos hl]
      have he := slotEnd_le (a := s.aligned) hl
      obtain ⟨d', e1, e2, e3, e4⟩ := memWrite_eq (data := s.data) (bs := d) (off := l.length * s.aligned) (by omega)
      obtain ⟨bm, f1, f2, f3⟩ := setBit_eq (bm := s.bitmap) (i := l.length) (div8_lt hl rblen)
      simp only [e1, f1]
      refine ⟨_, rfl, rfl, risz, by simp, by simp; omega, rfit, by simpa using e2.trans rdlen, by simpa [f2] using rblen, ?_, ?_⟩
      · intro i hi
        rw [f3]
        by_cases hil : i = l.length
        · subst hil; simp
        · rw [if_neg hil, rbit i hi, List.getElem?_append]
          split
          · rfl
          · rw [List.getElem?_eq_none (by omega), List.getElem?_eq_none (by simp; omega)]
      · intro i hi
        show slice d' (i * s.aligned) isz = _
        by_cases hil : i = l.length
        · subst hil; rw [← hd, e3]; simp
        · rw [e4 _ _ (by have := slot_disjoint (a := s.aligned) hil; omega), rcont i hi, List.getElem?_append]
          split
          · rfl
          · rw [List.getElem?_eq_none (by omega), List.getElem?_eq_none (by simp; omega)]
    · rw [if_pos (by omega), if_neg hl]
      exact ⟨s, rfl, r0⟩
  | reserve =>
    simp only [Storage.step, Storage.reserve, Slots.step, rcap, rpos]
    by_cases hl : l.length < cap
    · rw [if_neg (by omega), if_pos hl]
      obtain ⟨bm, f1, f2, f3⟩ := setBit_eq (bm := s.bitmap) (i := l.length) (div8_lt hl rblen)
      simp only [f1]
      refine ⟨_, rfl, rfl, risz, by simp, by simp; omega, rfit, rdlen, by simpa [f2] using rblen, ?_, ?_⟩
      · intro i hi
        rw [f3]
        by_cases hil : i = l.length
        · subst hil; simp
        · rw [if_neg hil, rbit i hi, List.getElem?_append]
          split
          · rfl
          · rw [List.getElem?_eq_none (by omega), List.getElem?_eq_none (by simp; omega)]
      · intro i hi
        show slice s.data (i * s.aligned) isz = _
        rw [rcont i hi]
        by_cases hil : i = l.length
        · subst hil; simp
        · rw [List.getElem?_append]
          split
          · rfl
          · rw [List.getElem?_eq_none (by omega), List.getElem?_eq_none (by simp; omega)]
    · rw [if_pos (by omega), if_neg hl]
      exact ⟨s, rfl, r0⟩
  | remove id =>
    have hid : id < cap := h
    simp only [Storage.step, Storage.remove, Slots.step, r0.isValid hid]
    cases hl : l[id]? with
    | none => exact ⟨s, rfl, r0⟩
    | some p =>
      obtain ⟨v, c⟩ := p
      cases v with
      | false => exact ⟨s, rfl, r0⟩
      | true =>
        have hlen : id < l.length := by
          rcases Nat.lt_or_ge id l.length with hh | hh
          · exact hh
          · rw [List.getElem?_eq_none hh] at hl; cases hl
        obtain ⟨bm, f1, f2, f3⟩ := clearBit_eq (bm := s.bitmap) (i := id) (div8_lt hid rblen)
        simp only [Option.map_some, Option.getD_some, f1]
        refine ⟨_, rfl, rcap, risz, by simpa using rpos, by simpa using rle, rfit, rdlen, by simpa [f2] using rblen, ?_, ?_⟩
        · intro i hi
          rw [f3, List.getElem?_set]
          by_cases hii : i = id
          · subst hii; simp [hlen]
          · rw [if_neg hii, rbit i hi, if_neg (fun e => hii e.symm)]
        · intro i hi
          show slice s.data (i * s.aligned) isz = _
          rw [rcont i hi, List.getElem?_set]
          by_cases hii : i = id
          · subst hii; rw [hl, if_pos rfl, if_pos hlen]; rfl
          · rw [if_neg (fun e => hii e.symm)]
  | update id d =>
    obtain ⟨hid, hd⟩ := h
    simp only [Storage.step, Storage.update, Slots.step, r0.isValid hid]
    cases hl : l[id]? with
    | none => exact ⟨s, rfl, r0⟩
    | some p =>
      obtain ⟨v, c⟩ := p
      cases v with
      | false => exact ⟨s, rfl, r0⟩
      | true =>
        have hlen : id < l.length := by
          rcases Nat.lt_or_ge id l.length with hh | hh
          · exact hh
          · rw [List.getElem?_eq_none hh] at hl; cases hl
        have he := slotEnd_le (a := s.aligned) hid
        obtain ⟨d', e1, e2, e3, e4⟩ := memWrite_eq (data := s.data) (bs := d) (off := id * s.aligned) (by omega)
        simp only [Option.map_some, Option.getD_some, e1]
        refine ⟨_, rfl, rcap, risz, by simpa using rpos, by simpa using rle, rfit, by simpa using e2.trans rdlen, rblen, ?_, ?_⟩
        · intro i hi
          rw [rbit i hi, List.getElem?_set]
          by_cases hii : i = id
          · subst hii; rw [hl, if_pos rfl, if_pos hlen]; rfl
          · rw [if_neg (fun e => hii e.symm)]
        · intro i hi
          show slice d' (i * s.aligned) isz = _
          rw [List.getElem?_set]
          by_cases hii : i = id
          · subst hii; rw [← hd, e3]; simp [hlen]
          · rw [e4 _ _ (by have := slot_disjoint (a := s.aligned) hii; omega), rcont i hi, if_neg (fun e => hii e.symm)]

theorem Rep.run {cap isz : Nat} {blank : Bytes} (ops : List Op) : ∀ {s : Storage} {l : Slots},
    Rep cap isz blank s l → (∀ op ∈ ops, OpIn cap isz op) → ∃ s', s.run ops = some (s', (l.run cap blank ops).2) ∧
      Rep cap isz blank s' (l.run cap blank ops).1 := by
  induction ops with
  | nil => intro s l r _; exact ⟨s, rfl, r⟩
  | cons op ops ih =>
    intro s l r h
    obtain ⟨s1, e1, r1⟩ := r.step op (h op (by simp))
    obtain ⟨s2, e2, r2⟩ := ih r1 (fun o ho => h o (by simp [ho]))
    refine ⟨s2, ?_, r2⟩
    simp only [Storage.run, e1, e2, Slots.run]

end Alaya.Seq
