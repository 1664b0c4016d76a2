import Verif.Model.Bitsets

namespace Alaya

theorem shr6 (p : Nat) : p >>> 6 = p / 64 := by rw [Nat.shiftRight_eq_div_pow]
theorem and63 (p : Nat) : p &&& 63 = p % 64 := Nat.and_two_pow_sub_one_eq_mod p 6

theorem getLsbD_one_shl {i j : Nat} (hi : i < 64) : (1#64 <<< i).getLsbD j = decide (j = i) := by
  rw [BitVec.getLsbD_shiftLeft]
  by_cases h : j = i
  · subst h; simp [hi]
  · by_cases h2 : j < i
    · simp [h, h2]
    · simp [h, h2]; omega

theorem bit_nonzero (w : BitVec 64) {i : Nat} : (((w >>> i) &&& 1#64) != 0#64) = w.getLsbD i := by
  by_cases hb : w.getLsbD i = true
  · rw [hb, bne_iff_ne]
    intro h
    have := congrArg (fun x => BitVec.getLsbD x 0) h
    simp [hb] at this
  · rw [Bool.not_eq_true] at hb
    rw [hb]
    have : ((w >>> i) &&& 1#64) = 0#64 := by
      apply BitVec.eq_of_getLsbD_eq
      intro j hj
      simp only [BitVec.getLsbD_and, BitVec.getLsbD_ushiftRight]
      by_cases hj0 : j = 0
      · subst hj0; simp [hb]
      · simp [hj0, BitVec.getLsbD_one]
    rw [this]; rfl

theorem mask_nonzero (w : BitVec 64) {i : Nat} (hi : i < 64) :
    ((w &&& (1#64 <<< i)) != 0#64) = w.getLsbD i := by
  by_cases hb : w.getLsbD i = true
  · rw [hb, bne_iff_ne]
    intro h
    have : (w &&& (1#64 <<< i)).getLsbD i = (0#64).getLsbD i := by rw [h]
    rw [BitVec.getLsbD_and, getLsbD_one_shl hi, hb] at this
    simp at this
  · rw [Bool.not_eq_true] at hb
    rw [hb]
    have : (w &&& (1#64 <<< i)) = 0#64 := by
      apply BitVec.eq_of_getLsbD_eq
      intro j hj
      rw [BitVec.getLsbD_and, getLsbD_one_shl hi]
      by_cases hj0 : j = i
      · subst hj0; simp [hb]
      · simp [hj0]
    rw [this]; rfl

/-- Bit `p` of a word array. -/
def bitOf (ws : List (BitVec 64)) (p : Nat) : Bool := (ws[p / 64]?.getD 0#64).getLsbD (p % 64)

theorem bitOf_set {ws : List (BitVec 64)} {i : Nat} (hi : i < ws.length) (w : BitVec 64) (p : Nat) :
    bitOf (ws.set i w) p = if p / 64 = i then w.getLsbD (p % 64) else bitOf ws p := by
  unfold bitOf
  rw [List.getElem?_set]
  by_cases h : p / 64 = i
  · subst h; simp [hi]
  · rw [if_neg (Ne.symm h), if_neg h]

theorem bitOf_getElem {ws : List (BitVec 64)} {p : Nat} {w : BitVec 64} (h : ws[p / 64]? = some w) :
    bitOf ws p = w.getLsbD (p % 64) := by
  unfold bitOf; rw [h]; rfl

theorem bitOf_replicate (n p : Nat) : bitOf (List.replicate n 0#64) p = false := by
  unfold bitOf
  rw [List.getElem?_replicate]
  split <;> simp

theorem DynBitset.get_eq {b : DynBitset} {p : Nat} (h : p / 64 < b.words.length) :
    b.get p = some (bitOf b.words p) := by
  unfold DynBitset.get
  rw [shr6, and63, List.getElem?_eq_getElem h]
  simp only
  rw [bit_nonzero, bitOf_getElem (List.getElem?_eq_getElem h)]

theorem DynBitset.set_eq {b : DynBitset} {p : Nat} (h : p / 64 < b.words.length) :
    ∃ b', b.set p = some b' ∧ b'.size = b.size ∧ b'.words.length = b.words.length ∧
      ∀ q, bitOf b'.words q = if q = p then true else bitOf b.words q := by
  unfold DynBitset.set
  rw [shr6, and63, List.getElem?_eq_getElem h]
  refine ⟨_, rfl, rfl, by simp, ?_⟩
  intro q
  simp only
  rw [bitOf_set h]
  have hm : p % 64 < 64 := Nat.mod_lt _ (by decide)
  by_cases hq : q / 64 = p / 64
  · rw [if_pos hq, BitVec.getLsbD_or, getLsbD_one_shl hm]
    have hbit : bitOf b.words q = (b.words[p / 64]).getLsbD (q % 64) := by
      rw [bitOf_getElem (w := b.words[p / 64]) (by rw [hq]; exact List.getElem?_eq_getElem h)]
    by_cases hqp : q = p
    · subst hqp; simp
    · rw [if_neg hqp, hbit]
      have : q % 64 ≠ p % 64 := by omega
      simp [this]
  · rw [if_neg hq, if_neg (by rintro rfl; exact hq rfl)]

theorem DynBitset.reset_eq {b : DynBitset} {p : Nat} (h : p / 64 < b.words.length) :
    ∃ b', b.reset p = some b' ∧ b'.size = b.size ∧ b'.words.length = b.words.length ∧
      ∀ q, bitOf b'.words q = if q = p then false else bitOf b.words q := by
  unfold DynBitset.reset
  rw [List.getElem?_eq_getElem h]
  refine ⟨_, rfl, rfl, by simp, ?_⟩
  intro q
  simp only
  rw [bitOf_set h]
  have hm : p % 64 < 64 := Nat.mod_lt _ (by decide)
  have hqm : q % 64 < 64 := Nat.mod_lt _ (by decide)
  by_cases hq : q / 64 = p / 64
  · rw [if_pos hq, BitVec.getLsbD_and, BitVec.getLsbD_not, getLsbD_one_shl hm]
    have hbit : bitOf b.words q = (b.words[p / 64]).getLsbD (q % 64) := by
      rw [bitOf_getElem (w := b.words[p / 64]) (by rw [hq]; exact List.getElem?_eq_getElem h)]
    by_cases hqp : q = p
    · subst hqp; simp
    · rw [if_neg hqp, hbit]
      have : q % 64 ≠ p % 64 := by omega
      simp [this, hqm]
  · rw [if_neg hq, if_neg (by rintro rfl; exact hq rfl)]

theorem DynBitset.setAll_eq (b : DynBitset) {q : Nat} (h : q / 64 < b.words.length) :
    bitOf b.setAll.words q = true := by
  unfold DynBitset.setAll bitOf
  have hqm : q % 64 < 64 := Nat.mod_lt _ (by decide)
  rw [List.getElem?_map, List.getElem?_eq_getElem h]
  show (~~~0#64).getLsbD (q % 64) = true
  rw [BitVec.getLsbD_not]
  simp [hqm]

theorem DynBitset.clear_eq (b : DynBitset) (q : Nat) : bitOf b.clear.words q = false := by
  unfold DynBitset.clear bitOf
  rw [List.getElem?_map]
  cases b.words[q / 64]? <;> simp

/-! ### hierarchical bitset -/

theorem hidx (p : Nat) : p / 512 * 8 + p % 512 / 64 = p / 64 := by omega
theorem hoff (p : Nat) : p % 512 % 64 = p % 64 := by omega

theorem ctzFrom_spec (w : BitVec 64) (fuel i j : Nat) (hij : i ≤ j) (hj : j < i + fuel)
    (hw : w.getLsbD j = true) :
    w.getLsbD (ctzFrom w fuel i) = true ∧ ctzFrom w fuel i ≤ j ∧
      ∀ k, i ≤ k → k < ctzFrom w fuel i → w.getLsbD k = false := by
  induction fuel generalizing i with
  | zero => omega
  | succ fuel ih =>
    unfold ctzFrom
    by_cases h : w.getLsbD i = true
    · rw [if_pos h]
      exact ⟨h, hij, by intro k h1 h2; omega⟩
    · rw [if_neg h]
      have hne : i ≠ j := by rintro rfl; exact h hw
      obtain ⟨h1, h2, h3⟩ := ih (i + 1) (by omega) (by omega)
      refine ⟨h1, h2, ?_⟩
      intro k hk1 hk2
      by_cases hki : k = i
      · subst hki; simpa using h
      · exact h3 k (by omega) hk2

theorem exists_bit {w : BitVec 64} (h : w ≠ 0#64) : ∃ j, j < 64 ∧ w.getLsbD j = true := by
  apply Classical.byContradiction
  intro hno
  apply h
  apply BitVec.eq_of_getLsbD_eq
  intro j hj
  cases hb : w.getLsbD j with
  | false => simp
  | true => exact absurd ⟨j, hj, hb⟩ hno

theorem ctz_spec {w : BitVec 64} (h : w ≠ 0#64) :
    w.getLsbD (ctz w) = true ∧ ctz w < 64 ∧ ∀ k, k < ctz w → w.getLsbD k = false := by
  obtain ⟨j, hj, hw⟩ := exists_bit h
  obtain ⟨h1, h2, h3⟩ := ctzFrom_spec w 64 0 j (by omega) (by omega) hw
  exact ⟨h1, Nat.lt_of_le_of_lt h2 hj, fun k hk => h3 k (by omega) hk⟩

/-- The summary says exactly which 512-bit blocks contain a set bit. -/
structure HierInv (n : Nat) (b : HierBitset) : Prop where
  dlen : b.data.length = (n + 63) / 64
  slen : b.summary.length = ((n + 63) / 64 + 63) / 64
  up : ∀ p, bitOf b.data p = true → bitOf b.summary (p / 512) = true
  down : ∀ blk, bitOf b.summary blk = true → ∃ p, p / 512 = blk ∧ bitOf b.data p = true

theorem bitOf_lt {ws : List (BitVec 64)} {p : Nat} (h : bitOf ws p = true) : p / 64 < ws.length := by
  apply Classical.byContradiction
  intro hn
  unfold bitOf at h
  rw [List.getElem?_eq_none (by omega)] at h
  simp at h

theorem HierBitset.set_eq {n : Nat} {b : HierBitset} (hi : HierInv n b) {p : Nat} (hp : p < n) :
    ∃ b', b.set p = some b' ∧ HierInv n b' ∧ ∀ q, bitOf b'.data q = if q = p then true else bitOf b.data q := by
  have h1 : p / 64 < b.data.length := by rw [hi.dlen]; omega
  have h2 : p / 512 / 64 < b.summary.length := by rw [hi.slen]; omega
  have hm : p % 64 < 64 := Nat.mod_lt _ (by decide)
  have hm2 : p / 512 % 64 < 64 := Nat.mod_lt _ (by decide)
  unfold HierBitset.set
  rw [hidx, hoff, List.getElem?_eq_getElem h1, List.getElem?_eq_getElem h2]
  have hdata : ∀ q, bitOf (b.data.set (p / 64) (b.data[p / 64] ||| (1#64 <<< (p % 64)))) q
      = if q = p then true else bitOf b.data q := by
    intro q
    obtain ⟨b', he, _, _, hb⟩ := DynBitset.set_eq (b := ⟨b.data, 0⟩) (p := p) h1
    unfold DynBitset.set at he
    rw [shr6, and63, List.getElem?_eq_getElem h1] at he
    injection he with he
    rw [← hb q, ← he]
  have hsum : ∀ q, bitOf (b.summary.set (p / 512 / 64) (b.summary[p / 512 / 64] ||| (1#64 <<< (p / 512 % 64)))) q
      = if q = p / 512 then true else bitOf b.summary q := by
    intro q
    obtain ⟨b', he, _, _, hb⟩ := DynBitset.set_eq (b := ⟨b.summary, 0⟩) (p := p / 512) h2
    unfold DynBitset.set at he
    rw [shr6, and63, List.getElem?_eq_getElem h2] at he
    injection he with he
    rw [← hb q, ← he]
  refine ⟨_, rfl, ⟨by simpa using hi.dlen, by simpa using hi.slen, ?_, ?_⟩, hdata⟩
  · intro q hq
    simp only at hq ⊢
    rw [hdata] at hq
    rw [hsum]
    by_cases hqp : q = p
    · subst hqp; simp
    · rw [if_neg hqp] at hq
      rw [hi.up q hq]; simp
  · intro blk hblk
    simp only at hblk ⊢
    rw [hsum] at hblk
    by_cases hbp : blk = p / 512
    · exact ⟨p, hbp.symm, by rw [hdata]; simp⟩
    · rw [if_neg hbp] at hblk
      obtain ⟨q, h3, h4⟩ := hi.down blk hblk
      exact ⟨q, h3, by rw [hdata, h4]; simp⟩

theorem HierBitset.blockLoop_spec (b : HierBitset) (block fuel j p : Nat)
    (hp : p / 64 < block * 8 + (j + fuel)) (hp2 : block * 8 + j ≤ p / 64) (hb : bitOf b.data p = true) :
    ∃ r, b.blockLoop block fuel j = some (some r) ∧ bitOf b.data r = true ∧ r ≤ p ∧
      ∀ q, block * 8 + j ≤ q / 64 → q < r → bitOf b.data q = false := by
  induction fuel generalizing j with
  | zero => omega
  | succ fuel ih =>
    unfold HierBitset.blockLoop
    have hlen := bitOf_lt hb
    have hlt : block * 8 + j < b.data.length := by omega
    rw [List.getElem?_eq_getElem hlt]
    simp only
    by_cases hz : b.data[block * 8 + j] = 0#64
    · rw [if_pos hz]
      have hword : ∀ q, q / 64 = block * 8 + j → bitOf b.data q = false := by
        intro q hq
        rw [bitOf_getElem (w := b.data[block * 8 + j]) (by rw [hq]; exact List.getElem?_eq_getElem hlt), hz]
        simp
      have hne : p / 64 ≠ block * 8 + j := by
        intro he; rw [hword p he] at hb; simp at hb
      obtain ⟨r, h1, h2, h3, h4⟩ := ih (j + 1) (by omega) (by omega)
      refine ⟨r, h1, h2, h3, ?_⟩
      intro q hq1 hq2
      by_cases he : q / 64 = block * 8 + j
      · exact hword q he
      · exact h4 q (by omega) hq2
    · rw [if_neg hz]
      obtain ⟨hc1, hc2, hc3⟩ := ctz_spec hz
      have hdiv : ∀ q, q / 64 = block * 8 + j → bitOf b.data q = (b.data[block * 8 + j]).getLsbD (q % 64) := by
        intro q hq
        rw [bitOf_getElem (w := b.data[block * 8 + j]) (by rw [hq]; exact List.getElem?_eq_getElem hlt)]
      refine ⟨_, rfl, ?_, ?_, ?_⟩
      · rw [hdiv _ (by omega)]
        have : (block * 512 + j * 64 + ctz b.data[block * 8 + j]) % 64 = ctz b.data[block * 8 + j] := by omega
        rw [this]; exact hc1
      · by_cases hpj : p / 64 = block * 8 + j
        · rw [hdiv p hpj] at hb
          have : ¬ p % 64 < ctz b.data[block * 8 + j] := by
            intro hlt2; rw [hc3 _ hlt2] at hb; simp at hb
          omega
        · omega
      · intro q hq1 hq2
        have hqj : q / 64 = block * 8 + j := by omega
        rw [hdiv q hqj]
        exact hc3 _ (by omega)

theorem HierBitset.findLoop_spec {n : Nat} {b : HierBitset} (hi : HierInv n b) (ss : List (BitVec 64)) (i : Nat)
    (hss : ss = b.summary.drop i) (hbefore : ∀ q, q / 512 / 64 < i → bitOf b.data q = false) :
    (∀ q, bitOf b.data q = false) ∧ b.findLoop ss i = some none ∨
    ∃ r, b.findLoop ss i = some (some r) ∧ bitOf b.data r = true ∧ ∀ q, q < r → bitOf b.data q = false := by
  induction ss generalizing i with
  | nil =>
    left
    refine ⟨?_, rfl⟩
    intro q
    cases hq : bitOf b.data q with
    | false => rfl
    | true =>
      exfalso
      have h1 := bitOf_lt (hi.up q hq)
      have h2 : b.summary.length ≤ i := by
        have := congrArg List.length hss
        simp at this; omega
      rw [hbefore q (by omega)] at hq
      simp at hq
  | cons s ss ih =>
    have hlt : i < b.summary.length := by
      have := congrArg List.length hss
      simp at this; omega
    have hs : b.summary[i] = s := by
      rw [List.drop_eq_getElem_cons hlt] at hss
      injection hss with h1 _; exact h1.symm
    have hss' : ss = b.summary.drop (i + 1) := by
      rw [List.drop_eq_getElem_cons hlt] at hss
      injection hss
    have hbit : ∀ blk, blk / 64 = i → bitOf b.summary blk = s.getLsbD (blk % 64) := by
      intro blk hb
      rw [bitOf_getElem (w := b.summary[i]) (by rw [hb]; exact List.getElem?_eq_getElem hlt), hs]
    by_cases hz : s = 0#64
    · have hstep : b.findLoop (s :: ss) i = b.findLoop ss (i + 1) := by
        rw [HierBitset.findLoop, if_pos hz]
      rw [hstep]
      apply ih (i + 1) hss'
      intro q hq
      by_cases hqi : q / 512 / 64 = i
      · cases hb : bitOf b.data q with
        | false => rfl
        | true =>
          have := hi.up q hb
          rw [hbit _ hqi, hz] at this
          simp at this
      · exact hbefore q (by omega)
    · right
      obtain ⟨hc1, hc2, hc3⟩ := ctz_spec hz
      have hsum : bitOf b.summary (i * 64 + ctz s) = true := by
        rw [hbit _ (by omega)]
        have : (i * 64 + ctz s) % 64 = ctz s := by omega
        rw [this]; exact hc1
      obtain ⟨p, hp1, hp2⟩ := hi.down _ hsum
      obtain ⟨r, h1, h2, h3, h4⟩ := b.blockLoop_spec (i * 64 + ctz s) 8 0 p (by omega) (by omega) hp2
      refine ⟨r, ?_, h2, ?_⟩
      · rw [HierBitset.findLoop, if_neg hz, h1]
      · intro q hq
        by_cases hq2 : (i * 64 + ctz s) * 8 + 0 ≤ q / 64
        · exact h4 q hq2 hq
        · cases hb : bitOf b.data q with
          | false => rfl
          | true =>
            exfalso
            by_cases hqi : q / 512 / 64 < i
            · rw [hbefore q hqi] at hb; simp at hb
            · have hqi2 : q / 512 / 64 = i := by omega
              have hu := hi.up q hb
              rw [hbit _ hqi2] at hu
              rw [hc3 _ (by omega)] at hu
              simp at hu

end Alaya
