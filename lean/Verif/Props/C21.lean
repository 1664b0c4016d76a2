import Verif.Props.C20

/-! C21: save and load of the sequential storage. -/
namespace Alaya.Seq
open Spec

theorem bit8_reload (bm : List (BitVec 8)) (junk : List (BitVec 8)) {cap i : Nat} (h : i < cap) (hb : bitmapBytes cap ≤ bm.length) :
    bit8 (((bm.take (bitmapBytes cap)).map UInt8.ofBitVec).map UInt8.toBitVec ++ junk) i = bit8 bm i := by
  have : ((bm.take (bitmapBytes cap)).map UInt8.ofBitVec).map UInt8.toBitVec = bm.take (bitmapBytes cap) := by
    rw [List.map_map]
    have : (UInt8.toBitVec ∘ UInt8.ofBitVec) = id := by funext x; simp
    rw [this, List.map_id]
  rw [this]
  have hlt : i / 8 < bitmapBytes cap := by unfold bitmapBytes; omega
  unfold bit8
  rw [List.getElem?_append_left (by simp; omega), List.getElem?_take, if_pos hlt]

theorem load_save {cap isz : Nat} {blank : Bytes} {s : Storage} {l : Slots} (r : Rep cap isz blank s l)
    (h64 : s.itemSize < 2 ^ 64 ∧ s.aligned < 2 ^ 64 ∧ s.cap < 2 ^ 64 ∧ s.pos < 2 ^ 64 ∧ s.alignment < 2 ^ 64)
    (junk : List (BitVec 8)) (rest : Bytes) :
    ∃ s', load junk (s.save ++ rest) = some (s', rest) ∧ s'.itemSize = s.itemSize ∧ s'.aligned = s.aligned ∧
      s'.cap = s.cap ∧ s'.pos = s.pos ∧ s'.alignment = s.alignment ∧ s'.data = s.data ∧ Rep cap isz blank s' l := by
  obtain ⟨h1, h2, h3, h4, h5⟩ := h64
  have e8 : (256 : Nat) ^ 8 = 2 ^ 64 := by decide
  have hl : ∀ n, n < 2 ^ 64 → leNat (leBytes 8 n) = n := fun n hn => leNat_leBytes_of_lt (by rw [e8]; exact hn)
  have hd : s.data.take (s.aligned * s.cap) = s.data := by
    rw [List.take_of_length_le]; rw [r.dlen, r.hcap]; exact Nat.le_refl _
  refine ⟨⟨s.itemSize, s.aligned, s.cap, s.pos, s.alignment, s.data,
    ((s.bitmap.take (bitmapBytes cap)).map UInt8.ofBitVec).map UInt8.toBitVec ++ junk⟩, ?_, rfl, rfl, rfl, rfl, rfl, rfl, ?_⟩
  · unfold load Storage.save
    rw [hd]
    simp only [List.append_assoc]
    rw [splitN_append' (leBytes_length 8 _)]
    simp only
    rw [splitN_append' (leBytes_length 8 _)]
    simp only
    rw [splitN_append' (leBytes_length 8 _)]
    simp only
    rw [splitN_append' (leBytes_length 8 _)]
    simp only
    rw [splitN_append' (leBytes_length 8 _)]
    simp only
    rw [hl _ h1, hl _ h2, hl _ h3, hl _ h4, hl _ h5]
    rw [splitN_append' (by rw [r.dlen, r.hcap])]
    simp only
    rw [splitN_append' (by
      have := r.blen
      rw [List.length_map, List.length_take, r.hcap]; omega)]
    rw [r.hcap]
  · refine ⟨r.hcap, r.hisz, r.pos, r.le, r.fit, r.dlen, ?_, ?_, r.cont⟩
    · have := r.blen
      simp; omega
    · intro i hi
      rw [← r.bit i hi]
      exact bit8_reload s.bitmap junk hi r.blen

/-- Saving the storage after any history and loading the file (with other data following) restores capacity, fill
position, every slot's bytes and every slot's validity, whatever the uninitialised tail of the new bitmap holds. -/
theorem C21_save_load (isz cap k : Nat) (fill : UInt8) (hi : InitOk isz cap k) (ops : List Op)
    (h : ∀ op ∈ ops, OpIn cap isz op) (junk : List (BitVec 8)) (rest : Bytes) :
    ∃ s rets s', (init isz cap fill (2 ^ k)).run ops = some (s, rets) ∧ load junk (s.save ++ rest) = some (s', rest) ∧
      s'.cap = cap ∧ s'.pos = s.pos ∧ s'.itemSize = isz ∧ s'.aligned = s.aligned ∧
      (∀ i, i < cap → s'.isValid i = s.isValid i ∧ s'.read i = s.read i) ∧
      (∀ more : List Op, (∀ op ∈ more, OpIn cap isz op) →
        ∃ t t' rs, s.run more = some (t, rs) ∧ s'.run more = some (t', rs) ∧
          ∀ i, i < cap → t'.isValid i = t.isValid i ∧ t'.read i = t.read i) := by
  obtain ⟨s, e, r⟩ := (Rep.init (cap := cap) fill hi.1 hi.2.1 hi.2.2).run ops h
  have keep : ∀ (ops : List Op) (a b : Storage) (rs : List (Option Nat)), a.run ops = some (b, rs) →
      b.aligned = a.aligned ∧ b.alignment = a.alignment := by
    intro ops
    induction ops with
    | nil => intro a b rs e; cases e; exact ⟨rfl, rfl⟩
    | cons op ops ih =>
      intro a b rs e
      have hst : ∀ a1 r1, a.step op = some (a1, r1) → a1.aligned = a.aligned ∧ a1.alignment = a.alignment := by
        intro a1 r1 e1
        cases op <;> simp only [Storage.step, Storage.insert, Storage.reserve, Storage.remove, Storage.update] at e1 <;>
          (repeat' split at e1) <;> first | (cases e1; exact ⟨rfl, rfl⟩) | cases e1
      simp only [Storage.run] at e
      split at e
      · cases e
      · rename_i a1 r1 e1
        split at e
        · cases e
        · rename_i b1 rs1 e2
          cases e
          obtain ⟨x, y⟩ := ih _ _ _ e2
          obtain ⟨x', y'⟩ := hst _ _ e1
          exact ⟨x.trans x', y.trans y'⟩
  obtain ⟨ka, kb⟩ := keep _ _ _ _ e
  obtain ⟨-, -, hal⟩ := C20_slots_aligned isz cap k fill hi
  have hk : (2 : Nat) ^ k < 2 ^ 64 := Nat.pow_lt_pow_right (by omega) hi.1
  have hi1 := hi.2.1
  have hi2 := hi.2.2
  have hp : 0 < 2 ^ k := Nat.two_pow_pos k
  have ralign : roundUp isz (2 ^ k) < 2 ^ 64 := BitVec.isLt _
  obtain ⟨s', f1, f2, f3, f4, f5, f6, f7, r'⟩ := load_save r ⟨by rw [r.hisz]; omega, by rw [ka]; exact ralign, by rw [r.hcap]; omega,
    by rw [r.pos]; have := r.le; omega, by rw [kb]; exact hk⟩ junk rest
  refine ⟨s, _, s', e, f1, by rw [f4, r.hcap], f5, by rw [f2, r.hisz], f3, ?_, ?_⟩
  · intro i hlt
    exact ⟨by rw [r'.isValid hlt, r.isValid hlt], by rw [r'.read hlt, r.read hlt]⟩
  · intro more hm
    obtain ⟨t, g1, q⟩ := r.run more hm
    obtain ⟨t', g1', q'⟩ := r'.run more hm
    exact ⟨t, t', _, g1, g1', fun i hlt => ⟨by rw [q'.isValid hlt, q.isValid hlt], by rw [q'.read hlt, q.read hlt]⟩⟩

example : (((init 2 3 7 4).run [.insert [1, 2], .reserve, .remove 0]).bind
      (fun p => load [255#8, 255#8] (p.1.save ++ [42]))).map Prod.fst =
    some ⟨2, 4, 3, 2, 4, [1, 2, 7, 7, 7, 7, 7, 7, 7, 7, 7, 7], [2#8, 255#8, 255#8]⟩ := by decide

end Alaya.Seq
