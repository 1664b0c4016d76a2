import Verif.Model.DiskSlots
import Verif.Lemmas.Bitsets
import Verif.Lemmas.Wal

/-! C43: the visited bitset claims each id exactly once per query. -/
namespace Alaya.DiskSlots
open Alaya Alaya.Wal

/-- The call marks the id. -/
def Marks (id : Nat) (c : VCall) : Prop := c = .set id ∨ c = .testAndSet id

/-- The call empties the set. -/
def Empties (c : VCall) : Prop := c = .clear ∨ ∃ n, c = .resize n

/-- The id was marked after the last call that emptied the set. -/
def Claimed (cs : List VCall) (id : Nat) : Prop :=
  ∃ a c b, cs = a ++ c :: b ∧ Marks id c ∧ ∀ x ∈ b, ¬ Empties x

/-- The size after the calls. -/
def sizeAfter (n : Nat) (cs : List VCall) : Nat :=
  cs.foldl (fun n c => match c with
    | .resize m => m
    | _ => n) n

/-- Slot ids have 32 bits, so the set is never made larger. -/
def Sizes (cs : List VCall) : Prop := ∀ n, .resize n ∈ cs → n ≤ 2 ^ 32

theorem Claimed.snoc (cs : List VCall) (c : VCall) (id : Nat) :
    Claimed (cs ++ [c]) id ↔ Marks id c ∨ (¬ Empties c ∧ Claimed cs id) := by
  constructor
  · rintro ⟨a, x, b, e, hm, hb⟩
    rcases List.eq_nil_or_concat b with rfl | ⟨b', y, rfl⟩
    · have : cs ++ [c] = a ++ [x] := e
      obtain ⟨_, h2⟩ := List.append_inj' this rfl
      injection h2 with h2
      subst h2
      exact Or.inl hm
    · rw [List.concat_eq_append, show a ++ x :: (b' ++ [y]) = (a ++ x :: b') ++ [y] by simp] at e
      obtain ⟨h1, h2⟩ := List.append_inj' e rfl
      injection h2 with h2
      subst h2
      exact Or.inr ⟨hb c (by simp), a, x, b', h1, hm, fun z hz => hb z (by simp [hz])⟩
  · rintro (hm | ⟨hn, a, x, b, rfl, hm, hb⟩)
    · exact ⟨cs, c, [], rfl, hm, by simp⟩
    · refine ⟨a, x, b ++ [c], by simp, hm, ?_⟩
      intro z hz
      rcases List.mem_append.1 hz with hz | hz
      · exact hb z hz
      · rw [List.mem_singleton.1 hz]; exact hn

/-- The bits, the size and the dirty words. -/
structure VInv (b : Visited) (n : Nat) (M : Nat → Prop) : Prop where
  size : b.nBits = n
  len : b.words.length = (n + 63) / 64
  bits : ∀ id, id < n → (bitOf b.words id = true ↔ M id)
  dirtyLt : ∀ w ∈ b.dirty, w < b.words.length
  dirty : ∀ i, i < b.words.length → i ∉ b.dirty → b.words[i]? = some 0#64

theorem clearLoop_spec : ∀ (d : List Nat) (ws : List (BitVec 64)), (∀ w ∈ d, w < ws.length) →
    ∃ ws', clearLoop ws d = some ws' ∧ ws'.length = ws.length ∧
      ∀ i, i < ws.length → ws'[i]? = if i ∈ d then some 0#64 else ws[i]?
  | [], ws, _ => ⟨ws, rfl, rfl, by simp⟩
  | w :: d, ws, h => by
    obtain ⟨ws', h1, h2, h3⟩ := clearLoop_spec d (ws.set w 0#64) (by intro x hx; rw [List.length_set]; exact h x (by simp [hx]))
    rw [List.length_set] at h2 h3
    refine ⟨ws', ?_, h2, ?_⟩
    · unfold clearLoop; rw [if_pos (h w (by simp)), h1]
    · intro i hi
      rw [h3 i hi, List.getElem?_set]
      by_cases hd : i ∈ d
      · simp [hd]
      · rw [if_neg hd]
        by_cases hw : w = i
        · subst hw; simp [hi]
        · rw [if_neg hw, if_neg (by simp [hd]; exact fun e => hw e.symm)]

theorem bitOf_zero {ws : List (BitVec 64)} (h : ∀ i, i < ws.length → ws[i]? = some 0#64) (id : Nat) : bitOf ws id = false := by
  unfold bitOf
  by_cases hi : id / 64 < ws.length
  · rw [h _ hi]; simp
  · rw [List.getElem?_eq_none (by omega)]; simp

theorem or_mask_ne (w : BitVec 64) {i : Nat} (hi : i < 64) : w ||| (1#64 <<< i) ≠ 0#64 := by
  intro h
  have := congrArg (fun x => x.getLsbD i) h
  simp only [BitVec.getLsbD_or, getLsbD_one_shl hi] at this
  simp at this

theorem mark_inv {b : Visited} {n : Nat} {M : Nat → Prop} (h : VInv b n M) {id : Nat} (hid : id < n) {w : BitVec 64}
    (hw : b.words[id / 64]? = some w) :
    VInv { b with words := b.words.set (id / 64) (w ||| (1#64 <<< (id % 64))),
                  dirty := if w = 0#64 then b.dirty ++ [id / 64] else b.dirty } n (fun x => x = id ∨ M x) := by
  have hm : id % 64 < 64 := Nat.mod_lt _ (by decide)
  have hl : id / 64 < b.words.length := by
    rw [h.len]; omega
  refine { size := h.size, len := by simp [h.len], bits := ?_, dirtyLt := ?_, dirty := ?_ }
  · intro x hx
    simp only
    rw [bitOf_set hl]
    by_cases e : x / 64 = id / 64
    · rw [if_pos e, BitVec.getLsbD_or, getLsbD_one_shl hm]
      have hb := h.bits x hx
      rw [bitOf_getElem (show b.words[x / 64]? = some w by rw [e]; exact hw)] at hb
      by_cases hxi : x = id
      · subst hxi; simp
      · have : x % 64 ≠ id % 64 := by omega
        simp only [this, decide_false, Bool.or_false]
        rw [hb]
        simp [hxi]
    · rw [if_neg e, h.bits x hx]
      have : x ≠ id := fun hh => e (by rw [hh])
      simp [this]
  · intro y hy
    simp only [List.length_set] at hy ⊢
    split at hy
    · rcases List.mem_append.1 hy with hy | hy
      · exact h.dirtyLt y hy
      · rw [List.mem_singleton.1 hy]; exact hl
    · exact h.dirtyLt y hy
  · intro i hi hnd
    simp only [List.length_set] at hi hnd ⊢
    rw [List.getElem?_set]
    by_cases e : id / 64 = i
    · subst e
      exfalso
      by_cases hz : w = 0#64
      · rw [if_pos hz] at hnd; exact hnd (by simp)
      · rw [if_neg hz] at hnd
        have := h.dirty _ hi hnd
        rw [hw] at this
        injection this with this
        exact hz this
    · rw [if_neg e]
      refine h.dirty i hi (fun hd => hnd ?_)
      split
      · exact List.mem_append.2 (Or.inl hd)
      · exact hd

theorem test_mask {b : Visited} {n : Nat} {M : Nat → Prop} (h : VInv b n M) {id : Nat} (hid : id < n) :
    ∃ w, b.words[id / 64]? = some w ∧ (((w &&& (1#64 <<< (id % 64))) != 0#64) = true ↔ M id) := by
  have hl : id / 64 < b.words.length := by rw [h.len]; omega
  refine ⟨b.words[id / 64], List.getElem?_eq_getElem hl, ?_⟩
  rw [mask_nonzero _ (Nat.mod_lt _ (by decide)), ← h.bits id hid, bitOf_getElem (List.getElem?_eq_getElem hl)]

theorem vstep {b : Visited} {n : Nat} {M : Nat → Prop} (h : VInv b n M) (c : VCall) (hc : ∀ m, c = .resize m → m ≤ 2 ^ 32) :
    ∃ b', b.step c = .ok b' ∧ VInv b' (sizeAfter n [c]) (fun id => Marks id c ∨ (¬ Empties c ∧ M id)) := by
  cases c with
  | set id =>
    unfold Visited.step Visited.set
    simp only
    by_cases hn : b.nBits ≤ id
    · rw [if_pos hn]
      refine ⟨b, rfl, h.size, h.len, ?_, h.dirtyLt, h.dirty⟩
      intro x hx
      rw [h.size] at hn
      have hx' : x < n := hx
      rw [h.bits x hx']
      have : id ≠ x := by omega
      simp [Marks, Empties, this]
    · rw [if_neg hn]
      rw [h.size] at hn
      obtain ⟨w, hw, _⟩ := test_mask h (id := id) (by omega)
      rw [shr6, and63, hw]
      refine ⟨_, rfl, ?_⟩
      have := mark_inv h (id := id) (by omega) hw
      refine { size := this.size, len := this.len, bits := ?_, dirtyLt := this.dirtyLt, dirty := this.dirty }
      intro x hx
      rw [this.bits x hx]
      simp [Marks, Empties, eq_comm]
  | testAndSet id =>
    unfold Visited.step Visited.testAndSet
    simp only
    by_cases hn : b.nBits ≤ id
    · rw [if_pos hn]
      refine ⟨b, rfl, h.size, h.len, ?_, h.dirtyLt, h.dirty⟩
      intro x hx
      rw [h.size] at hn
      have hx' : x < n := hx
      rw [h.bits x hx']
      have : id ≠ x := by omega
      simp [Marks, Empties, this]
    · rw [if_neg hn]
      rw [h.size] at hn
      obtain ⟨w, hw, _⟩ := test_mask h (id := id) (by omega)
      rw [shr6, and63, hw]
      refine ⟨_, rfl, ?_⟩
      have := mark_inv h (id := id) (by omega) hw
      refine { size := this.size, len := this.len, bits := ?_, dirtyLt := this.dirtyLt, dirty := this.dirty }
      intro x hx
      rw [this.bits x hx]
      simp [Marks, Empties, eq_comm]
  | clear =>
    obtain ⟨ws', h1, h2, h3⟩ := clearLoop_spec b.dirty b.words h.dirtyLt
    have hz : ∀ i, i < ws'.length → ws'[i]? = some 0#64 := by
      intro i hi
      rw [h2] at hi
      rw [h3 i hi]
      by_cases hd : i ∈ b.dirty
      · rw [if_pos hd]
      · rw [if_neg hd]; exact h.dirty i hi hd
    refine ⟨{ b with words := ws', dirty := [] }, ?_, h.size, h2.trans h.len, ?_, by simp, fun i hi _ => hz i hi⟩
    · unfold Visited.step Visited.clear; simp only [h1]
    · intro x hx
      rw [bitOf_zero hz]
      simp [Marks, Empties]
  | resize m =>
    have hm := hc m rfl
    have hsz : (m + 63) % U64 / 64 = (m + 63) / 64 := by rw [U64_eq, Nat.mod_eq_of_lt (by omega)]
    refine ⟨Visited.resize m, rfl, rfl, ?_, ?_, (by intro w hw; cases hw), ?_⟩
    · unfold Visited.resize
      simp only [List.length_replicate]
      exact hsz
    · intro x hx
      unfold Visited.resize
      rw [bitOf_replicate]
      simp [Marks, Empties]
    · intro i hi _
      unfold Visited.resize at hi ⊢
      simp only [List.length_replicate] at hi
      simp [List.getElem?_replicate, hi]

theorem run_append (b : Visited) (cs : List VCall) (c : VCall) {b' : Visited} (h : b.run cs = .ok b') :
    b.run (cs ++ [c]) = b'.step c := by
  induction cs generalizing b with
  | nil =>
    injection h with h
    subst h
    simp only [List.nil_append, Visited.run]
    cases b.step c <;> rfl
  | cons x cs ih =>
    simp only [List.cons_append, Visited.run] at h ⊢
    cases hx : b.step x with
    | ub => rw [hx] at h; cases h
    | throws => rw [hx] at h; cases h
    | ok b1 => rw [hx] at h; exact ih b1 h

theorem run_inv (n : Nat) (hn : n ≤ 2 ^ 32) (cs : List VCall) (hs : Sizes cs) :
    ∃ b, (Visited.resize n).run cs = .ok b ∧ VInv b (sizeAfter n cs) (Claimed cs) := by
  induction cs using snocInduction with
  | nil =>
    obtain ⟨b', e, h⟩ := vstep (b := Visited.resize 0) (n := 0) (M := fun _ => False)
      ⟨rfl, by unfold Visited.resize; simp [U64_eq], by intro id hid; omega, (by intro w hw; cases hw),
        by intro i hi; unfold Visited.resize at hi; simp [U64_eq] at hi⟩ (.resize n) (by intro m hm; injection hm with hm; subst hm; exact hn)
    injection e with e
    subst e
    refine ⟨_, rfl, h.size, h.len, ?_, h.dirtyLt, h.dirty⟩
    intro id hid
    rw [h.bits id hid]
    constructor
    · rintro (h | h)
      · rcases h with h | h <;> cases h
      · exact absurd (Or.inr ⟨n, rfl⟩) h.1
    · rintro ⟨a, c, b, e, _⟩
      cases a <;> cases e
  | snoc cs c ih =>
    obtain ⟨b, e, h⟩ := ih (fun m hm => hs m (by simp [hm]))
    obtain ⟨b', e', h'⟩ := vstep h c (by intro m hm; subst hm; exact hs m (by simp))
    have hsz : sizeAfter n (cs ++ [c]) = sizeAfter (sizeAfter n cs) [c] := by unfold sizeAfter; rw [List.foldl_append]
    refine ⟨b', by rw [run_append _ cs c e, e'], ?_⟩
    rw [hsz]
    refine ⟨h'.size, h'.len, ?_, h'.dirtyLt, h'.dirty⟩
    intro id hid
    rw [h'.bits id hid, Claimed.snoc]

/-- After any history no call is undefined, and `test_and_set(id)` returns true exactly when `id` was not marked since the
set was last emptied.  An id outside of the current size throws. -/
theorem C43_claims_once (n : Nat) (hn : n ≤ 2 ^ 32) (cs : List VCall) (hs : Sizes cs) (id : Nat) :
    ∃ b, (Visited.resize n).run cs = .ok b ∧
      (id < sizeAfter n cs → ∃ r b', b.testAndSet id = .ok (r, b') ∧ (r = true ↔ ¬ Claimed cs id)) ∧
      (id < sizeAfter n cs → ∃ r, b.test id = .ok r ∧ (r = true ↔ Claimed cs id)) ∧
      (sizeAfter n cs ≤ id → b.testAndSet id = .throws ∧ b.test id = .throws ∧ b.set id = .throws) := by
  obtain ⟨b, e, h⟩ := run_inv n hn cs hs
  refine ⟨b, e, ?_, ?_, ?_⟩
  · intro hid
    obtain ⟨w, hw, hm⟩ := test_mask h hid
    unfold Visited.testAndSet
    rw [if_neg (by rw [h.size]; omega), shr6, and63, hw]
    refine ⟨_, _, rfl, ?_⟩
    rw [← hm]
    simp
  · intro hid
    obtain ⟨w, hw, hm⟩ := test_mask h hid
    unfold Visited.test
    rw [if_neg (by rw [h.size]; omega), shr6, and63, hw]
    exact ⟨_, rfl, hm⟩
  · intro hid
    unfold Visited.testAndSet Visited.test Visited.set
    rw [if_pos (by rw [h.size]; exact hid), if_pos (by rw [h.size]; exact hid), if_pos (by rw [h.size]; exact hid)]
    exact ⟨rfl, rfl, rfl⟩

/-- After `clear` no id is marked: every word is zero, although only dirty words were written. -/
theorem C43_clear_empties (n : Nat) (hn : n ≤ 2 ^ 32) (cs : List VCall) (hs : Sizes cs) :
    ∃ b b', (Visited.resize n).run cs = .ok b ∧ b.clear = .ok b' ∧ b'.dirty = [] ∧
      b'.words = List.replicate ((sizeAfter n cs + 63) / 64) 0#64 ∧ ∀ id, id < sizeAfter n cs → b'.test id = .ok false := by
  obtain ⟨b, e, h⟩ := run_inv n hn cs hs
  obtain ⟨ws', h1, h2, h3⟩ := clearLoop_spec b.dirty b.words h.dirtyLt
  have hz : ∀ i, i < ws'.length → ws'[i]? = some 0#64 := by
    intro i hi
    rw [h2] at hi
    rw [h3 i hi]
    by_cases hd : i ∈ b.dirty
    · rw [if_pos hd]
    · rw [if_neg hd]; exact h.dirty i hi hd
  refine ⟨b, { b with words := ws', dirty := [] }, e, by unfold Visited.clear; simp only [h1], rfl, ?_, ?_⟩
  · simp only
    apply List.ext_getElem?
    intro i
    rw [List.getElem?_replicate, ← h.len, ← h2]
    by_cases hi : i < ws'.length
    · rw [if_pos hi, hz i hi]
    · rw [if_neg hi, List.getElem?_eq_none (by omega)]
  · intro id hid
    have hl : id / 64 < ws'.length := by rw [h2, h.len]; omega
    unfold Visited.test
    simp only
    rw [if_neg (by rw [h.size]; omega), shr6, and63, hz _ hl]
    simp

/-- The hypotheses are met: marks in two words, a clear, a mark. -/
example : Sizes [.testAndSet 3, .set 70, .testAndSet 71, .clear, .testAndSet 3] ∧
    ((Visited.resize 100).run [.testAndSet 3, .set 70, .testAndSet 71]) = .ok ⟨100, [8#64, 192#64], [0, 1]⟩ := by
  refine ⟨by intro n h; simp at h, ?_⟩
  decide +kernel

/-- Observation: `resize` with a size near 2^64 wraps and allocates no word, so a later call would be undefined.  Callers pass
slot counts. -/
example : (Visited.resize (2 ^ 64 - 1)).words = [] := by
  unfold Visited.resize
  simp only [U64_eq]
  rfl

end Alaya.DiskSlots
