import Verif.Lemmas.Bitsets

/-! C23: bitsets behave as sets of integers. -/
namespace Alaya

/-- Specification: the calls on a set of positions given by its characteristic function. -/
def specBits (s : Nat → Bool) : BitCall → Nat → Bool
  | .set p, q => if q = p then true else s q
  | .reset p, q => if q = p then false else s q
  | .setAll, _ => true
  | .clear, _ => false

/-- The call addresses a position of a bitset of `n` bits. -/
def callIn (n : Nat) : BitCall → Prop
  | .set p => p < n
  | .reset p => p < n
  | _ => True

/-- Any history of calls with positions below the size stays inside the word array, and every position
then reads exactly as in the set. -/
theorem C23_dynamic_bitset_is_set (n : Nat) (cs : List BitCall) (h : ∀ c ∈ cs, callIn n c) :
    ∃ b, (DynBitset.new n).run cs = some b ∧ b.size = n ∧
      ∀ q, q < n → b.get q = some (cs.foldl specBits (fun _ => false) q) := by
  have main : ∀ (cs : List BitCall) (b : DynBitset) (s : Nat → Bool), (∀ c ∈ cs, callIn n c) →
      b.size = n → b.words.length = (n + 63) / 64 → (∀ q, q < n → bitOf b.words q = s q) →
      ∃ b', b.run cs = some b' ∧ b'.size = n ∧ b'.words.length = (n + 63) / 64 ∧
        ∀ q, q < n → bitOf b'.words q = cs.foldl specBits s q := by
    intro cs
    induction cs with
    | nil => intro b s _ h1 h2 h3; exact ⟨b, rfl, h1, h2, h3⟩
    | cons c cs ih =>
      intro b s hc h1 h2 h3
      have hstep : ∃ b1, b.step c = some b1 ∧ b1.size = n ∧ b1.words.length = (n + 63) / 64 ∧
          ∀ q, q < n → bitOf b1.words q = specBits s c q := by
        have hcin := hc c (by simp)
        cases c with
        | set p =>
          have hp : p < n := hcin
          obtain ⟨b', e1, e2, e3, e4⟩ := b.set_eq (p := p) (by omega)
          refine ⟨b', e1, by omega, by omega, ?_⟩
          intro q hq
          rw [e4, h3 q hq]; rfl
        | reset p =>
          have hp : p < n := hcin
          obtain ⟨b', e1, e2, e3, e4⟩ := b.reset_eq (p := p) (by omega)
          refine ⟨b', e1, by omega, by omega, ?_⟩
          intro q hq
          rw [e4, h3 q hq]; rfl
        | setAll =>
          refine ⟨b.setAll, rfl, h1, by simpa [DynBitset.setAll] using h2, ?_⟩
          intro q hq
          exact b.setAll_eq (by omega)
        | clear =>
          refine ⟨b.clear, rfl, h1, by simpa [DynBitset.clear] using h2, ?_⟩
          intro q hq
          exact b.clear_eq q
      obtain ⟨b1, e1, e2, e3, e4⟩ := hstep
      obtain ⟨b2, f1, f2, f3, f4⟩ := ih b1 (specBits s c) (fun c' hc' => hc c' (by simp [hc'])) e2 e3 e4
      exact ⟨b2, by simp [DynBitset.run, e1, f1], f2, f3, f4⟩
  obtain ⟨b, e1, e2, e3, e4⟩ := main cs (DynBitset.new n) (fun _ => false) h rfl (by simp [DynBitset.new])
    (fun q _ => bitOf_replicate _ _)
  exact ⟨b, e1, e2, fun q hq => by rw [b.get_eq (by omega), e4 q hq]⟩

example : (∀ c ∈ [BitCall.set 63, .set 64, .reset 63, .set 0], callIn 65 c) ∧
    [BitCall.set 63, .set 64, .reset 63, .set 0].foldl specBits (fun _ => false) 64 = true := by
  constructor
  · intro c hc
    simp only [List.mem_cons, List.not_mem_nil, or_false] at hc
    rcases hc with rfl | rfl | rfl | rfl <;> simp [callIn]
  · decide

/-- One `set`/`reset` leaves every other position of the bitset alone (also positions of the same word). -/
theorem C23_set_reset_frame (b : DynBitset) (p q : Nat) (hp : p / 64 < b.words.length)
    (hq : q / 64 < b.words.length) (hne : q ≠ p) :
    (∃ b', b.set p = some b' ∧ b'.get q = b.get q ∧ b'.get p = some true) ∧
    (∃ b', b.reset p = some b' ∧ b'.get q = b.get q ∧ b'.get p = some false) := by
  obtain ⟨b', e1, _, e3, e4⟩ := b.set_eq hp
  obtain ⟨b'', f1, _, f3, f4⟩ := b.reset_eq hp
  refine ⟨⟨b', e1, ?_, ?_⟩, ⟨b'', f1, ?_, ?_⟩⟩
  · rw [b'.get_eq (by omega), b.get_eq hq, e4, if_neg hne]
  · rw [b'.get_eq (by omega), e4, if_pos rfl]
  · rw [b''.get_eq (by omega), b.get_eq hq, f4, if_neg hne]
  · rw [b''.get_eq (by omega), f4, if_pos rfl]

example : 63 / 64 < (DynBitset.new 65).words.length ∧ 64 / 64 < (DynBitset.new 65).words.length := by decide

/-- A position at or behind the last word is an access outside of the array. -/
theorem C23_out_of_range_is_ub (n p : Nat) (h : 64 * ((n + 63) / 64) ≤ p) :
    (DynBitset.new n).set p = none ∧ (DynBitset.new n).get p = none ∧ (DynBitset.new n).reset p = none := by
  have h1 : (DynBitset.new n).words[p / 64]? = none := by
    apply List.getElem?_eq_none
    simp [DynBitset.new]; omega
  unfold DynBitset.set DynBitset.get DynBitset.reset
  rw [shr6, h1]; simp

example : 64 * ((10 + 63) / 64) ≤ 64 := by decide

/-- `HierarchicalBitset`: after any sequence of `set` calls below the size, `get` is membership and
`find_first_set` is the least element (`-1` when nothing was set); no access outside of the arrays. -/
theorem C23_hierarchical_find_first (n : Nat) (ps : List Nat) (h : ∀ p ∈ ps, p < n) :
    ∃ b, (HierBitset.new n).sets ps = some b ∧
      (∀ q, q < n → b.get q = some (decide (q ∈ ps))) ∧
      (ps = [] ∧ b.findFirst = some none ∨
        ∃ r, r ∈ ps ∧ (∀ p ∈ ps, r ≤ p) ∧ b.findFirst = some (some r)) := by
  have main : ∀ (ps : List Nat) (b : HierBitset), (∀ p ∈ ps, p < n) → HierInv n b →
      ∃ b', b.sets ps = some b' ∧ HierInv n b' ∧
        ∀ q, bitOf b'.data q = (decide (q ∈ ps) || bitOf b.data q) := by
    intro ps
    induction ps with
    | nil => intro b _ hi; exact ⟨b, rfl, hi, by simp⟩
    | cons p ps ih =>
      intro b hp hi
      obtain ⟨b1, e1, e2, e3⟩ := HierBitset.set_eq hi (hp p (by simp))
      obtain ⟨b2, f1, f2, f3⟩ := ih b1 (fun p' h' => hp p' (by simp [h'])) e2
      refine ⟨b2, by simp [HierBitset.sets, e1, f1], f2, ?_⟩
      intro q
      rw [f3, e3]
      by_cases hq : q = p
      · subst hq; simp
      · simp [hq]
  have hinit : HierInv n (HierBitset.new n) := by
    refine ⟨by simp [HierBitset.new], by simp [HierBitset.new], ?_, ?_⟩
    · intro p hp
      have : bitOf (HierBitset.new n).data p = false := bitOf_replicate _ _
      rw [this] at hp; simp at hp
    · intro p hp
      have : bitOf (HierBitset.new n).summary p = false := bitOf_replicate _ _
      rw [this] at hp; simp at hp
  obtain ⟨b, e1, e2, e3⟩ := main ps _ h hinit
  have hmem : ∀ q, bitOf b.data q = decide (q ∈ ps) := by
    intro q
    rw [e3]
    have : bitOf (HierBitset.new n).data q = false := bitOf_replicate _ _
    rw [this]; simp
  refine ⟨b, e1, ?_, ?_⟩
  · intro q hq
    have hlt : q / 64 < b.data.length := by rw [e2.dlen]; omega
    unfold HierBitset.get
    rw [hidx, hoff, List.getElem?_eq_getElem hlt]
    simp only
    rw [mask_nonzero _ (Nat.mod_lt _ (by decide)), ← hmem q,
      bitOf_getElem (w := b.data[q / 64]) (List.getElem?_eq_getElem hlt)]
  · rcases HierBitset.findLoop_spec e2 b.summary 0 rfl (by intro q hq; omega) with ⟨h1, h2⟩ | ⟨r, h1, h2, h3⟩
    · left
      refine ⟨?_, h2⟩
      cases ps with
      | nil => rfl
      | cons p ps =>
        have := h1 p
        rw [hmem] at this; simp at this
    · right
      rw [hmem] at h2
      refine ⟨r, by simpa using h2, ?_, h1⟩
      intro p hp
      apply Classical.byContradiction
      intro hlt
      have := h3 p (by omega)
      rw [hmem] at this
      simp [hp] at this

example : ∀ p ∈ [40000, 700], p < 40001 := by decide

end Alaya
