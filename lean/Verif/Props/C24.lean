import Verif.Model.Bitsets

/-! C24: the epoch-based visited set never shows a mark of an earlier query. -/
namespace Alaya

/-- Specification: the set of marked ids together with the current size. -/
structure VisitedSpec where
  size : Nat
  marked : List Nat

/-- Effect of a call. -/
def VisitedSpec.step (s : VisitedSpec) : EpochCall → VisitedSpec
  | .set id => ⟨s.size, id :: s.marked⟩
  | .clear => ⟨s.size, []⟩
  | .resize n => ⟨n, []⟩

/-- The call is inside the array. -/
def VisitedSpec.okCall (s : VisitedSpec) : EpochCall → Prop
  | .set id => id < s.size
  | _ => True

/-- All calls of a history are inside the array. -/
def VisitedSpec.okRun (s : VisitedSpec) : List EpochCall → Prop
  | [] => True
  | c :: cs => s.okCall c ∧ (s.step c).okRun cs

/-- Stored tags never exceed the epoch, the epoch is never 0, and the tags equal to the epoch are the marks. -/
structure EpochInv (bits : Nat) (s : EpochSet) (v : VisitedSpec) : Prop where
  len : s.tags.length = v.size
  pos : 0 < s.epoch
  lt : s.epoch < 2 ^ bits
  le : ∀ t ∈ s.tags, t ≤ s.epoch
  mark : ∀ id, id < v.size → (s.tags[id]? = some s.epoch ↔ id ∈ v.marked)

theorem epoch_step {bits : Nat} (hb : 1 < 2 ^ bits) {s : EpochSet} {v : VisitedSpec} (hi : EpochInv bits s v)
    (c : EpochCall) (hc : v.okCall c) :
    ∃ s', s.step bits c = some s' ∧ EpochInv bits s' (v.step c) := by
  have fresh : ∀ n, EpochInv bits (EpochSet.new n) ⟨n, []⟩ := by
    intro n
    refine ⟨by simp [EpochSet.new], by simp [EpochSet.new], by simpa [EpochSet.new] using hb, ?_, ?_⟩
    · intro t ht
      simp [EpochSet.new] at ht ⊢; omega
    · intro id hid
      simp [EpochSet.new, show id < n from hid]
  cases c with
  | set id =>
    have hid : id < s.tags.length := by rw [hi.len]; exact hc
    refine ⟨{ s with tags := s.tags.set id s.epoch }, by simp [EpochSet.step, EpochSet.set, hid], ?_⟩
    refine ⟨by simpa [VisitedSpec.step] using hi.len, hi.pos, hi.lt, ?_, ?_⟩
    · intro t ht
      rcases List.mem_or_eq_of_mem_set ht with h | h
      · exact hi.le t h
      · simp only; omega
    · intro q hq
      simp only [VisitedSpec.step] at hq
      simp only [VisitedSpec.step, List.mem_cons, List.getElem?_set]
      by_cases hqi : id = q
      · subst hqi; simp [hid]
      · rw [if_neg hqi, hi.mark q hq]
        simp [Ne.symm hqi]
  | clear =>
    refine ⟨s.clear bits, rfl, ?_⟩
    unfold EpochSet.clear
    by_cases hw : s.epoch + 1 = 2 ^ bits
    · simp only [hw, if_true]
      refine ⟨by simpa [VisitedSpec.step] using hi.len, by simp, hb, ?_, ?_⟩
      · intro t ht
        simp at ht; simp [← ht.2]
      · intro id hid
        have hlt : id < s.tags.length := by rw [hi.len]; exact hid
        simp [VisitedSpec.step, List.getElem?_map, List.getElem?_eq_getElem hlt]
    · simp only [hw, if_false, Nat.add_eq_zero_iff, Nat.one_ne_zero, and_false]
      have hlt := hi.lt
      refine ⟨hi.len, by simp, by simp only; omega, ?_, ?_⟩
      · intro t ht
        have := hi.le t ht
        simp only; omega
      · intro id hid
        simp only [VisitedSpec.step, List.not_mem_nil, iff_false]
        intro h
        have := hi.le _ (List.mem_of_getElem? h)
        omega
  | resize n =>
    exact ⟨EpochSet.new n, rfl, fresh n⟩

/-- For tags of any width (at least one bit) and any history of any length: no undefined access, and `get`
answers exactly "marked since the last clear/resize". Wrap-around of the epoch is included because the
history may be longer than `2^bits`. -/
theorem C24_epoch_visited_exact (bits : Nat) (hb : 1 ≤ bits) (n : Nat) (cs : List EpochCall)
    (hok : VisitedSpec.okRun ⟨n, []⟩ cs) :
    ∃ s, (EpochSet.new n).run bits cs = some s ∧
      ∀ id, id < (cs.foldl VisitedSpec.step ⟨n, []⟩).size →
        s.get id = some (decide (id ∈ (cs.foldl VisitedSpec.step ⟨n, []⟩).marked)) := by
  have hb2 : 1 < 2 ^ bits := Nat.one_lt_two_pow (by omega)
  have main : ∀ (cs : List EpochCall) (s : EpochSet) (v : VisitedSpec), EpochInv bits s v → v.okRun cs →
      ∃ s', s.run bits cs = some s' ∧ EpochInv bits s' (cs.foldl VisitedSpec.step v) := by
    intro cs
    induction cs with
    | nil => intro s v hi _; exact ⟨s, rfl, hi⟩
    | cons c cs ih =>
      intro s v hi hr
      obtain ⟨s1, e1, e2⟩ := epoch_step hb2 hi c hr.1
      obtain ⟨s2, f1, f2⟩ := ih s1 _ e2 hr.2
      exact ⟨s2, by simp [EpochSet.run, e1, f1], f2⟩
  have hinit : EpochInv bits (EpochSet.new n) ⟨n, []⟩ := by
    refine ⟨by simp [EpochSet.new], by simp [EpochSet.new], by simpa [EpochSet.new] using hb2, ?_, ?_⟩
    · intro t ht
      simp [EpochSet.new] at ht ⊢; omega
    · intro id hid
      simp [EpochSet.new, show id < n from hid]
  obtain ⟨s, e1, e2⟩ := main cs _ _ hinit hok
  refine ⟨s, e1, ?_⟩
  intro id hid
  have hlt : id < s.tags.length := by rw [e2.len]; exact hid
  unfold EpochSet.get
  rw [List.getElem?_eq_getElem hlt]
  simp only [Option.map_some, Option.some.injEq]
  have hm := e2.mark id hid
  rw [List.getElem?_eq_getElem hlt, Option.some.injEq] at hm
  by_cases h : s.tags[id] = s.epoch
  · simp [h, hm.1 h]
  · simp [h, mt hm.2 h]

-- a mark, then 300 clears with 8-bit tags (two wrap-arounds): the mark is gone
example : VisitedSpec.okRun ⟨3, []⟩ (.set 1 :: List.replicate 300 .clear) ∧
    ((.set 1 :: List.replicate 300 EpochCall.clear).foldl VisitedSpec.step ⟨3, []⟩).marked = [] := by
  constructor
  · refine ⟨by show 1 < 3; decide, ?_⟩
    have : ∀ (k : Nat) (v : VisitedSpec), v.okRun (List.replicate k .clear) := by
      intro k
      induction k with
      | zero => intro v; trivial
      | succ k ih => intro v; exact ⟨trivial, ih _⟩
    exact this _ _
  · rfl

end Alaya
