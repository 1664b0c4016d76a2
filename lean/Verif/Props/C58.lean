import Verif.Spec.FilterMeaning
import Verif.Lemmas.Filter

/-! C58: a filter tree accepts exactly the records that satisfy it as a boolean formula. -/
namespace Alaya
open Spec

theorem eqv_iff (a b : MetaValue) : a.eqv b = true ↔ VEq a b := by
  cases a <;> cases b <;> simp [MetaValue.eqv, VEq, BitVec.toInt_inj]

theorem ltv_iff (a b : MetaValue) : a.ltv b = true ↔ VLt a b := by
  cases a <;> cases b <;> simp [MetaValue.ltv, VLt]

theorem VEq_symm {a b : MetaValue} (h : VEq a b) : VEq b a := by
  cases a <;> cases b <;> simp only [VEq, dblEq] at h ⊢
  · exact h.symm
  · exact ⟨h.2.1, h.1, h.2.2.symm⟩
  · exact h.symm
  · exact h.symm

/-- Not NaN. -/
def Num : MetaValue → Prop
  | .double b => ¬ dblIsNaN b.toNat
  | _ => True

theorem str_total {a b : Bytes} (h1 : ¬ a < b) (h2 : ¬ b < a) : a = b := by
  rw [List.not_lt] at h1 h2
  exact List.le_antisymm h2 h1

theorem VLt_total {a b : MetaValue} (ha : Num a) (hb : Num b) (hi : a.index = b.index) :
    VLt a b ∨ VEq a b ∨ VLt b a := by
  cases a <;> cases b <;> simp only [MetaValue.index] at hi <;> first | omega | skip
  · simp only [VLt, VEq]; omega
  · simp only [VLt, VEq, dblLt, dblEq, Num] at *
    rcases Int.lt_trichotomy (dblVal _) (dblVal _) with h | h | h
    · exact Or.inl ⟨ha, hb, h⟩
    · exact Or.inr (Or.inl ⟨ha, hb, h⟩)
    · exact Or.inr (Or.inr ⟨hb, ha, h⟩)
  · simp only [VLt, VEq]
    rename_i a b
    by_cases h1 : a < b
    · exact Or.inl h1
    · by_cases h2 : b < a
      · exact Or.inr (Or.inr h2)
      · exact Or.inr (Or.inl (str_total h1 h2))
  · rename_i a b
    simp only [VLt, VEq]
    cases a <;> cases b <;> simp

theorem VLt_excl {a b : MetaValue} (h : VLt a b) : ¬ VEq a b ∧ ¬ VLt b a ∧ a.index = b.index := by
  cases a <;> cases b <;> simp only [VLt, VEq, MetaValue.index, dblLt, dblEq] at * <;> first | contradiction | skip
  · refine ⟨by omega, by omega, trivial⟩
  · refine ⟨fun e => by have := h.2.2; have := e.2.2; omega, fun e => by have := h.2.2; have := e.2.2; omega, trivial⟩
  · refine ⟨fun e => by rw [e] at h; exact List.lt_irrefl _ h, fun e => List.lt_asymm h e, trivial⟩
  · refine ⟨fun e => ?_, fun e => ?_, trivial⟩
    · rw [h.1, h.2] at e; cases e
    · rw [h.1, h.2] at e; exact Bool.noConfusion e.1

theorem VEq_index {a b : MetaValue} (h : VEq a b) : a.index = b.index := by
  cases a <;> cases b <;> simp only [VEq] at h <;> rfl

theorem compare_gt (a b : MetaValue) :
    (match compareValues a b with | some x => decide (x > 0) | none => false) = true ↔ VLt b a := by
  unfold compareValues
  by_cases hi : a.index ≠ b.index
  · rw [if_pos hi]
    simp only [Bool.false_eq_true, false_iff]
    intro h; exact hi (VLt_excl h).2.2.symm
  · rw [if_neg hi]
    by_cases h1 : a.ltv b = true
    · rw [if_pos h1]
      have := (VLt_excl ((ltv_iff a b).mp h1)).2.1
      simp [this]
    · rw [if_neg h1]
      by_cases h2 : b.ltv a = true
      · rw [if_pos h2]; simp [(ltv_iff b a).mp h2]
      · rw [if_neg h2]; simp [mt (ltv_iff b a).mpr h2]

theorem compare_lt (a b : MetaValue) :
    (match compareValues a b with | some x => decide (x < 0) | none => false) = true ↔ VLt a b := by
  unfold compareValues
  by_cases hi : a.index ≠ b.index
  · rw [if_pos hi]
    simp only [Bool.false_eq_true, false_iff]
    intro h; exact hi (VLt_excl h).2.2
  · rw [if_neg hi]
    by_cases h1 : a.ltv b = true
    · rw [if_pos h1]; simp [(ltv_iff a b).mp h1]
    · rw [if_neg h1]
      have := mt (ltv_iff a b).mpr h1
      by_cases h2 : b.ltv a = true
      · rw [if_pos h2]; simp [this]
      · rw [if_neg h2]; simp [this]

theorem compare_ge {a b : MetaValue} (ha : Num a) (hb : Num b) :
    (match compareValues a b with | some x => decide (x ≥ 0) | none => false) = true ↔ VLt b a ∨ VEq a b := by
  unfold compareValues
  by_cases hi : a.index ≠ b.index
  · rw [if_pos hi]
    simp only [Bool.false_eq_true, false_iff]
    rintro (h | h)
    · exact hi (VLt_excl h).2.2.symm
    · exact hi (VEq_index h)
  · rw [if_neg hi]
    have ht := VLt_total ha hb (by simpa using hi)
    by_cases h1 : a.ltv b = true
    · rw [if_pos h1]
      have := VLt_excl ((ltv_iff a b).mp h1)
      simp [this.1, this.2.1]
    · rw [if_neg h1]
      have h1' := mt (ltv_iff a b).mpr h1
      have hor : VLt b a ∨ VEq a b := by
        rcases ht with h | h | h
        · exact absurd h h1'
        · exact Or.inr h
        · exact Or.inl h
      by_cases h2 : b.ltv a = true
      · rw [if_pos h2]; simp [hor]
      · rw [if_neg h2]; simp [hor]

theorem compare_le {a b : MetaValue} (ha : Num a) (hb : Num b) :
    (match compareValues a b with | some x => decide (x ≤ 0) | none => false) = true ↔ VLt a b ∨ VEq a b := by
  unfold compareValues
  by_cases hi : a.index ≠ b.index
  · rw [if_pos hi]
    simp only [Bool.false_eq_true, false_iff]
    rintro (h | h)
    · exact hi (VLt_excl h).2.2
    · exact hi (VEq_index h)
  · rw [if_neg hi]
    have ht := VLt_total ha hb (by simpa using hi)
    by_cases h1 : a.ltv b = true
    · rw [if_pos h1]; simp [(ltv_iff a b).mp h1]
    · rw [if_neg h1]
      have h1' := mt (ltv_iff a b).mpr h1
      by_cases h2 : b.ltv a = true
      · rw [if_pos h2]
        have := VLt_excl ((ltv_iff b a).mp h2)
        have hne : ¬ VEq a b := fun e => this.1 (VEq_symm e)
        simp [h1', hne]
      · rw [if_neg h2]
        have h2' := mt (ltv_iff b a).mpr h2
        have hor : VLt a b ∨ VEq a b := by
          rcases ht with h | h | h
          · exact absurd h h1'
          · exact Or.inr h
          · exact absurd h h2'
        simp [hor]

theorem hasSubstr_iff (pat s : Bytes) : hasSubstr pat s = true ↔ ∃ pre post, s = pre ++ pat ++ post := by
  induction s with
  | nil =>
    simp only [hasSubstr, List.isEmpty_iff]
    constructor
    · rintro rfl; exact ⟨[], [], rfl⟩
    · rintro ⟨pre, post, h⟩
      have := congrArg List.length h
      simp at this
      exact List.eq_nil_of_length_eq_zero (by omega)
  | cons c cs ih =>
    simp only [hasSubstr, Bool.or_eq_true, List.isPrefixOf_iff_prefix, ih]
    constructor
    · rintro (⟨t, h⟩ | ⟨pre, post, h⟩)
      · exact ⟨[], t, by simpa using h.symm⟩
      · exact ⟨c :: pre, post, by simp [h]⟩
    · rintro ⟨pre, post, h⟩
      cases pre with
      | nil => exact Or.inl ⟨post, by simpa using h.symm⟩
      | cons d pre =>
        simp only [List.cons_append, List.cons.injEq] at h
        exact Or.inr ⟨pre, post, by simpa using h.2⟩

theorem contains_iff (a p : MetaValue) :
    containsString a p = true ↔ ∃ pre pat post, a = .string (pre ++ pat ++ post) ∧ p = .string pat := by
  cases a <;> cases p <;> simp only [containsString, Bool.false_eq_true, false_iff]
  case string.string a p =>
    rw [hasSubstr_iff]
    constructor
    · rintro ⟨pre, post, rfl⟩; exact ⟨pre, p, post, rfl, rfl⟩
    · rintro ⟨pre, pat, post, h1, h2⟩
      cases h2; cases h1; exact ⟨pre, post, rfl⟩
  all_goals (rintro ⟨pre, pat, post, h1, h2⟩; first | cases h1; done | cases h2; done)

/-- One condition, on records and values without NaN. -/
theorem cond_holds_iff {m : MetaMap} (hu : (m.map Prod.fst).Nodup) (c : FilterCond)
    (hn : NoNaNMap m) (hv : Num c.value) : c.eval m = true ↔ CondHolds m c := by
  unfold FilterCond.eval CondHolds
  cases hg : m.get c.field with
  | none =>
    simp only [Bool.false_eq_true, false_iff]
    rintro ⟨v, hv, _⟩
    rw [MetaMap.get_of_mem hu hv] at hg
    cases hg
  | some a =>
    have hmem := MetaMap.mem_of_get hg
    have ha : Num a := by
      cases a with
      | double b => exact hn _ _ hmem
      | _ => trivial
    have hex : ∀ P : MetaValue → Prop, (∃ v, (c.field, v) ∈ m ∧ P v) ↔ P a := by
      intro P
      constructor
      · rintro ⟨v, h1, h2⟩
        have := MetaMap.get_of_mem hu h1
        rw [hg] at this
        cases this; exact h2
      · intro h; exact ⟨a, hmem, h⟩
    rw [hex]
    have hany : (c.values.any fun v => v.eqv a) = true ↔ ∃ w ∈ c.values, VEq a w := by
      rw [List.any_eq_true]
      constructor
      · rintro ⟨w, h1, h2⟩; exact ⟨w, h1, VEq_symm ((eqv_iff w a).mp h2)⟩
      · rintro ⟨w, h1, h2⟩; exact ⟨w, h1, (eqv_iff w a).mpr (VEq_symm h2)⟩
    cases c.op <;> simp only
    · exact eqv_iff a c.value
    · rw [Bool.not_eq_true', ← Bool.not_eq_true, eqv_iff]
    · exact compare_gt a c.value
    · exact compare_ge ha hv
    · exact compare_lt a c.value
    · exact compare_le ha hv
    · exact hany
    · rw [Bool.not_eq_true', ← Bool.not_eq_true, hany]
    · exact contains_iff a c.value

theorem num_of_all {conds : List FilterCond}
    (h : (conds.all fun c => match c.value with | .double b => !decide (dblIsNaN b.toNat) | _ => true) = true) :
    ∀ c ∈ conds, Num c.value := by
  intro c hc
  have := List.all_eq_true.mp h c hc
  cases hv : c.value with
  | double b => rw [hv] at this; simpa [Num] using this
  | _ => trivial

mutual
theorem holds_iff {m : MetaMap} (hu : (m.map Prod.fst).Nodup) (hn : NoNaNMap m) (f : Filter)
    (h1 : SingleNot f = true) (h2 : NoNaN f = true) : f.eval m = true ↔ Holds m f := by
  match f with
  | .mk op conds subs =>
    simp only [SingleNot, Bool.and_eq_true] at h1
    simp only [NoNaN, Bool.and_eq_true] at h2
    have hc : ∀ c ∈ conds, (c.eval m = true ↔ CondHolds m c) :=
      fun c hc => cond_holds_iff hu c hn (num_of_all h2.1 c hc)
    have hs := holds_subs_iff hu hn subs h1.2 h2.2
    have hall : (∀ r ∈ conds.map (fun c => c.eval m) ++ Filter.evalSubs m subs, r = true) ↔
        (∀ c ∈ conds, CondHolds m c) ∧ AllHold m subs := by
      rw [← hs.1]
      constructor
      · intro h
        refine ⟨fun c hc' => (hc c hc').mp (h _ (List.mem_append_left _ (List.mem_map_of_mem hc'))), ?_⟩
        intro r hr; exact h r (List.mem_append_right _ hr)
      · rintro ⟨ha, hb⟩ r hr
        rcases List.mem_append.mp hr with hr | hr
        · obtain ⟨c, hc', rfl⟩ := List.mem_map.mp hr
          exact (hc c hc').mpr (ha c hc')
        · exact hb r hr
    have hany : (∃ r ∈ conds.map (fun c => c.eval m) ++ Filter.evalSubs m subs, r = true) ↔
        (∃ c ∈ conds, CondHolds m c) ∨ SomeHolds m subs := by
      rw [← hs.2.1]
      constructor
      · rintro ⟨r, hr, he⟩
        rcases List.mem_append.mp hr with hr | hr
        · obtain ⟨c, hc', rfl⟩ := List.mem_map.mp hr
          exact Or.inl ⟨c, hc', (hc c hc').mp he⟩
        · exact Or.inr ⟨r, hr, he⟩
      · rintro (⟨c, hc', h⟩ | ⟨r, hr, he⟩)
        · exact ⟨_, List.mem_append_left _ (List.mem_map_of_mem hc'), (hc c hc').mpr h⟩
        · exact ⟨r, List.mem_append_right _ hr, he⟩
    have hlen : (conds.map (fun c => c.eval m) ++ Filter.evalSubs m subs).length = conds.length + subs.length := by
      simp [hs.2.2]
    unfold Filter.eval Holds
    by_cases hempty : conds = [] ∧ subs = []
    · rw [if_pos (by simp [hempty])]
      simp [hempty]
    · rw [if_neg (by simpa using hempty)]
      rw [or_iff_right hempty]
      generalize hrs : conds.map (fun c => c.eval m) ++ Filter.evalSubs m subs = rs at hall hany hlen
      cases rs with
      | nil =>
        exfalso
        apply hempty
        simp only [List.length_nil] at hlen
        exact ⟨List.eq_nil_of_length_eq_zero (by omega), List.eq_nil_of_length_eq_zero (by omega)⟩
      | cons r rs =>
        unfold combine
        cases op with
        | and =>
          simp only
          rw [← hall, List.all_eq_true]
          rfl
        | or =>
          simp only
          rw [← hany, List.any_eq_true]
          rfl
        | not =>
          simp only
          have hl : conds.length + subs.length ≤ 1 := by simpa using h1.1
          have : rs = [] := by
            simp only [List.length_cons] at hlen
            exact List.eq_nil_of_length_eq_zero (by omega)
          subst this
          rw [← hall]
          simp
theorem holds_subs_iff {m : MetaMap} (hu : (m.map Prod.fst).Nodup) (hn : NoNaNMap m) (fs : List Filter)
    (h1 : SingleNots fs = true) (h2 : NoNaNs fs = true) :
    ((∀ r ∈ Filter.evalSubs m fs, r = true) ↔ AllHold m fs) ∧ ((∃ r ∈ Filter.evalSubs m fs, r = true) ↔ SomeHolds m fs) ∧
      (Filter.evalSubs m fs).length = fs.length := by
  match fs with
  | [] => simp [Filter.evalSubs, AllHold, SomeHolds]
  | f :: fs =>
    simp only [SingleNots, Bool.and_eq_true] at h1
    simp only [NoNaNs, Bool.and_eq_true] at h2
    have hf := holds_iff hu hn f h1.1 h2.1
    have hr := holds_subs_iff hu hn fs h1.2 h2.2
    simp only [Filter.evalSubs, AllHold, SomeHolds, ← hf, ← hr.1, ← hr.2.1, List.length_cons, hr.2.2]
    simp
end

/-- The full statement. -/
def C58Statement : Prop :=
  ∀ (f : Filter) (m : MetaMap), (m.map Prod.fst).Nodup → (f.eval m = true ↔ Holds m f)

/-- Partial (missing: NOT with several parts; NaN as a stored value or operand): the verdict is the truth value of the
formula. -/
theorem C58_filter_meaning_partial (f : Filter) (m : MetaMap) (hu : (m.map Prod.fst).Nodup) (hn : NoNaNMap m)
    (h1 : SingleNot f = true) (h2 : NoNaN f = true) : f.eval m = true ↔ Holds m f :=
  holds_iff hu hn f h1 h2

/-- a = 5 AND (s CONTAINS "lay" OR NOT d >= 1.5) on a record. -/
def meaningFilter : Filter :=
  .mk .and [⟨str "a", .eq, .int 5, []⟩]
    [.mk .or [⟨str "s", .contains, .string (str "lay"), []⟩] [.mk .not [⟨str "d", .ge, .double 0x3FF8000000000000, []⟩] []]]
def meaningMap : MetaMap := [(str "a", .int 5), (str "s", .string (str "alaya")), (str "d", .double 0x4000000000000000)]

set_option exponentiation.threshold 2100 in
example : (meaningMap.map Prod.fst).Nodup ∧ SingleNot meaningFilter = true ∧ NoNaN meaningFilter = true ∧
    meaningFilter.eval meaningMap = true := by decide

example : NoNaNMap meaningMap := by
  intro k b h
  simp only [meaningMap, List.mem_cons, Prod.mk.injEq, MetaValue.double.injEq, List.not_mem_nil, or_false, reduceCtorEq,
    and_false, false_or] at h
  rw [h.2]; decide

/-- NOT with two parts ignores the second one: `NOT (a = 1, b = 2)` rejects `{a: 1, b: 3}`. -/
theorem C58_not_several_refuted : ¬ C58Statement := by
  intro h
  have h1 := h (.mk .not [⟨str "a", .eq, .int 1, []⟩, ⟨str "b", .eq, .int 2, []⟩] [])
    [(str "a", .int 1), (str "b", .int 3)] (by decide)
  have h2 := h1.mpr (by
    unfold Holds
    refine Or.inr ?_
    rintro ⟨hc, _⟩
    obtain ⟨v, hv, he⟩ := hc ⟨str "b", .eq, .int 2, []⟩ (by simp)
    simp only [List.mem_cons, Prod.mk.injEq, List.not_mem_nil, or_false] at hv
    rcases hv with ⟨h, _⟩ | ⟨_, rfl⟩
    · exact absurd h (by decide)
    · simp [VEq] at he)
  revert h2
  decide

set_option exponentiation.threshold 2100 in
/-- A stored NaN satisfies `d >= 1.0` and `d <= 1.0` (but not `d = 1.0`): `compare` reports "equal". -/
theorem C58_nan_refuted : ∃ (m : MetaMap) (f : Filter), (m.map Prod.fst).Nodup ∧ SingleNot f = true ∧
    f.eval m = true ∧ ¬ Holds m f := by
  refine ⟨[(str "d", .double 0x7FF8000000000000)], .mk .and [⟨str "d", .ge, .double 0x3FF0000000000000, []⟩] [],
    by decide, by decide, by decide, ?_⟩
  unfold Holds
  rintro (⟨h, _⟩ | ⟨h, _⟩)
  · cases h
  · obtain ⟨v, hv, he⟩ := h ⟨str "d", .ge, .double 0x3FF0000000000000, []⟩ (by simp)
    simp only [List.mem_singleton, Prod.mk.injEq] at hv
    obtain ⟨_, rfl⟩ := hv
    simp only [VLt, VEq, dblLt, dblEq] at he
    rcases he with he | he
    · exact he.2.1 (by decide)
    · exact he.1 (by decide)

end Alaya
