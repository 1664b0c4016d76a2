import Verif.Lemmas.PyDelete

/-! C55: delete_by_filter terminates and removes exactly the matching records. -/
namespace Alaya.Py

/-- Specification, slot by slot: matching records are gone, all others are untouched. -/
def Purged (p : ScalarData → Bool) (l l' : List (Option Row)) : Prop :=
  l'.length = l.length ∧ ∀ (i : Nat) (r : Row), l[i]? = some (some r) → l'[i]? = some (if p r.2 then none else some r)

/-- Number of live records accepted by the filter. -/
def numMatching (p : ScalarData → Bool) (l : List (Option Row)) : Nat :=
  l.countP fun o => match o with
    | some r => p r.2
    | none => false

/-- Number of live accepted records without an item id (they can be stored: `insert` takes `item_id=None` and `""`). -/
def numAnon (p : ScalarData → Bool) (l : List (Option Row)) : Nat :=
  l.countP fun o => match o with
    | some r => p r.2 && r.2.itemId.isEmpty
    | none => false

/-- The full statement. -/
def C55Statement (upd : Bool) : Prop :=
  ∀ (s : Index) (p : ScalarData → Bool) (b : Nat), Uniq s.slots → 0 < b →
    ∃ n s', Returns upd p b s n s' ∧ Purged p s.slots s'.slots ∧ n = numMatching p s.slots

theorem numMatching_eq (p : ScalarData → Bool) (l : List (Option Row)) : numMatching p l = (matching p l).length := by
  unfold numMatching matching
  induction l with
  | nil => rfl
  | cons o l ih =>
    rw [List.countP_cons, List.filterMap_cons]
    cases o with
    | none => simpa using ih
    | some r =>
      cases hp : p r.2
      · simp only [hp]; simpa using ih
      · simp only [hp]; simp; exact ih

theorem numAnon_eq (p : ScalarData → Bool) (l : List (Option Row)) : numAnon p l = (anon p l).length := by
  unfold numAnon anon matching
  induction l with
  | nil => rfl
  | cons o l ih =>
    rw [List.countP_cons, List.filterMap_cons]
    cases o with
    | none => simpa using ih
    | some r =>
      cases hp : p r.2
      · simp only [hp]; simpa using ih
      · by_cases he : r.2.itemId = []
        · simp only [hp, if_true]
          rw [List.filter_cons_of_pos (by simp [he]), List.length_cons, ← ih]
          simp [he]
        · simp only [hp, if_true]
          rw [List.filter_cons_of_neg (by simp [he]), ← ih]
          simp [he]

/-- On an index that supports removal the call returns iff fewer than `b` matching records lack an item id. -/
theorem C55_returns_iff (s : Index) (p : ScalarData → Bool) (b : Nat) (hu : Uniq s.slots) (hb : 0 < b) :
    (∃ n s', Returns true p b s n s') ↔ numAnon p s.slots < b := by
  rw [numAnon_eq]
  constructor
  · rintro ⟨n, s', f, hf⟩
    rcases Nat.lt_or_ge (anon p s.slots).length b with h | h
    · exact h
    · rw [delLoop_stuck f s 0 hu h] at hf; cases hf
  · intro h
    obtain ⟨n, s', h1, _⟩ := delLoop_ends hb _ s 0 hu h (Nat.le_refl _)
    exact ⟨n, s', _, h1⟩

/-- Whenever it returns, no non-matching record is lost, the matching records that remain are those without an item id,
and the returned number is at least the number of matches. -/
theorem C55_safe (s : Index) (p : ScalarData → Bool) (b : Nat) (hu : Uniq s.slots) (hb : 0 < b) (n : Nat) (s' : Index)
    (h : Returns true p b s n s') :
    s'.slots.length = s.slots.length ∧
      (∀ (i : Nat) (r : Row), s.slots[i]? = some (some r) →
        s'.slots[i]? = some (if p r.2 = true ∧ r.2.itemId ≠ [] then none else some r)) ∧
      numMatching p s.slots ≤ n := by
  have ha := (C55_returns_iff s p b hu hb).mp ⟨n, s', h⟩
  rw [numAnon_eq] at ha
  obtain ⟨n1, s1, h1, h2, h3, h4, _⟩ := delLoop_ends hb _ s 0 hu ha (Nat.le_refl _)
  obtain ⟨rfl, rfl⟩ := returns_unique h ⟨_, h1⟩
  have hlen : ∀ i, i < s'.slots.length ↔ i < s.slots.length := by
    intro i
    have a := List.getElem?_eq_none_iff (l := s'.slots) (i := i)
    have c := List.getElem?_eq_none_iff (l := s.slots) (i := i)
    rcases h2 i with e | ⟨r, e1, _, _, e2⟩
    · rw [e] at a
      rw [← Nat.not_le, ← Nat.not_le, ← a, ← c]
    · rw [e2] at a; rw [e1] at c
      have := (List.getElem?_eq_some_iff.mp e1).1
      have := (List.getElem?_eq_some_iff.mp e2).1
      constructor <;> intro <;> assumption
  refine ⟨?_, ?_, by rw [numMatching_eq]; omega⟩
  · have a := hlen s'.slots.length
    have c := hlen s.slots.length
    omega
  · intro i r hi
    rcases h2 i with e | ⟨q, e1, e2, e3, e4⟩
    · rw [e, hi]
      by_cases hc : p r.2 = true ∧ r.2.itemId ≠ []
      · exfalso
        have hm : r ∈ matching p s'.slots := mem_matching.mpr ⟨List.mem_of_getElem? (e.trans hi), hc.1⟩
        rw [h3] at hm
        unfold anon at hm
        rw [List.mem_filter] at hm
        exact hc.2 (by simpa using hm.2)
      · rw [if_neg hc]
    · rw [hi] at e1
      cases e1
      rw [e4, if_pos ⟨e2, e3⟩]

/-- Partial (missing: indexes without an update job, and matching records without an item id — refuted below): the call
terminates, removes exactly the matching records and returns their number. -/
theorem C55_delete_partial (s : Index) (p : ScalarData → Bool) (b : Nat) (hu : Uniq s.slots) (hb : 0 < b)
    (hn : ∀ r, some r ∈ s.slots → p r.2 = true → r.2.itemId ≠ []) :
    ∃ n s', Returns true p b s n s' ∧ Purged p s.slots s'.slots ∧ n = numMatching p s.slots := by
  have he : anon p s.slots = [] := by
    unfold anon
    rw [List.filter_eq_nil_iff]
    intro r hr
    obtain ⟨h1, h2⟩ := mem_matching.mp hr
    simpa using hn r h1 h2
  obtain ⟨n, s', h1, _, _, _, h5⟩ := delLoop_ends hb _ s 0 hu (by rw [he]; exact hb) (Nat.le_refl _)
  have hr : Returns true p b s n s' := ⟨_, h1⟩
  obtain ⟨g1, g2, _⟩ := C55_safe s p b hu hb n s' hr
  refine ⟨n, s', hr, ⟨g1, ?_⟩, by rw [numMatching_eq, h5 he]; omega⟩
  intro i r hi
  rw [g2 i r hi]
  by_cases hp : p r.2 = true
  · rw [if_pos ⟨hp, hn r (List.mem_of_getElem? hi) hp⟩, if_pos hp]
  · rw [if_neg (fun h => hp h.1), if_neg hp]

def rowX : Row := ([1], ⟨str "x", [], []⟩)
def rowY : Row := ([2], ⟨str "y", str "keep", []⟩)
def rowZ : Row := ([3], ⟨str "z", [], []⟩)
def rowNoId : Row := ([4], ⟨[], [], []⟩)

def noDoc : ScalarData → Bool := fun r => r.document.isEmpty

/-- Batch size 1 on three records, two of which match: three passes, two removed, the third record kept. -/
example : Returns true noDoc 1 ⟨1, 4, [some rowX, some rowY, some rowZ]⟩ 2 ⟨1, 4, [none, some rowY, none]⟩ :=
  ⟨3, by decide⟩

example : Uniq [some rowX, some rowY, some rowZ] ∧
    ∀ r, some r ∈ [some rowX, some rowY, some rowZ] → noDoc r.2 = true → r.2.itemId ≠ [] := by
  refine ⟨append_uniq (append_uniq (append_uniq uniq_nil (Or.inr (by simp)))
    (Or.inr (by intro r hr; simp at hr; subst hr; decide)))
    (Or.inr (by intro r hr; simp at hr; rcases hr with rfl | rfl <;> decide)), ?_⟩
  intro r hr _
  simp at hr
  rcases hr with rfl | rfl | rfl <;> decide

theorem uniq_noId : Uniq [some rowNoId] := append_uniq uniq_nil (Or.inl rfl)

/-- The unchanged code does not terminate when a full batch of matching records has no item id: the removals fail with
an exception that `delete_by_id` swallows, and the same batch is fetched again. -/
theorem C55_anonymous_refuted : ¬ C55Statement true := by
  intro h
  obtain ⟨n, s', hr, _⟩ := h ⟨1, 4, [some rowNoId]⟩ noDoc 1 uniq_noId (by omega)
  have := (C55_returns_iff ⟨1, 4, [some rowNoId]⟩ noDoc 1 uniq_noId (by omega)).mp ⟨n, s', hr⟩
  exact absurd this (by decide)

/-- With a larger batch it returns, but reports a removal that did not happen. -/
theorem C55_overcount : Returns true noDoc 2 ⟨1, 4, [some rowNoId]⟩ 1 ⟨1, 4, [some rowNoId]⟩ := ⟨1, by decide⟩

/-- On an index without an update job nothing is ever removed: the call loops for ever when a full batch matches, and
otherwise returns the number of matches with all of them still stored. -/
theorem C55_no_update_job (s : Index) (p : ScalarData → Bool) (b : Nat) (n : Nat) (s' : Index) :
    Returns false p b s n s' ↔ numMatching p s.slots < b ∧ n = numMatching p s.slots ∧ s' = s := by
  rw [numMatching_eq]
  have hl := filterIds_length s p b
  constructor
  · rintro ⟨f, hf⟩
    by_cases hb : (s.filterIds p b).length = b
    · exfalso
      have : ∀ f total, delLoop false p b f total s = none := by
        intro f
        induction f with
        | zero => intro _; rfl
        | succ f ih =>
          intro total
          rw [delLoop, if_pos hb, deleteIds_not_updatable]
          exact ih _
      rw [this] at hf; cases hf
    · cases f with
      | zero => cases hf
      | succ f =>
        rw [delLoop, if_neg hb, deleteIds_not_updatable] at hf
        cases hf
        refine ⟨by omega, by omega, rfl⟩
  · rintro ⟨h1, rfl, rfl⟩
    refine ⟨1, ?_⟩
    rw [delLoop, if_neg (by omega), deleteIds_not_updatable]
    rw [show (s'.filterIds p b).length = (matching p s'.slots).length by omega, Nat.zero_add]

theorem C55_no_update_job_refuted : ¬ C55Statement false := by
  intro h
  obtain ⟨n, s', hr, _⟩ := h ⟨1, 4, [some rowNoId]⟩ noDoc 1 uniq_noId (by omega)
  have := (C55_no_update_job _ _ _ _ _).mp hr
  exact absurd this.1 (by decide)

end Alaya.Py
