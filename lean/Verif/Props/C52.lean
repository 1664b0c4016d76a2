import Verif.Lemmas.PyIndex

/-! C52: upsert replaces exactly one record. -/
namespace Alaya.Py

/-- A history of calls; calls that throw change nothing. -/
def Index.calls (s : Index) (cs : List Call) : Index := cs.foldl (fun s c => (s.exec c).getD s) s

theorem calls_uniq {s : Index} (hu : Uniq s.slots) (cs : List Call) : Uniq (s.calls cs).slots := by
  induction cs generalizing s with
  | nil => exact hu
  | cons c cs ih =>
    apply ih
    show Uniq ((s.exec c).getD s).slots
    cases h : s.exec c with
    | none => exact hu
    | some s' => exact exec_uniq hu h

/-- The full statement: after any history, an upsert that returns without an exception stores the record and leaves all
other items alone. -/
def C52Statement : Prop :=
  ∀ (s : Index) (cs : List Call), Uniq s.slots → ∀ (row : Row), row.2.itemId ≠ [] →
    ∀ s' o, (s.calls cs).upsertNd row = some (s', o) →
      s'.get row.2.itemId = some row ∧ ∀ k, k ≠ row.2.itemId → s'.get k = (s.calls cs).get k

def rowA : Row := ([1, 2, 3, 4], ⟨str "a", str "first", []⟩)
def rowA' : Row := ([5, 6, 7, 8], ⟨str "a", str "second", []⟩)
def rowB : Row := ([0, 0, 0, 0], ⟨str "b", [], [(str "k", .int 3)]⟩)

/-- The unchanged code loses the record: in a full index `upsert` of an existing item removes the old record, and the
insert returns `invalid_id()` instead of throwing, so the rollback does not run. -/
theorem C52_full_index_refuted : ¬ C52Statement := by
  intro h
  have := h ⟨4, 1, []⟩ [.insert 10 rowA] uniq_nil rowA' (by decide) ⟨4, 1, [none]⟩ none (by decide)
  exact absurd this.1 (by decide)

/-- In every full index every upsert of an existing item returns normally and loses the item. -/
theorem C52_full_index_loses (s : Index) (hu : Uniq s.slots) (hfull : s.cap ≤ s.slots.length) (row old : Row)
    (h : s.get row.2.itemId = some old) : ∃ s', s.upsertNd row = some (s', none) ∧ s'.get row.2.itemId = none := by
  obtain ⟨s1, h1, h2, h3⟩ := upsertNd_existing hu h
  have hl := removeItem_vecLen h1
  have hi := insertNd_not_dup h3
  rw [if_pos (by omega)] at hi
  exact ⟨s1, by rw [h2, hi], get_none_iff.mpr h3⟩

example : Uniq [some rowA, none, some rowB] ∧ (Index.mk 4 3 [some rowA, none, some rowB]).get (str "a") = some rowA := by
  refine ⟨?_, by decide⟩
  have h1 : Uniq [some rowA, none] := by
    intro i j r r' hi hj _ _
    rcases i with _ | _ | i <;> rcases j with _ | _ | j <;> simp at hi hj ⊢
  exact append_uniq h1 (Or.inr (by intro r hr; simp at hr; subst hr; decide))

/-- Partial (missing: upserts that return `invalid_id()`, i.e. a full index): an upsert that returns a valid id stores
exactly the new record, leaves all other items alone and returns the slot of the record. -/
theorem C52_upsert_partial (s : Index) (cs : List Call) (hu : Uniq s.slots) (row : Row) (hne : row.2.itemId ≠ [])
    (s' : Index) (i : Nat) (h : (s.calls cs).upsertNd row = some (s', some i)) :
    s'.get row.2.itemId = some row ∧ s'.find row.2.itemId = some i ∧
      ∀ k, k ≠ row.2.itemId → s'.get k = (s.calls cs).get k := by
  have hu1 := calls_uniq hu cs
  generalize s.calls cs = t at *
  have hroom : t.slots.length < t.cap := by
    cases hg : t.get row.2.itemId with
    | none => rw [upsertNd_new hg] at h; exact (insertNd_slots h).2.2.2
    | some old =>
      obtain ⟨s1, h1, h2, _⟩ := upsertNd_existing hu1 hg
      rw [h2] at h
      have := (insertNd_slots h).2.2.2
      have hl := removeItem_vecLen h1
      omega
  have hi : s'.slots[i]? = some (some row) := by
    have key : ∀ t' : Index, t'.insertNd row = some (s', some i) → s'.slots[i]? = some (some row) := by
      intro t' ht
      obtain ⟨rfl, rfl, _, _⟩ := insertNd_slots ht
      simp
    cases hg : t.get row.2.itemId with
    | none => rw [upsertNd_new hg] at h; exact key t h
    | some old =>
      obtain ⟨s1, _, h2, _⟩ := upsertNd_existing hu1 hg
      rw [h2] at h; exact key s1 h
  obtain ⟨s2, j, h1, h2, h3, h4, h5, h6⟩ := upsertNd_room hu1 row hroom
  rw [h] at h1
  cases h1
  refine ⟨by rw [h6, if_pos ⟨rfl, hne⟩], find_eq h2 hi hne, ?_⟩
  intro k hk
  rw [h6, if_neg (fun e => hk e.1.symm)]

example : ((Index.mk 4 5 []).calls [.insert 10 rowA, .insert 10 rowB, .removeItem (str "b")]).upsertNd rowA'
    = some (⟨4, 5, [none, none, some rowA']⟩, some 2) := by decide

/-- Below capacity an upsert always returns a valid id. -/
theorem C52_upsert_below_capacity (s : Index) (cs : List Call) (hu : Uniq s.slots) (row : Row)
    (hroom : (s.calls cs).slots.length < (s.calls cs).cap) :
    ∃ s' i, (s.calls cs).upsertNd row = some (s', some i) := by
  obtain ⟨s', i, h, _⟩ := upsertNd_room (calls_uniq hu cs) row hroom
  exact ⟨s', i, h⟩

example : ((Index.mk 4 2 []).calls [.insert 10 rowA]).slots.length < ((Index.mk 4 2 []).calls [.insert 10 rowA]).cap := by decide

end Alaya.Py
