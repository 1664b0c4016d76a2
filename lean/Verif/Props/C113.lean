import Mathlib.Data.List.Nodup
import Mathlib.Data.List.Perm.Subperm
import Verif.Model.FreqRelayout

/-!
# C113: reordering an adjacency row by visit frequency keeps its neighbours

Model: Model/FreqRelayout.lean.  What fails is in C113Limits.lean.
-/

namespace Alaya.Relayout

theorem rest_eq (row : List Nat) : ∀ vis : List Nat, row.Nodup → rest vis row = row.filter (fun v => decide (v ∉ vis)) := by
  induction row with
  | nil => intro vis _; rfl
  | cons a t ih =>
    intro vis h
    rw [List.nodup_cons] at h
    by_cases ha : a ∈ vis
    · simp [rest, ha, ih vis h.2]
    · simp only [rest, ha, if_false, ih _ h.2, not_false_eq_true, decide_true, List.filter_cons_of_pos]
      congr 1
      apply List.filter_congr
      intro x hx
      have : x ≠ a := by rintro rfl; exact h.1 hx
      simp [this]

theorem split_length (row ids : List Nat) :
    (row.filter (fun v => decide (v ∈ ids))).length + (row.filter (fun v => decide (v ∉ ids))).length = row.length := by
  induction row with
  | nil => rfl
  | cons a t ih =>
    by_cases ha : a ∈ ids
    · simp [ha] at ih ⊢; omega
    · simp [ha] at ih ⊢; omega

/-- For a row without repetitions and any order of its visit row by frequency, the new row has the visited neighbours first, in that order, then the
others in the order they had; and the visit row is accepted exactly when it names neighbours of the row, none twice. -/
theorem C113_row (freq sorted : List (Nat × Nat)) (hs : sorted.Perm freq) (row out : List Nat) (hr : row.Nodup) :
    relayout sorted row = some out ↔
      ((freq.map Prod.fst).Nodup ∧ (∀ x ∈ freq, x.1 ∈ row)) ∧
        out = sorted.map Prod.fst ++ row.filter (fun v => decide (v ∉ freq.map Prod.fst)) := by
  have hp : (sorted.map Prod.fst).Perm (freq.map Prod.fst) := hs.map _
  have hfil : row.filter (fun v => decide (v ∉ sorted.map Prod.fst)) = row.filter (fun v => decide (v ∉ freq.map Prod.fst)) :=
    List.filter_congr fun x _ => by rw [decide_eq_decide, hp.mem_iff]
  have hsub : (∀ x ∈ freq, x.1 ∈ row) ↔ ∀ v ∈ sorted.map Prod.fst, v ∈ row := by
    constructor
    · intro h v hv
      obtain ⟨x, hx, rfl⟩ := List.mem_map.mp (hp.mem_iff.mp hv)
      exact h x hx
    · intro h x hx
      exact h _ (hp.mem_iff.mpr (List.mem_map_of_mem hx))
  rw [hsub, ← hp.nodup_iff, ← hfil]
  simp only [relayout]
  rw [rest_eq row _ hr]
  generalize sorted.map Prod.fst = ids
  have hl := split_length row ids
  have key : row.length = (ids ++ row.filter (fun v => decide (v ∉ ids))).length ↔ ids.Nodup ∧ ∀ v ∈ ids, v ∈ row := by
    rw [List.length_append]
    have hn : (row.filter (fun v => decide (v ∈ ids))).Nodup := hr.filter _
    constructor
    · intro h
      have hsp : (row.filter (fun v => decide (v ∈ ids))).Subperm ids :=
        List.subperm_of_subset hn fun x hx => by simpa using (List.mem_filter.mp hx).2
      have hperm := hsp.perm_of_length_le (by omega)
      exact ⟨hperm.nodup_iff.mp hn, fun v hv => (List.mem_filter.mp (hperm.mem_iff.mpr hv)).1⟩
    · rintro ⟨h1, h2⟩
      have hperm : (row.filter (fun v => decide (v ∈ ids))).Perm ids := by
        rw [List.perm_ext_iff_of_nodup hn h1]
        intro x
        simp only [List.mem_filter, decide_eq_true_eq]
        exact ⟨fun h => h.2, fun h => ⟨h2 x h, h⟩⟩
      have := hperm.length_eq
      omega
  by_cases h : row.length = (ids ++ row.filter (fun v => decide (v ∉ ids))).length
  · rw [if_neg (by simpa using h)]
    simp only [Option.some.injEq]
    exact ⟨fun e => ⟨key.mp h, e.symm⟩, fun e => e.2.symm⟩
  · rw [if_pos h]
    exact ⟨fun e => (by cases e), fun e => absurd (key.mpr e.1) h⟩

/-- The new row has the same neighbours as the old one. -/
theorem C113_perm (freq sorted : List (Nat × Nat)) (hs : sorted.Perm freq) (row out : List Nat) (hr : row.Nodup)
    (h : relayout sorted row = some out) : out.Perm row := by
  obtain ⟨⟨h1, h2⟩, rfl⟩ := (C113_row freq sorted hs row out hr).mp h
  have hp : (sorted.map Prod.fst).Perm (freq.map Prod.fst) := hs.map _
  rw [List.perm_ext_iff_of_nodup ?_ hr]
  · intro x
    simp only [List.mem_append, List.mem_filter, decide_eq_true_eq, hp.mem_iff]
    constructor
    · rintro (hx | hx)
      · obtain ⟨y, hy, rfl⟩ := List.mem_map.mp hx
        exact h2 y hy
      · exact hx.1
    · intro hx
      by_cases hm : x ∈ freq.map Prod.fst
      · exact Or.inl hm
      · exact Or.inr ⟨hx, hm⟩
  · rw [List.nodup_append]
    refine ⟨hp.nodup_iff.mpr h1, hr.filter _, ?_⟩
    rintro a ha b hb rfl
    exact (by simpa using (List.mem_filter.mp hb).2 : a ∉ freq.map Prod.fst) (hp.mem_iff.mp ha)

/-- A row of five; two neighbours were visited. -/
example : relayout [(7, 10), (3, 2)] [3, 5, 7, 9, 1] = some [7, 3, 5, 9, 1] ∧ [3, 5, 7, 9, 1].Nodup := by decide +kernel
/-- A visit row of another graph. -/
example : relayout [(8, 10)] [3, 5, 7] = none := by decide +kernel

end Alaya.Relayout
