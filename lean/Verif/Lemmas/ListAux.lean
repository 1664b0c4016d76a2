/- General list lemmas. -/
namespace Alaya

theorem nodup_subset_length {α : Type} [DecidableEq α] {l1 l2 : List α} (hn : l1.Nodup)
    (hs : ∀ x ∈ l1, x ∈ l2) : l1.length ≤ l2.length := by
  induction l1 generalizing l2 with
  | nil => simp
  | cons a t ih =>
    rw [List.nodup_cons] at hn
    have ha : a ∈ l2 := hs a (by simp)
    have := ih (l2 := l2.erase a) hn.2 (fun x hx => by
      have hne : x ≠ a := fun h => hn.1 (h ▸ hx)
      exact (List.mem_erase_of_ne hne).2 (hs x (by simp [hx])))
    rw [List.length_erase_of_mem ha] at this
    have hpos : 0 < l2.length := List.length_pos_of_mem ha
    simp only [List.length_cons]; omega

/-- Pigeonhole: a duplicate free sublist (as set) that is as long covers everything. -/
theorem nodup_subset_covers {α : Type} [DecidableEq α] {l1 l2 : List α} (hn : l1.Nodup)
    (hs : ∀ x ∈ l1, x ∈ l2) (hl : l2.length ≤ l1.length) : ∀ x ∈ l2, x ∈ l1 := by
  intro x hx
  by_cases h : x ∈ l1
  · exact h
  · have := nodup_subset_length (l1 := x :: l1) (l2 := l2) (List.nodup_cons.2 ⟨h, hn⟩)
      (fun y hy => by
        rcases List.mem_cons.1 hy with rfl | hy
        · exact hx
        · exact hs y hy)
    simp at this; omega

end Alaya
