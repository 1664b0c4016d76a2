import Verif.Props.C108

/-! C108, limits. -/

namespace Alaya.NND

/-- The distance of numbers on a line. -/
def line (a b : Nat) : Nat := max a b - min a b

/-- A sample can name a vector twice: the largest numbers are moved up past `n` and meet the smallest. -/
theorem C108_distinct_refuted : genRandom [0, 4, 4] 0 5 = [0, 4, 0] ∧ (3 : Nat) ≤ 5 := by decide +kernel

/-- The pool then has it twice, whatever is offered, and so has the row of the graph: node 1 of five with the sample above and all other nodes
offered. -/
theorem C108_repeat_refuted : ((offers line 1 53 (initPool line 1 (genRandom [0, 4, 4] 0 5)) [2, 3, 4, 0]).bind (row 3)) = some [0, 0, 2] := by
  decide +kernel

/-- A pool does not grow beyond what is nearer than its farthest entry, even if it is almost empty: with the ten nearest as sample, ten entries
remain whatever is offered, and a row of more is read past the end. -/
theorem C108_short_refuted (cap k : Nat) (hk : 10 < k) (ids : List Nat) (h0 : 0 ∉ ids) :
    offers line 0 cap (initPool line 0 [1, 2, 3, 4, 5, 6, 7, 8, 9, 10]) ids = some (initPool line 0 [1, 2, 3, 4, 5, 6, 7, 8, 9, 10]) ∧
      row k (initPool line 0 [1, 2, 3, 4, 5, 6, 7, 8, 9, 10]) = none := by
  have hp : initPool line 0 [1, 2, 3, 4, 5, 6, 7, 8, 9, 10] = [⟨1, 1⟩, ⟨2, 2⟩, ⟨3, 3⟩, ⟨4, 4⟩, ⟨5, 5⟩, ⟨6, 6⟩, ⟨7, 7⟩, ⟨8, 8⟩, ⟨9, 9⟩, ⟨10, 10⟩] := by
    decide +kernel
  have hm : largest (initPool line 0 [1, 2, 3, 4, 5, 6, 7, 8, 9, 10]) = some ⟨10, 10⟩ := by decide +kernel
  constructor
  · induction ids with
    | nil => rfl
    | cons id ids ih =>
      simp only [List.mem_cons, not_or] at h0
      have : insert cap (initPool line 0 [1, 2, 3, 4, 5, 6, 7, 8, 9, 10]) ⟨id, line 0 id⟩
          = some (initPool line 0 [1, 2, 3, 4, 5, 6, 7, 8, 9, 10]) := by
        unfold insert
        rw [hm]
        simp only [Option.map_some, Option.some.injEq]
        by_cases h : id ≤ 10
        · have hany : (initPool line 0 [1, 2, 3, 4, 5, 6, 7, 8, 9, 10]).any (fun e => e.id = id) = true := by
            rw [hp]
            simp
            omega
          have : ¬ (10 < line 0 id) := by simp [line]; omega
          rw [if_neg this, if_pos hany]
        · have : 10 < line 0 id := by simp [line]; omega
          rw [if_pos this]
      rw [offers_cons, this]
      exact ih h0.2
  · have hl : ((initPool line 0 [1, 2, 3, 4, 5, 6, 7, 8, 9, 10]).insertionSort (fun a b => less b a = false)).length = 10 := by
      rw [List.length_insertionSort, hp]; rfl
    unfold row
    generalize (initPool line 0 [1, 2, 3, 4, 5, 6, 7, 8, 9, 10]).insertionSort (fun a b => less b a = false) = s at hl
    obtain ⟨d, rfl⟩ : ∃ d, k = 11 + d := ⟨k - 11, by omega⟩
    show (List.range (11 + d)).mapM (fun (j : Nat) => (s[j]?).map Cand.id) = none
    rw [List.range_add, List.mapM_append]
    have h10 : (List.range 11).mapM (fun (j : Nat) => (s[j]?).map Cand.id) = none := by
      rw [List.range_succ (n := 10), List.mapM_append]
      have : [10].mapM (fun (j : Nat) => (s[j]?).map Cand.id) = none := by
        have : s[10]? = none := List.getElem?_eq_none (by omega)
        simp [this]
      rw [this]
      cases (List.range 10).mapM (fun (j : Nat) => (s[j]?).map Cand.id) <;> rfl
    rw [h10]
    rfl

end Alaya.NND
