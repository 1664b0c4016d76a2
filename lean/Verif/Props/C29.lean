import Verif.Lemmas.TopK

/-! C29: reranking returns the true top-k of its candidates. -/
namespace Alaya.TopK
open Spec

/-- For every standard library (heap functions meeting their contract), every candidate list, distance function and
`topk`: the written rows are the `min topk n` best candidates by (distance, id) in ascending order, followed by invalid
entries only; the result has exactly `topk` rows. -/
theorem C29_rerank_exact (H : StdHeap Hit Hit.lt) (dist : Nat → Int) (ids : List Nat) (topk : Nat) (invalid : Hit) :
    ∃ best, Best hitLe topk best (ids.map (fun i => (⟨i, dist i⟩ : Hit))) ∧
      rerank H dist ids topk invalid = some (best ++ List.replicate (topk - min topk ids.length) invalid) := by
  unfold rerank
  by_cases hk : topk = 0
  · rw [if_pos hk]
    subst hk
    refine ⟨[], ⟨List.Pairwise.nil, by simp, ids.map (fun i => (⟨i, dist i⟩ : Hit)), by simp, by simp⟩, by simp⟩
  · rw [if_neg hk]
    obtain ⟨out, e, hb⟩ := select_spec Hit.weak H (Nat.pos_of_ne_zero hk) (ids.map (fun i => (⟨i, dist i⟩ : Hit)))
    rw [leOf_hitLe] at hb
    have hl := hb.2.1
    rw [List.length_map] at hl
    refine ⟨out, hb, ?_⟩
    rw [e]
    simp only
    rw [hl, List.take_of_length_le (by omega)]

/-- The same for `insert_candidate`/`sort_candidates` of the materialized views, for every order of the insertions. -/
theorem C29_view_candidates_exact (H : StdHeap Hit Hit.lt) (limit : Nat) (cs : List Hit) :
    ∃ best, Best hitLe limit best cs ∧ mvSelect H limit cs = some best := by
  unfold mvSelect
  by_cases hk : limit = 0
  · rw [if_pos hk]
    subst hk
    have : H.sort [] = [] := List.Perm.eq_nil (H.sort_perm [])
    rw [this]
    exact ⟨[], ⟨List.Pairwise.nil, by simp, cs, by simp, by simp⟩, rfl⟩
  · rw [if_neg hk]
    obtain ⟨out, e, hb⟩ := select_spec Hit.weak H (Nat.pos_of_ne_zero hk) cs
    rw [leOf_hitLe] at hb
    exact ⟨out, hb, e⟩

/-- The result does not depend on the order in which candidates are offered, nor on the library. -/
theorem C29_order_independent (H H' : StdHeap Hit Hit.lt) (limit : Nat) (cs cs' : List Hit) (hp : cs.Perm cs') :
    mvSelect H limit cs = mvSelect H' limit cs' := by
  obtain ⟨a, ha, ea⟩ := C29_view_candidates_exact H limit cs
  obtain ⟨b, hb, eb⟩ := C29_view_candidates_exact H' limit cs'
  rw [← leOf_hitLe] at ha hb
  rw [ea, eb, Best.unique Hit.weak Hit.antisymm ha hb hp]

/-- A concrete run, with a tie broken by id. -/
example : rerank (sortedHeap Hit.weak) (fun i => if i = 4 then 1 else 7) [9, 4, 5, 6] 3 ⟨2 ^ 32 - 1, 0⟩
    = some [⟨4, 1⟩, ⟨5, 7⟩, ⟨6, 7⟩] := by decide

example : rerank (sortedHeap Hit.weak) (fun i => (i : Int)) [9, 4] 3 ⟨2 ^ 32 - 1, 0⟩
    = some [⟨4, 4⟩, ⟨9, 9⟩, ⟨2 ^ 32 - 1, 0⟩] := by decide

end Alaya.TopK
