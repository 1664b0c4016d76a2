import Verif.Lemmas.ShardAssign
import Verif.Props.C49

/-! C63: shard assignment puts every base vector into exactly `k_base` different shards, the nearest ones. -/
namespace Alaya.Vamana

/-- Shard `s` holds exactly the base points that selected it, in order of their global id, with their vectors. -/
theorem C63_shard_contents {V : Type} (M : Int) (nc k : Nat) (base : List (V × List FDist)) (shards : List (List (Nat × V)))
    (h : assign M nc k base = some shards) :
    shards.length = nc ∧ ∀ (s : Nat) (l : List (Nat × V)), shards[s]? = some l →
      l = base.zipIdx.flatMap fun p => List.replicate ((closest M k p.1.2).count s) (p.2, p.1.1) := by
  unfold assign at h
  split at h
  · cases h
  · split at h
    · cases h
    · simp only [Option.some.injEq] at h
      have hget : ∀ s, shards[s]? = (List.replicate nc ([] : List (Nat × V)))[s]?.map
          (· ++ base.zipIdx.flatMap fun p => copies p.2 p.1.1 (closest M k p.1.2) s) := by
        intro s; rw [← h]; exact scatter_get M k 0 base _ s
      refine ⟨?_, fun s l hs => ?_⟩
      · have h1 : ∀ s, shards.length ≤ s ↔ nc ≤ s := by
          intro s
          rw [← List.getElem?_eq_none_iff, hget, Option.map_eq_none_iff, List.getElem?_eq_none_iff, List.length_replicate]
        exact Nat.le_antisymm ((h1 nc).mpr (Nat.le_refl _)) ((h1 shards.length).mp (Nat.le_refl _))
      · rw [hget] at hs
        rw [List.getElem?_replicate] at hs
        split at hs
        · simp only [Option.map_some, List.nil_append, Option.some.injEq] at hs
          exact hs.symm
        · cases hs

/-- The base data with finite distances below the largest float. -/
def finBase {V : Type} (base : List (V × List Int)) : List (V × List FDist) := base.map fun p => (p.1, finRow p.2)

theorem flatMap_pick_asc {V : Type} (f : Nat → Bool) (l : List (V × List Int)) (n : Nat) (sel : (V × List Int) × Nat → Nat)
    (hsel : ∀ p ∈ l.zipIdx n, sel p = if f p.2 then 1 else 0) :
    ((l.zipIdx n).flatMap fun p => List.replicate (sel p) (p.2, p.1.1)) =
      ((l.zipIdx n).filter fun p => f p.2).map fun p => (p.2, p.1.1) := by
  induction l generalizing n with
  | nil => rfl
  | cons a l ih =>
    rw [List.zipIdx_cons] at hsel ⊢
    rw [List.flatMap_cons, List.filter_cons, ih (n + 1) (fun p hp => hsel p (List.mem_cons_of_mem _ hp)),
      hsel (a, n) List.mem_cons_self]
    by_cases hf : f n = true
    · simp [hf]
    · simp [hf]

/-- Partial: proved when every computed distance is a finite float. Full statement: for every base file and every set of
centres, each point is put into `k_base` different shards, the nearest ones, and each id map is strictly ascending.  Missing:
points whose computed distances overflow (`C63_overflow_refuted`) or are NaN. -/
theorem C63_assign_partial {V : Type} (M : Int) (nc k : Nat) (base : List (V × List Int)) (shards : List (List (Nat × V)))
    (hrow : ∀ p ∈ base, p.2.length = nc ∧ ∀ z ∈ p.2, z < M)
    (h : assign M nc k (finBase base) = some shards) :
    ∃ cl : Nat → List Nat, (∀ (g : Nat) (p : V × List Int), base[g]? = some p → Nearest k p.2 (cl g)) ∧
      ∀ (s : Nat) (l : List (Nat × V)), shards[s]? = some l →
        (shardIds l).Pairwise (· < ·) ∧
        ∀ (g : Nat) (v : V), (g, v) ∈ l ↔ s ∈ cl g ∧ ∃ row, base[g]? = some (v, row) := by
  have hpar : ¬ (nc = 0 ∨ k = 0 ∨ k > nc) := by
    intro hc; unfold assign at h; rw [if_pos hc] at h; cases h
  obtain ⟨_, hcont⟩ := C63_shard_contents M nc k (finBase base) shards h
  let cl : Nat → List Nat := fun g => match base[g]? with | some p => closest M k (finRow p.2) | none => []
  have hnear : ∀ (g : Nat) (p : V × List Int), base[g]? = some p → Nearest k p.2 (cl g) := by
    intro g p hg
    have hp := hrow p (List.mem_of_getElem? hg)
    show Nearest k p.2 (match base[g]? with | some p => closest M k (finRow p.2) | none => [])
    rw [hg]
    exact closest_nearest M k p.2 hp.2 (by omega) (by omega)
  refine ⟨cl, hnear, fun s l hs => ?_⟩
  have hl := hcont s l hs
  have hz : (finBase base).zipIdx = base.zipIdx.map fun p => ((p.1.1, finRow p.1.2), p.2) := by
    unfold finBase
    rw [List.zipIdx_map]
    rfl
  rw [hz, List.flatMap_map] at hl
  simp only at hl
  have hpick := flatMap_pick_asc (fun g => (cl g).contains s) base 0
    (fun p => (closest M k (finRow p.1.2)).count s) (by
      intro p hp
      have hg : base[p.2]? = some p.1 := List.mem_zipIdx_iff_getElem?.mp hp
      have hc : cl p.2 = closest M k (finRow p.1.2) := by
        show (match base[p.2]? with | some p => closest M k (finRow p.2) | none => []) = _
        rw [hg]
      have hn := (hnear p.2 p.1 hg).nodup
      rw [hc] at hn
      simp only [hc, List.Nodup.count hn, List.contains_iff_mem])
  rw [hpick] at hl
  subst hl
  constructor
  · unfold shardIds
    rw [List.map_map, List.pairwise_map]
    have : (base.zipIdx.map (·.2)).Pairwise (· < ·) := by
      rw [List.zipIdx_map_snd]; exact List.pairwise_lt_range'
    rw [List.pairwise_map] at this
    exact this.filter _
  · intro g v
    rw [List.mem_map]
    constructor
    · rintro ⟨p, hp, he⟩
      obtain ⟨hp1, hp2⟩ := List.mem_filter.mp hp
      rw [Prod.mk.injEq] at he
      obtain ⟨rfl, rfl⟩ := he
      exact ⟨List.contains_iff_mem.mp hp2, p.1.2, List.mem_zipIdx_iff_getElem?.mp hp1⟩
    · rintro ⟨hm, row, hb⟩
      refine ⟨((v, row), g), List.mem_filter.mpr ⟨List.mem_zipIdx_iff_getElem?.mpr hb, List.contains_iff_mem.mpr hm⟩, rfl⟩

/-- The total always equals `N * k_base`, whatever the distances are, so the function's own final check cannot notice a
point that was put into one shard twice. -/
theorem C63_check_blind (M : Int) (k : Nat) (row : List FDist) : (closest M k row).length = k ∨ k = 1 := by
  by_cases h1 : k = 1
  · exact .inr h1
  · left
    unfold closest
    rw [if_neg h1, topK, List.length_map, List.length_reverse]
    have : ∀ (l : List (FDist × Nat)) (top : List (FDist × Nat)), (l.foldl topStep top).length = top.length := by
      intro l
      induction l with
      | nil => intro top; rfl
      | cons x l ih =>
        intro top
        rw [List.foldl_cons, ih]
        unfold topStep
        cases top with
        | nil => rfl
        | cons w ys =>
          simp only
          split
          · rfl
          · rw [(bubble_perm x ys).length_eq]; rfl
    rw [this, List.length_replicate]

set_option maxRecDepth 100000 in
/-- Point 0 has finite coordinates but its squared distances overflow to infinity (here: 1000 with largest float 100).
No centre beats the initial entries, so it is put into shard 0 twice; the id map of shard 0 is `[0, 0, 1, 2]`, which is
the one `C49_duplicate_id_drops_rest` shows to make the merge lose every later record of the shard. -/
theorem C63_overflow_refuted :
    (assign (V := Unit) 100 2 2 [((), [some 1000, some 1000]), ((), [some 1, some 2]), ((), [some 5, some 3])]).map
      (·.map shardIds) = some [[0, 0, 1, 2], [1, 2]] := by
  decide +kernel

set_option maxRecDepth 100000 in
example : (assign (V := Unit) 100 3 2 [((), [some 9, some 4, some 7]), ((), [some 1, some 2, some 1]),
    ((), [some 5, some 3, some 99])]).map (·.map shardIds) = some [[1, 2], [0, 2], [0, 1]] := by
  decide +kernel

example : ∀ p ∈ [((), [(9 : Int), 4, 7]), ((), [1, 2, 1])], p.2.length = 3 ∧ ∀ z ∈ p.2, z < 100 := by decide

end Alaya.Vamana
