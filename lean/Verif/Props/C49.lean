import Verif.Lemmas.ShardMerge

/-! C49: merging shard graphs keeps every edge source, bounds the degree and never invents edges. -/
namespace Alaya.Vamana

/-- The id range of a set of shards. -/
structure Covers (ss : List Shard) (n : Nat) : Prop where
  all : ∀ s ∈ ss, ∀ g ∈ s.ids, g < n
  tight : ∃ s ∈ ss, ∃ g ∈ s.ids, g + 1 = n

theorem covers_max (ss : List Shard) (hne : ss ≠ []) (h : ∀ s ∈ ss, ShardOk s) :
    Covers ss (maxId (ss.map (·.ids)) + 1) := by
  unfold maxId
  have hmem : ∀ g, g ∈ (ss.map (·.ids)).flatMap id ↔ ∃ s ∈ ss, g ∈ s.ids := by
    intro g
    rw [List.mem_flatMap]
    constructor
    · rintro ⟨l, hl, hg⟩
      obtain ⟨s, hs, rfl⟩ := List.mem_map.mp hl
      exact ⟨s, hs, hg⟩
    · rintro ⟨s, hs, hg⟩
      exact ⟨s.ids, List.mem_map.mpr ⟨s, hs, rfl⟩, hg⟩
  generalize (ss.map (·.ids)).flatMap id = l at *
  refine ⟨fun s hs g hg => ?_, ?_⟩
  · have := (foldl_max_le l 0).2 g ((hmem g).mpr ⟨s, hs, hg⟩)
    omega
  · rcases foldl_max_mem l 0 with e | e
    · obtain ⟨s, hs⟩ := List.exists_mem_of_ne_nil ss hne
      have hlen : 0 < s.ids.length := Nat.lt_of_le_of_lt (Nat.zero_le _) (h s hs).startOk
      have h0 : s.ids[0] ∈ s.ids := List.getElem_mem hlen
      have := (foldl_max_le l 0).2 _ ((hmem _).mpr ⟨s, hs, h0⟩)
      exact ⟨s, hs, s.ids[0], h0, by omega⟩
    · obtain ⟨s, hs, hg⟩ := (hmem _).mp e
      exact ⟨s, hs, _, hg, rfl⟩

/-- Full statement. For shards as the assigner and the shard builds leave them, any degree bound and any shuffle,
`merge_shards` succeeds and writes one record per global id 0..max; each record holds at most `R` distinct neighbours, no
self loop, only neighbours the node has in some shard, `min R |union|` of them, and all of them if the union has at
most `R`. -/
theorem C49_merge (ss : List Shard) (hne : ss ≠ []) (hs : ∀ s ∈ ss, ShardOk s) (σ : Nat → List Nat → List Nat)
    (hσ : ∀ g l, (σ g l).Perm l) (R medoid frozen : Nat) :
    ∃ out meds, mergeShards σ (ss.map (·.graph)) (ss.map fun s => idmapFile s.ids) R medoid frozen =
        .ok (graphFile out R medoid frozen) (leBytes 4 ss.length ++ leBytes 4 1 ++ encU32s meds) ∧
      Covers ss out.length ∧ meds.map some = ss.map (fun s => s.ids[s.start]?) ∧
      ∀ (g : Nat) (a : List Nat), out[g]? = some a → g ∉ a ∧ RecGood ss R g a := by
  obtain ⟨rs, ms, o1, o2, o3⟩ := openAll_files ss hs
  have hcov := covers_max ss hne hs
  obtain ⟨out, m1, m2, m3⟩ := mergeLoop_spec ss hs σ hσ R (maxId (ss.map (·.ids)) + 1) 0 rs o2
  refine ⟨out, ms, ?_, by rw [m2]; exact hcov, o3, fun g a hg => ?_⟩
  · have hlen : 0 < ss.length := List.length_pos_iff.mpr hne
    unfold mergeShards
    rw [if_neg (by simp only [List.length_map]; omega), loadIdmaps_files ss hs]
    simp only [o1, m1, List.length_map]
    rw [if_neg]
    obtain ⟨s, hs', g, hg, e⟩ := hcov.tight
    have := (hs s hs').small g hg
    omega
  · have := m3 g a hg
    rw [Nat.zero_add] at this
    refine ⟨fun hga => ?_, this⟩
    obtain ⟨_, _, _, _, _, _, _, _, _, hx⟩ := this.edge g hga
    exact hx rfl

/-- The record bound makes the output file's layout unambiguous: the graph is determined by the bytes. -/
theorem C49_output_determines (o₁ o₂ : List (List Nat)) (R m f : Nat) (hR : R < 2 ^ 32)
    (h1 : ∀ a ∈ o₁, a.length ≤ R ∧ ∀ x ∈ a, x < 2 ^ 32) (h2 : ∀ a ∈ o₂, a.length ≤ R ∧ ∀ x ∈ a, x < 2 ^ 32)
    (h : graphFile o₁ R m f = graphFile o₂ R m f) : o₁ = o₂ := by
  have d1 := (graphFile_fields o₁ R m f).2.2.2.2.2
  have d2 := (graphFile_fields o₂ R m f).2.2.2.2.2
  rw [h, d2] at d1
  clear d2 h
  induction o₁ generalizing o₂ with
  | nil =>
    cases o₂ with
    | nil => rfl
    | cons a o₂ =>
      rw [List.flatMap_cons] at d1
      have := congrArg List.length d1
      rw [List.length_append, encRec_length (by have := (h2 a List.mem_cons_self).1; omega)] at this
      simp at this
  | cons a o₁ ih =>
    have la : a.length < 2 ^ 32 := by have := (h1 a List.mem_cons_self).1; omega
    cases o₂ with
    | nil =>
      rw [List.flatMap_cons] at d1
      have := congrArg List.length d1
      rw [List.length_append, encRec_length la] at this
      simp at this
      omega
    | cons b o₂ =>
      have lb : b.length < 2 ^ 32 := by have := (h2 b List.mem_cons_self).1; omega
      rw [List.flatMap_cons, List.flatMap_cons] at d1
      obtain ⟨a1, a2⟩ := encRec_take la (o₁.flatMap encRec)
      obtain ⟨b1, b2⟩ := encRec_take lb (o₂.flatMap encRec)
      rw [d1] at b1 b2
      have hl : a.length = b.length := by rw [← a1, ← b1]
      rw [a2] at b2
      have e1 := decU32s_enc a (h1 a List.mem_cons_self).2 (o₁.flatMap encRec)
      have e2 := decU32s_enc b (h2 b List.mem_cons_self).2 (o₂.flatMap encRec)
      rw [b2, hl, e2] at e1
      have e3 : (encU32s a ++ o₁.flatMap encRec).drop (4 * a.length) = o₁.flatMap encRec :=
        List.drop_left' (encU32s_length a)
      have e4 : (encU32s b ++ o₂.flatMap encRec).drop (4 * b.length) = o₂.flatMap encRec :=
        List.drop_left' (encU32s_length b)
      rw [b2, hl, e4] at e3
      rw [e1, ih o₂ (fun x hx => h1 x (List.mem_cons_of_mem _ hx)) (fun x hx => h2 x (List.mem_cons_of_mem _ hx)) e3]

/-! Two overlapping shards; node 1 occurs in both. -/

def exA : Shard := ⟨[0, 1, 3], [[1, 2], [2], [0]], 2, 0, 0⟩
def exB : Shard := ⟨[1, 2, 3], [[1, 2], [0], [0, 1]], 2, 2, 0⟩

theorem exA_ok : ShardOk exA := by
  refine ⟨by decide, by decide, by decide, by decide, by decide, by decide, by decide⟩

theorem exB_ok : ShardOk exB := by
  refine ⟨by decide, by decide, by decide, by decide, by decide, by decide, by decide⟩

set_option maxRecDepth 100000 in
example : mergeShards (fun _ l => l.reverse) [exA.graph, exB.graph] [idmapFile exA.ids, idmapFile exB.ids] 2 1 0 =
    .ok (graphFile [[3, 1], [2, 3], [1], [2, 1]] 2 1 0) (leBytes 4 2 ++ leBytes 4 1 ++ encU32s [0, 3]) := by
  decide +kernel

/-! Outside the hypotheses. -/

set_option maxRecDepth 100000 in
/-- An id map with a repeated id passes the sortedness check, but the cursor then stays on the second copy: all later
records of that shard are silently dropped (here every edge of nodes 1 and 2). -/
theorem C49_duplicate_id_drops_rest :
    isSorted [0, 0, 1, 2] = true ∧
    mergeShards (fun _ l => l) [saveGraph [[2], [2], [3], [2]] 2 0 0] [idmapFile [0, 0, 1, 2]] 2 0 0 =
      .ok (graphFile [[1], [], []] 2 0 0) (leBytes 4 1 ++ leBytes 4 1 ++ encU32s [0]) := by
  decide +kernel

set_option maxRecDepth 100000 in
/-- A shard graph cut off inside its last record is accepted: the missing neighbours are read as local id 0, an edge that is
in no shard (node 2's only neighbour is node 1, the merged record says node 0). -/
theorem C49_truncated_shard_invents_edge :
    mergeShards (fun _ l => l) [(saveGraph [[1], [2], [1]] 2 0 0).take 44] [idmapFile [0, 1, 2]] 2 0 0 =
      .ok (graphFile [[1], [2], [0]] 2 0 0) (leBytes 4 1 ++ leBytes 4 1 ++ encU32s [0]) ∧
    (saveGraph [[1], [2], [1]] 2 0 0).length = 48 ∧
    ¬ Edge [⟨[0, 1, 2], [[1], [2], [1]], 2, 0, 0⟩] 2 0 := by
  refine ⟨by decide +kernel, by decide +kernel, ?_⟩
  rintro ⟨s, hs, i, a, l, h1, h2, h3, h4, _⟩
  rw [List.mem_singleton] at hs
  subst hs
  rcases i with _ | _ | _ | i
  · cases h1
  · cases h1
  · simp at h2; subst h2
    rw [List.mem_singleton] at h3; subst h3
    cases h4
  · simp at h1

end Alaya.Vamana
