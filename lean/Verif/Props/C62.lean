import Verif.Props.C49
import Verif.Props.C61

/-! C62: the merged graph file is accepted by the graph reader. -/
namespace Alaya.Vamana

/-- Partial: proved when every global id has at least one edge in some shard.  Full statement: for all shards with
`ShardOk`, any `R > 0`, any in-range medoid and frozen count 0, `VamanaReader` accepts what `merge_shards` wrote.  Missing: nodes
without neighbours, where it is false (`C62_isolated_refuted`). -/
theorem C62_readable_partial (ss : List Shard) (hne : ss ≠ []) (hs : ∀ s ∈ ss, ShardOk s) (σ : Nat → List Nat → List Nat)
    (hσ : ∀ g l, (σ g l).Perm l) (R medoid n : Nat) (hR : 0 < R) (hR2 : R < 2 ^ 32) (hn : Covers ss n)
    (hm : medoid < n) (hsz : n * (4 * (R + 1)) < 2 ^ 63)
    (hdeg : ∀ g, g < n → ∃ x, Edge ss g x) :
    ∃ out b meds, mergeShards σ (ss.map (·.graph)) (ss.map fun s => idmapFile s.ids) R medoid 0 = .ok b meds ∧
      readGraph b = some ⟨R, medoid, out⟩ ∧ out.length = n ∧
      ∀ (g : Nat) (a : List Nat), out[g]? = some a → RecGood ss R g a := by
  obtain ⟨out, meds, h1, h2, _, h4⟩ := C49_merge ss hne hs σ hσ R medoid 0
  have hlen : out.length = n := by
    obtain ⟨s, q1, g, q2, q3⟩ := hn.tight
    obtain ⟨t, r1, k, r2, r3⟩ := h2.tight
    have := h2.all s q1 g q2
    have := hn.all t r1 k r2
    omega
  have hn32 : n < 2 ^ 32 := by
    obtain ⟨s, q1, g, q2, q3⟩ := hn.tight
    have := (hs s q1).small g q2
    omega
  have hpos : ∀ (g : Nat) (a : List Nat), out[g]? = some a → 0 < a.length := by
    intro g a hg
    have hgn : g < n := by rw [← hlen]; exact (List.getElem?_eq_some_iff.mp hg).1
    obtain ⟨x, hx⟩ := hdeg g hgn
    -- the neighbours of `g`, as a list
    obtain ⟨u, u1, u2⟩ : ∃ u : List Nat, u.Nodup ∧ ∀ y, y ∈ u ↔ Edge ss g y := by
      obtain ⟨rs, ms, _, o2, _⟩ := openAll_files ss hs
      have key : ∀ k, ∃ rs', Invs k ss rs' := by
        intro k
        induction k with
        | zero => exact ⟨rs, o2⟩
        | succ k ih =>
          obtain ⟨rs', hi⟩ := ih
          obtain ⟨rs'', _, _, q, _⟩ := stepAll_spec k ss hs rs' hi [] List.nodup_nil
          exact ⟨rs'', q⟩
      obtain ⟨rs', hi⟩ := key g
      obtain ⟨_, nh, _, _, q3, q4⟩ := stepAll_spec g ss hs rs' hi [] List.nodup_nil
      exact ⟨nh, q3, fun y => by rw [q4]; simp⟩
    have hf := ((h4 g a hg).2.full u u1 u2).1
    have : 0 < u.length := List.length_pos_of_mem ((u2 x).mpr hx)
    omega
  have hok : GraphOk out R medoid := by
    refine ⟨by omega, by omega, hR, hR2, by omega, fun i a hi => ⟨hpos i a hi, (h4 i a hi).2.le⟩, fun i a hi x hx => ?_⟩
    refine ⟨?_, fun e => ?_⟩
    · obtain ⟨s, q1, _, _, l, _, _, _, q5, _⟩ := (h4 i a hi).2.edge x hx
      exact h2.all s q1 x (List.mem_of_getElem? q5)
    · subst e; exact (h4 x a hi).1 hx
  refine ⟨out, _, _, h1, C61_load_save out R medoid hok ?_, hlen, fun g a hg => (h4 g a hg).2⟩
  have hbound : ∀ o : List (List Nat), (∀ a ∈ o, a.length ≤ R) →
      (o.flatMap encRec).length ≤ o.length * (4 * (R + 1)) := by
    intro o ho
    induction o with
    | nil => simp
    | cons a o ih =>
      have ha := ho a List.mem_cons_self
      have := ih (fun b hb => ho b (List.mem_cons_of_mem _ hb))
      rw [List.flatMap_cons, List.length_append, encRec_length (by omega), List.length_cons, Nat.add_mul]
      omega
  have hb := hbound out (fun a ha => by
    obtain ⟨i, hi⟩ := List.mem_iff_getElem?.mp ha
    exact (h4 i a hi).2.le)
  rw [saveGraph, (graphFile_fields out R medoid 0).1]
  rw [hlen] at hb
  omega

set_option maxRecDepth 100000 in
/-- A global id that is in no shard, or has no neighbour in any shard, gets a record of degree 0 (with a log line only), and the
reader then rejects the whole merged file. Id 1 is missing here. -/
theorem C62_isolated_refuted :
    ShardOk ⟨[0, 2], [[1], [0]], 2, 0, 0⟩ ∧
    mergeShards (fun _ l => l) [saveGraph [[1], [0]] 2 0 0] [idmapFile [0, 2]] 2 0 0 =
      .ok (graphFile [[2], [], [0]] 2 0 0) (leBytes 4 1 ++ leBytes 4 1 ++ encU32s [0]) ∧
    readGraph (graphFile [[2], [], [0]] 2 0 0) = none := by
  refine ⟨⟨by decide, by decide, by decide, by decide, by decide, by decide, by decide⟩, by decide +kernel,
    by decide +kernel⟩

/-- The hypotheses of the partial theorem hold for the two shards of C49. -/
example : Covers [exA, exB] 4 ∧ ∀ g, g < 4 → ∃ x, Edge [exA, exB] g x := by
  refine ⟨⟨by decide, ⟨exA, by simp, 3, by decide, rfl⟩⟩, fun g hg => ?_⟩
  rcases g with _ | _ | _ | _ | g
  · exact ⟨1, exA, by simp, 0, [1, 2], 1, rfl, rfl, by decide, rfl, by decide⟩
  · exact ⟨3, exA, by simp, 1, [2], 2, rfl, rfl, by decide, rfl, by decide⟩
  · exact ⟨1, exB, by simp, 1, [0], 0, rfl, rfl, by decide, rfl, by decide⟩
  · exact ⟨0, exA, by simp, 2, [0], 0, rfl, rfl, by decide, rfl, by decide⟩
  · omega

end Alaya.Vamana
