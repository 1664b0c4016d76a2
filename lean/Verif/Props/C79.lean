import Mathlib.Data.List.Flatten
import Verif.Lemmas.RaBitQResult

/-
C79: what a search over a RaBitQ index returns.
The estimates are arbitrary here; C78 says how far they are from the exact distances.
-/
namespace Alaya.Props
open Alaya Alaya.RSearch Alaya.Hybrid Alaya.Hybrid.Spec Alaya.RSearch.Spec

/-- 32 edges per node, all to nodes; exact distances are finite. -/
structure RGraph (I : Idx) (dmax : Int) : Prop where
  entry : I.ep < I.rows.length
  small : I.rows.length ≤ 2147483648
  degree : ∀ row ∈ I.rows, row.length = 32
  edges : ∀ row ∈ I.rows, ∀ v ∈ row, v < I.rows.length
  finite : ∀ v, v < I.rows.length → I.exact v ≤ dmax

/-- The neighbours of a node are distinct and do not contain the node. -/
def Simple (I : Idx) : Prop := ∀ (c : Nat) (row : List Nat), I.rows[c]? = some row → row.Nodup ∧ c ∉ row

theorem RGraph.ok {I : Idx} {dmax : Int} (h : RGraph I dmax) : IdxOk I := ⟨h.entry, h.small, h.edges⟩

theorem C79_start {σ : Type} {I : Idx} {E : List Nat} {s : RSearch.St σ} (hs : s.pool.open_ ≤ 1) (hE : E = []) : meas I 32 E s ≤ 33 * I.rows.length + 1 := by
  subst hE
  unfold meas
  simp
  omega

/-- A search without a mask: no access outside of the index, it ends, and the first entries of the array are the `k` nearest of the
nodes evaluated; the others keep their content. -/
theorem C79_search {I : Idx} {dmax : Int} (hG : RGraph I dmax) {k ef : Nat} (hk : 0 < k) (hef : k ≤ ef) (out : List Nat)
    {fuel : Nat} (hf : 33 * I.rows.length + 1 ≤ fuel) :
    ∃ E S hits, RSearch.search dmax I fuel k ef out = some (some (hits ++ out.drop hits.length)) ∧
      Expanded I.rows I.est dmax I.ep ef E ∧ Evaluated I.rows k E S ∧ Nearest I.exact k hits S := by
  have hI := hG.ok
  have hV : VOk hashOps I.rows.length HRep := hash_ok (by have := hG.small; unfold emptyId; omega)
  have hD : ∀ row ∈ I.rows, row.length ≤ 32 := fun row hr => Nat.le_of_eq (hG.degree row hr)
  obtain ⟨s0, a1, a2, a3⟩ := start_spec (d0 := dmax) (dmax := dmax) hI (ef := ef) (by omega) (Int.le_refl _) (HRep.new (I.rows.length / 10))
  obtain ⟨s, res, E, b1, b2, b3, b4⟩ := loop_spec hI hV (by omega) hk hD fuel a2 (BInv.new dmax I.exact k) (by have := C79_start (I := I) a3 rfl; omega)
  have hE := b2.expanded hI b4
  have hfin : ∀ l : List Nat, (∀ v ∈ l, v < I.rows.length) → finite dmax I.exact l = l :=
    fun l hl => finite_all (fun v hv => hG.finite v (hl v hv))
  obtain ⟨n1, n2⟩ := b3.ids
  rw [hfin E hE.valid] at n1
  unfold RSearch.search
  rw [if_neg (by omega), a1]
  simp only
  rw [b1]
  simp only
  by_cases hfull : res.size = res.cap
  · rw [if_pos hfull]
    refine ⟨E, E, res.ids k, rfl, hE, ⟨hE.nodup, fun v hv => hv, fun v hv => .inl hv, fun _ v hv => hv, ?_⟩, n1⟩
    intro hlt
    have h1 := n1.2.1
    have h2 := b3.hcap
    omega
  · rw [if_neg hfull]
    have hEk : E.length < k := by
      have h1 := n1.2.1
      have h2 := b3.hcap
      have h3 := b3.size
      omega
    have hperm : E.Perm (res.ids k) := by
      obtain ⟨-, h1, rest, hp, -⟩ := n1
      have h2 := hp.length_eq
      rw [List.length_append] at h2
      have : rest = [] := List.length_eq_zero_iff.mp (by omega)
      rw [this, List.append_nil] at hp
      exact hp
    obtain ⟨vis', res', S, c1, c2, c3, c4, c5⟩ := supp_spec hI hV hk (res.ids k) (fun v hv => hE.valid v (hperm.mem_iff.mpr hv))
      ⟨b2.vis, b3, hE.nodup, hE.valid⟩
    rw [c1]
    obtain ⟨m1, m2⟩ := c2.buf.ids
    rw [hfin S c2.valid] at m1
    refine ⟨E, S, res'.ids k, rfl, hE, ⟨c2.nodup, c3, ?_, fun h => by omega, ?_⟩, m1⟩
    · intro v hv
      rcases c5 v hv with hv | ⟨c, hc, i, hi⟩
      · exact .inl hv
      · exact .inr ⟨c, hperm.mem_iff.mpr hc, i, hi⟩
    · intro hlt c hc i v hed
      refine c4 ?_ c (hperm.mem_iff.mp hc) i v hed
      have := m1.2.1
      omega

/-- What follows for the ids returned: distinct nodes, nearest first, at most `k`; the entry point is among them unless `k` results are at
least as near. -/
theorem C79_hits {I : Idx} {dmax : Int} (hG : RGraph I dmax) {k ef : Nat} {E S hits : List Nat} (hE : Expanded I.rows I.est dmax I.ep ef E)
    (hS : Evaluated I.rows k E S) (hN : Nearest I.exact k hits S) :
    hits.length ≤ k ∧ hits.Nodup ∧ (∀ v ∈ hits, v < I.rows.length) ∧ hits.Pairwise (fun a b => I.exact a ≤ I.exact b) ∧
      (∀ v ∈ E, v ∈ hits ∨ (hits.length = k ∧ ∀ h ∈ hits, I.exact h ≤ I.exact v)) := by
  refine ⟨by have := hN.2.1; omega, Nearest.nodup hN hS.nodup, ?_, hN.1, ?_⟩
  · intro v hv
    rcases hS.near v (Nearest.mem hN hv) with h | ⟨c, -, i, hi⟩
    · exact hE.valid v h
    · exact Edge.lt hG.ok hi
  · intro v hv
    obtain ⟨-, h1, rest, hp, hr⟩ := hN
    rcases List.mem_append.mp (hp.mem_iff.mp (hS.sub v hv)) with h | h
    · exact .inl h
    · right
      refine ⟨?_, fun x hx => hr v h x hx⟩
      have := hp.length_eq
      rw [List.length_append] at this
      have := List.length_pos_of_mem h
      omega

/-- With 32 distinct other nodes as neighbours of each node at least `min k 33` ids are returned. -/
theorem C79_count {I : Idx} {dmax : Int} (hG : RGraph I dmax)
    (hd : Simple I) {k ef : Nat} {E S hits : List Nat} (hE : Expanded I.rows I.est dmax I.ep ef E)
    (hS : Evaluated I.rows k E S) (hN : Nearest I.exact k hits S) : min k 33 ≤ hits.length := by
  rw [hN.2.1]
  by_cases hlt : S.length < k
  · obtain ⟨row, hrow⟩ : ∃ row, I.rows[I.ep]? = some row := ⟨_, List.getElem?_eq_getElem hG.entry⟩
    obtain ⟨h1, h2⟩ := hd I.ep row hrow
    have hsub : ∀ v ∈ I.ep :: row, v ∈ S := by
      intro v hv
      rcases List.mem_cons.mp hv with rfl | hv
      · exact hS.sub _ hE.entry
      · obtain ⟨i, hi⟩ := List.getElem?_of_mem hv
        exact hS.all hlt I.ep hE.entry i v ⟨row, hrow, hi⟩
    have := nodup_subset_length (l2 := S) (List.nodup_cons.mpr ⟨h2, h1⟩) hsub
    rw [List.length_cons, hG.degree row (List.mem_of_getElem? hrow)] at this
    omega
  · omega

/-- With room for all candidates and finite estimates the nodes expanded are all nodes that can be reached: then the ids returned are the
`k` nearest of these (`Evaluated` adds nothing if `k` nodes can be reached). -/
theorem C79_exhaustive {I : Idx} {dmax : Int} (hG : RGraph I dmax) {ef : Nat} (hef : 32 * I.rows.length + 1 < ef) (hest : ∀ c i, I.est c i ≤ dmax)
    {E : List Nat} (hE : Expanded I.rows I.est dmax I.ep ef E) (v : Nat) : v ∈ E ↔ Reach I.rows I.ep v := by
  refine ⟨hE.reach v, fun hv => ?_⟩
  have hlen : (offers I.rows I.est dmax I.ep E).length ≤ 32 * I.rows.length + 1 := by
    unfold offers
    rw [List.length_cons]
    have : E.Subperm (List.range I.rows.length) := List.subperm_of_subset hE.nodup (fun v h => List.mem_range.mpr (hE.valid v h))
    have h2 := this.length_le
    rw [List.length_range] at h2
    have h1 : ∀ l : List Nat, (l.flatMap (fun c => ((I.rows.getD c []).zipIdx 0).map (fun x => (x.1, I.est c x.2)))).length ≤ 32 * l.length := by
      intro l
      induction l with
      | nil => simp
      | cons c l ih =>
        rw [List.flatMap_cons, List.length_append, List.length_map, List.length_zipIdx, List.length_cons]
        have : (I.rows.getD c []).length ≤ 32 := by
          by_cases hc : c < I.rows.length
          · rw [List.getD_eq_getElem?_getD, List.getElem?_eq_getElem hc]
            exact Nat.le_of_eq (hG.degree _ (List.getElem_mem hc))
          · rw [List.getD_eq_getElem?_getD, List.getElem?_eq_none (by omega)]
            simp
        omega
    have := h1 E
    omega
  induction hv with
  | start => exact hE.entry
  | step _ hed ih =>
    rcases hE.beam _ ih _ _ hed with h | h | ⟨P, h1, h2, -⟩
    · exact h
    · have := hest _ _ |> fun x => Int.not_lt.mpr x h
      exact this.elim
    · have := h2.length_le
      omega

/-- `ef < k` is reported as an error. -/
theorem C79_throws (dmax : Int) (I : Idx) {k ef : Nat} (h : ef < k) (fuel : Nat) (out : List Nat) :
    RSearch.search dmax I fuel k ef out = some none := by
  unfold RSearch.search
  rw [if_pos h]

/-- A search with a mask: the `k` nearest nodes that are not blocked, among the expanded nodes and all nodes one step from these; the
remaining entries of the array are the invalid id. -/
theorem C79_masked {I : Idx} {dmax : Int} (hG : RGraph I dmax) (blocked : Nat → Bool) {k ef : Nat} (hk : 0 < k) (hef : k ≤ ef)
    {fuel m : Nat} (hf : 33 * I.rows.length + 1 ≤ fuel) (hm : I.rows.length ≤ m) :
    ∃ E S hits, maskedSearch dmax I blocked fuel m k ef = some (some (hits ++ List.replicate (k - hits.length) 4294967295)) ∧
      Expanded I.rows I.est dmax I.ep ef E ∧ S.Nodup ∧
      (∀ v, v ∈ S ↔ blocked v = false ∧ (v ∈ E ∨ ∃ c ∈ E, ∃ i, Edge I.rows c i v)) ∧ Nearest I.exact k hits S := by
  have hI := hG.ok
  have hD : ∀ row ∈ I.rows, row.length ≤ 32 := fun row hr => Nat.le_of_eq (hG.degree row hr)
  obtain ⟨s0, a1, a2, a3⟩ := start_spec (d0 := dmax) (dmax := dmax) hI (ef := ef) (by omega) (Int.le_refl _) (BRep.new I.rows.length)
  obtain ⟨res, E, L, b1, b2, b3, b4, b5⟩ := drain_spec hI (by omega) hk hD blocked fuel m (it := ⟨s0, [], none⟩) (E := []) (res := SBuf.new k) a2 rfl rfl
    (by have := C79_start (I := I) a3 rfl; simp only; omega) (by simpa using hm) (by simpa [pass] using BInv.new dmax I.exact k)
  have hmem : ∀ v, v ∈ pass blocked (E ++ L) ↔ blocked v = false ∧ (v ∈ E ∨ ∃ c ∈ E, ∃ i, Edge I.rows c i v) := by
    intro v
    unfold pass
    rw [List.mem_filter, List.mem_append, b4 v]
    simp only [Bool.not_eq_true']
    by_cases hv : v ∈ E <;> simp [hv, and_comm]
  have hval : ∀ v ∈ pass blocked (E ++ L), v < I.rows.length := by
    intro v hv
    rcases ((hmem v).mp hv).2 with h | ⟨c, -, i, hi⟩
    · exact b2.valid v h
    · exact Edge.lt hI hi
  have hnd : (pass blocked (E ++ L)).Nodup := by
    unfold pass
    refine List.Pairwise.filter _ ?_
    show (E ++ L).Nodup
    rw [List.nodup_append]
    refine ⟨b2.nodup, b3, ?_⟩
    intro a ha b hb hab
    rw [hab] at ha
    exact ((b4 b).mp hb).2 ha
  obtain ⟨n1, n2⟩ := b5.ids
  rw [finite_all (fun v hv => hG.finite v (hval v hv))] at n1
  refine ⟨E, pass blocked (E ++ L), res.ids k, ?_, b2, hnd, hmem, n1⟩
  unfold maskedSearch It.new
  rw [if_neg (by omega), a1]
  simp only
  rw [b1]
  simp only [copyOut, blank, MemSearch.noId, Nat.mul_one, List.drop_replicate]

/-! ### A case

Two groups of 33 nodes, each node connected with all others of its group; estimates and distances are the ids. -/

def cliques : Idx where
  ep := 5
  rows := (List.range 66).map (fun c => (List.range 33).filterMap (fun j => if j = c % 33 then none else some (c / 33 * 33 + j)))
  est := fun c i => if i < c % 33 then (c / 33 * 33 + i : Nat) else (c / 33 * 33 + i + 1 : Nat)
  exact := fun v => v

theorem cliques_ok : RGraph cliques 1000 where
  entry := by decide +kernel
  small := by decide +kernel
  degree := by decide +kernel
  edges := by decide +kernel
  finite := by
    intro v hv
    have : v < 66 := hv
    show (v : Int) ≤ 1000
    omega

theorem cliques_simple : Simple cliques := by
  intro c row h
  have hc : c < cliques.rows.length := (List.getElem?_eq_some_iff.mp h).1
  have hl : cliques.rows.length = 66 := by decide +kernel
  have key : ∀ c < 66, ((cliques.rows.getD c []).Nodup ∧ c ∉ cliques.rows.getD c []) := by decide +kernel
  have := key c (by omega)
  rwa [List.getD_eq_getElem?_getD, h] at this

example : RSearch.search 1000 cliques 2500 3 4 [7, 7, 7] = some (some [0, 1, 2]) := by decide +kernel

example : maskedSearch 1000 cliques (fun v => v % 2 == 0) 2500 70 3 4 = some (some [1, 3, 5]) := by decide +kernel

/-- When fewer than `k` nodes are found, `search` and `batch_search` return the id 0 for the others: the claim that all ids returned are
distinct is false. -/
theorem C79_distinct_refuted : ¬ ∀ (I : Idx) (dmax : Int), RGraph I dmax → Simple I → ∀ (k ef fuel : Nat) (ids : List Nat), 0 < k → k ≤ ef → k ≤ I.rows.length →
    33 * I.rows.length + 1 ≤ fuel → pySearch dmax I fuel k ef = some (some ids) → ids.Nodup := by
  intro h
  have hs : (pySearch 1000 cliques 2500 35 35).map (·.map (fun l => decide l.Nodup)) = some (some false) := by decide +kernel
  have e := C79_search cliques_ok (k := 35) (ef := 35) (by omega) (by omega) (List.replicate 35 0) (fuel := 2500) (by decide +kernel)
  obtain ⟨E, S, hits, e1, -⟩ := e
  have := h cliques 1000 cliques_ok cliques_simple 35 35 2500 _ (by omega) (by omega) (by decide +kernel) (by decide +kernel) e1
  unfold pySearch at hs
  rw [e1] at hs
  simp only [Option.map_some, Option.some.injEq, decide_eq_false_iff_not] at hs
  exact hs this

end Alaya.Props
