import Verif.Lemmas.MemSearch
import Verif.Props.C27
import Verif.Props.C29

/-! C67: the search over an in-memory graph. -/
namespace Alaya.MemSearch
open Alaya Alaya.Pools Alaya.Spec Alaya.MemSearch.Spec

/-- The seeds of a search: the entry points, or the single node where the way down through the upper layers ends. -/
def Seeds (g : MGraph) (n : Nat) (dist : Nat → Int) (S : List Nat) : Prop :=
  (g.overlay = none → S = g.eps) ∧ (∀ o, g.overlay = some o → ∃ u, S = [u] ∧ u < n ∧ dist u ≤ dist o.ep)

/-- Every search on a well-formed graph ends, stays inside its arrays, and returns `topk` slots that hold distinct reachable nodes with
their true distances, nearest first, then padding. -/
theorem C67_search_sound (g : MGraph) (n : Nat) (hg : GraphOk g n) (dist : Nat → Int) (topk ef : Nat) (hef : 0 < ef) (hk : topk ≤ ef) :
    ∃ S out, Seeds g n dist S ∧ (∀ extra, solo g n dist topk ef (n + 1 + extra) = some (some out)) ∧ Sound g.rows S dist topk out ∧
      out.length = topk := by
  obtain ⟨S, s, popped, e, h, hu, hS, ha, hb⟩ := walk_spec hg dist hef
  have hlen : (s.pool.entries.take (min s.pool.size topk)).length ≤ topk := by simp; omega
  refine ⟨S, padded topk (s.pool.entries.take (min s.pool.size topk)), ⟨ha, hb⟩, ?_, ⟨_, rfl, hlen, ?_, ?_, ?_⟩, ?_⟩
  · intro extra
    unfold solo
    rw [if_neg (by omega), e extra]
  · obtain ⟨_, _, rest, hp, _⟩ := h.q.best
    have := (hp.map Prod.fst).nodup_iff.mp h.candNodup
    rw [List.map_append] at this
    rw [List.map_take]
    exact (List.nodup_append.mp this).1.sublist (List.take_sublist _ _)
  · exact h.q.best.1.sublist (List.take_sublist _ _)
  · intro x hx
    have hx' := Best.mem h.q.best (List.mem_of_mem_take hx)
    obtain ⟨t, ht, rfl⟩ := List.mem_map.mp hx'
    exact ⟨h.reach t ht, rfl⟩
  · unfold padded
    rw [List.length_append, List.length_map, List.length_replicate]
    omega

theorem best_take {α : Type} {le : α → α → Prop} {cap k : Nat} {c off : List α} (h : Best le cap c off) (hk : k ≤ cap) :
    Best le k (c.take k) off := by
  obtain ⟨a, b, rest, hp, hr⟩ := h
  refine ⟨a.sublist (List.take_sublist _ _), by rw [List.length_take]; omega, c.drop k ++ rest, ?_, ?_⟩
  · rw [← List.append_assoc, List.take_append_drop]; exact hp
  · intro r hr' e he
    rcases List.mem_append.mp hr' with h' | h'
    · have : (c.take k ++ c.drop k).Pairwise le := by rw [List.take_append_drop]; exact a
      exact (List.pairwise_append.mp this).2.2 e he r h'
    · exact hr r h' e (List.mem_of_mem_take he)

/-- If `ef` is at least the number of reachable nodes, the answer is the exact top-k of the reachable nodes. -/
theorem C67_exact_when_ef_large (g : MGraph) (n : Nat) (hg : GraphOk g n) (dist : Nat → Int) (topk ef : Nat) (hef : 0 < ef)
    (hk : topk ≤ ef) :
    ∃ S out, Seeds g n dist S ∧ (∀ extra, solo g n dist topk ef (n + 1 + extra) = some (some out)) ∧
      ∀ R : List Nat, R.Nodup → (∀ i, i ∈ R ↔ Reach g.rows S i) → R.length ≤ ef → Exact R dist topk out := by
  obtain ⟨S, s, popped, e, h, hu, hS, ha, hb⟩ := walk_spec hg dist hef
  refine ⟨S, padded topk (s.pool.entries.take (min s.pool.size topk)), ⟨ha, hb⟩, ?_, ?_⟩
  · intro extra
    unfold solo
    rw [if_neg (by omega), e extra]
  · intro R hR hRr hRl
    obtain ⟨hp, hall⟩ := h.all hu hS (fun i hi => (hRr i).mpr hi) hRl
    refine ⟨_, rfl, ?_⟩
    have hes : s.pool.entries.length = s.pool.size := entries_size h.q
    have hmin : s.pool.entries.take (min s.pool.size topk) = s.pool.entries.take topk := by
      rw [List.take_eq_take_iff]; omega
    rw [hmin]
    have hperm : (R.map (cand dist)).Perm s.pool.entries :=
      List.Perm.trans (List.Perm.map _ (perm_of_nodup_mem hR h.nd
        (fun x => ⟨fun hx => hall x ((hRr x).mp hx), fun hx => (hRr x).mpr (h.reach x hx)⟩))) hp
    have hb2 := best_take (k := topk) h.q.best hk
    obtain ⟨b1, b2, rest, b3, b4⟩ := hb2
    have hlen : (R.map (cand dist)).length = (s.seen.map (cand dist)).length := (hperm.trans hp.symm).length_eq
    exact ⟨b1, by show _ = min topk (R.map (cand dist)).length; omega, rest, (hperm.trans hp.symm).trans b3, b4⟩

theorem reach_lt {g : MGraph} {n : Nat} (hg : GraphOk g n) {S : List Nat} (hS : ∀ v ∈ S, v < n) {i : Nat} (h : Reach g.rows S i) : i < n := by
  induction h with
  | seed hv => exact hS _ hv
  | step _ hm ih => exact hg.edge _ ih _ hm

/-- If the base layer is strongly connected, there is an entry point, and `ef ≥ n`, the search is exact over all nodes. -/
theorem C67_exact_when_connected (g : MGraph) (n : Nat) (hg : GraphOk g n) (hn : 0 < n) (dist : Nat → Int) (topk ef : Nat)
    (hk : topk ≤ ef) (hfe : n ≤ ef) (hc : ∀ u v, u < n → v < n → Reach g.rows [u] v) (hep : g.overlay = none → g.eps ≠ []) :
    ∃ out, (∀ extra, solo g n dist topk ef (n + 1 + extra) = some (some out)) ∧ Exact (List.range n) dist topk out := by
  obtain ⟨S, out, ⟨ha, hb⟩, e, hx⟩ := C67_exact_when_ef_large g n hg dist topk ef (by omega) hk
  refine ⟨out, e, hx _ List.nodup_range ?_ (by simpa using hfe)⟩
  have hS : (∀ v ∈ S, v < n) ∧ ∃ u, u ∈ S := by
    cases ho : g.overlay with
    | none =>
      have := ha ho
      subst this
      exact ⟨hg.eps, List.exists_mem_of_ne_nil _ (hep ho)⟩
    | some o =>
      obtain ⟨u, rfl, hu, -⟩ := hb o ho
      exact ⟨by simpa using hu, u, by simp⟩
  obtain ⟨hS1, u, hu⟩ := hS
  intro i
  rw [List.mem_range]
  constructor
  · intro hi
    have := hc u i (hS1 u hu) hi
    clear hi
    induction this with
    | seed hv => simp at hv; subst hv; exact .seed hu
    | step _ hm ih => exact .step ih hm
  · exact reach_lt hg hS1

/-- With a quantised search space: the answer is the exact top-k, by the distances of the build space, of the candidates kept by the
walk; these are distinct reachable nodes. -/
theorem C67_rerank (H : TopK.StdHeap TopK.Hit TopK.Hit.lt) (g : MGraph) (n : Nat) (hg : GraphOk g n) (dist exact : Nat → Int)
    (topk ef : Nat) (hef : 0 < ef) (hk : topk ≤ ef) (invalid : TopK.Hit) :
    ∃ S cands best, Seeds g n dist S ∧ cands.Nodup ∧ cands.length ≤ ef ∧ (∀ c ∈ cands, Reach g.rows S c) ∧
      Best TopK.hitLe topk best (cands.map (fun i => (⟨i, exact i⟩ : TopK.Hit))) ∧
      (∀ extra, soloRerank H g n dist exact topk ef (n + 1 + extra) invalid =
        some (some (best ++ List.replicate (topk - min topk cands.length) invalid))) ∧
      ∀ R : List Nat, R.Nodup → (∀ i, i ∈ R ↔ Reach g.rows S i) → R.length ≤ ef → R.Perm cands := by
  obtain ⟨S, s, popped, e, h, hu, hS, ha, hb⟩ := walk_spec hg dist hef
  obtain ⟨best, hbest, eb⟩ := TopK.C29_rerank_exact H exact (s.pool.entries.map Prod.fst) topk invalid
  have hnd : (s.pool.entries.map Prod.fst).Nodup := by
    obtain ⟨_, _, rest, hp, _⟩ := h.q.best
    have := (hp.map Prod.fst).nodup_iff.mp h.candNodup
    rw [List.map_append] at this
    exact (List.nodup_append.mp this).1
  refine ⟨S, s.pool.entries.map Prod.fst, best, ⟨ha, hb⟩, hnd, ?_, ?_, hbest, ?_, ?_⟩
  · rw [List.length_map, h.q.best.2.1]; omega
  · intro c hc
    obtain ⟨x, hx, rfl⟩ := List.mem_map.mp hc
    obtain ⟨t, ht, rfl⟩ := List.mem_map.mp (Best.mem h.q.best hx)
    exact h.reach t ht
  · intro extra
    unfold soloRerank
    rw [if_neg (by omega), e extra]
    simp only
    rw [eb]
  · intro R hR hRr hRl
    obtain ⟨hp, hall⟩ := h.all hu hS (fun i hi => (hRr i).mpr hi) hRl
    have h1 := hp.map Prod.fst
    rw [List.map_map, show (Prod.fst ∘ cand dist) = id from rfl, List.map_id] at h1
    exact (perm_of_nodup_mem hR h.nd (fun x => ⟨fun hx => hall x ((hRr x).mp hx), fun hx => (hRr x).mpr (h.reach x hx)⟩)).trans h1

/-- `ef < topk` is refused before anything is read. -/
theorem C67_small_ef_refused (g : MGraph) (n : Nat) (dist : Nat → Int) (topk ef fuel : Nat) (h : ef < topk) :
    solo g n dist topk ef fuel = some none := by
  unfold solo; rw [if_pos h]

/-- `ef = topk = 0` is not refused, and the first insertion leaves the (empty) pool: undefined behaviour. -/
theorem C67_ef_zero_refuted : ∃ g n, GraphOk g n ∧ ∀ dist fuel, solo g n dist 0 0 fuel = none := by
  refine ⟨⟨[[noId]], [0], none⟩, 1, ⟨by decide, by decide, ?_, by decide, by simp⟩, ?_⟩
  · intro u hu v hv
    have : u = 0 := by omega
    subst this
    have h0 : nbrs [[noId]] 0 = [] := by decide
    rw [h0] at hv; cases hv
  · intro dist fuel
    have h0 : St.visit 1 dist ⟨LinearPool.new 0, []⟩ 0 = none := by
      unfold St.visit
      rw [if_pos (by decide), if_neg (by simp)]
      rfl
    unfold solo walk MGraph.start
    rw [if_neg (by omega)]
    simp only [St.seeds, h0]

/-! ### A concrete graph -/

def exGraph : MGraph :=
  ⟨[[1, 2, noId], [0, 3, noId], [0, noId, 7], [1, 2, 0]], [0], some ⟨2, 0, [1, 0, 0, 1], [[3, noId], [], [], [0, noId]]⟩⟩

theorem exGraph_ok : GraphOk exGraph 4 := by
  refine ⟨by decide, by decide, by decide, by decide, ?_⟩
  intro o ho
  cases ho
  refine ⟨by decide, ?_, ?_⟩
  · intro i hi
    have : i = 0 ∨ i = 1 ∨ i = 2 ∨ i = 3 := by omega
    rcases this with rfl | rfl | rfl | rfl
    · exact ⟨1, [3, noId], rfl, rfl, by decide⟩
    · exact ⟨0, [], rfl, rfl, by decide⟩
    · exact ⟨0, [], rfl, rfl, by decide⟩
    · exact ⟨1, [0, noId], rfl, rfl, by decide⟩
  · intro i lv level blk hi hlv h1 hle hb v hv
    have : i = 0 ∨ i = 1 ∨ i = 2 ∨ i = 3 := by omega
    rcases this with rfl | rfl | rfl | rfl
    · cases hlv
      have : level = 1 := by omega
      subst this
      cases hb
      have h0 : ([3, noId].takeWhile (· ≠ noId)) = [3] := by decide
      change v ∈ ([3, noId].takeWhile (· ≠ noId)) at hv
      rw [h0, List.mem_singleton] at hv
      subst hv
      exact ⟨by decide, 1, rfl, by decide⟩
    · cases hlv; omega
    · cases hlv; omega
    · cases hlv
      have : level = 1 := by omega
      subst this
      cases hb
      have h0 : ([0, noId].takeWhile (· ≠ noId)) = [0] := by decide
      change v ∈ ([0, noId].takeWhile (· ≠ noId)) at hv
      rw [h0, List.mem_singleton] at hv
      subst hv
      exact ⟨by decide, 1, rfl, by decide⟩

example : solo exGraph 4 (fun i => (i : Int) * 2 - 5 |>.natAbs) 3 4 5 = some (some [(3, some 1), (2, some 1), (1, some 3)]) := by decide +kernel
example : solo exGraph 4 (fun i => (i : Int)) 3 3 5 = some (some [(0, some 0), (1, some 1), (2, some 2)]) := by decide +kernel
/-- The padding is used when fewer nodes are reachable. -/
example : solo ⟨[[1, noId], [noId, 0], [0, 1]], [0], none⟩ 3 (fun i => (i : Int)) 3 3 4 =
    some (some [(0, some 0), (1, some 1), (noId, none)]) := by decide +kernel

end Alaya.MemSearch
