import Verif.Lemmas.QgBuilder
import Verif.Props.C79

/-
C80: what the builder of the RaBitQ graph leaves behind.
-/
namespace Alaya.Props
open Alaya Alaya.RSearch Alaya.Hybrid Alaya.Qg

/-- After a build every node has exactly 32 neighbours, distinct existing nodes other than itself: for any distances and estimates, any
random numbers, any result of the angle tests and any interleaving of the threads that add reverse edges. -/
theorem C80_build {W : World} (hW : W.Ok) {est : Nat → Nat → Nat → Nat → Int} {occ : Nat → List Cand → Cand → Bool} {draw0 draw1 : Nat → Nat → Nat}
    (hd0 : ∀ i t, draw0 i t < W.n) (hd1 : ∀ i t, draw1 i t < W.n) {fuel0 fuel1 : Nat → Nat} {fuel : Nat} (hf : 33 * W.n + 1 ≤ fuel)
    {lists : Nat → List Cand} (hb : Build W est occ draw0 draw1 fuel0 fuel1 fuel lists) (i : Nat) (hi : i < W.n) :
    ((lists i).map Prod.fst).length = 32 ∧ ((lists i).map Prod.fst).Nodup ∧ i ∉ (lists i).map Prod.fst ∧ ∀ v ∈ (lists i).map Prod.fst, v < W.n := by
  obtain ⟨l0, l1, l2, l3, r1, r2, r3, h0, h1, h2, h3, h4⟩ := hb
  have g0 : ∀ i, i < W.n → Good W.n i (l0 i) := fun i hi => initNode_good (hd0 i) (h0 i hi)
  have g1 := h1.good hW g0 hf
  have g2 := h2.good hW (fun i hi => (g1 i hi).1) hf
  have g3 := h3.good hW (fun i hi => (g2 i hi).1) hf
  obtain ⟨h, hl⟩ := supplementNode_good (occ i) (hd1 i) (g3 i hi).1 (g3 i hi).2 (h4 i hi)
  exact ⟨by simpa [deg] using hl, h.2.1, h.2.2.1, h.2.2.2⟩

/-- The graph stored is one that the search of C79 works on. -/
theorem C80_searchable {W : World} (hW : W.Ok) {est : Nat → Nat → Nat → Nat → Int} {occ : Nat → List Cand → Cand → Bool} {draw0 draw1 : Nat → Nat → Nat}
    (hd0 : ∀ i t, draw0 i t < W.n) (hd1 : ∀ i t, draw1 i t < W.n) {fuel0 fuel1 : Nat → Nat} {fuel : Nat} (hf : 33 * W.n + 1 ≤ fuel)
    {lists : Nat → List Cand} (hb : Build W est occ draw0 draw1 fuel0 fuel1 fuel lists) (qest : Nat → Nat → Int) (exact : Nat → Int) {dmax : Int}
    (hfin : ∀ v, v < W.n → exact v ≤ dmax) :
    let I : Idx := ⟨W.ep, (List.range W.n).map (fun i => (lists i).map Prod.fst), qest, exact⟩
    RGraph I dmax ∧ Simple I := by
  intro I
  have key := C80_build hW hd0 hd1 hf hb
  have hlen : I.rows.length = W.n := by simp [I]
  have hrow : ∀ row ∈ I.rows, ∃ i, i < W.n ∧ row = (lists i).map Prod.fst := by
    intro row hr
    obtain ⟨i, hi, rfl⟩ := List.mem_map.mp hr
    exact ⟨i, List.mem_range.mp hi, rfl⟩
  refine ⟨⟨by rw [hlen]; exact hW.ep, by rw [hlen]; exact hW.small, ?_, ?_, by rw [hlen]; exact hfin⟩, ?_⟩
  · intro row hr
    obtain ⟨i, hi, rfl⟩ := hrow row hr
    exact (key i hi).1
  · intro row hr
    obtain ⟨i, hi, rfl⟩ := hrow row hr
    rw [hlen]
    exact (key i hi).2.2.2
  · intro c row hr
    have hc : c < W.n := by rw [← hlen]; exact (List.getElem?_eq_some_iff.mp hr).1
    have : row = (lists c).map Prod.fst := by
      simp only [I, List.getElem?_map, List.getElem?_range hc, Option.map_some, Option.some.injEq] at hr
      exact hr.symm
    rw [this]
    exact ⟨(key c hc).2.1, (key c hc).2.2.1⟩

/-- With at least 33 vectors the build ends: the searches need at most 33 rounds per node and one, the other loops end as soon as the random
numbers have come by often enough. -/
theorem C80_ends {W : World} (hW : W.Ok) (hn : 32 < W.n) (est : Nat → Nat → Nat → Nat → Int) (occ : Nat → List Cand → Cand → Bool)
    {draw0 draw1 : Nat → Nat → Nat} (hd0 : ∀ i t, draw0 i t < W.n) (hf0 : ∀ i, Fair W.n (draw0 i)) (hf1 : ∀ i, Fair W.n (draw1 i))
    {fuel : Nat} (hf : 33 * W.n + 1 ≤ fuel) :
    ∃ fuel0 fuel1 lists, Build W est occ draw0 draw1 fuel0 fuel1 fuel lists := by
  have hin : ∀ i, ∃ (f : Nat) (l : List Cand), initNode W (draw0 i) f i = some l := by
    intro i
    obtain ⟨f, out, e⟩ := drawSet_ends (n := W.n) hn (hf0 i) i deg 0 [] (by simp)
    exact ⟨f, _, by unfold initNode; rw [e]; rfl⟩
  choose f0 l0 h0 using hin
  have g0 : ∀ i, i < W.n → Good W.n i (l0 i) := fun i _ => initNode_good (hd0 i) (h0 i)
  obtain ⟨l1, r1, h1⟩ := Iter.exists hW (est 0) false g0 hf
  have g1 := h1.good hW g0 hf
  obtain ⟨l2, r2, h2⟩ := Iter.exists hW (est 1) false (fun i hi => (g1 i hi).1) hf
  have g2 := h2.good hW (fun i hi => (g1 i hi).1) hf
  obtain ⟨l3, r3, h3⟩ := Iter.exists hW (est 2) true (fun i hi => (g2 i hi).1) hf
  have hs : ∀ i, ∃ (f : Nat) (l : List Cand), supplementNode W (occ i) (draw1 i) f i (l3 i) (r3 i) = some l := by
    intro i
    unfold supplementNode
    by_cases hc : deg ≤ (l3 i).length
    · exact ⟨0, _, by rw [if_pos hc]⟩
    · obtain ⟨f, out, e⟩ := fillLoop_ends hn (hf1 i) i deg 0 (addPruned (occ i) (sortC (r3 i)) (l3 i)) (by omega)
      exact ⟨f, out, by rw [if_neg hc]; exact e⟩
  choose f1 l4 h4 using hs
  exact ⟨f0, f1, l4, l0, l1, l2, l3, r1, r2, r3, fun i _ => h0 i, h1, h2, h3, fun i _ => h4 i⟩

/-- The threads that add reverse edges do not get stuck and cannot go on for ever: in every state they can reach, either all nodes have been
dealt with or a step is possible, and every step reduces the work left, at most 33 steps per node. -/
theorem C80_reverse {n : Nat} {lists : Nat → List Cand}
    (hl : ∀ i, i < n → (lists i).length ≤ 32 ∧ ((lists i).map Prod.fst).Nodup ∧ i ∉ (lists i).map Prod.fst ∧ ∀ v ∈ (lists i).map Prod.fst, v < n)
    {s : RState} (hr : RRun n ⟨lists, fun _ => [], fun _ => none⟩ s) :
    (s.done n ∨ ∃ t, RStep n s t) ∧ (∀ t, RStep n s t → t.work n < s.work n) ∧ RState.work n ⟨lists, fun _ => [], fun _ => none⟩ = 33 * n ∧
    ∀ i, i < n → (s.lists i).length ≤ 32 ∧ (((s.lists i ++ s.buf i).map Prod.fst).Nodup) ∧ ∃ sfx, s.lists i = lists i ++ sfx := by
  have h := (VInv.start (n := n) (lists := lists) hl).run hr
  refine ⟨?_, fun t ht => h.step_work ht, by simp [RState.work, deg, Nat.mul_comm], fun i hi => ⟨h.len i hi, (h.clean i hi).1, ?_⟩⟩
  · by_cases hd : s.done n
    · exact .inl hd
    · exact .inr (h.progress hd)
  · generalize hs0 : (⟨lists, fun _ => [], fun _ => none⟩ : RState) = s0 at hr
    clear h
    induction hr with
    | refl => rw [← hs0]; exact ⟨[], by simp⟩
    | step _ hst ih =>
      obtain ⟨sfx, e⟩ := ih
      cases hst with
      | begin i' hi' hp => exact ⟨sfx, e⟩
      | edge i' m j c hp hj hc =>
        unfold revEdge
        split
        · exact ⟨sfx, e⟩
        · split
          · simp only
            by_cases hx : i = c.1
            · subst hx
              exact ⟨sfx ++ [(i', c.2)], by rw [upd_self, e, List.append_assoc]⟩
            · exact ⟨sfx, by rw [upd_ne _ _ hx]; exact e⟩
          · split
            · exact ⟨sfx, e⟩
            · exact ⟨sfx, e⟩

/-- The rule by which neighbours are chosen from a pool of more than 32: no chosen one is nearer to an earlier chosen one than to the node,
and whatever is left out is, unless 32 have been chosen. -/
theorem C80_prune (W : World) (sup : Bool) (old recs : List Cand) {pool : List Cand} (hp : 32 < pool.length) :
    (prune W sup pool old recs).1.Sublist pool ∧ (prune W sup pool old recs).1.length ≤ 32 ∧
    (prune W sup pool old recs).1.Pairwise (fun a b => b.2 ≤ W.dist a.1 b.1) ∧
    ∀ x ∈ pool, x ∉ (prune W sup pool old recs).1 → (prune W sup pool old recs).1.length = 32 ∨
      ∃ c ∈ (prune W sup pool old recs).1, W.dist c.1 x.1 < x.2 := by
  have e0 : (prune W sup pool old recs).1 = (pruneLoop W.dist deg (pool.map (fun c => (c, false)))).1 := by
    unfold prune
    rw [if_neg (by intro h; rw [h] at hp; simp at hp), if_neg (by unfold deg; omega)]
  rw [e0]
  obtain ⟨h1, h2, -⟩ := pruneLoop_spec W.dist deg (pool.map (fun c => (c, false)))
  obtain ⟨-, h4, h5⟩ := pruneLoop_rule W.dist deg (pool.map (fun c => (c, false)))
  have e : (pool.map (fun c : Cand => (c, false))).map Prod.fst = pool := by rw [List.map_map]; exact List.map_id _
  rw [e] at h1
  refine ⟨h1, h2, h4.imp (fun h => by omega), ?_⟩
  intro x hx hn
  rcases h5 x (List.mem_map.mpr ⟨x, hx, rfl⟩) with h | h | h
  · exact absurd h hn
  · exact .inl h
  · exact .inr h

/-- The entry point is an existing node, and a nearest one to the centre unless no distance to the centre is below the largest number; however
the nodes are distributed over the threads. -/
theorem C80_entry {n : Nat} (hn : 0 < n) (dc : Nat → Int) (dmax : Int) {parts : List (List Nat)} (hp : ∀ v, v < n ↔ ∃ p ∈ parts, v ∈ p) :
    calEp dc dmax parts < n ∧ ((∃ v, v < n ∧ dc v < dmax) → ∀ v, v < n → dc (calEp dc dmax parts) ≤ dc v) := by
  obtain ⟨h1, h2, h3⟩ := bestEntry_spec (parts.map (fun p => bestOf dc p (0, dmax))) (0, dmax)
  have hmin : ∀ v, v < n → (bestEntry (parts.map (fun p => bestOf dc p (0, dmax))) (0, dmax)).2 ≤ dc v := by
    intro v hv
    obtain ⟨p, hp1, hp2⟩ := (hp v).mp hv
    have := h2 _ (List.mem_map.mpr ⟨p, hp1, rfl⟩)
    have := (bestOf_spec dc p (0, dmax)).2.1 v hp2
    omega
  have hcase : bestEntry (parts.map (fun p => bestOf dc p (0, dmax))) (0, dmax) = (0, dmax) ∨
      ∃ v, v < n ∧ bestEntry (parts.map (fun p => bestOf dc p (0, dmax))) (0, dmax) = (v, dc v) := by
    rcases h3 with h3 | h3
    · exact .inl h3
    · obtain ⟨p, hp1, hp2⟩ := List.mem_map.mp h3
      rcases (bestOf_spec dc p (0, dmax)).2.2 with h | ⟨v, hv, h⟩
      · exact .inl (by rw [← hp2, h])
      · exact .inr ⟨v, (hp v).mpr ⟨p, hp1, hv⟩, by rw [← hp2, h]⟩
  unfold calEp
  rcases hcase with h | ⟨w, hw, h⟩
  · rw [h]
    refine ⟨hn, ?_⟩
    rintro ⟨v, hv, hlt⟩
    have := hmin v hv
    rw [h] at this
    simp only at this
    omega
  · rw [h] at hmin ⊢
    exact ⟨hw, fun _ v hv => hmin v hv⟩

/-- With 1 to 32 vectors the build never ends: no number of rounds is enough to find 32 distinct other nodes. -/
theorem C80_small_refuted {W : World} (h1 : 0 < W.n) (h32 : W.n ≤ 32) {draw : Nat → Nat} (hd : ∀ t, draw t < W.n) (fuel i : Nat) (hi : i < W.n) :
    initNode W draw fuel i = none := by
  cases h : initNode W draw fuel i with
  | none => rfl
  | some l =>
    exfalso
    unfold initNode at h
    obtain ⟨ids, e1, -⟩ := Option.map_eq_some_iff.mp h
    obtain ⟨a1, a2, a3, a4⟩ := drawSet_good hd i fuel 0 [] ids (by simp) (by simp) (by simp) (by simp) e1
    have := nodup_subset_length (l1 := i :: ids) (l2 := List.range W.n) (List.nodup_cons.mpr ⟨a2, a1⟩) (by
      intro v hv
      rcases List.mem_cons.mp hv with rfl | hv
      · exact List.mem_range.mpr hi
      · exact List.mem_range.mpr (a3 v hv))
    unfold deg at a4
    simp at this
    omega

/-! ### A case -/

/-- 40 points on a line. -/
def line40 : World := ⟨40, 7, fun a b => ((a : Int) - b) * (a - b), 10, 1000000, 900000⟩

theorem line40_fair : Fair line40.n (fun t => t % 40) := by
  intro v hv t
  have : v < 40 := hv
  exact ⟨40 * t + v, by omega, by simp only; omega⟩

example : ∃ fuel0 fuel1 lists, Build line40 (fun _ cur _ i => (cur : Int) * i) (fun _ _ c => decide (c.2 % 2 = 0)) (fun _ t => t % 40) (fun _ t => t % 40)
    fuel0 fuel1 2000 lists :=
  C80_ends ⟨by decide, by decide, by decide, by decide⟩ (by decide) _ _ (fun _ t => by simp only [line40]; omega) (fun _ => line40_fair)
    (fun _ => line40_fair) (by decide)

/-- Pruning drops what is occluded: of 39 points to the right of node 0 only the nearest stays. -/
example : (prune line40 false ((List.range 39).map (fun v => (v + 1, ((v : Int) + 1) * (v + 1)))) [] []).1 = [(1, 1)] := by
  simp [prune, pruneLoop, line40, deg, List.range, List.range.loop]

/-- A reverse edge is entered only once. -/
example : (revEdge (revEdge ⟨fun i => if i = 0 then [(1, 5)] else [], fun _ => [], fun _ => none⟩ 0 (1, 5)) 0 (1, 5)).lists 1 = [(0, 5)] := by decide +kernel

example : calEp (fun v => ((v : Int) - 3) * (v - 3)) 1000 [[0, 4, 5], [], [2, 1, 3]] = 3 := by decide +kernel

end Alaya.Props
