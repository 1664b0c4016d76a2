import Verif.Lemmas.VamanaLloyd
import Verif.Props.C63
import Verif.Props.C83

/-! The number of parts, their contents, and the graph made of them. -/
namespace Alaya.VPart
open Alaya.Vamana

/-! ### The number of parts -/

theorem numParts_ok {F : Type} {km : Nat → Option (Option (List (List F)))} {est : Nat → List (List F) → List Nat} {fits : Nat → Bool} {nTrain maxParts : Nat} :
    ∀ (fuel p q : Nat) (piv : List (List F)), numParts km est fits nTrain maxParts fuel p = some (some (q, piv)) →
    ∃ j, q = p + 2 * j ∧ q ≤ maxParts ∧ q ≤ nTrain ∧ km q = some (some piv) ∧ (est q piv).all fits = true ∧
      ∀ i, i < j → ∃ piv', km (p + 2 * i) = some (some piv') ∧ (est (p + 2 * i) piv').all fits = false
  | 0, _, _, _, h => by cases h
  | fuel + 1, p, q, piv, h => by
    unfold numParts at h
    split at h
    · cases h
    · rename_i h1
      split at h
      · cases h
      · rename_i h2
        split at h
        · cases h
        · cases h
        · rename_i piv' hk
          by_cases hf : (est p piv').all fits = true
          · rw [if_pos hf] at h
            cases h
            exact ⟨0, rfl, by omega, by omega, hk, hf, fun i hi => by omega⟩
          · rw [if_neg hf] at h
            obtain ⟨j, k1, k2, k3, k4, k5, k6⟩ := numParts_ok fuel (p + 2) q piv h
            refine ⟨j + 1, by omega, k2, k3, k4, k5, ?_⟩
            intro i hi
            cases i with
            | zero => exact ⟨piv', hk, by simpa using hf⟩
            | succ i =>
              obtain ⟨pv, e1, e2⟩ := k6 i (by omega)
              have e : p + 2 * (i + 1) = p + 2 + 2 * i := by omega
              rw [e]
              exact ⟨pv, e1, e2⟩

theorem numParts_throws {F : Type} {km : Nat → Option (Option (List (List F)))} {est : Nat → List (List F) → List Nat} {fits : Nat → Bool} {nTrain maxParts : Nat} :
    ∀ (fuel p : Nat), numParts km est fits nTrain maxParts fuel p = some none →
    ∃ j, (maxParts < p + 2 * j ∨ nTrain < p + 2 * j ∨ km (p + 2 * j) = some none) ∧
      ∀ i, i < j → ∃ piv', km (p + 2 * i) = some (some piv') ∧ (est (p + 2 * i) piv').all fits = false
  | 0, _, h => by cases h
  | fuel + 1, p, h => by
    unfold numParts at h
    split at h
    · rename_i h1; exact ⟨0, .inl h1, fun i hi => by omega⟩
    · split at h
      · rename_i h2; exact ⟨0, .inr (.inl h2), fun i hi => by omega⟩
      · split at h
        · cases h
        · rename_i hk; exact ⟨0, .inr (.inr hk), fun i hi => by omega⟩
        · rename_i piv' hk
          by_cases hf : (est p piv').all fits = true
          · rw [if_pos hf] at h; cases h
          · rw [if_neg hf] at h
            obtain ⟨j, k1, k6⟩ := numParts_throws fuel (p + 2) h
            refine ⟨j + 1, ?_, ?_⟩
            · have e : p + 2 * (j + 1) = p + 2 + 2 * j := by omega
              rw [e]; exact k1
            · intro i hi
              cases i with
              | zero => exact ⟨piv', hk, by simpa using hf⟩
              | succ i =>
                obtain ⟨pv, e1, e2⟩ := k6 i (by omega)
                have e : p + 2 * (i + 1) = p + 2 + 2 * i := by omega
                rw [e]
                exact ⟨pv, e1, e2⟩

theorem numParts_none {F : Type} {km : Nat → Option (Option (List (List F)))} {est : Nat → List (List F) → List Nat} {fits : Nat → Bool} {nTrain maxParts : Nat} :
    ∀ (fuel p : Nat), p ≤ maxParts + 2 → maxParts + 2 < p + 2 * fuel → numParts km est fits nTrain maxParts fuel p = none →
    ∃ q, q ≤ nTrain ∧ p ≤ q ∧ km q = none
  | 0, _, h1, h2, _ => by omega
  | fuel + 1, p, h1, h2, h => by
    unfold numParts at h
    split at h
    · cases h
    · split at h
      · cases h
      · split at h
        · rename_i hk; exact ⟨p, by omega, Nat.le_refl _, hk⟩
        · cases h
        · split at h
          · cases h
          · obtain ⟨q, a, b, c⟩ := numParts_none fuel (p + 2) (by omega) (by omega) h
            exact ⟨q, a, by omega, c⟩

theorem seed_length {F : Type} {A : Ar F} {data : List (List F)} {nc first : Nat} {us : List F} {r : List Nat} (hf : first < data.length)
    (h : seed A data nc first us = some (some r)) : r.length = nc ∧ ∀ i ∈ r, i < data.length := by
  unfold seed at h
  split at h
  · cases h
  · rename_i h0
    split at h
    · cases h
    · split at h
      · cases h
      · cases e : seedLoop A data (nc - 1) [first] (data.map (fun v => sq A v (data.getD first []))) us with
        | none => rw [e] at h; cases h
        | some q =>
          rw [e] at h
          cases h
          obtain ⟨h1, h2⟩ := seedLoop_range A data (by intro e; rw [e] at hf; simp at hf) (nc - 1) [first] _ us r (by simp) (by simpa using hf) e
          refine ⟨by rw [h1]; simp; omega, h2⟩

theorem train_length {F : Type} {A : Ar F} {dim reps : Nat} {data : List (List F)} {nc first : Nat} {us : List F} {piv : List (List F)} (hf : first < data.length)
    (h : train A dim reps data nc first us = some (some piv)) : piv.length = nc := by
  unfold train at h
  split at h
  · cases h
  · cases h
  · rename_i picked hs
    cases h
    rw [lloyds_length, List.length_map]
    exact (seed_length hf hs).1

/-! ### Sizes of the parts -/

theorem counts_get (l : List Nat) : ∀ (cs : List Nat) (s : Nat), (l.foldl (fun cs s => cs.modify s (· + 1)) cs)[s]? = cs[s]?.map (· + l.count s) := by
  induction l with
  | nil => intro cs s; simp
  | cons a l ih =>
    intro cs s
    rw [List.foldl_cons, ih, List.getElem?_modify, List.count_cons]
    by_cases h : a = s
    · subst h
      simp only [if_pos]
      cases cs[a]? with
      | none => rfl
      | some x => simp; omega
    · simp [h]

/-- With all vectors as test sample the counts are the sizes of the parts. -/
theorem counts_parts {F : Type} (E : Env F) (np : Nat) (piv data : List (List F)) (ss : List (List (Nat × List F))) (h : parts E np piv data = some ss) :
    counts E.A E.M 2 np piv data = ss.map List.length := by
  obtain ⟨hlen, hcont⟩ := C63_shard_contents _ _ _ _ _ h
  refine List.ext_getElem? ?_
  intro s
  unfold counts
  rw [counts_get, List.getElem?_replicate, List.getElem?_map]
  by_cases hs : s < np
  · rw [if_pos hs, Option.map_some]
    have hs' : s < ss.length := by omega
    rw [List.getElem?_eq_getElem hs', Option.map_some, Nat.zero_add]
    have := hcont s _ (List.getElem?_eq_getElem hs')
    rw [this, List.length_flatMap, List.count_flatMap]
    congr 2
    simp only [List.length_replicate]
    have : ∀ (l : List (List F)) (k : Nat), l.map (List.count s ∘ fun v => closest E.M 2 (rowOf E.A piv v)) =
        ((l.map (fun v => (v, rowOf E.A piv v))).zipIdx k).map (fun p => (closest E.M 2 p.1.2).count s) := by
      intro l
      induction l with
      | nil => intro k; rfl
      | cons v l ih => intro k; rw [List.map_cons, List.map_cons, List.zipIdx_cons, List.map_cons, ih (k + 1)]; rfl
    exact this data 0
  · rw [if_neg hs, List.getElem?_eq_none (by omega)]; rfl

/-! ### Contents of the parts -/

/-- Distance of a vector to all pivots, as computed. -/
def dists {F : Type} (A : Ar F) (piv : List (List F)) (v : List F) : List Int := piv.map (fun c => (A.fd (A.gemm v c)).getD 0)

/-- All computed distances are numbers below the largest float. -/
def Finite {F : Type} (E : Env F) (piv data : List (List F)) : Prop := ∀ v ∈ data, ∀ c ∈ piv, ∃ z, E.A.fd (E.A.gemm v c) = some z ∧ z < E.M

theorem parts_spec {F : Type} (E : Env F) (np : Nat) (piv data : List (List F)) (hp : piv.length = np) (h2 : 2 ≤ np) (hd : data ≠ []) (hfin : Finite E piv data) :
    ∃ (ss : List (List (Nat × List F))) (cl : Nat → List Nat), parts E np piv data = some ss ∧ ss.length = np ∧
      (∀ (g : Nat) (v : List F), data[g]? = some v → Nearest 2 (dists E.A piv v) (cl g)) ∧
      ∀ (s : Nat) (l : List (Nat × List F)), ss[s]? = some l → (shardIds l).Pairwise (· < ·) ∧
        ∀ (g : Nat) (v : List F), (g, v) ∈ l ↔ s ∈ cl g ∧ data[g]? = some v := by
  have hb : data.map (fun v => (v, rowOf E.A piv v)) = finBase (data.map (fun v => (v, dists E.A piv v))) := by
    unfold finBase
    rw [List.map_map]
    refine List.map_congr_left ?_
    intro v hv
    simp only [Function.comp_apply, Prod.mk.injEq, true_and]
    unfold rowOf dists finRow
    rw [List.map_map]
    refine List.map_congr_left ?_
    intro c hc
    obtain ⟨z, hz, _⟩ := hfin v hv c hc
    simp [hz]
  have hs : ∃ ss, parts E np piv data = some ss := by
    unfold parts assign
    rw [if_neg (by omega), if_neg (by simpa using hd)]
    exact ⟨_, rfl⟩
  obtain ⟨ss, hs⟩ := hs
  have hs' := hs
  unfold parts at hs'
  rw [hb] at hs'
  obtain ⟨hlen, _⟩ := C63_shard_contents _ _ _ _ _ hs'
  obtain ⟨cl, c1, c2⟩ := C63_assign_partial E.M np 2 (data.map (fun v => (v, dists E.A piv v))) ss (by
    intro p hp'
    obtain ⟨v, hv, rfl⟩ := List.mem_map.1 hp'
    refine ⟨by simp [dists, hp], ?_⟩
    intro z hz
    obtain ⟨c, hc, rfl⟩ := List.mem_map.1 hz
    obtain ⟨z, e, hlt⟩ := hfin v hv c hc
    rw [e]; exact hlt) hs'
  refine ⟨ss, cl, hs, hlen, ?_, ?_⟩
  · intro g v hg
    exact c1 g (v, dists E.A piv v) (by rw [List.getElem?_map, hg]; rfl)
  · intro s l hl
    obtain ⟨d1, d2⟩ := c2 s l hl
    refine ⟨d1, fun g v => ?_⟩
    rw [d2 g v]
    refine and_congr_right fun _ => ?_
    rw [List.getElem?_map]
    constructor
    · rintro ⟨row, e⟩
      cases hg : data[g]? with
      | none => rw [hg] at e; cases e
      | some w => rw [hg] at e; simp at e; rw [e.1]
    · intro e
      rw [e]; exact ⟨_, rfl⟩

/-! ### The graph -/

/-- `b` is what some execution of the builder by any number of threads makes of the vectors: graph and entry point. -/
def Built {F : Type} (R : Nat) (rows : List (List F)) (b : List (List Nat) × Nat) : Prop :=
  ∃ (c : VBuild.Cfg) (threads : Nat) (s : VBuild.State), c.Ok ∧ c.n = rows.length ∧ c.R = R ∧ c.medoid = b.2 ∧ VBuild.Reached c threads s ∧ s.stage = .fin ∧ s.g = b.1

/-- The same with one thread and a candidate list of at least two. -/
def BuiltAlone {F : Type} (R : Nat) (rows : List (List F)) (b : List (List Nat) × Nat) : Prop :=
  ∃ (c : VBuild.Cfg) (s : VBuild.State), c.Ok ∧ c.n = rows.length ∧ c.R = R ∧ c.medoid = b.2 ∧ 2 ≤ c.L ∧ 0 < c.slack ∧ VBuild.Reached c 1 s ∧ s.stage = .fin ∧ s.g = b.1

theorem BuiltAlone.built {F : Type} {R : Nat} {rows : List (List F)} {b : List (List Nat) × Nat} (h : BuiltAlone R rows b) : Built R rows b := by
  obtain ⟨c, s, h1, h2, h3, h4, _, _, h5, h6, h7⟩ := h
  exact ⟨c, 1, s, h1, h2, h3, h4, h5, h6, h7⟩

/-- The shard that the merger reads. -/
def shardOf {F : Type} (E : Env F) (p : List (Nat × List F) × Nat) : Shard :=
  ⟨shardIds p.1, (E.bld (shardR E.R) p.2 (p.1.map Prod.snd)).1, shardR E.R, (E.bld (shardR E.R) p.2 (p.1.map Prod.snd)).2, 0⟩

theorem shardGraphs_some {F : Type} (E : Env F) : ∀ (ss : List (List (Nat × List F))) (i : Nat), (∀ l ∈ ss, l ≠ []) →
    shardGraphs E i ss = some (((ss.zipIdx i).map (shardOf E)).map Shard.graph)
  | [], _, _ => rfl
  | l :: ss, i, h => by
    unfold shardGraphs
    rw [if_neg (h l (by simp)), shardGraphs_some E ss (i + 1) (fun x hx => h x (by simp [hx]))]
    rfl

theorem shardGraphs_none {F : Type} (E : Env F) : ∀ (ss : List (List (Nat × List F))) (i : Nat), [] ∈ ss → shardGraphs E i ss = none
  | l :: ss, i, h => by
    unfold shardGraphs
    by_cases hl : l = []
    · rw [if_pos hl]
    · rw [if_neg hl, shardGraphs_none E ss (i + 1) (by
        rcases List.mem_cons.1 h with e | e
        · exact absurd e.symm hl
        · exact e)]

theorem asc_length {l : List Nat} {n : Nat} (h : l.Pairwise (· < ·)) (hn : ∀ x ∈ l, x < n) : l.length ≤ n := by
  have hnd : l.Nodup := h.imp (fun h => Nat.ne_of_lt h)
  have := (hnd.subperm (l₂ := List.range n) (fun x hx => List.mem_range.2 (hn x hx))).length_le
  simpa using this

theorem shardR_pos (R : Nat) : 0 < shardR R := by unfold shardR; omega

theorem shardR_le (R : Nat) (h : 0 < R) : shardR R ≤ R := by unfold shardR; omega

theorem shard_ok {F : Type} (E : Env F) {l : List (Nat × List F)} (hl : l ≠ []) (i : Nat) {n : Nat} (hn : n < 2 ^ 32) (hR : 0 < E.R) (hR32 : E.R < 2 ^ 32)
    (hasc : (shardIds l).Pairwise (· < ·)) (hlt : ∀ g ∈ shardIds l, g < n)
    (hb : Built (shardR E.R) (l.map Prod.snd) (E.bld (shardR E.R) i (l.map Prod.snd))) : ShardOk (shardOf E (l, i)) := by
  obtain ⟨c, threads, s, hc, h1, h2, h3, h4, h5, h6⟩ := hb
  obtain ⟨k1, k2⟩ := VBuild.C83_graph c hc threads s h4 h5
  have hlen : (shardIds l).length = l.length := by simp [shardIds]
  have hcnt := asc_length hasc hlt
  rw [List.length_map] at h1
  have hle := shardR_le E.R hR
  refine ⟨hasc, fun g hg => by have := hlt g hg; omega, by change (shardIds l).length < _; omega, ?_, ?_, ?_, ?_⟩
  · change (E.bld _ _ _).1.length = (shardIds l).length
    rw [← h6, k1, h1, hlen]
  · intro a ha
    change a ∈ (E.bld _ _ _).1 at ha
    rw [← h6] at ha
    obtain ⟨j, hj⟩ := List.getElem?_of_mem ha
    have := (k2 j a hj).2.2.2.1
    omega
  · intro a ha x hx
    change a ∈ (E.bld _ _ _).1 at ha
    rw [← h6] at ha
    obtain ⟨j, hj⟩ := List.getElem?_of_mem ha
    have := (k2 j a hj).2.2.1 x hx
    change x < (shardIds l).length
    omega
  · change (E.bld _ _ _).2 < (shardIds l).length
    rw [← h3, hlen, ← h1]; exact hc.n

/-- The merged graph, if no part is empty. -/
theorem partition_ok {F : Type} (E : Env F) (dim np : Nat) (piv data : List (List F)) (hch : choose E dim data = some (some (np, piv))) (hp : piv.length = np)
    (h2 : 2 ≤ np) (hd : data ≠ []) (hfin : Finite E piv data) (hn : data.length < 2 ^ 32) (hR : 0 < E.R) (hR32 : E.R < 2 ^ 32)
    (hσ : ∀ g l, (E.shuffle g l).Perm l) (hb : ∀ i rows, rows ≠ [] → Built (shardR E.R) rows (E.bld (shardR E.R) i rows)) :
    ∃ (ss : List (List (Nat × List F))) (cl : Nat → List Nat), parts E np piv data = some ss ∧ ss.length = np ∧
      (∀ (g : Nat) (v : List F), data[g]? = some v → Nearest 2 (dists E.A piv v) (cl g)) ∧
      (∀ (s : Nat) (l : List (Nat × List F)), ss[s]? = some l → (shardIds l).Pairwise (· < ·) ∧
        ∀ (g : Nat) (v : List F), (g, v) ∈ l ↔ s ∈ cl g ∧ data[g]? = some v) ∧
      ([] ∈ ss → partition E dim data = some .throws) ∧
      ((∀ l ∈ ss, l ≠ []) → ∃ out, partition E dim data = some (.ok (graphFile out E.R E.medoid 0)) ∧ out.length = data.length ∧
        ∀ (g : Nat) (a : List Nat), out[g]? = some a → g ∉ a ∧ RecGood (ss.zipIdx.map (shardOf E)) E.R g a) := by
  obtain ⟨ss, cl, s1, s2, s3, s4⟩ := parts_spec E np piv data hp h2 hd hfin
  have hne : ss ≠ [] := by intro e; rw [e] at s2; simp at s2; omega
  refine ⟨ss, cl, s1, s2, s3, s4, ?_, ?_⟩
  · intro hnil
    unfold partition
    simp only [hch, s1, shardGraphs_none E ss 0 hnil]
  · intro hall
    have hids : ∀ (s : Nat) (l : List (Nat × List F)), ss[s]? = some l → ∀ g ∈ shardIds l, g < data.length := by
      intro s l hl g hg
      obtain ⟨⟨g', v⟩, hm, rfl⟩ := List.mem_map.1 hg
      have := ((s4 s l hl).2 g' v).1 hm
      exact (List.getElem?_eq_some_iff.1 this.2).1
    have hok : ∀ s ∈ ss.zipIdx.map (shardOf E), ShardOk s := by
      intro s hs
      obtain ⟨⟨l, i⟩, hli, rfl⟩ := List.mem_map.1 hs
      have hl := List.mem_zipIdx_iff_getElem?.1 hli
      have hlne := hall l (List.mem_of_getElem? hl)
      exact shard_ok E hlne i hn hR hR32 (s4 i l hl).1 (hids i l hl) (hb i _ (by simpa using hlne))
    obtain ⟨out, meds, m1, m2, _, m4⟩ := C49_merge (ss.zipIdx.map (shardOf E)) (by simpa using hne) hok E.shuffle hσ E.R E.medoid 0
    refine ⟨out, ?_, ?_, m4⟩
    · unfold partition
      have hid : ss.map (fun s => idmapFile (shardIds s)) = (ss.zipIdx.map (shardOf E)).map (fun s => idmapFile s.ids) := by
        have : ∀ (l : List (List (Nat × List F))) (k : Nat), l.map (fun s => idmapFile (shardIds s)) = ((l.zipIdx k).map (shardOf E)).map (fun s => idmapFile s.ids) := by
          intro l
          induction l with
          | nil => intro k; rfl
          | cons a l ih => intro k; rw [List.map_cons, List.zipIdx_cons, List.map_cons, List.map_cons, ih (k + 1)]; rfl
        exact this ss 0
      simp only [hch, s1, shardGraphs_some E ss 0 hall, hid, m1]
    · obtain ⟨s, hs, g, hg, e⟩ := m2.tight
      have hle : out.length ≤ data.length := by
        obtain ⟨⟨l, i⟩, hli, rfl⟩ := List.mem_map.1 hs
        have := hids i l (List.mem_zipIdx_iff_getElem?.1 hli) g hg
        omega
      have hpos := List.length_pos_iff.2 hd
      have hlast : data[data.length - 1]? = some data[data.length - 1] := List.getElem?_eq_getElem (by omega)
      have hnr := s3 _ _ hlast
      obtain ⟨t, ht⟩ := List.exists_mem_of_length_pos (l := cl (data.length - 1)) (by rw [hnr.len]; omega)
      have htl := hnr.range t ht
      have : (dists E.A piv data[data.length - 1]).length = np := by simp [dists, hp]
      have htn : t < ss.length := by omega
      have hmem := ((s4 t _ (List.getElem?_eq_getElem htn)).2 (data.length - 1) data[data.length - 1]).2 ⟨ht, hlast⟩
      have := m2.all (shardOf E (ss[t], t)) (List.mem_map.2 ⟨(ss[t], t), List.mem_zipIdx_iff_getElem?.2 (List.getElem?_eq_getElem htn), rfl⟩) (data.length - 1)
        (List.mem_map.2 ⟨_, hmem, rfl⟩)
      omega

end Alaya.VPart
