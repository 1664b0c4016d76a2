import Verif.Lemmas.DiskBeam

/-! The neighbour regions of the scratch, and exactness of the greedy disk search. -/
namespace Alaya.DiskBeam
open Alaya Alaya.Pools Alaya.Spec Alaya.DiskBeam.Spec

theorem perm_of_mem {α : Type} [DecidableEq α] {a b : List α} (ha : a.Nodup) (hb : b.Nodup) (h : ∀ x, x ∈ a ↔ x ∈ b) : a.Perm b := by
  rw [List.perm_iff_count]
  intro x
  rw [List.Nodup.count ha, List.Nodup.count hb]
  simp only [h x]

/-- A candidate that joins can only bring itself into the best list. -/
theorem best_new {cap : Nat} {K K' off : List (Nat × Int)} {x : Nat × Int} (h : Best leL cap K off) (h' : Best leL cap K' (off ++ [x]))
    (hn : off.Nodup) (hn' : K'.Nodup) : ∀ y ∈ K', y ∈ K ∨ y = x := by
  intro y hy
  by_cases hx : y = x
  · exact .inr hx
  · by_cases hk : y ∈ K
    · exact .inl hk
    · exfalso
      obtain ⟨_, l1, r1, p1, b1⟩ := h
      obtain ⟨_, l2, r2, p2, b2⟩ := h'
      have hyo : y ∈ off := by
        have := p2.mem_iff.mpr (List.mem_append_left r2 hy)
        rcases List.mem_append.mp this with q | q
        · exact q
        · exact absurd (List.mem_singleton.mp q) hx
      have hyr : y ∈ r1 := by
        rcases List.mem_append.mp (p1.mem_iff.mp hyo) with q | q
        · exact absurd q hk
        · exact q
      have hnd := p1.nodup_iff.mp hn
      rw [List.nodup_append] at hnd
      have hlen : off.length = K.length + r1.length := by rw [p1.length_eq, List.length_append]
      have hpos := List.length_pos_of_mem hyr
      have hcap : K.length = cap := by
        have : min cap off.length ≤ off.length := Nat.min_le_right _ _
        rcases Nat.le_total cap off.length with q | q
        · rw [l1]; exact Nat.min_eq_left q
        · rw [Nat.min_eq_right q] at l1; omega
      have hsub : ∀ e ∈ K, e ∈ K' := by
        intro e he
        have heo : e ∈ off ++ [x] := List.mem_append_left _ (p1.mem_iff.mpr (List.mem_append_left _ he))
        rcases List.mem_append.mp (p2.mem_iff.mp heo) with q | q
        · exact q
        · have h1 := b2 e q y hy
          have h2 := b1 y hyr e he
          exact absurd (leL_antisymm h1 h2 ▸ he) hk
      have := nodup_subset_length (l1 := y :: K) (l2 := K') (List.nodup_cons.mpr ⟨hk, hnd.1⟩) (by
        intro z hz
        rcases List.mem_cons.mp hz with rfl | hz
        · exact hy
        · exact hsub z hz)
      rw [List.length_cons] at this
      have : K'.length ≤ cap := by rw [l2]; exact Nat.min_le_left _ _
      omega

/-- Ids of the entries. -/
def _root_.Alaya.Pools.NPQ.ids (q : NPQ) : List Nat := q.entries.map (·.id)

/-- Who owns a region: `own` lists the ids with a region, all among `S`; the regions of the owners and the free ones are all regions; a
region holds the list `G` of its owner; an id of `S` without a region has an empty list. -/
structure Mem (c : Ctx) (G : Nat → List Nat) (t : TD) (own S : List Nat) : Prop where
  nd : own.Nodup
  has : ∀ i, i ∈ own ↔ (t.offs i).2 ≠ 0
  sub : ∀ i ∈ own, i ∈ S
  dirty : ∀ i ∈ own, i ∈ t.dirty
  perm : c.degree ≠ 0 → (own.map (fun i => (t.offs i).1) ++ t.free).Perm (List.range c.regions)
  content : ∀ i ∈ own, t.buf (t.offs i).1 = G i ∧ (t.offs i).2 = (G i).length
  empty : ∀ i ∈ S, i ∉ own → G i = []

theorem Mem.congr {c : Ctx} {G : Nat → List Nat} {t t' : TD} {own S : List Nat} (h : Mem c G t own S) (h1 : t'.offs = t.offs)
    (h2 : t'.dirty = t.dirty) (h3 : t'.free = t.free) (h4 : t'.buf = t.buf) : Mem c G t' own S := by
  refine ⟨h.nd, ?_, h.sub, ?_, ?_, ?_, h.empty⟩
  · rw [h1]; exact h.has
  · rw [h2]; exact h.dirty
  · rw [h1, h3]; exact h.perm
  · rw [h1, h4]; exact h.content

theorem Mem.ofPerm {c : Ctx} {G : Nat → List Nat} {t : TD} {own S S' : List Nat} (h : Mem c G t own S) (hp : S.Perm S') :
    Mem c G t own S' :=
  ⟨h.nd, h.has, fun i hi => hp.mem_iff.mp (h.sub i hi), h.dirty, h.perm, h.content, fun i hi => h.empty i (hp.mem_iff.mpr hi)⟩

theorem Mem.release {c : Ctx} {G : Nat → List Nat} {t : TD} {own S : List Nat} (h : Mem c G t own S) {v : Nat} (hv : v < c.bits)
    (hS : S.Nodup) : ∃ t' own', release c t v = .ok t' ∧ t'.q = t.q ∧ t'.vis = t.vis ∧ Mem c G t' own' (S.erase v) := by
  unfold DiskBeam.release
  rw [if_neg (by omega)]
  by_cases h0 : (t.offs v).2 = 0
  · rw [if_pos h0]
    have hno : v ∉ own := fun q => (h.has v).mp q h0
    refine ⟨t, own, rfl, rfl, rfl, ⟨h.nd, h.has, ?_, h.dirty, h.perm, h.content, ?_⟩⟩
    · intro i hi
      exact (List.mem_erase_of_ne (by rintro rfl; exact hno hi)).mpr (h.sub i hi)
    · exact fun i hi => h.empty i (List.mem_of_mem_erase hi)
  · rw [if_neg h0]
    have hvo : v ∈ own := (h.has v).mpr h0
    have hne : ∀ i ∈ own.erase v, i ≠ v := by
      rintro i hi rfl
      exact h.nd.not_mem_erase hi
    refine ⟨_, own.erase v, rfl, rfl, rfl, ⟨h.nd.erase v, ?_, ?_, ?_, ?_, ?_, ?_⟩⟩
    · intro i
      simp only
      by_cases hi : i = v
      · subst hi
        simp only [if_true, ne_eq, not_true, iff_false]
        exact h.nd.not_mem_erase
      · rw [if_neg hi, List.mem_erase_of_ne hi]
        exact h.has i
    · intro i hi
      exact (List.mem_erase_of_ne (hne i hi)).mpr (h.sub i (List.mem_of_mem_erase hi))
    · exact fun i hi => h.dirty i (List.mem_of_mem_erase hi)
    · intro hd
      simp only
      have e1 : (own.erase v).map (fun i => ((if i = v then (0, 0) else t.offs i) : Nat × Nat).1) =
          (own.erase v).map (fun i => (t.offs i).1) := by
        refine List.map_congr_left ?_
        intro i hi
        rw [if_neg (hne i hi)]
      rw [e1]
      refine List.Perm.trans ?_ (h.perm hd)
      refine List.perm_middle.trans ?_
      rw [← List.cons_append]
      refine List.Perm.append_right _ ?_
      exact ((List.perm_cons_erase hvo).map (fun i => (t.offs i).1)).symm
    · intro i hi
      simp only
      rw [if_neg (hne i hi)]
      exact h.content i (List.mem_of_mem_erase hi)
    · intro i hi hni
      have hiv : i ≠ v := by
        rintro rfl
        exact hS.not_mem_erase hi
      refine h.empty i (List.mem_of_mem_erase hi) (fun q => hni ?_)
      exact (List.mem_erase_of_ne hiv).mpr q

theorem Mem.cache {c : Ctx} {G : Nat → List Nat} {t : TD} {own S : List Nat} (h : Mem c G t own S) {m : Nat} (hm : m < c.bits)
    (hmS : m ∉ S) (hlen : S.length < c.regions) (hg : (G m).length ≤ c.degree) :
    ∃ t' own', cache c t m (G m) = .ok t' ∧ t'.q = t.q ∧ t'.vis = t.vis ∧ Mem c G t' own' (m :: S) := by
  have hmo : m ∉ own := fun q => hmS (h.sub m q)
  have hne : ∀ i ∈ own, i ≠ m := by
    rintro i hi rfl
    exact hmo hi
  unfold DiskBeam.cache
  rw [if_neg (by omega), if_neg (by omega)]
  by_cases h0 : (G m).length = 0
  · rw [if_pos h0]
    have hz : (t.offs m).2 = 0 := by
      rcases Nat.eq_zero_or_pos (t.offs m).2 with q | q
      · exact q
      · exact absurd ((h.has m).mpr (by omega)) hmo
    refine ⟨_, own, rfl, rfl, rfl, ⟨h.nd, ?_, fun i hi => List.mem_cons_of_mem _ (h.sub i hi), h.dirty, ?_, ?_, ?_⟩⟩
    · intro i
      simp only
      by_cases hi : i = m
      · subst hi
        simp only [if_true, ne_eq, not_true, iff_false]
        exact hmo
      · rw [if_neg hi]; exact h.has i
    · intro hd
      simp only
      have e1 : own.map (fun i => ((if i = m then (0, 0) else t.offs i) : Nat × Nat).1) = own.map (fun i => (t.offs i).1) := by
        refine List.map_congr_left ?_
        intro i hi
        rw [if_neg (hne i hi)]
      rw [e1]; exact h.perm hd
    · intro i hi
      simp only
      rw [if_neg (hne i hi)]
      exact h.content i hi
    · intro i hi hni
      rcases List.mem_cons.mp hi with rfl | hi
      · exact List.length_eq_zero_iff.mp h0
      · exact h.empty i hi hni
  · rw [if_neg h0]
    have hd : c.degree ≠ 0 := by omega
    have hp := h.perm hd
    have hl := hp.length_eq
    rw [List.length_append, List.length_map, List.length_range] at hl
    have hos := nodup_subset_length h.nd h.sub
    match hf : t.free with
    | [] => rw [hf] at hl; simp only [List.length_nil] at hl; omega
    | s :: rest =>
      simp only
      rw [hf] at hp
      have hnd : (own.map (fun i => (t.offs i).1) ++ s :: rest).Nodup := hp.nodup_iff.mpr List.nodup_range
      rw [List.nodup_append] at hnd
      have hs : ∀ i ∈ own, (t.offs i).1 ≠ s := by
        intro i hi q
        exact hnd.2.2 _ (List.mem_map_of_mem hi) s List.mem_cons_self q
      refine ⟨_, m :: own, rfl, rfl, rfl, ⟨List.nodup_cons.mpr ⟨hmo, h.nd⟩, ?_, ?_, ?_, ?_, ?_, ?_⟩⟩
      · intro i
        simp only
        by_cases hi : i = m
        · subst hi
          simp only [List.mem_cons, true_or, if_true, true_iff]
          exact h0
        · rw [if_neg hi, List.mem_cons]
          constructor
          · rintro (q | q)
            · exact absurd q hi
            · exact (h.has i).mp q
          · exact fun q => .inr ((h.has i).mpr q)
      · intro i hi
        rcases List.mem_cons.mp hi with rfl | hi
        · exact List.mem_cons_self
        · exact List.mem_cons_of_mem _ (h.sub i hi)
      · intro i hi
        rcases List.mem_cons.mp hi with rfl | hi
        · exact List.mem_cons_self
        · exact List.mem_cons_of_mem _ (h.dirty i hi)
      · intro _
        simp only [List.map_cons, if_true]
        have e1 : own.map (fun i => ((if i = m then (s, (G m).length) else t.offs i) : Nat × Nat).1) =
            own.map (fun i => (t.offs i).1) := by
          refine List.map_congr_left ?_
          intro i hi
          rw [if_neg (hne i hi)]
        rw [e1]
        refine List.Perm.trans ?_ hp
        rw [List.cons_append]
        exact List.perm_middle.symm
      · intro i hi
        simp only
        rcases List.mem_cons.mp hi with rfl | hi
        · simp only [if_true]
          exact ⟨trivial, trivial⟩
        · rw [if_neg (hne i hi), if_neg (hs i hi)]
          exact h.content i hi
      · intro i hi hni
        rcases List.mem_cons.mp hi with rfl | hi
        · exact absurd List.mem_cons_self hni
        · exact h.empty i hi (fun q => hni (List.mem_cons_of_mem _ q))

theorem ids_eq (q : NPQ) : q.ids = (q.entries.map Nbr.key).map (·.1) := (entries_ids q.entries).symm

/-- Absorbing a record with a region for every entry: no exception. -/
theorem Mem.absorb {c : Ctx} {G : Nat → List Nat} {t : TD} {own : List Nat} {list : Nat} {off popped : List (Nat × Int)}
    (h : Mem c G t own t.q.ids) (hq : QInv list t.q off popped) (ho : (off.map (·.1)).Nodup) {m : Nat} {r : Rec}
    (hm : m ∉ off.map (·.1)) (hr : r.nbrs = G m) (hg : (G m).length ≤ c.degree) (hlist : list ≤ c.regions) (hmb : m < c.bits)
    (hob : ∀ x ∈ off, x.1 < c.bits) :
    ∃ t' own', absorb c t m r = .ok t' ∧ t'.vis = t.vis ∧ QInv list t'.q (off ++ [(m, r.dist)]) popped ∧ Mem c G t' own' t'.q.ids := by
  obtain ⟨q', res, e, h', hres⟩ := hq.insert ⟨m, r.dist, false⟩ (by
    intro x hx hid
    exact absurd (List.mem_map.mpr ⟨x, hx, hid⟩) hm)
  have hk : Nbr.key ⟨m, r.dist, false⟩ = (m, r.dist) := rfl
  have hxo : (m, r.dist) ∉ off := fun hx => hm (List.mem_map.mpr ⟨_, hx, rfl⟩)
  rw [hk, if_neg hxo] at h'
  obtain ⟨r1, r2, r3, r4⟩ := hres
  rw [hk] at r1
  have hK := hq.keys_nodup
  have hK' := h'.keys_nodup
  have hnew := best_new hq.best h'.best hq.ond hK'
  have hxK : (m, r.dist) ∉ t.q.entries.map Nbr.key := fun q => hxo (best_sub hq.best _ q)
  have hSnd : t.q.ids.Nodup := by rw [ids_eq]; exact best_ids_nodup hq.best ho
  have hmS : m ∉ t.q.ids := by
    rw [ids_eq]
    intro q
    obtain ⟨y, y1, y2⟩ := List.mem_map.mp q
    exact hm (List.mem_map.mpr ⟨y, best_sub hq.best _ y1, y2⟩)
  have hcap' : (q'.entries.map Nbr.key).length ≤ list := by rw [h'.best.2.1]; exact Nat.min_le_left _ _
  unfold DiskBeam.absorb
  rw [e]
  simp only
  -- after the release
  have step1 : ∃ t1 own1 S1 K1, (if res.evicted = true then DiskBeam.release c { t with q := q' } res.evictedId else .ok { t with q := q' })
      = .ok t1 ∧ t1.q = q' ∧ t1.vis = t.vis ∧ Mem c G t1 own1 S1 ∧ S1.Nodup ∧ m ∉ S1 ∧ S1.Perm (K1.map (·.1)) ∧
      (K1 : List (Nat × Int)).Nodup ∧ (m, r.dist) ∉ K1 ∧
      (∀ y, y ∈ q'.entries.map Nbr.key ↔ y ∈ K1 ∨ (y = (m, r.dist) ∧ res.inserted = true)) := by
    by_cases hev : res.evicted = true
    · rw [if_pos hev]
      obtain ⟨k, hg1, hg2⟩ := r2.mp hev
      have hkid := r3 hev k ⟨hg1, hg2⟩
      have hkS : k.1 ∈ t.q.ids := by rw [ids_eq]; exact List.mem_map_of_mem hg1
      obtain ⟨t1, own1, e1, e2, e3, hM⟩ := Mem.release (t := { t with q := q' }) (h.congr rfl rfl rfl rfl) (v := res.evictedId)
        (by rw [← hkid]; exact hob k (best_sub hq.best _ hg1)) hSnd
      refine ⟨t1, own1, _, (t.q.entries.map Nbr.key).erase k, e1, e2, e3, hM, hSnd.erase _, fun q => hmS (List.mem_of_mem_erase q), ?_,
        hK.erase _, fun q => hxK (List.mem_of_mem_erase q), ?_⟩
      · rw [← hkid, ids_eq]
        have := ((List.perm_cons_erase hg1).map (·.1)).erase k.1
        rw [List.map_cons, List.erase_cons_head] at this
        exact this
      · intro y
        constructor
        · intro hy
          rcases hnew y hy with q | q
          · left
            exact (List.mem_erase_of_ne (by rintro rfl; exact hg2 hy)).mpr q
          · right
            exact ⟨q, r1.mpr ⟨hxK, q ▸ hy⟩⟩
        · rintro (q | ⟨q, w⟩)
          · by_cases hyq : y ∈ q'.entries.map Nbr.key
            · exact hyq
            · have := r4 y k ⟨List.mem_of_mem_erase q, hyq⟩ ⟨hg1, hg2⟩
              rw [this] at q
              exact absurd q hK.not_mem_erase
          · rw [q]; exact (r1.mp w).2
    · rw [if_neg hev]
      refine ⟨_, own, _, t.q.entries.map Nbr.key, rfl, rfl, rfl, h.congr rfl rfl rfl rfl, hSnd, hmS, by rw [ids_eq], hK, hxK, ?_⟩
      intro y
      constructor
      · intro hy
        rcases hnew y hy with q | q
        · exact .inl q
        · exact .inr ⟨q, r1.mpr ⟨hxK, q ▸ hy⟩⟩
      · rintro (q | ⟨q, w⟩)
        · by_cases hyq : y ∈ q'.entries.map Nbr.key
          · exact hyq
          · exact absurd (r2.mpr ⟨y, q, hyq⟩) hev
        · rw [q]; exact (r1.mp w).2
  obtain ⟨t1, own1, S1, K1, e1, e2, e3, hM, hS1, hmS1, hpS, hK1, hxK1, hmem⟩ := step1
  rw [e1]
  simp only
  by_cases hi : res.inserted = true
  · rw [if_pos hi]
    have hperm : (q'.entries.map Nbr.key).Perm ((m, r.dist) :: K1) := by
      refine perm_of_mem hK' (List.nodup_cons.mpr ⟨hxK1, hK1⟩) ?_
      intro y
      rw [hmem y, List.mem_cons]
      constructor
      · rintro (q | q)
        · exact .inr q
        · exact .inl q.1
      · rintro (q | q)
        · exact .inr ⟨q, hi⟩
        · exact .inl q
    have hlen : S1.length < c.regions := by
      have a1 := hperm.length_eq
      have a2 := hpS.length_eq
      rw [List.length_map] at a2
      rw [List.length_cons] at a1
      omega
    obtain ⟨t2, own2, f1, f2, f3, hM2⟩ := hM.cache hmb hmS1 hlen hg
    rw [hr]
    refine ⟨t2, own2, f1, f3.trans e3, by rw [f2, e2]; exact h', hM2.ofPerm ?_⟩
    rw [f2, e2, ids_eq]
    refine List.Perm.trans ?_ (hperm.map (·.1)).symm
    rw [List.map_cons]
    exact List.Perm.cons _ hpS
  · rw [if_neg hi]
    refine ⟨t1, own1, rfl, e3, by rw [e2]; exact h', hM.ofPerm ?_⟩
    rw [e2, ids_eq]
    refine hpS.trans (List.Perm.map _ ?_)
    refine perm_of_mem hK1 hK' ?_
    intro y
    rw [hmem y]
    exact ⟨.inl, fun q => q.elim id (fun w => absurd w.2 hi)⟩

/-- With the arrays large enough `consider` does not throw. -/
theorem consider_ok (c : Ctx) (hb : c.n ≤ c.bits) : ∀ (ms vis pend : List Nat), consider c ms vis pend ≠ .error .thrown
  | [], vis, pend => by rw [consider]; intro q; cases q
  | m :: ms, vis, pend => by
    rw [consider]
    by_cases h1 : m ≥ c.n
    · rw [if_pos h1]; exact consider_ok c hb ms vis pend
    · rw [if_neg h1, if_neg (by omega)]
      by_cases h3 : m ∈ vis
      · rw [if_pos h3]; exact consider_ok c hb ms vis pend
      · rw [if_neg h3]
        by_cases h4 : c.dead m = true
        · rw [if_pos h4]; exact consider_ok c hb ms _ pend
        · rw [if_neg h4]; exact consider_ok c hb ms _ _

/-- What the cache holds for an entry. -/
theorem Mem.cached {c : Ctx} {G : Nat → List Nat} {t : TD} {own S : List Nat} (h : Mem c G t own S) {i : Nat} (hi : i ∈ S)
    (hb : i < c.bits) : cached c t i = .ok (G i) := by
  unfold DiskBeam.cached
  rw [if_neg (by omega)]
  by_cases ho : i ∈ own
  · obtain ⟨h1, h2⟩ := h.content i ho
    rw [h1, h2, List.take_length]
  · have hz : (t.offs i).2 = 0 := by
      rcases Nat.eq_zero_or_pos (t.offs i).2 with q | q
      · exact q
      · exact absurd ((h.has i).mpr (by omega)) ho
    rw [hz, h.empty i hi ho, List.take_zero]

/-- The expansion, in full. -/
theorem GInv.expand_full {c : Ctx} {list : Nat} {t : TD} {off popped : List (Nat × Int)} {pend fly : List Nat} {G : Nat → List Nat}
    {own : List Nat} (h : GInv c list t off popped (pend ++ fly)) (hM : Mem c G t own t.q.ids) (hb : c.n ≤ c.bits)
    (hu : t.q.hasUnexpanded = true) :
    ∃ t' new x, DiskBeam.expand c t pend = .ok (t', pend ++ new) ∧ GInv c list t' off (popped ++ [x]) ((pend ++ new) ++ fly) ∧
      Mem c G t' own t'.q.ids ∧ x ∈ off ∧ (∀ m ∈ t.vis, m ∈ t'.vis) ∧ (∀ m ∈ t'.vis, m ∈ t.vis ∨ m ∈ G x.1 ∧ m < c.n) ∧
      (∀ m ∈ G x.1, m < c.n → m ∈ t'.vis) ∧ (∀ m ∈ t'.vis, c.dead m = false → m ∈ t.vis ∨ m ∈ new) ∧ (∀ m ∈ new, m ∈ t'.vis ∧ m ∉ t.vis) := by
  have hkeep := h.expand hu
  obtain ⟨q', x, e, hq, hxk, _, _, hkeys⟩ := h.q.closest hu
  have hxo : x.key ∈ off := best_sub h.q.best _ hxk
  have hxid : x.id ∈ t.q.ids := by
    rw [ids_eq]; exact List.mem_map_of_mem hxk
  have hids : q'.ids = t.q.ids := by rw [ids_eq, ids_eq, hkeys]
  have hxb : x.id < c.bits := Nat.lt_of_lt_of_le (h.ok.lt _ (h.ok.vis _ hxo)) hb
  have hc : DiskBeam.cached c { t with q := q' } x.id = .ok (G x.id) :=
    Mem.cached (t := { t with q := q' }) (S := t.q.ids) (hM.congr rfl rfl rfl rfl) hxid hxb
  have hex : DiskBeam.expand c t pend = match consider c (G x.id) t.vis pend with
      | .error e => .error e
      | .ok (vis, pend') => .ok ({ t with q := q', vis := vis }, pend') := by
    unfold DiskBeam.expand
    rw [e]
    simp only
    rw [hc]
    rfl
  rcases consider_cases c (G x.id) t.vis pend with q | ⟨v, new, e', a1, a2, a3, a4, a5, a6⟩
  · exact absurd q (consider_ok c hb _ _ _)
  · rw [e'] at hex
    simp only at hex
    rcases hkeep with q | ⟨t'', new', y, e2, hG⟩
    · rw [hex] at q; cases q
    · rw [hex] at e2
      injection e2 with e2
      injection e2 with e3 e4
      have hnew := List.append_cancel_left e4
      subst hnew
      subst e3
      -- the popped key is `x`
      refine ⟨_, new, x.key, hex, ⟨hq, hG.ok, hG.wvis, hG.wnd, hG.disj, hG.wlive⟩, ?_, hxo, a1, a2, a5, a6, fun m hm => ⟨(a4 m hm).1, (a4 m hm).2.1⟩⟩
      show Mem c G _ own q'.ids
      rw [hids]
      exact hM.congr rfl rfl rfl rfl

/-! ### No exception from the scratch -/

/-- `GOk` with some assignment of regions. -/
def MOk (c : Ctx) (list : Nat) (t : TD) (wait : List Nat) (k : Nat) : Prop :=
  ∃ off popped G own, GInv c list t off popped wait ∧ Mem c G t own t.q.ids ∧ popped.length = k

/-- Changing what is recorded for an id that is not in the list. -/
theorem Mem.update {c : Ctx} {G G' : Nat → List Nat} {t : TD} {own S : List Nat} (h : Mem c G t own S) (hG : ∀ i ∈ S, G' i = G i) :
    Mem c G' t own S :=
  ⟨h.nd, h.has, h.sub, h.dirty, h.perm, fun i hi => by rw [hG i (h.sub i hi)]; exact h.content i hi,
    fun i hi hn => by rw [hG i hi]; exact h.empty i hi hn⟩

theorem mok_steps (c : Ctx) (list : Nat) (hb : c.n ≤ c.bits) (hl : list ≤ c.regions) :
    Steps c False (fun _ r => r.nbrs.length ≤ c.degree) (MOk c list) where
  perm := by
    rintro t w w' k ⟨off, popped, G, own, h, hM, hk⟩ hp
    exact ⟨off, popped, G, own, h.perm hp, hM, hk⟩
  absorb := by
    rintro t m w k r ⟨off, popped, G, own, h, hM, hk⟩ hr
    have hm := h.disj m List.mem_cons_self
    have hmS : m ∉ t.q.ids := by
      rw [ids_eq]
      intro q
      obtain ⟨y, y1, y2⟩ := List.mem_map.mp q
      exact hm (List.mem_map.mpr ⟨y, best_sub h.q.best _ y1, y2⟩)
    have hM' : Mem c (fun i => if i = m then r.nbrs else G i) t own t.q.ids := by
      refine hM.update ?_
      intro i hi
      rw [if_neg (by rintro rfl; exact hmS hi)]
    obtain ⟨t', own', e, _, _, hM2⟩ := hM'.absorb h.q h.ok.nd (r := r) hm (by rw [if_pos rfl]) (by rw [if_pos rfl]; exact hr) hl
      (Nat.lt_of_lt_of_le (h.ok.lt _ (h.wvis m List.mem_cons_self)) hb)
      (fun x hx => Nat.lt_of_lt_of_le (h.ok.lt _ (h.ok.vis x hx)) hb)
    rcases h.absorb r with q | ⟨t'', e2, _, h'⟩
    · rw [e] at q; cases q
    · rw [e] at e2
      injection e2 with e2
      subst e2
      rw [e]
      exact ⟨_, _, _, _, h', hM2, hk⟩
  expand := by
    rintro t pend fly k ⟨off, popped, G, own, h, hM, hk⟩ hu
    obtain ⟨t', new, x, e, h', hM', _⟩ := h.expand_full hM hb hu
    rw [e]
    exact ⟨_, _, _, _, h', hM', by rw [List.length_append, hk]; rfl⟩
  bound := by
    rintro t w k ⟨off, popped, G, own, h, hM, hk⟩ hu
    exact hk ▸ popped_lt h.q h.ok hu

/-- Between queries: an id whose neighbour entry is set is listed as dirty. -/
def Clean (t : TD) : Prop := ∀ i, (t.offs i).2 ≠ 0 → i ∈ t.dirty

theorem Mem.clean {c : Ctx} {G : Nat → List Nat} {t : TD} {own S : List Nat} (h : Mem c G t own S) : Clean t :=
  fun i hi => h.dirty i ((h.has i).mpr hi)

theorem Mem.reset {c : Ctx} {t : TD} (h : Clean t) (G : Nat → List Nat) (list : Nat) (vis : List Nat) :
    Mem c G { t.reset c list with vis := vis } [] (({ t.reset c list with vis := vis } : TD).q.ids) := by
  have he : ({ t.reset c list with vis := vis } : TD).q.ids = [] := by
    have hq := (QInv.reset t.q list).best.2.1
    have : (t.q.reset list).entries = [] := by
      rw [List.length_nil, Nat.min_zero, List.length_map] at hq
      exact List.length_eq_zero_iff.mp hq
    show (t.q.reset list).entries.map (·.id) = []
    rw [this]; rfl
  rw [he]
  refine ⟨List.nodup_nil, ?_, by simp, by simp, ?_, by simp, by simp⟩
  · intro i
    simp only [List.not_mem_nil, false_iff, ne_eq, Classical.not_not]
    show (if i ∈ t.dirty then (0, 0) else t.offs i).2 = 0
    by_cases hi : i ∈ t.dirty
    · rw [if_pos hi]
    · rw [if_neg hi]
      rcases Nat.eq_zero_or_pos (t.offs i).2 with q | q
      · exact q
      · exact absurd (h i (by omega)) hi
  · intro hd
    show ([] ++ (if c.degree = 0 then [] else (List.range c.regions).reverse)).Perm (List.range c.regions)
    rw [if_neg hd, List.nil_append]
    exact List.reverse_perm _

theorem seed_mem {c : Ctx} {list : Nat} {t : TD} (hc : Clean t) (hm : c.medoid < c.n) (hb : c.n ≤ c.bits) (hl : list ≤ c.regions) {r : Rec}
    (hr : r.nbrs.length ≤ c.degree) (G : Nat → List Nat) (hG : G c.medoid = r.nbrs) :
    ∃ t' own, seed c t list (some r) = .ok t' ∧ t'.vis = [c.medoid] ∧ GInv c list t' [(c.medoid, r.dist)] [] [] ∧
      Mem c G t' own t'.q.ids := by
  obtain ⟨t', own, e, hv, hq, hM⟩ := (Mem.reset hc G list [c.medoid]).absorb (QInv.reset t.q list) (by simp) (m := c.medoid)
    (r := r) (by simp) hG.symm (by rw [hG]; exact hr) hl (Nat.lt_of_lt_of_le hm hb) (by simp)
  refine ⟨t', own, ?_, hv, ⟨hq, ⟨by simp, ?_, ?_, ?_⟩, by simp, List.nodup_nil, by simp, by simp⟩, hM⟩
  · unfold seed
    rw [if_neg (by omega)]
    exact e
  · intro x hx
    rw [List.mem_singleton.mp hx, hv]
    exact List.mem_singleton.mpr rfl
  · intro m hm'
    rw [hv] at hm'
    rw [List.mem_singleton.mp hm']; exact hm
  · intro x hx
    rw [List.mem_singleton.mp hx]; exact .inr rfl

/-! ### Exactness -/

/-- Invariant of a search of a graph that does not change, with room for every node. -/
structure XInv (c : Ctx) (G : Nat → Rec) (list : Nat) (t : TD) (off popped : List (Nat × Int)) (own wait : List Nat) : Prop where
  g : GInv c list t off popped wait
  mem : Mem c (fun i => (G i).nbrs) t own t.q.ids
  val : ∀ x ∈ off, x.2 = (G x.1).dist
  reach : ∀ x ∈ off, LiveReach c.n c.dead (fun i => (G i).nbrs) c.medoid x.1
  wreach : ∀ m ∈ wait, LiveReach c.n c.dead (fun i => (G i).nbrs) c.medoid m
  seen : ∀ m ∈ t.vis, c.dead m = false → m ∈ off.map (·.1) ∨ m ∈ wait
  closed : ∀ x ∈ popped, ∀ v ∈ (G x.1).nbrs, v < c.n → v ∈ t.vis
  start : c.medoid ∈ off.map (·.1)

def XOk (c : Ctx) (G : Nat → Rec) (list : Nat) (t : TD) (wait : List Nat) (k : Nat) : Prop :=
  ∃ off popped own, XInv c G list t off popped own wait ∧ popped.length = k

theorem xok_steps (c : Ctx) (G : Nat → Rec) (list : Nat) (hb : c.n ≤ c.bits) (hl : list ≤ c.regions)
    (hdeg : ∀ i, (G i).nbrs.length ≤ c.degree) : Steps c False (fun m r => r = G m) (XOk c G list) where
  perm := by
    rintro t w w' k ⟨off, popped, own, h, hk⟩ hp
    exact ⟨off, popped, own, ⟨h.g.perm hp, h.mem, h.val, h.reach, fun m hm => h.wreach m (hp.mem_iff.mpr hm),
      fun m hm hd => (h.seen m hm hd).imp id hp.mem_iff.mp, h.closed, h.start⟩, hk⟩
  absorb := by
    rintro t m w k r ⟨off, popped, own, h, hk⟩ rfl
    have hm := h.g.disj m List.mem_cons_self
    obtain ⟨t', own', e, hv, _, hM2⟩ := h.mem.absorb h.g.q h.g.ok.nd (r := G m) hm rfl (hdeg m) hl
      (Nat.lt_of_lt_of_le (h.g.ok.lt _ (h.g.wvis m List.mem_cons_self)) hb)
      (fun x hx => Nat.lt_of_lt_of_le (h.g.ok.lt _ (h.g.ok.vis x hx)) hb)
    rcases h.g.absorb (G m) with q | ⟨t'', e2, _, h'⟩
    · rw [e] at q; cases q
    · rw [e] at e2
      injection e2 with e2
      subst e2
      rw [e]
      refine ⟨_, _, _, ⟨h', hM2, ?_, ?_, fun x hx => h.wreach x (List.mem_cons_of_mem _ hx), ?_, ?_, ?_⟩, hk⟩
      · intro x hx
        rcases List.mem_append.mp hx with q | q
        · exact h.val x q
        · rw [List.mem_singleton.mp q]
      · intro x hx
        rcases List.mem_append.mp hx with q | q
        · exact h.reach x q
        · rw [List.mem_singleton.mp q]; exact h.wreach m List.mem_cons_self
      · intro x hx hd
        rw [hv] at hx
        rw [List.map_append, List.mem_append]
        rcases h.seen x hx hd with q | q
        · exact .inl (.inl q)
        · rcases List.mem_cons.mp q with rfl | q
          · exact .inl (.inr (by simp))
          · exact .inr q
      · rw [hv]; exact h.closed
      · rw [List.map_append]; exact List.mem_append_left _ h.start
  expand := by
    rintro t pend fly k ⟨off, popped, own, h, hk⟩ hu
    obtain ⟨t', new, x, e, h', hM', hx, b1, b2, b3, b4, b5⟩ := h.g.expand_full h.mem hb hu
    rw [e]
    refine ⟨_, _, _, ⟨h', hM', h.val, h.reach, ?_, ?_, ?_, h.start⟩, by rw [List.length_append, hk]; rfl⟩
    · intro m hm
      simp only at hm
      rw [List.append_assoc] at hm
      rcases List.mem_append.mp hm with q | q
      · exact h.wreach m (List.mem_append_left _ q)
      · rcases List.mem_append.mp q with q | q
        · obtain ⟨c1, c2⟩ := b5 m q
          rcases b2 m c1 with w | ⟨w1, w2⟩
          · exact absurd w c2
          · refine .step (h.reach x hx) w1 w2 (h'.wlive m ?_)
            exact List.mem_append_left _ (List.mem_append_right _ q)
        · exact h.wreach m (List.mem_append_right _ q)
    · intro m hm hd
      simp only at hm ⊢
      rcases b4 m hm hd with q | q
      · rcases h.seen m q hd with w | w
        · exact .inl w
        · right
          rcases List.mem_append.mp w with w | w
          · exact List.mem_append_left _ (List.mem_append_left _ w)
          · exact List.mem_append_right _ w
      · exact .inr (List.mem_append_left _ (List.mem_append_right _ q))
    · intro y hy v hv hn
      rcases List.mem_append.mp hy with q | q
      · exact b1 _ (h.closed y q v hv hn)
      · rw [List.mem_singleton.mp q] at hv
        exact b3 v hv hn
  bound := by
    rintro t w k ⟨off, popped, own, h, hk⟩ hu
    exact hk ▸ popped_lt h.g.q h.g.ok hu

theorem all_expanded {cap : Nat} {q : NPQ} {off popped : List (Nat × Int)} (h : QInv cap q off popped) (hu : q.hasUnexpanded = false) :
    ∀ e ∈ q.entries, e.key ∈ popped := by
  intro e he
  refine (h.flag e he).mp ?_
  obtain ⟨i, hi⟩ := List.mem_iff_getElem?.mp he
  have hlen : i < q.entries.length := (List.getElem?_eq_some_iff.mp hi).1
  rw [h.len] at hlen
  have : q.size ≤ q.cur := by
    unfold NPQ.hasUnexpanded at hu
    simpa using hu
  exact h.cur.2.1 i e (by omega) hi

/-- At the end the search returns exactly the nearest live reachable nodes. -/
theorem XOk.exact {c : Ctx} {G : Nat → Rec} {list k topK : Nat} {t : TD} (h : XOk c G list t [] k) (hu : t.q.hasUnexpanded = false)
    {all : List Nat} (hall : ∀ i, LiveReach c.n c.dead (fun i => (G i).nbrs) c.medoid i → i ∈ all) (hn : all.length ≤ list) :
    ExactTopK c.n c.dead (fun i => (G i).nbrs) (fun i => (G i).dist) c.medoid topK (extract c topK t.q.entries) := by
  obtain ⟨off, popped, own, h, _⟩ := h
  have hq := h.g.q
  have hexp := all_expanded hq hu
  have hoff : off.length ≤ list := by
    have := nodup_subset_length (l2 := all) h.g.ok.nd (by
      intro x hx
      obtain ⟨y, y1, y2⟩ := List.mem_map.mp hx
      exact hall x (y2 ▸ h.reach y y1))
    rw [List.length_map] at this
    omega
  have hperm : off.Perm (t.q.entries.map Nbr.key) := by
    obtain ⟨_, hlen, rest, hp, _⟩ := hq.best
    have := hp.length_eq
    rw [List.length_append, hlen, Nat.min_eq_right hoff] at this
    have : rest = [] := List.length_eq_zero_iff.mp (by omega)
    rw [this, List.append_nil] at hp
    exact hp
  have hclosed : ∀ i, LiveReach c.n c.dead (fun i => (G i).nbrs) c.medoid i → i ∈ off.map (·.1) := by
    intro i hi
    induction hi with
    | start => exact h.start
    | step _ hv hn hd ih =>
      obtain ⟨y, y1, y2⟩ := List.mem_map.mp ih
      obtain ⟨e, e1, e2⟩ := List.mem_map.mp (hperm.mem_iff.mp y1)
      have hpop := hexp e e1
      rw [e2] at hpop
      have := h.closed y hpop _ (by rw [y2]; exact hv) hn
      rcases h.seen _ this hd with q | q
      · exact q
      · cases q
  refine ⟨off.filter (fun x => !c.dead x.1), hq.ond.sublist List.filter_sublist, ?_, ?_⟩
  · intro i d
    rw [List.mem_filter]
    constructor
    · rintro ⟨h1, h2⟩
      exact ⟨h.reach _ h1, by simpa using h2, h.val _ h1⟩
    · rintro ⟨h1, h2, h3⟩
      obtain ⟨y, y1, y2⟩ := List.mem_map.mp (hclosed i h1)
      have := h.val y y1
      obtain ⟨y1', y2'⟩ := y
      simp only at y2 this h3
      subst y2
      rw [← this] at h3
      subst h3
      exact ⟨y1, by simp only [h2, Bool.not_false]⟩
  · unfold extract
    have hf : (t.q.entries.filter fun e => !c.dead e.id).map Nbr.key = (t.q.entries.map Nbr.key).filter (fun x => !c.dead x.1) := by
      rw [List.filter_map]; rfl
    have hm : ((t.q.entries.filter fun e => !c.dead e.id).take topK).map (fun e => (e.id, e.dist)) =
        ((t.q.entries.map Nbr.key).filter (fun x => !c.dead x.1)).take topK := by
      rw [← hf, List.map_take]; rfl
    rw [hm]
    have hs : ((t.q.entries.map Nbr.key).filter (fun x => !c.dead x.1)).Pairwise nearer :=
      (hq.best.1.imp (fun h => h)).sublist List.filter_sublist
    have hp := hperm.filter (fun x => !c.dead x.1)
    have hspl := List.take_append_drop topK ((t.q.entries.map Nbr.key).filter (fun x => !c.dead x.1))
    refine ⟨hs.sublist (List.take_sublist _ _), ?_, _, hp.trans (by rw [hspl]), ?_⟩
    · rw [List.length_take, hp.length_eq]
    · rw [← hspl, List.pairwise_append] at hs
      exact fun r hr e he => hs.2.2 e he r hr

theorem seed_x {c : Ctx} {list : Nat} {t : TD} (hc : Clean t) (hm : c.medoid < c.n) (hb : c.n ≤ c.bits) (hl : list ≤ c.regions)
    (G : Nat → Rec) (hdeg : ∀ i, (G i).nbrs.length ≤ c.degree) :
    ∃ t', seed c t list (some (G c.medoid)) = .ok t' ∧ XOk c G list t' [] 0 := by
  obtain ⟨t', own, e, hv, hG, hM⟩ := seed_mem (r := G c.medoid) hc hm hb hl (hdeg _) (fun i => (G i).nbrs) rfl
  refine ⟨t', e, _, [], own, ⟨hG, hM, ?_, ?_, by simp, ?_, by simp, by simp⟩, rfl⟩
  · intro x hx; rw [List.mem_singleton.mp hx]
  · intro x hx; rw [List.mem_singleton.mp hx]; exact .start
  · intro m hm' _
    rw [hv] at hm'
    rw [List.mem_singleton.mp hm']
    exact .inl (by simp)

end Alaya.DiskBeam
