import Verif.Model.NodeCache
import Verif.Lemmas.DiskNodeOps

namespace Alaya.NodeCache
open Alaya.DiskLayout Alaya.DiskPages Alaya.DiskNodes
open Alaya.DiskSlots (Out)
open Alaya.Seq (slice)

/-! ### Association lists -/

theorem assoc_filter {α : Type} (p : Nat → Bool) (k : Nat) : ∀ (l : List (Nat × α)),
    assoc k (l.filter (fun e => p e.1)) = if p k then assoc k l else none
  | [] => by simp [assoc]
  | (x, v) :: rest => by
    have ih := assoc_filter p k rest
    by_cases hx : p x = true
    · rw [List.filter_cons_of_pos (by exact hx)]
      unfold assoc
      by_cases hk : x = k
      · rw [if_pos hk, if_pos hk, ← hk, if_pos hx]
      · rw [if_neg hk, if_neg hk, ih]
    · rw [List.filter_cons_of_neg (by exact hx), ih]
      by_cases hk : x = k
      · rw [← hk, if_neg hx, if_neg hx]
      · have : assoc k ((x, v) :: rest) = assoc k rest := by rw [assoc, if_neg hk]
        rw [this]

theorem assoc_mem {α : Type} {k : Nat} : ∀ {l : List (Nat × α)} {v : α}, assoc k l = some v → (k, v) ∈ l
  | [], _, h => by cases h
  | (x, w) :: rest, v, h => by
    unfold assoc at h
    by_cases hk : x = k
    · rw [if_pos hk] at h
      injection h with h
      subst hk; subst h
      exact List.mem_cons_self
    · rw [if_neg hk] at h
      exact List.mem_cons_of_mem _ (assoc_mem h)

theorem assoc_isSome {α : Type} {k : Nat} : ∀ {l : List (Nat × α)}, (assoc k l).isSome ↔ k ∈ l.map (·.1)
  | [] => by simp [assoc]
  | (x, w) :: rest => by
    unfold assoc
    by_cases hk : x = k
    · rw [if_pos hk]; simp [hk]
    · rw [if_neg hk, assoc_isSome]
      simp only [List.map_cons, List.mem_cons]
      constructor
      · exact fun h => Or.inr h
      · rintro (h | h)
        · exact absurd h.symm hk
        · exact h

/-! ### The cache against the records `m` -/

/-- The `n` bytes at `off`. -/
def rec (data : Bytes) (off n : Nat) : Bytes := (data.drop off).take n

structure CacheInv (g : Geom) (dim deg : Nat) (c : NCache) (m : Nat → Rec) : Prop where
  hdim : c.dim = dim
  hdeg : c.deg = deg
  hlen : c.nodeLen = g.nodeLen
  over : ∀ id r, assoc id c.over = some r → r.length = g.nodeLen ∧ Holds r 0 (m id).1 (m id).2 ∧ g.Addressable id ∧ id < 2 ^ 32
  base : ∀ id off, assoc id c.map = some off → off + g.nodeLen ≤ c.data.length ∧ g.Addressable id ∧ id < 2 ^ 32 ∧
    (assoc id c.over = none → Holds (rec c.data off g.nodeLen) 0 (m id).1 (m id).2)
  keys : (c.over.map (·.1)).Nodup
  idsNd : c.ids.Nodup
  idsMap : ∀ id, id ∈ c.ids ↔ (assoc id c.map).isSome

/-- What a lookup gives. -/
theorem lookup_spec {g : Geom} {dim deg : Nat} {c : NCache} {m : Nat → Rec} (h : CacheInv g dim deg c m) (id : Nat) :
    match c.lookup id with
    | .ub => False
    | .throws => False
    | .ok (some r) => r.length = g.nodeLen ∧ Holds r 0 (m id).1 (m id).2 ∧ g.Addressable id
    | .ok none => assoc id c.over = none ∧ assoc id c.map = none := by
  unfold NCache.lookup
  cases ho : assoc id c.over with
  | some r => exact ⟨(h.over id r ho).1, (h.over id r ho).2.1, (h.over id r ho).2.2.1⟩
  | none =>
    simp only
    unfold NCache.base
    cases hm : assoc id c.map with
    | none => simp
    | some off =>
      obtain ⟨b1, b2, -, b3⟩ := h.base id off hm
      simp only
      rw [h.hlen, if_pos b1]
      refine ⟨?_, b3 ho, b2⟩
      rw [List.length_take, List.length_drop]
      omega

theorem lookup_none_iff {g : Geom} {dim deg : Nat} {c : NCache} {m : Nat → Rec} (h : CacheInv g dim deg c m) (id : Nat) :
    c.lookup id = .ok none ↔ assoc id c.over = none ∧ assoc id c.map = none := by
  have hs := lookup_spec h id
  constructor
  · intro e; rw [e] at hs; exact hs
  · rintro ⟨h1, h2⟩
    unfold NCache.lookup NCache.base
    rw [h1, h2]

/-- The record bytes viewed. -/
theorem view_record {g : Geom} {dim deg : Nat} (hg : Good g dim deg) (hd32 : deg < 2 ^ 32) {r : Bytes} {v : Rec} (h : Holds r 0 v.1 v.2)
    (hc : v.1.length = dim) (hn : v.2.length ≤ deg) : viewCoords r 0 g.dim = .ok v.1 ∧ viewNbrs r 0 g.dim = .ok v.2 := by
  have hf := hg.fit
  obtain ⟨v1, _, v3⟩ := views_of_holds h hc (by omega) (by omega)
  rw [hg.hdim]
  exact ⟨v1, v3⟩

theorem upsert_spec {g : Geom} {dim deg : Nat} (hg : Good g dim deg) {c : NCache} {m : Nat → Rec} (h : CacheInv g dim deg c m) {id : Nat}
    (hid : g.Addressable id) (hid32 : id < 2 ^ 32) {coords nbrs : List (BitVec 32)} (hc : coords.length = dim) (hn : nbrs.length ≤ deg) :
    ∃ c', c.upsert id coords nbrs = .ok c' ∧ CacheInv g dim deg c' (updRec m id (coords, nbrs)) ∧ c'.map = c.map ∧
      (∀ x, assoc x c'.over = none ↔ x ≠ id ∧ assoc x c.over = none) := by
  have hlen := hg.len
  have hpos := hg.pos
  have hfit := hg.fit
  unfold NCache.upsert
  rw [if_neg (by rw [h.hdim, h.hlen]; omega), if_neg (by rw [h.hdeg]; omega)]
  obtain ⟨r, er, lr, hr, -⟩ := packNode_spec (page := List.replicate c.nodeLen 0) (off := 0) (dim := dim) (coords := coords) (nbrs := nbrs)
    (by omega) (by omega) (by rw [List.length_replicate, h.hlen]; omega)
  have htk : coords.take dim = coords := List.take_of_length_le (by omega)
  rw [htk] at hr
  rw [h.hdim, er]
  have has : ∀ x, assoc x ((id, r) :: c.over.filter (·.1 ≠ id)) = if x = id then some r else assoc x c.over := by
    intro x
    rw [assoc]
    by_cases hx : x = id
    · rw [if_pos hx.symm, if_pos hx]
    · rw [if_neg (fun e => hx e.symm), if_neg hx]
      have := assoc_filter (fun k => decide (k ≠ id)) x c.over
      simpa [hx] using this
  refine ⟨_, rfl, ⟨rfl, h.hdeg, h.hlen, ?_, ?_, ?_, h.idsNd, h.idsMap⟩, rfl, ?_⟩
  · intro x y hy
    simp only at hy
    rw [has] at hy
    unfold updRec
    by_cases hx : x = id
    · rw [if_pos hx] at hy
      injection hy with hy
      subst hy
      rw [if_pos hx]
      rw [List.length_replicate] at lr
      exact ⟨by rw [lr, h.hlen], hr, by rw [hx]; exact hid, by rw [hx]; exact hid32⟩
    · rw [if_neg hx] at hy
      rw [if_neg hx]
      exact h.over x y hy
  · intro x off hx
    obtain ⟨b1, b2, b4, b3⟩ := h.base x off hx
    refine ⟨b1, b2, b4, ?_⟩
    intro hy
    simp only at hy
    rw [has] at hy
    by_cases hxi : x = id
    · rw [if_pos hxi] at hy; cases hy
    · rw [if_neg hxi] at hy
      unfold updRec
      rw [if_neg hxi]
      exact b3 hy
  · simp only [List.map_cons]
    refine List.nodup_cons.2 ⟨?_, ?_⟩
    · intro hh
      obtain ⟨y, hy, e⟩ := List.mem_map.1 hh
      have := (List.mem_filter.1 hy).2
      simp only [ne_eq, decide_not, Bool.not_eq_eq_eq_not, Bool.not_true, decide_eq_false_iff_not] at this
      exact this e
    · exact h.keys.sublist (List.Sublist.map _ List.filter_sublist)
  · intro x
    simp only
    rw [has]
    by_cases hx : x = id
    · rw [if_pos hx]; simp [hx]
    · rw [if_neg hx]; simp [hx]

theorem drop_spec {g : Geom} {dim deg : Nat} {c : NCache} {m : Nat → Rec} (h : CacheInv g dim deg c m) :
    CacheInv g dim deg c.dropOverrides m := by
  have has : ∀ x, assoc x c.dropOverrides.over = if (assoc x c.map).isSome then assoc x c.over else none := by
    intro x
    unfold NCache.dropOverrides
    simp only
    exact assoc_filter (fun k => (assoc k c.map).isSome) x c.over
  refine ⟨h.hdim, h.hdeg, h.hlen, ?_, ?_, ?_, h.idsNd, h.idsMap⟩
  · intro x r hr
    rw [has] at hr
    split at hr
    · exact h.over x r hr
    · cases hr
  · intro x off hx
    obtain ⟨b1, b2, b4, b3⟩ := h.base x off hx
    refine ⟨b1, b2, b4, ?_⟩
    intro hy
    rw [has] at hy
    have hx' : assoc x c.map = some off := hx
    rw [hx'] at hy
    exact b3 hy
  · exact h.keys.sublist (List.Sublist.map _ List.filter_sublist)

/-- `update_neighbors` replaces the neighbours of a known node, and does nothing for an unknown one. -/
theorem updateNeighbors_spec {g : Geom} {dim deg : Nat} (hg : Good g dim deg) (hd32 : deg < 2 ^ 32) {c : NCache} {m : Nat → Rec}
    (h : CacheInv g dim deg c m) {id : Nat} (hrec : (m id).1.length = dim ∧ (m id).2.length ≤ deg) (hid32 : id < 2 ^ 32)
    {nbrs : List (BitVec 32)} (hn : nbrs.length ≤ deg) :
    (c.lookup id = .ok none → c.updateNeighbors id nbrs = .ok c) ∧
    (c.lookup id ≠ .ok none → ∃ c', c.updateNeighbors id nbrs = .ok c' ∧ CacheInv g dim deg c' (updRec m id ((m id).1, nbrs))) := by
  have hlen := hg.len
  have hpos := hg.pos
  unfold NCache.updateNeighbors
  rw [if_neg (by rw [h.hdim, h.hlen]; omega), if_neg (by rw [h.hdeg]; omega)]
  have hs := lookup_spec h id
  refine ⟨?_, ?_⟩
  · intro e; rw [e]
  · intro hne
    cases e : c.lookup id with
    | ub => rw [e] at hs; exact hs.elim
    | throws => rw [e] at hs; exact hs.elim
    | ok o =>
      cases o with
      | none => exact absurd e hne
      | some r =>
        rw [e] at hs
        simp only
        have hv := (view_record hg hd32 hs.2.1 hrec.1 hrec.2).1
        rw [hg.hdim] at hv
        rw [h.hdim, hv]
        simp only
        obtain ⟨c', e', i', -, -⟩ := upsert_spec hg h hs.2.2 hid32 (coords := (m id).1) (nbrs := nbrs) hrec.1 hn
        exact ⟨c', e', i'⟩

end Alaya.NodeCache
