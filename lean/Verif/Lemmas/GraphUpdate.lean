import Verif.Spec.GraphUpdate
import Verif.Props.C67

namespace Alaya.GraphUpdate
open Alaya Alaya.Pools Alaya.Spec Alaya.MemSearch Alaya.MemSearch.Spec

/-! ### The maps -/

theorem lookup_push (m : List (Nat × List Nat)) (k v j : Nat) :
    (push m k v).lookup j = if j = k then some ((m.lookup k).getD [] ++ [v]) else m.lookup j := by
  induction m with
  | nil =>
    unfold push
    by_cases h : j = k
    · subst h; simp
    · simp [h, List.lookup, beq_false_of_ne h]
  | cons a m ih =>
    obtain ⟨k', l⟩ := a
    unfold push
    by_cases hk : k' = k
    · subst hk
      rw [if_pos rfl]
      by_cases h : j = k'
      · subst h; simp
      · simp [h, List.lookup, beq_false_of_ne h]
    · rw [if_neg hk]
      by_cases h : j = k'
      · subst h
        simp [hk]
      · have hne : (j == k') = false := beq_false_of_ne h
        have hne2 : (k == k') = false := beq_false_of_ne (fun e => hk e.symm)
        simp only [List.lookup, hne, hne2]
        exact ih

theorem keys_push (m : List (Nat × List Nat)) (k v j : Nat) : j ∈ (push m k v).map Prod.fst ↔ j = k ∨ j ∈ m.map Prod.fst := by
  induction m with
  | nil => simp [push]
  | cons a m ih =>
    obtain ⟨k', l⟩ := a
    unfold push
    by_cases hk : k' = k
    · subst hk
      rw [if_pos rfl]
      simp
    · rw [if_neg hk]
      simp only [List.map_cons, List.mem_cons, ih]
      constructor
      · rintro (h | h | h)
        · exact .inr (.inl h)
        · exact .inl h
        · exact .inr (.inr h)
      · rintro (h | h | h)
        · exact .inr (.inl h)
        · exact .inl h
        · exact .inr (.inr h)

theorem keys_push_nodup (m : List (Nat × List Nat)) (k v : Nat) (h : (m.map Prod.fst).Nodup) : ((push m k v).map Prod.fst).Nodup := by
  induction m with
  | nil => simp [push]
  | cons a m ih =>
    obtain ⟨k', l⟩ := a
    unfold push
    by_cases hk : k' = k
    · subst hk
      rw [if_pos rfl]
      exact h
    · rw [if_neg hk]
      rw [List.map_cons, List.nodup_cons] at h
      rw [List.map_cons, List.nodup_cons]
      refine ⟨?_, ih h.2⟩
      intro hx
      rcases (keys_push m k v k').mp hx with e | e
      · exact hk e
      · exact h.1 e

/-- What `inserted_edges_` holds after the insertion of `id`. -/
theorem pushAll_spec (id : Nat) (vs : List Nat) : ∀ m : List (Nat × List Nat),
    (∀ k, k ∈ (pushAll m id vs).map Prod.fst ↔ k ∈ m.map Prod.fst ∨ (k ∈ vs ∧ k ≠ noId)) ∧
    (∀ k l, (pushAll m id vs).lookup k = some l → ∀ x ∈ l, x = id ∨ ∃ l0, m.lookup k = some l0 ∧ x ∈ l0) ∧
    (∀ k l0, m.lookup k = some l0 → ∃ l, (pushAll m id vs).lookup k = some l ∧ ∀ x ∈ l0, x ∈ l) ∧
    (∀ v ∈ vs, v ≠ noId → ∃ l, (pushAll m id vs).lookup v = some l ∧ id ∈ l) ∧
    ((m.map Prod.fst).Nodup → ((pushAll m id vs).map Prod.fst).Nodup) := by
  induction vs with
  | nil => intro m; simp [pushAll]; exact ⟨fun k l h x hx => Or.inr ⟨l, h, hx⟩, fun k l0 h => ⟨l0, h, fun _ hx => hx⟩⟩
  | cons v vs ih =>
    intro m
    unfold pushAll
    by_cases hv : v = noId
    · rw [if_pos hv]
      obtain ⟨a, b, c, d, e⟩ := ih m
      refine ⟨?_, b, c, ?_, e⟩
      · intro k
        rw [a k]
        constructor
        · rintro (h | h)
          · exact .inl h
          · exact .inr ⟨List.mem_cons_of_mem _ h.1, h.2⟩
        · rintro (h | ⟨h, h'⟩)
          · exact .inl h
          · rcases List.mem_cons.mp h with rfl | h
            · exact absurd hv h'
            · exact .inr ⟨h, h'⟩
      · intro w hw hn
        rcases List.mem_cons.mp hw with rfl | hw
        · exact absurd hv hn
        · exact d w hw hn
    · rw [if_neg hv]
      obtain ⟨a, b, c, d, e⟩ := ih (push m v id)
      refine ⟨?_, ?_, ?_, ?_, fun h => e (keys_push_nodup m v id h)⟩
      · intro k
        rw [a k, keys_push]
        constructor
        · rintro ((h | h) | h)
          · exact .inr ⟨h ▸ List.mem_cons_self, h ▸ hv⟩
          · exact .inl h
          · exact .inr ⟨List.mem_cons_of_mem _ h.1, h.2⟩
        · rintro (h | ⟨h, h'⟩)
          · exact .inl (.inr h)
          · rcases List.mem_cons.mp h with rfl | h
            · exact .inl (.inl rfl)
            · exact .inr ⟨h, h'⟩
      · intro k l hl x hx
        rcases b k l hl x hx with h | ⟨l0, h1, h2⟩
        · exact .inl h
        · rw [lookup_push] at h1
          by_cases hk : k = v
          · rw [if_pos hk] at h1
            cases h1
            rcases List.mem_append.mp h2 with h | h
            · cases hm : m.lookup v with
              | none => rw [hm] at h; cases h
              | some l1 => rw [hm] at h; exact .inr ⟨l1, by rw [hk]; exact hm, h⟩
            · simp at h; exact .inl h
          · rw [if_neg hk] at h1
            exact .inr ⟨l0, h1, h2⟩
      · intro k l0 hl
        have : ∃ l1, (push m v id).lookup k = some l1 ∧ ∀ x ∈ l0, x ∈ l1 := by
          rw [lookup_push]
          by_cases hk : k = v
          · rw [if_pos hk]
            refine ⟨_, rfl, ?_⟩
            rw [← hk, hl]
            intro x hx; simp [hx]
          · rw [if_neg hk]; exact ⟨l0, hl, fun x hx => hx⟩
        obtain ⟨l1, h1, h2⟩ := this
        obtain ⟨l, h3, h4⟩ := c k l1 h1
        exact ⟨l, h3, fun x hx => h4 x (h2 x hx)⟩
      · intro w hw hn
        rcases List.mem_cons.mp hw with rfl | hw
        · obtain ⟨l, h1, h2⟩ := c w ((m.lookup w).getD [] ++ [id]) (by rw [lookup_push, if_pos rfl])
          exact ⟨l, h1, h2 id (by simp)⟩
        · exact d w hw hn

/-- What `removed_node_nbrs_` holds after the removal of `id`. -/
theorem pushRow_spec (id : Nat) (row : List Nat) : ∀ m : List (Nat × List Nat),
    (∀ k, k ≠ id → (pushRow m id row).lookup k = m.lookup k) ∧
    (∀ l, (pushRow m id row).lookup id = some l → ∀ x ∈ l, x ∈ row.takeWhile (· ≠ noId) ∨ ∃ l0, m.lookup id = some l0 ∧ x ∈ l0) ∧
    (∀ l0, m.lookup id = some l0 → ∃ l, (pushRow m id row).lookup id = some l) ∧
    (row.takeWhile (· ≠ noId) ≠ [] → ∃ l, (pushRow m id row).lookup id = some l) := by
  induction row with
  | nil => intro m; simp [pushRow]; exact ⟨fun l h x hx => ⟨l, h, hx⟩, fun l0 h => ⟨l0, h⟩⟩
  | cons v vs ih =>
    intro m
    unfold pushRow
    by_cases hv : v = noId
    · rw [if_pos hv]
      have ht : (v :: vs).takeWhile (· ≠ noId) = [] := by rw [List.takeWhile_cons, if_neg (by simpa using hv)]
      rw [ht]
      exact ⟨fun _ _ => rfl, fun l h x hx => Or.inr ⟨l, h, hx⟩, fun l0 h => ⟨l0, h⟩, fun h => absurd rfl h⟩
    · rw [if_neg hv]
      obtain ⟨a, b, c, d⟩ := ih (push m id v)
      have ht : (v :: vs).takeWhile (· ≠ noId) = v :: vs.takeWhile (· ≠ noId) := by
        rw [List.takeWhile_cons, if_pos (by simpa using hv)]
      have hself : (push m id v).lookup id = some ((m.lookup id).getD [] ++ [v]) := by rw [lookup_push, if_pos rfl]
      rw [ht]
      refine ⟨?_, ?_, fun _ _ => c _ hself, fun _ => c _ hself⟩
      · intro k hk
        rw [a k hk, lookup_push, if_neg hk]
      · intro l hl x hx
        rcases b l hl x hx with h | ⟨l0, h1, h2⟩
        · exact .inl (List.mem_cons_of_mem _ h)
        · rw [hself] at h1
          cases h1
          rcases List.mem_append.mp h2 with h | h
          · cases hm : m.lookup id with
            | none => rw [hm] at h; cases h
            | some l1 => rw [hm] at h; exact .inr ⟨l1, rfl, h⟩
          · simp at h; exact .inl (h ▸ List.mem_cons_self)

theorem mem_distinct (l : List Nat) (x : Nat) : x ∈ distinct l ↔ x ∈ l := by
  induction l with
  | nil => simp [distinct]
  | cons a l ih =>
    unfold distinct
    split
    · rename_i h
      rw [ih, List.mem_cons]
      constructor
      · exact fun h => .inr h
      · rintro (rfl | h')
        · exact ih.mp h
        · exact h'
    · rw [List.mem_cons, List.mem_cons, ih]

theorem distinct_nodup (l : List Nat) : (distinct l).Nodup := by
  induction l with
  | nil => simp [distinct]
  | cons a l ih =>
    unfold distinct
    split
    · exact ih
    · exact List.nodup_cons.mpr ⟨by assumption, ih⟩

/-! ### The invariant -/

/-- The part of the state that insertions and removals keep in order. -/
structure Core {V : Type} (s : Ix V) : Prop where
  graph : GraphOk s.g s.vecs.length
  small : s.g.rows.length ≤ 2147483648
  live : s.live.length = s.vecs.length
  pos : 0 < s.maxNbrs
  rem : ∀ v ∈ s.removed, v < s.vecs.length ∧ ∃ l, s.removedNbrs.lookup v = some l
  nbr : ∀ k l, s.removedNbrs.lookup k = some l → ∀ v ∈ l, v < s.vecs.length
  key : ∀ k ∈ s.inserted.map Prod.fst, k < s.vecs.length
  ins : ∀ k l, s.inserted.lookup k = some l → ∀ v ∈ l, v < s.vecs.length
  over : ∀ o, s.g.overlay = some o → ∀ i, s.vecs.length ≤ i → i < s.g.rows.length → o.levels[i]? = some 0 ∧ ∃ l, o.lists[i]? = some l
  seeds : 0 < s.vecs.length ∧ (s.g.overlay = none → s.g.eps ≠ [])

/-- The whole invariant between two calls. -/
structure Inv {V : Type} (s : Ix V) : Prop where
  core : Core s
  idle : s.inserted = []
  gone : ∀ u ∈ s.removed, s.live.getD u false = false
  row : (∀ u, u < s.vecs.length → nbrs s.g.rows u ≠ []) ∨ (s.vecs.length = 1 ∧ s.live = [true])

/-- Without the record of the removed rows an index stays in order. -/
theorem Inv.reopened {V : Type} {s : Ix V} (h : Inv s) : Inv { s with inserted := [], removed := [], removedNbrs := [] } :=
  ⟨⟨h.core.graph, h.core.small, h.core.live, h.core.pos, by simp, by simp, by simp, by simp, h.core.over, h.core.seeds⟩, rfl, by simp, h.row⟩

theorem fromRow_spec {V : Type} (s : Ix V) (hr : ∀ v ∈ s.removed, ∃ l, s.removedNbrs.lookup v = some l) (row : List Nat) :
    ∃ cs, s.fromRow row = some cs ∧ (∀ x ∈ row.takeWhile (· ≠ noId), x ∈ cs) ∧
      ∀ x ∈ cs, x ∈ row.takeWhile (· ≠ noId) ∨ ∃ v l, s.removedNbrs.lookup v = some l ∧ x ∈ l := by
  induction row with
  | nil => exact ⟨[], rfl, by simp, by simp⟩
  | cons v vs ih =>
    obtain ⟨r, e, h1, h2⟩ := ih
    unfold Ix.fromRow
    by_cases hv : v = noId
    · rw [if_pos hv]
      refine ⟨[], rfl, ?_, by simp⟩
      rw [List.takeWhile_cons, if_neg (by simpa using hv)]
      simp
    · rw [if_neg hv]
      have ht : (v :: vs).takeWhile (· ≠ noId) = v :: vs.takeWhile (· ≠ noId) := by
        rw [List.takeWhile_cons, if_pos (by simpa using hv)]
      rw [ht]
      have : ∃ l, (if v ∈ s.removed then s.removedNbrs.lookup v else some []) = some l ∧
          ∀ x ∈ l, ∃ v l, s.removedNbrs.lookup v = some l ∧ x ∈ l := by
        by_cases hm : v ∈ s.removed
        · rw [if_pos hm]
          obtain ⟨l, hl⟩ := hr v hm
          exact ⟨l, hl, fun x hx => ⟨v, l, hl, hx⟩⟩
        · rw [if_neg hm]; exact ⟨[], rfl, by simp⟩
      obtain ⟨l, e1, h3⟩ := this
      rw [e1, e]
      refine ⟨l ++ v :: r, rfl, ?_, ?_⟩
      · intro x hx
        rcases List.mem_cons.mp hx with rfl | hx
        · simp
        · simp [h1 x hx]
      · intro x hx
        rcases List.mem_append.mp hx with hx | hx
        · exact .inr (h3 x hx)
        · rcases List.mem_cons.mp hx with rfl | hx
          · exact .inl List.mem_cons_self
          · rcases h2 x hx with h | h
            · exact .inl (List.mem_cons_of_mem _ h)
            · exact .inr h

theorem insertAll_spec (dist : Nat → Int) {cap : Nat} (hc : 0 < cap) (vs : List Nat) : ∀ (p : LinearPool) (off : List Nat),
    LInv cap p (off.map (MemSearch.cand dist)) [] → (off ++ vs).Nodup → (∀ v ∈ vs, v < 2147483648) →
    ∃ p', insertAll dist vs p = some p' ∧ LInv cap p' ((off ++ vs).map (MemSearch.cand dist)) [] := by
  induction vs with
  | nil => intro p off h _ _; exact ⟨p, rfl, by simpa using h⟩
  | cons v vs ih =>
    intro p off h hnd hlt
    have hnew : v ∉ off := by
      rw [List.nodup_append] at hnd
      intro hx
      exact hnd.2.2 v hx v List.mem_cons_self rfl
    obtain ⟨p1, b, e1, h1⟩ := h.insert hc (u := v) (d := dist v) (hlt v List.mem_cons_self) (by
      intro hx
      obtain ⟨t, ht, he⟩ := List.mem_map.mp hx
      have : t = v := congrArg Prod.fst he
      subst this; exact hnew ht)
    have h1' : LInv cap p1 ((off ++ [v]).map (MemSearch.cand dist)) [] := by simpa [MemSearch.cand] using h1
    obtain ⟨p2, e2, h2⟩ := ih p1 (off ++ [v]) h1' (by simpa using hnd) (fun w hw => hlt w (List.mem_cons_of_mem _ hw))
    refine ⟨p2, ?_, by simpa using h2⟩
    unfold insertAll
    rw [e1]
    exact e2

theorem takeWhile_all {l : List Nat} (h : ∀ v ∈ l, v ≠ noId) : l.takeWhile (· ≠ 4294967295) = l := by
  induction l with
  | nil => rfl
  | cons a l ih =>
    rw [List.takeWhile_cons, if_pos (by simpa [noId] using h a List.mem_cons_self), ih (fun v hv => h v (List.mem_cons_of_mem _ hv))]

theorem nbrs_set {rows : List (List Nat)} {k u : Nat} {row : List Nat} (hk : k < rows.length) :
    nbrs (rows.set k row) u = if u = k then row.takeWhile (· ≠ 4294967295) else nbrs rows u := by
  unfold nbrs
  by_cases h : u = k
  · subst h
    rw [if_pos rfl, List.getElem?_set_self hk]
    rfl
  · rw [if_neg h, List.getElem?_set_ne (Ne.symm h)]

/-- The candidates of `update`. -/
def Ix.cands {V : Type} (s : Ix V) (k : Nat) : List Nat :=
  distinct ((s.fromRow ((s.g.rows[k]?).getD [])).getD [] ++ (s.inserted.lookup k).getD [])

variable {V : Type} {near : Ix V → V → Nat → Int} {ord : List Nat → List Nat}

/-- One `update`. -/
theorem update_spec (ho : ∀ l, (ord l).Perm l) {s : Ix V} (h : Core s) {k : Nat} (hk : k < s.vecs.length) :
    ∃ row', s.update near ord k = some (some (if s.live.getD k false then { s with g := { s.g with rows := s.g.rows.set k row' } } else s)) ∧
      row' ≠ [] ∧ (∀ v ∈ row', v < s.vecs.length) ∧ ((s.cands k).length ≤ s.maxNbrs → ∀ v ∈ s.cands k, v ∈ row') := by
  have hr := h.graph.rows
  have hsm := h.small
  obtain ⟨row, hrow⟩ : ∃ row, s.g.rows[k]? = some row := ⟨_, List.getElem?_eq_getElem (by omega)⟩
  obtain ⟨q, hq⟩ : ∃ q, s.vecs[k]? = some q := ⟨_, List.getElem?_eq_getElem hk⟩
  obtain ⟨cs, e1, h1, h2⟩ := fromRow_spec s (fun v hv => (h.rem v hv).2) row
  have hnb : nbrs s.g.rows k = row.takeWhile (· ≠ noId) := nbrs_row hrow
  have hcands : s.cands k = distinct (cs ++ (s.inserted.lookup k).getD []) := by
    unfold Ix.cands; rw [hrow]; simp [e1]
  have hlt : ∀ v ∈ s.cands k, v < s.vecs.length := by
    intro v hv
    rw [hcands, mem_distinct] at hv
    rcases List.mem_append.mp hv with hv | hv
    · rcases h2 v hv with hv | ⟨w, l, hl, hv⟩
      · rw [← hnb] at hv; exact h.graph.edge k hk v hv
      · exact h.nbr w l hl v hv
    · cases hi : s.inserted.lookup k with
      | none => rw [hi] at hv; cases hv
      | some l => rw [hi] at hv; exact h.ins k l hi v hv
  have hperm := ho (s.cands k)
  obtain ⟨p, e2, h3⟩ := insertAll_spec (near s q) h.pos (ord (s.cands k)) (LinearPool.new s.maxNbrs) []
    (by simpa using LInv.new s.maxNbrs) (by simpa using hperm.nodup_iff.mpr (by rw [hcands]; exact distinct_nodup _))
    (fun v hv => by have := hlt v (hperm.mem_iff.mp hv); omega)
  rw [List.nil_append] at h3
  have hent : ∀ x ∈ p.entries, x.1 < s.vecs.length := by
    intro x hx
    obtain ⟨t, ht, rfl⟩ := List.mem_map.mp (Best.mem h3.best hx)
    exact hlt t (hperm.mem_iff.mp ht)
  refine ⟨(p.entries.take s.maxNbrs).map Prod.fst ++ List.replicate (s.maxNbrs - ((p.entries.take s.maxNbrs).map Prod.fst).length) 0,
    ?_, ?_, ?_, ?_⟩
  · unfold Ix.update
    rw [hrow]
    simp only [e1, hq]
    rw [← hcands, e2]
    simp only
    split <;> rfl
  · intro he
    have := congrArg List.length he
    have hp := h.pos
    simp only [List.length_append, List.length_map, List.length_take, List.length_replicate, List.length_nil] at this
    omega
  · intro v hv
    rcases List.mem_append.mp hv with hv | hv
    · obtain ⟨x, hx, rfl⟩ := List.mem_map.mp hv
      exact hent x (List.mem_of_mem_take hx)
    · have := (List.mem_replicate.mp hv).2
      have := h.seeds.1
      omega
  · intro hle v hv
    have hb := h3.best
    have hlen : p.entries.length = (s.cands k).length := by
      rw [hb.2.1, List.length_map, hperm.length_eq]; omega
    obtain ⟨_, _, rest, hp, _⟩ := hb
    have hrest : rest = [] := by
      have := hp.length_eq
      rw [List.length_map, List.length_append, hperm.length_eq] at this
      exact List.length_eq_zero_iff.mp (by omega)
    subst hrest
    rw [List.append_nil] at hp
    refine List.mem_append_left _ (List.mem_map.mpr ⟨(v, near s q v), ?_, rfl⟩)
    rw [List.take_of_length_le (by omega)]
    exact hp.mem_iff.mp (List.mem_map.mpr ⟨v, hperm.mem_iff.mpr hv, rfl⟩)

theorem ne_noId_of {n v : Nat} (h : n ≤ 2147483648) (hv : v < n) : v ≠ noId := by unfold noId; omega

/-- A new row keeps the core. -/
theorem Core.setRow {s : Ix V} (h : Core s) {k : Nat} (hk : k < s.vecs.length) {row : List Nat} (hrow : ∀ v ∈ row, v < s.vecs.length) :
    Core { s with g := { s.g with rows := s.g.rows.set k row } } := by
  have hr := h.graph.rows
  have hsm := h.small
  refine ⟨⟨by simpa using hr, h.graph.small, ?_, h.graph.eps, h.graph.overlay⟩, by simpa using hsm, h.live, h.pos, h.rem, h.nbr, h.key,
    h.ins, by simpa using h.over, h.seeds⟩
  intro u hu v hv
  have hv' : v ∈ nbrs (s.g.rows.set k row) u := hv
  rw [nbrs_set (by omega)] at hv'
  split at hv'
  · exact hrow v (List.takeWhile_subset _ hv')
  · exact h.graph.edge u hu v hv'

/-- What a round of updates leaves unchanged. -/
structure Same (s s' : Ix V) : Prop where
  vecs : s'.vecs = s.vecs
  live : s'.live = s.live
  maxNbrs : s'.maxNbrs = s.maxNbrs
  removed : s'.removed = s.removed
  removedNbrs : s'.removedNbrs = s.removedNbrs
  inserted : s'.inserted = s.inserted
  eps : s'.g.eps = s.g.eps
  overlay : s'.g.overlay = s.g.overlay
  len : s'.g.rows.length = s.g.rows.length

theorem fromRow_congr {s s' : Ix V} (h1 : s'.removed = s.removed) (h2 : s'.removedNbrs = s.removedNbrs) (row : List Nat) :
    s'.fromRow row = s.fromRow row := by
  induction row with
  | nil => rfl
  | cons v vs ih => unfold Ix.fromRow; rw [h1, h2, ih]

/-- A round of updates. -/
theorem updateAll_spec (ho : ∀ l, (ord l).Perm l) (ks : List Nat) : ∀ {s : Ix V}, Core s → (∀ k ∈ ks, k < s.vecs.length) → ks.Nodup →
    ∃ s', s.updateAll near ord ks = some (some s') ∧ Core s' ∧ Same s s' ∧
      (∀ u, u < s.vecs.length → nbrs s.g.rows u ≠ [] → nbrs s'.g.rows u ≠ []) ∧
      (∀ k ∈ ks, s.live.getD k false = true → nbrs s'.g.rows k ≠ [] ∧
        ((s.cands k).length ≤ s.maxNbrs → ∀ v ∈ s.cands k, v ∈ nbrs s'.g.rows k)) ∧
      (∀ u, u ∉ ks → s'.g.rows[u]? = s.g.rows[u]?) := by
  induction ks with
  | nil => intro s h _ _; exact ⟨s, rfl, h, ⟨rfl, rfl, rfl, rfl, rfl, rfl, rfl, rfl, rfl⟩, fun _ _ h => h, by simp, fun _ _ => rfl⟩
  | cons k ks ih =>
    intro s h hlt hnd
    have hk := hlt k List.mem_cons_self
    have hr := h.graph.rows
    obtain ⟨hk1, hk2⟩ := List.nodup_cons.mp hnd
    obtain ⟨row', e1, r1, r2, r3⟩ := update_spec (near := near) ho h hk
    have hnoid : ∀ v ∈ row', v ≠ noId := fun v hv => ne_noId_of h.graph.small (r2 v hv)
    have hnew : nbrs (s.g.rows.set k row') k = row' := by
      rw [nbrs_set (by omega), if_pos rfl, takeWhile_all hnoid]
    unfold Ix.updateAll
    rw [e1]
    simp only
    cases hl : s.live.getD k false with
    | false =>
      simp only [Bool.false_eq_true, if_false]
      obtain ⟨s', e2, h2, h3, h4, h5, h6⟩ := ih h (fun j hj => hlt j (List.mem_cons_of_mem _ hj)) hk2
      refine ⟨s', e2, h2, h3, h4, ?_, fun u hu => h6 u (fun hx => hu (List.mem_cons_of_mem _ hx))⟩
      intro j hj hlj
      rcases List.mem_cons.mp hj with rfl | hj
      · rw [hl] at hlj; cases hlj
      · exact h5 j hj hlj
    | true =>
      simp only [if_true]
      have hcore := h.setRow hk r2
      obtain ⟨s', e2, h2, h3, h4, h5, h6⟩ := ih hcore (fun j hj => hlt j (List.mem_cons_of_mem _ hj)) hk2
      have hrowk : nbrs s'.g.rows k = row' := by
        have := h6 k hk1
        unfold nbrs
        rw [this]
        exact hnew
      refine ⟨s', e2, h2, ⟨h3.vecs, h3.live, h3.maxNbrs, h3.removed, h3.removedNbrs, h3.inserted, h3.eps, h3.overlay,
        by rw [h3.len]; exact List.length_set⟩, ?_, ?_, ?_⟩
      · intro u hu hne
        refine h4 u hu ?_
        show nbrs (s.g.rows.set k row') u ≠ []
        rw [nbrs_set (by omega)]
        split
        · rw [takeWhile_all hnoid]; exact r1
        · exact hne
      · intro j hj hlj
        rcases List.mem_cons.mp hj with rfl | hj
        · rw [hrowk]; exact ⟨r1, r3⟩
        · obtain ⟨a, b⟩ := h5 j hj hlj
          refine ⟨a, ?_⟩
          have hjk : j ≠ k := fun e => hk1 (e ▸ hj)
          have hc : Ix.cands { s with g := { s.g with rows := s.g.rows.set k row' } } j = s.cands j := by
            unfold Ix.cands
            have hf := fromRow_congr (s := s) (s' := { s with g := { s.g with rows := s.g.rows.set k row' } }) rfl rfl
            rw [hf]
            show distinct ((s.fromRow (((s.g.rows.set k row')[j]?).getD [])).getD [] ++ _) = _
            rw [List.getElem?_set_ne (Ne.symm hjk)]
          rw [hc] at b
          exact b
      · intro u hu
        rw [h6 u (fun hx => hu (List.mem_cons_of_mem _ hx))]
        show (s.g.rows.set k row')[u]? = _
        rw [List.getElem?_set_ne (fun e => hu (by rw [← e]; exact List.mem_cons_self))]

/-- The graph followed by the search of an insertion is well formed too. -/
theorem eff_ok {s : Ix V} (h : Core s) : GraphOk s.eff s.vecs.length := by
  refine ⟨by simpa [Ix.eff] using h.graph.rows, h.graph.small, ?_, h.graph.eps, h.graph.overlay⟩
  intro u hu v hv
  have hr := h.graph.rows
  have he : s.eff.rows[u]? = some ((s.removedNbrs.lookup u).getD (s.g.rows[u]'(by omega))) := by
    unfold Ix.eff
    simp only
    rw [List.getElem?_mapIdx, List.getElem?_eq_getElem (show u < s.g.rows.length by omega)]
    rfl
  unfold nbrs at hv
  rw [he] at hv
  simp only [Option.getD_some] at hv
  cases hl : s.removedNbrs.lookup u with
  | some l =>
    rw [hl] at hv
    exact h.nbr u l hl v (List.takeWhile_subset _ hv)
  | none =>
    rw [hl] at hv
    refine h.graph.edge u hu v ?_
    unfold nbrs
    rw [List.getElem?_eq_getElem (show u < s.g.rows.length by omega)]
    exact hv

/-- The candidates of an insertion: existing nodes, at least one. -/
theorem candidates_spec {s : Ix V} (h : Core s) (q : V) {ef : Nat} (hef : s.maxNbrs ≤ ef) :
    ∃ hits : List Nat, hits ≠ [] ∧ hits.Nodup ∧ hits.length ≤ s.maxNbrs ∧ (∀ v ∈ hits, v < s.vecs.length) ∧
      ∀ extra, s.candidates near q ef s.maxNbrs (s.vecs.length + 1 + extra) =
        some (some (hits ++ List.replicate (s.maxNbrs - hits.length) noId)) := by
  have hp := h.pos
  obtain ⟨S, st, popped, e, hm, hu, hS, ha, hb⟩ := walk_spec (eff_ok h) (near s q) (ef := ef) (by omega)
  have hne : S ≠ [] := by
    cases ho : s.eff.overlay with
    | none => rw [ha ho]; exact h.seeds.2 ho
    | some o => obtain ⟨u, hu', _⟩ := hb o ho; rw [hu']; simp
  have hseen : st.seen ≠ [] := by
    obtain ⟨u, hu'⟩ := List.exists_mem_of_ne_nil _ hne
    exact List.ne_nil_of_mem (hS u hu')
  have hes : st.pool.entries.length = st.pool.size := entries_size hm.q
  have hlen : 0 < st.pool.entries.length := by
    rw [hm.q.best.2.1, List.length_map]
    have := List.length_pos_iff.mpr hseen
    omega
  refine ⟨(st.pool.entries.take (min st.pool.size s.maxNbrs)).map Prod.fst, ?_, ?_, by simp; omega, ?_, ?_⟩
  · intro he
    have := congrArg List.length he
    simp only [List.length_map, List.length_take, List.length_nil] at this
    omega
  · obtain ⟨_, _, rest, hp, _⟩ := hm.q.best
    have := (hp.map Prod.fst).nodup_iff.mp hm.candNodup
    rw [List.map_append] at this
    rw [List.map_take]
    exact (List.nodup_append.mp this).1.sublist (List.take_sublist _ _)
  · intro v hv
    obtain ⟨x, hx, rfl⟩ := List.mem_map.mp hv
    obtain ⟨t, ht, rfl⟩ := List.mem_map.mp (Best.mem hm.q.best (List.mem_of_mem_take hx))
    exact hm.lt t ht
  · intro extra
    unfold Ix.candidates
    rw [if_neg (by omega), e extra]

end Alaya.GraphUpdate
