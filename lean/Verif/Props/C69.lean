import Verif.Lemmas.GraphUpdate

/-! C69: insertions into and removals from an in-memory index. -/
namespace Alaya.GraphUpdate
open Alaya Alaya.Pools Alaya.Spec Alaya.MemSearch Alaya.MemSearch.Spec Alaya.GraphUpdate.Spec

variable {V : Type} {near : Ix V → V → Nat → Int} {d : V → V → Int} {fmax : Int} {ord : List Nat → List Nat}

/-- The rows of an index as the specification sees them. -/
def Ix.abs (s : Ix V) : List (V × Bool) := s.vecs.zip s.live

/-- The index with the new row, before the updates. -/
def Ix.stored (s : Ix V) (row : List Nat) (q : V) (ins : List (Nat × List Nat)) : Ix V :=
  { s with g := { s.g with rows := s.g.rows.set s.vecs.length row }, live := s.live ++ [true], vecs := s.vecs ++ [q], inserted := ins }

theorem zip_set {α β : Type} (vs : List α) : ∀ (ls : List β) (i : Nat) (b : β),
    vs.zip (ls.set i b) = (vs.zip ls).modify i (fun x => (x.1, b)) := by
  induction vs with
  | nil => intro ls i b; cases i <;> simp
  | cons a vs ih =>
    intro ls i b
    cases ls with
    | nil => cases i <;> simp
    | cons l ls =>
      cases i with
      | zero => simp
      | succ i => simp [ih]

theorem store_core {s : Ix V} (h : Core s) {row : List Nat} (hrow : ∀ v ∈ row.takeWhile (· ≠ noId), v < s.vecs.length) (q : V)
    (hroom : s.vecs.length < s.g.rows.length) {ins : List (Nat × List Nat)}
    (hkey : ∀ k ∈ ins.map Prod.fst, k < s.vecs.length + 1)
    (hins : ∀ k l, ins.lookup k = some l → ∀ v ∈ l, v < s.vecs.length + 1) :
    Core (s.stored row q ins) := by
  unfold Ix.stored
  have hr := h.graph.rows
  have hsm := h.small
  have hlen : (s.vecs ++ [q]).length = s.vecs.length + 1 := by simp
  refine ⟨⟨?_, ?_, ?_, ?_, ?_⟩, ?_, ?_, h.pos, ?_, ?_, ?_, ?_, ?_, ?_⟩
  · simp only [List.length_append, List.length_set, List.length_singleton]; omega
  · simp only [List.length_append, List.length_singleton]; omega
  · intro u hu v hv
    simp only [List.length_append, List.length_singleton] at hu ⊢
    have hv' : v ∈ nbrs (s.g.rows.set s.vecs.length row) u := hv
    rw [nbrs_set hroom] at hv'
    split at hv'
    · have := hrow v hv'; omega
    · have := h.graph.edge u (by omega) v hv'; omega
  · intro e he
    have := h.graph.eps e he
    simp only [List.length_append, List.length_singleton]; omega
  · intro o ho
    have hov := h.graph.overlay o ho
    have hnew := h.over o ho
    simp only [List.length_append, List.length_singleton]
    refine ⟨by have := hov.ep; omega, ?_, ?_⟩
    · intro i hi
      by_cases hin : i < s.vecs.length
      · exact hov.level i hin
      · obtain ⟨a, l, b⟩ := hnew i (by omega) (by omega)
        exact ⟨0, l, a, b, by omega⟩
    · intro i lv level blk hi hlv hl1 hl2 hb v hv
      by_cases hin : i < s.vecs.length
      · obtain ⟨a, b⟩ := hov.edge i lv level blk hin hlv hl1 hl2 hb v hv
        exact ⟨by omega, b⟩
      · obtain ⟨a, _⟩ := hnew i (by omega) (by omega)
        rw [hlv] at a
        cases a
        omega
  · simpa using hsm
  · simp [h.live]
  · intro v hv
    obtain ⟨a, b⟩ := h.rem v hv
    exact ⟨by simp only [List.length_append, List.length_singleton]; omega, b⟩
  · intro k l hl v hv
    have := h.nbr k l hl v hv
    simp only [List.length_append, List.length_singleton]; omega
  · intro k hk
    rw [hlen]; exact hkey k hk
  · intro k l hl v hv
    rw [hlen]; exact hins k l hl v hv
  · intro o ho i hi hi2
    simp only [List.length_append, List.length_singleton, List.length_set] at hi hi2
    exact h.over o ho i (by omega) hi2
  · exact ⟨by simp, h.seeds.2⟩

/-- One insertion: either the index is full and nothing changes, or the new row gets the next id, everything else keeps its vector and
flag, and a neighbour found by the search that is still in use and has room points to the new row. -/
theorem C69_insert (ho : ∀ l, (ord l).Perm l) (s : Ix V) (h : Inv s) (q : V) (ef : Nat) (hef : s.maxNbrs ≤ ef) :
    (s.g.rows.length ≤ s.vecs.length → ∀ extra, s.insert near ord q ef (s.vecs.length + 1 + extra) = some (some (s, none))) ∧
    (s.vecs.length < s.g.rows.length → ∃ s', Inv s' ∧ s'.abs = s.abs ++ [(q, true)] ∧ s'.g.rows.length = s.g.rows.length ∧
      s'.maxNbrs = s.maxNbrs ∧
      (∀ extra, s.insert near ord q ef (s.vecs.length + 1 + extra) = some (some (s', some s.vecs.length))) ∧
      ∃ found : List Nat, found ≠ [] ∧ (∀ v ∈ found, v < s.vecs.length) ∧ (∀ v ∈ found, v ∈ nbrs s'.g.rows s.vecs.length) ∧
        ∀ k ∈ found, s.live.getD k false = true → (s.cands k).length < s.maxNbrs → s.vecs.length ∈ nbrs s'.g.rows k) := by
  obtain ⟨hits, h1, h2, h3, h4, h5⟩ := candidates_spec (near := near) h.core q hef
  have hsmall := h.core.graph.small
  refine ⟨?_, ?_⟩
  · intro hfull extra
    unfold Ix.insert
    rw [h5 extra]
    simp only
    unfold Ix.store
    rw [if_pos (by omega)]
  · intro hroom
    have hnoid : ∀ v ∈ hits, v ≠ noId := fun v hv => ne_noId_of hsmall (h4 v hv)
    have htake : (hits ++ List.replicate (s.maxNbrs - hits.length) noId).takeWhile (· ≠ noId) = hits := by
      rw [List.takeWhile_append_of_pos (by intro v hv; simpa using hnoid v hv)]
      cases s.maxNbrs - hits.length with
      | zero => simp
      | succ m => rw [List.replicate_succ, List.takeWhile_cons, if_neg (by simp)]; simp
    have hmem : ∀ k, (k ∈ hits ++ List.replicate (s.maxNbrs - hits.length) noId ∧ k ≠ noId) ↔ k ∈ hits := by
      intro k
      constructor
      · rintro ⟨a, b⟩
        rcases List.mem_append.mp a with a | a
        · exact a
        · exact absurd (List.mem_replicate.mp a).2 b
      · exact fun a => ⟨List.mem_append_left _ a, hnoid k a⟩
    obtain ⟨p1, p2, -, p4, p5⟩ := pushAll_spec s.vecs.length (hits ++ List.replicate (s.maxNbrs - hits.length) noId) s.inserted
    rw [h.idle] at p1 p2 p4 p5
    have hkey : ∀ k ∈ (pushAll [] s.vecs.length (hits ++ List.replicate (s.maxNbrs - hits.length) noId)).map Prod.fst,
        k ∈ hits := by
      intro k hk
      rcases (p1 k).mp hk with hx | hx
      · cases hx
      · exact (hmem k).mp hx
    have hc := store_core h.core (row := hits ++ List.replicate (s.maxNbrs - hits.length) noId) (by rw [htake]; exact h4) q hroom
      (ins := pushAll [] s.vecs.length (hits ++ List.replicate (s.maxNbrs - hits.length) noId))
      (fun k hk => by have := h4 k (hkey k hk); omega)
      (by
        intro k l hl v hv
        rcases p2 k l hl v hv with e | ⟨l0, e, _⟩
        · omega
        · cases e)
    have hperm := ho ((pushAll [] s.vecs.length (hits ++ List.replicate (s.maxNbrs - hits.length) noId)).map Prod.fst)
    obtain ⟨s3, e3, c3, same, ne3, upd3, keep3⟩ := updateAll_spec (near := near) ho
      (ord ((pushAll [] s.vecs.length (hits ++ List.replicate (s.maxNbrs - hits.length) noId)).map Prod.fst)) hc
      (fun k hk => by
        have := h4 k (hkey k (hperm.mem_iff.mp hk))
        simp only [Ix.stored, List.length_append, List.length_singleton]; omega)
      (hperm.nodup_iff.mpr (p5 (by simp)))
    have hsv : s3.vecs = s.vecs ++ [q] := same.vecs
    have hsl : s3.live = s.live ++ [true] := same.live
    have hll := h.core.live
    have hlive : ∀ u, u < s.vecs.length → (s.live ++ [true]).getD u false = s.live.getD u false := by
      intro u hu
      rw [List.getD_eq_getElem?_getD, List.getD_eq_getElem?_getD, List.getElem?_append_left (by omega)]
    have hnotnew : s.vecs.length ∉ ord ((pushAll [] s.vecs.length (hits ++ List.replicate (s.maxNbrs - hits.length) noId)).map Prod.fst) := by
      intro hx
      have := h4 _ (hkey _ (hperm.mem_iff.mp hx))
      omega
    have hrownew : nbrs s3.g.rows s.vecs.length = hits := by
      have e := keep3 s.vecs.length hnotnew
      unfold nbrs
      rw [e]
      show ((s.g.rows.set s.vecs.length _)[s.vecs.length]?.getD []).takeWhile _ = _
      rw [List.getElem?_set_self hroom]
      exact htake
    have hrowold : ∀ u, u < s.vecs.length → nbrs s.g.rows u ≠ [] → nbrs s3.g.rows u ≠ [] := by
      intro u hu hne
      refine ne3 u (by simp only [Ix.stored, List.length_append, List.length_singleton]; omega) ?_
      show nbrs (s.g.rows.set s.vecs.length _) u ≠ []
      rw [nbrs_set hroom, if_neg (by omega)]
      exact hne
    have hinv : Inv { s3 with inserted := [] } := by
      refine ⟨⟨c3.graph, c3.small, c3.live, c3.pos, c3.rem, c3.nbr, by simp, by simp, c3.over, c3.seeds⟩, rfl, ?_, ?_⟩
      · intro u hu
        have hrem : s3.removed = s.removed := same.removed
        show s3.live.getD u false = false
        have hu' : u ∈ s.removed := hrem ▸ hu
        rw [hsl, hlive u (h.core.rem u hu').1]
        exact h.gone u hu'
      · refine .inl ?_
        intro u hu
        have hu' : u < s.vecs.length + 1 := by
          have : u < s3.vecs.length := hu
          rw [hsv] at this
          simpa using this
        show nbrs s3.g.rows u ≠ []
        by_cases hlt : u < s.vecs.length
        · rcases h.row with hr | ⟨hn1, hrm⟩
          · exact hrowold u hlt (hr u hlt)
          · have hu0 : u = 0 := by omega
            subst hu0
            obtain ⟨w, hw⟩ := List.exists_mem_of_ne_nil _ h1
            have hw0 : w = 0 := by have := h4 w hw; omega
            subst hw0
            have hin := hperm.mem_iff.mpr ((p1 0).mpr (.inr ((hmem 0).mpr hw)))
            refine (upd3 0 hin ?_).1
            show (s.live ++ [true]).getD 0 false = true
            rw [hlive 0 hlt]
            rw [hrm]; rfl
        · have : u = s.vecs.length := by omega
          subst this
          rw [hrownew]
          exact h1
    refine ⟨{ s3 with inserted := [] }, hinv, ?_, ?_, same.maxNbrs, ?_, hits, h1, h4, ?_, ?_⟩
    · unfold Ix.abs
      show s3.vecs.zip s3.live = _
      rw [hsv, hsl, List.zip_append hll.symm]
      rfl
    · show s3.g.rows.length = _
      rw [same.len]
      exact List.length_set
    · intro extra
      unfold Ix.insert
      rw [h5 extra]
      simp only
      unfold Ix.store
      rw [if_neg (by omega)]
      simp only [h.idle]
      unfold Ix.stored at e3
      rw [e3]
    · intro v hv
      show v ∈ nbrs s3.g.rows s.vecs.length
      rw [hrownew]; exact hv
    · intro k hk hl hroomk
      have hklt := h4 k hk
      have hin := hperm.mem_iff.mpr ((p1 k).mpr (.inr ((hmem k).mpr hk)))
      obtain ⟨-, hx⟩ := upd3 k hin (by show (s.live ++ [true]).getD k false = true; rw [hlive k hklt]; exact hl)
      obtain ⟨l, hl1, hl2⟩ := p4 k ((hmem k).mpr hk).1 ((hmem k).mpr hk).2
      have hall : ∀ y ∈ l, y = s.vecs.length := by
        intro y hy
        rcases p2 k l hl1 y hy with e | ⟨l0, e, _⟩
        · exact e
        · cases e
      have hcands : Ix.cands (s.stored (hits ++ List.replicate (s.maxNbrs - hits.length) noId) q
            (pushAll [] s.vecs.length (hits ++ List.replicate (s.maxNbrs - hits.length) noId))) k =
          distinct ((s.fromRow ((s.g.rows[k]?).getD [])).getD [] ++ l) := by
        unfold Ix.cands
        have hf := fromRow_congr (s := s) (s' := (s.stored (hits ++ List.replicate (s.maxNbrs - hits.length) noId) q
            (pushAll [] s.vecs.length (hits ++ List.replicate (s.maxNbrs - hits.length) noId)))) rfl rfl
        rw [hf]
        show distinct ((s.fromRow (((s.g.rows.set s.vecs.length _)[k]?).getD [])).getD [] ++
          ((pushAll [] s.vecs.length (hits ++ List.replicate (s.maxNbrs - hits.length) noId)).lookup k).getD []) = _
        rw [List.getElem?_set_ne (by omega), hl1]
        rfl
      rw [hcands] at hx
      refine hx ?_ _ ((mem_distinct _ _).mpr (List.mem_append_right _ hl2))
      show _ ≤ s.maxNbrs
      have hsub : (distinct ((s.fromRow ((s.g.rows[k]?).getD [])).getD [] ++ l)).length ≤ (s.vecs.length :: s.cands k).length := by
        refine nodup_subset_length (distinct_nodup _) ?_
        intro y hy
        rw [mem_distinct] at hy
        rcases List.mem_append.mp hy with hy | hy
        · refine List.mem_cons_of_mem _ ?_
          unfold Ix.cands
          rw [mem_distinct]
          exact List.mem_append_left _ hy
        · rw [hall y hy]; exact List.mem_cons_self
      rw [List.length_cons] at hsub
      omega

/-- One removal: the flag of the row is cleared, nothing else changes. -/
theorem C69_remove (s : Ix V) (h : Inv s) (id : Nat) (hid : id < s.vecs.length) (h2 : 2 ≤ s.vecs.length) :
    ∃ s', s.remove id = some s' ∧ Inv s' ∧ s'.abs = s.abs.modify id (fun x => (x.1, false)) ∧ s'.g = s.g ∧ s'.maxNbrs = s.maxNbrs := by
  have hr := h.core.graph.rows
  have hrow : ∀ u, u < s.vecs.length → nbrs s.g.rows u ≠ [] := by
    rcases h.row with hr | ⟨h1, _⟩
    · exact hr
    · omega
  obtain ⟨row, hrw⟩ : ∃ row, s.g.rows[id]? = some row := ⟨_, List.getElem?_eq_getElem (by omega)⟩
  have hnb : nbrs s.g.rows id = row.takeWhile (· ≠ noId) := nbrs_row hrw
  obtain ⟨a, b, c, e⟩ := pushRow_spec id row s.removedNbrs
  have hlook := e (by rw [← hnb]; exact hrow id hid)
  have hll := h.core.live
  unfold Ix.remove
  rw [hrw]
  refine ⟨_, rfl, ⟨⟨h.core.graph, h.core.small, by simpa using h.core.live, h.core.pos, ?_, ?_, h.core.key, h.core.ins, h.core.over,
    h.core.seeds⟩, h.idle, ?_, .inl hrow⟩, ?_, rfl, rfl⟩
  · intro v hv
    rcases List.mem_cons.mp hv with rfl | hv
    · exact ⟨hid, hlook⟩
    · obtain ⟨x, l, y⟩ := h.core.rem v hv
      refine ⟨x, ?_⟩
      by_cases hv2 : v = id
      · subst hv2; exact hlook
      · exact ⟨l, by simp only; rw [a v hv2]; exact y⟩
  · intro k l hl v hv
    by_cases hk : k = id
    · subst hk
      rcases b l hl v hv with hx | ⟨l0, hx, hy⟩
      · rw [← hnb] at hx; exact h.core.graph.edge k hid v hx
      · exact h.core.nbr k l0 hx v hy
    · simp only at hl
      rw [a k hk] at hl
      exact h.core.nbr k l hl v hv
  · intro u hu
    simp only
    rw [List.getD_eq_getElem?_getD]
    by_cases hu2 : u = id
    · subst hu2
      rw [List.getElem?_set_self (by omega)]
      simp
    · rw [List.getElem?_set_ne (Ne.symm hu2), ← List.getD_eq_getElem?_getD]
      exact h.gone u ((List.mem_cons.mp hu).resolve_left hu2)
  · unfold Ix.abs
    exact zip_set _ _ _ _

/-- Every proper history ends without exception or undefined behaviour; the index then holds exactly what the specification says, the
insertions have returned the ids it says, and the index is in order again (so every search on it is sound, `C69_search`).
`_partial`: reachability of the rows is not claimed, see the counterexamples below. -/
theorem C69_history_partial (ho : ∀ l, (ord l).Perm l) (ops : List (Op V)) : ∀ (s : Ix V), Inv s →
    proper s.g.rows.length s.maxNbrs ops s.vecs.length →
    ∃ s', (∀ extra, s.run near ord (s.g.rows.length + 1 + extra) ops =
        some (some (s', (contents s.g.rows.length ops s.abs).2))) ∧
      Inv s' ∧ s'.abs = (contents s.g.rows.length ops s.abs).1 ∧ s'.g.rows.length = s.g.rows.length := by
  induction ops with
  | nil => intro s h _; exact ⟨s, fun _ => rfl, h, rfl, rfl⟩
  | cons op ops ih =>
    intro s h hp
    have hr := h.core.graph.rows
    have habs : s.abs.length = s.vecs.length := by
      unfold Ix.abs
      rw [List.length_zip, h.core.live]
      omega
    cases op with
    | insert q ef =>
      obtain ⟨hef, hp⟩ := hp
      obtain ⟨hfull, hroom⟩ := C69_insert (near := near) ho s h q ef hef
      by_cases hc : s.vecs.length < s.g.rows.length
      · rw [if_pos hc] at hp
        obtain ⟨s1, i1, a1, l1, m1, e1, -⟩ := hroom hc
        have hv1 : s1.vecs.length = s.vecs.length + 1 := by
          have := congrArg List.length a1
          rw [List.length_append, habs] at this
          unfold Ix.abs at this
          rw [List.length_zip, i1.core.live] at this
          simp at this
          omega
        obtain ⟨s', e2, i2, a2, l2⟩ := ih s1 i1 (by rw [l1, m1, hv1]; exact hp)
        rw [l1, a1] at a2 e2
        refine ⟨s', ?_, i2, ?_, by rw [l2, l1]⟩
        · intro extra
          unfold Ix.run
          have := e1 (s.g.rows.length - s.vecs.length + extra)
          rw [show s.vecs.length + 1 + (s.g.rows.length - s.vecs.length + extra) = s.g.rows.length + 1 + extra by omega] at this
          rw [this]
          simp only
          rw [e2 extra]
          simp only [contents, habs, if_pos hc]
        · rw [a2]
          simp only [contents, habs, if_pos hc]
      · rw [if_neg hc] at hp
        obtain ⟨s', e2, i2, a2, l2⟩ := ih s h hp
        refine ⟨s', ?_, i2, ?_, l2⟩
        · intro extra
          unfold Ix.run
          have := hfull (by omega) (s.g.rows.length - s.vecs.length + extra)
          rw [show s.vecs.length + 1 + (s.g.rows.length - s.vecs.length + extra) = s.g.rows.length + 1 + extra by omega] at this
          rw [this]
          simp only
          rw [e2 extra]
          simp only [contents, habs, if_neg hc]
        · rw [a2]
          simp only [contents, habs, if_neg hc]
    | remove id =>
      obtain ⟨hid, h2, hp⟩ := hp
      obtain ⟨s1, e1, i1, a1, g1, m1⟩ := C69_remove s h id hid h2
      have hv1 : s1.vecs.length = s.vecs.length := by
        have := congrArg List.length a1
        rw [List.length_modify, habs] at this
        unfold Ix.abs at this
        rw [List.length_zip, i1.core.live] at this
        omega
      obtain ⟨s', e2, i2, a2, l2⟩ := ih s1 i1 (by rw [g1, m1, hv1]; exact hp)
      rw [g1, a1] at a2 e2
      refine ⟨s', ?_, i2, a2, by rw [l2, g1]⟩
      intro extra
      unfold Ix.run
      rw [e1]
      exact e2 extra

/-- The distance the search uses for row `u`. -/
theorem near_removed (s : Ix V) (q : V) {u : Nat} (h : s.live.getD u false = false) : s.near d fmax q u = fmax := by
  unfold Ix.near
  rw [h]

/-- A search after any history is sound, and the removed rows, if any are returned, come after all others. -/
theorem C69_search (s : Ix V) (h : Inv s) (q : V) (topk ef : Nat) (hef : 0 < ef) (hk : topk ≤ ef)
    (hfin : ∀ v, d q v < fmax) :
    ∃ (S : List Nat) (hits : List (Nat × Int)), Sound s.g.rows S (s.near d fmax q) topk (padded topk hits) ∧
      (∀ extra, s.search (Ix.near d fmax) q topk ef (s.vecs.length + 1 + extra) = some (some (padded topk hits))) ∧ hits.length ≤ topk ∧
      hits.Pairwise (fun a b => s.live.getD b.1 false = true → s.live.getD a.1 false = true) := by
  obtain ⟨S, out, _, e, hsound, _⟩ := C67_search_sound s.g s.vecs.length h.core.graph (s.near d fmax q) topk ef hef hk
  obtain ⟨hits, ho, hl, hnd, hs, hr⟩ := hsound.split
  have hseen : ∀ x ∈ hits, x.1 < s.vecs.length := by
    obtain ⟨S', st, popped, e', hm, _, _, ha, hb⟩ := walk_spec h.core.graph (s.near d fmax q) hef
    have he := e 0
    unfold solo at he
    rw [if_neg (by omega), e' 0] at he
    simp only [Option.some.injEq] at he
    rw [ho] at he
    intro x hx
    have hx' : (x.1, some x.2) ∈ padded topk (st.pool.entries.take (min st.pool.size topk)) := by
      rw [he]; exact List.mem_append_left _ (List.mem_map.mpr ⟨x, hx, rfl⟩)
    unfold padded at hx'
    rcases List.mem_append.mp hx' with hx' | hx'
    · obtain ⟨y, hy, hxy⟩ := List.mem_map.mp hx'
      obtain ⟨t, ht, rfl⟩ := List.mem_map.mp (Best.mem hm.q.best (List.mem_of_mem_take hy))
      have : t = x.1 := congrArg Prod.fst hxy
      rw [← this]; exact hm.lt t ht
    · have := (List.mem_replicate.mp hx').2
      simp at this
  subst ho
  refine ⟨S, hits, hsound, e, hl, ?_⟩
  refine hs.imp_of_mem ?_
  intro a b ha hb hab hlb
  rw [(hr a ha).2, (hr b hb).2] at hab
  cases hla : s.live.getD a.1 false with
  | true => rfl
  | false =>
    rw [near_removed s q hla] at hab
    have : s.near d fmax q b.1 < fmax := by
      unfold Ix.near
      rw [hlb]
      obtain ⟨v, hv⟩ : ∃ v, s.vecs[b.1]? = some v := ⟨_, List.getElem?_eq_getElem (hseen b hb)⟩
      rw [hv]
      exact hfin v
    omega

/-- If the graph is strongly connected, `ef` covers it, and there are at least `topk` rows left, the answer consists of the `topk`
nearest rows that have not been removed. -/
theorem C69_search_exact (s : Ix V) (h : Inv s) (q : V) (topk ef : Nat) (hk : topk ≤ ef) (hfe : s.vecs.length ≤ ef)
    (hfin : ∀ v, d q v < fmax) (hc : ∀ u v, u < s.vecs.length → v < s.vecs.length → Reach s.g.rows [u] v)
    (hlive : topk ≤ ((List.range s.vecs.length).filter (fun u => s.live.getD u false)).length) :
    ∃ hits : List (Nat × Int), (∀ extra, s.search (Ix.near d fmax) q topk ef (s.vecs.length + 1 + extra) =
        some (some (hits.map (fun h => (h.1, some h.2))))) ∧
      Best (fun a b => a.2 ≤ b.2) topk hits
        (((List.range s.vecs.length).filter (fun u => s.live.getD u false)).map (fun u => (u, s.near d fmax q u))) := by
  obtain ⟨out, e, hits, ho, hsort, hlen, rest, hp, hr⟩ := C67_exact_when_connected s.g s.vecs.length h.core.graph h.core.seeds.1
    (s.near d fmax q) topk ef hk hfe hc h.core.seeds.2
  rw [List.length_map, List.length_range] at hlen
  have hle : ((List.range s.vecs.length).filter (fun u => s.live.getD u false)).length ≤ s.vecs.length := by
    have := List.length_filter_le (fun u => s.live.getD u false) (List.range s.vecs.length)
    simpa using this
  have hlen' : hits.length = topk := by omega
  have hval : ∀ x ∈ hits ++ rest, x.1 < s.vecs.length ∧ x.2 = s.near d fmax q x.1 := by
    intro x hx
    obtain ⟨t, ht, rfl⟩ := List.mem_map.mp (hp.mem_iff.mpr hx)
    exact ⟨List.mem_range.mp ht, rfl⟩
  have hnear : ∀ x ∈ hits ++ rest, s.live.getD x.1 false = true → x.2 < fmax := by
    intro x hx hl
    rw [(hval x hx).2]
    unfold Ix.near
    rw [hl]
    obtain ⟨v, hv⟩ : ∃ v, s.vecs[x.1]? = some v := ⟨_, List.getElem?_eq_getElem (hval x hx).1⟩
    rw [hv]
    exact hfin v
  -- the live rows, as a permutation of the live part of hits and rest
  have hp2 : (((List.range s.vecs.length).filter (fun u => s.live.getD u false)).map (fun u => (u, s.near d fmax q u))).Perm
      (hits.filter (fun x => s.live.getD x.1 false) ++ rest.filter (fun x => s.live.getD x.1 false)) := by
    have := hp.filter (fun x => s.live.getD x.1 false)
    rw [List.filter_append, List.filter_map] at this
    exact this
  have hall : ∀ x ∈ hits, s.live.getD x.1 false = true := by
    intro x hx
    cases hlx : s.live.getD x.1 false with
    | true => rfl
    | false =>
      exfalso
      have hx2 : x.2 = fmax := by rw [(hval x (List.mem_append_left _ hx)).2, near_removed s q hlx]
      have hrest : rest.filter (fun x => s.live.getD x.1 false) = [] := by
        rw [List.filter_eq_nil_iff]
        intro r hr' hlr
        have h1 : r.2 < fmax := hnear r (List.mem_append_right _ hr') (by simpa using hlr)
        have h2 : x.2 ≤ r.2 := hr r hr' x hx
        omega
      have hcount := hp2.length_eq
      rw [hrest, List.append_nil, List.length_map] at hcount
      have hlt : (hits.filter (fun x => s.live.getD x.1 false)).length < hits.length := by
        rw [List.length_filter_lt_length_iff_exists]
        exact ⟨x, hx, by rw [hlx]; simp⟩
      omega
  have hfh : hits.filter (fun x => s.live.getD x.1 false) = hits := List.filter_eq_self.mpr (by intro x hx; simpa using hall x hx)
  rw [hfh] at hp2
  refine ⟨hits, ?_, hsort, ?_, rest.filter (fun x => s.live.getD x.1 false), hp2, ?_⟩
  · intro extra
    unfold Ix.search
    rw [e extra, ho, hlen', Nat.sub_self]
    simp
  · rw [List.length_map]; omega
  · intro r hr' x hx
    exact hr r (List.mem_filter.mp hr').1 x hx

/-! ### What does not hold -/

/-- An index over the integers. -/
def exIx (rows : List (List Nat)) (vecs : List Int) : Ix Int :=
  ⟨⟨rows, [0], none⟩, vecs.map (fun _ => true), vecs, 2, [], [], []⟩

def exDist (a b : Int) : Int := (a - b).natAbs

/-- What a search for `q` returns after a history. -/
def after (s : Ix Int) (ops : List (Op Int)) (q : Int) (topk ef : Nat) : Option (Option (List (Nat × Option Int))) :=
  match s.run (Ix.near exDist 1000) id 20 ops with
  | some (some (s', _)) => s'.search (Ix.near exDist 1000) q topk ef 20
  | _ => none

/-- One vector, removed, then another one inserted: the search finds the removed row and never the new one, because the row of the
removed node, the only entry, is not updated any more. -/
theorem C69_insert_after_removal_lost_refuted :
    after (exIx [[noId, noId], [noId, noId], [noId, noId]] [0]) [.remove 0, .insert 5 2] 5 2 10 = some (some [(0, some 1000), (4294967295, none)]) := by
  decide +kernel

/-- A vector far from the others is inserted successfully and cannot be found: its neighbours have nearer neighbours. -/
theorem C69_inserted_unreachable_refuted :
    after (exIx [[1, 2], [0, 2], [0, 1], [noId, noId]] [0, 1, 2]) [.insert 100 2] 100 1 10 = some (some [(2, some 98)]) := by decide +kernel

/-- An insertion makes another vector unreachable: row 2 with vector 10 was found before and is not found afterwards. -/
theorem C69_insert_disconnects_refuted :
    after (exIx [[1, 2], [0, noId], [0, noId], [noId, noId]] [0, 1, 10]) [] 10 1 10 = some (some [(2, some 0)]) ∧
    after (exIx [[1, 2], [0, noId], [0, noId], [noId, noId]] [0, 1, 10]) [.insert 2 2] 10 1 10 = some (some [(3, some 8)]) := by decide +kernel

/-- A row with room is filled up with edges to node 0, here an edge from node 0 to itself. -/
theorem C69_padding_refuted :
    (match (exIx [[noId, noId], [noId, noId], [noId, noId]] [0]).insert (Ix.near exDist 1000) id 5 2 20 with
      | some (some (s, _)) => s.g.rows
      | _ => []) = [[1, 0], [0, noId], [noId, noId]] := by decide +kernel

/-- A removed row is returned when fewer than `topk` others can be. -/
theorem C69_removed_returned_refuted :
    after (exIx [[1, 2], [0, 2], [0, 1]] [0, 1, 2]) [.remove 1] 1 3 10 = some (some [(0, some 1), (2, some 1), (1, some 1000)]) := by
  decide +kernel

/-- Removing an id that has not been handed out yet makes a later insertion throw after it has stored its row. -/
theorem C69_remove_unknown_refuted :
    (exIx [[noId, noId], [noId, noId], [noId, noId]] [0]).run (Ix.near exDist 1000) id 20 [.remove 1, .insert 5 2, .insert 7 2] = some none := by
  decide +kernel

/-! ### A concrete case -/

theorem exIx_inv : Inv (exIx [[1, 2], [0, 2], [0, 1], [noId, noId], [noId, noId]] [0, 1, 2]) := by
  have hn : ∀ u, u < 3 → nbrs [[1, 2], [0, 2], [0, 1], [noId, noId], [noId, noId]] u = [[1, 2], [0, 2], [0, 1]].getD u [] := by
    intro u hu
    have : u = 0 ∨ u = 1 ∨ u = 2 := by omega
    rcases this with rfl | rfl | rfl <;> rfl
  refine ⟨⟨⟨by decide, by decide, ?_, by decide, by simp [exIx]⟩, by decide, by decide, by decide, by simp [exIx], by simp [exIx], by simp [exIx],
    by simp [exIx], by simp [exIx], by decide, by simp [exIx]⟩, rfl, ?_, .inl ?_⟩
  · intro u hu v hv
    have hu' : u < 3 := hu
    have hv' : v ∈ nbrs [[1, 2], [0, 2], [0, 1], [noId, noId], [noId, noId]] u := hv
    rw [hn u hu'] at hv'
    show v < 3
    have : u = 0 ∨ u = 1 ∨ u = 2 := by omega
    rcases this with rfl | rfl | rfl <;> simp at hv' <;> omega
  · intro u hu
    cases hu
  · intro u hu
    have hu' : u < 3 := hu
    show nbrs [[1, 2], [0, 2], [0, 1], [noId, noId], [noId, noId]] u ≠ []
    rw [hn u hu']
    have : u = 0 ∨ u = 1 ∨ u = 2 := by omega
    rcases this with rfl | rfl | rfl <;> simp

example : proper 5 2 [Op.insert (3 : Int) 4, .remove 1, .insert 4 2, .insert 5 2] 3 := by simp [proper]
example : contents 5 [Op.insert (3 : Int) 4, .remove 1, .insert 4 2, .insert 5 2] [(0, true), (1, true), (2, true)] =
    ([(0, true), (1, false), (2, true), (3, true), (4, true)], [some 3, some 4, none]) := by decide
/-- The new rows are found, the removed one is not. -/
example : after (exIx [[1, 2], [0, 2], [0, 1], [noId, noId], [noId, noId]] [0, 1, 2]) [.insert 3 4, .remove 1, .insert 4 2] 4 4 10 =
    some (some [(4, some 0), (3, some 1), (2, some 2), (0, some 4)]) := by decide +kernel

end Alaya.GraphUpdate
