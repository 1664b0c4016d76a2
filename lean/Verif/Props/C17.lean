import Verif.Lemmas.RocksStoreOps

/-! C17: the scalar store behaves like a map from internal id to record. -/
namespace Alaya
open Spec

/-- A small history: insert, refused duplicate item id, batch, update of an existing record, remove. -/
def sampleOps : List StoreOp :=
  [.insert 3 ⟨str "x", [], [(str "c", .int 1#64)]⟩,
   .insert 4 ⟨str "x", [], []⟩,
   .batchInsert 5 [⟨str "y", str "t", []⟩, ⟨[], [], []⟩],
   .update 3 ⟨str "z", [], [(str "c", .int 2#64)]⟩,
   .remove 9, .flush, .remove 5, .reopen]

/-- Configuration used in the examples: 32-bit ids, field "c" indexed. -/
def sampleCfg : StoreCfg := ⟨cfg32, [str "c"]⟩

theorem sampleOps_ok : ∀ op ∈ sampleOps, OpOk sampleCfg op := by
  have hst : ∀ (i d : Bytes) (m : MetaMap), i.length < 2 ^ 32 → d.length < 2 ^ 32 →
      (m = [] ∨ ∃ v, m = [(str "c", .int v)]) → Storable ⟨i, d, m⟩ := by
    intro i d m h1 h2 hm
    rcases hm with rfl | ⟨v, rfl⟩
    · exact ⟨h1, h2, by simp, by simp, by simp⟩
    · refine ⟨h1, h2, by simp, ?_, by simp⟩
      intro k w hk
      simp only [List.mem_singleton, Prod.mk.injEq] at hk
      obtain ⟨rfl, rfl⟩ := hk
      exact ⟨by decide, by simp⟩
  intro op hop
  simp only [sampleOps, List.mem_cons, List.not_mem_nil, or_false] at hop
  rcases hop with rfl | rfl | rfl | rfl | rfl | rfl | rfl | rfl
  · exact ⟨by decide, hst _ _ _ (by decide) (by decide) (Or.inr ⟨_, rfl⟩)⟩
  · exact ⟨by decide, hst _ _ _ (by decide) (by decide) (Or.inl rfl)⟩
  · refine ⟨by decide, by decide, ?_⟩
    intro r hr
    simp only [List.mem_cons, List.not_mem_nil, or_false] at hr
    rcases hr with rfl | rfl
    · exact hst _ _ _ (by decide) (by decide) (Or.inl rfl)
    · exact hst _ _ _ (by decide) (by decide) (Or.inl rfl)
  · exact ⟨by decide, hst _ _ _ (by decide) (by decide) (Or.inr ⟨_, rfl⟩)⟩
  · exact (by decide : (9 : Nat) < sampleCfg.id.bound)
  · trivial
  · exact (by decide : (5 : Nat) < sampleCfg.id.bound)
  · trivial

/-- The invariant of the store: the database represents a map and one call keeps that, returns what the
abstract operation returns, and changes nothing when it reports failure.  `s` is any represented store, in
particular one with rows under legacy keys. -/
theorem C17_step_refines (cfg : StoreCfg) (hc : cfg.id.Ok) (s : Store) (m : RecordMap)
    (h : Represents cfg s m) (op : StoreOp) (hop : OpOk cfg op) (hl : m.length < 2 ^ 64) :
    ∃ s', s.step cfg op = .ok (s', (m.apply cfg.id.bound op).2) ∧
      Represents cfg s' (m.apply cfg.id.bound op).1 ∧ ((m.apply cfg.id.bound op).2 = false → s' = s) :=
  step_refines hc h op hop hl

example : Represents sampleCfg Store.empty [] := repr_empty _

/-- Every history on a fresh store: the calls return what the abstract map returns (no exception, no
undefined behaviour). -/
theorem C17_history_refines (cfg : StoreCfg) (hc : cfg.id.Ok) (ops : List StoreOp)
    (hok : ∀ op ∈ ops, OpOk cfg op) (hsz : (ops.map opSize).sum < 2 ^ 64) :
    ∃ s', Store.empty.run cfg ops = .ok (s', (RecordMap.applyAll cfg.id.bound [] ops).2) ∧
      Represents cfg s' (RecordMap.applyAll cfg.id.bound [] ops).1 :=
  run_refines hc ops (repr_empty cfg) hok (by simpa using hsz)

example : (∀ op ∈ sampleOps, OpOk sampleCfg op) ∧ (sampleOps.map opSize).sum < 2 ^ 64 ∧
    (RecordMap.applyAll (2 ^ 32) [] sampleOps).2 = [true, false, true, true, false, true, true, true] ∧
    (RecordMap.applyAll (2 ^ 32) [] sampleOps).1.map Prod.fst = [3, 6] :=
  ⟨sampleOps_ok, by decide, by decide, by decide⟩

/-- What the reads return in a represented state. -/
theorem C17_reads (cfg : StoreCfg) (s : Store) (m : RecordMap) (h : Represents cfg s m) (id : Nat)
    (hid : id < cfg.id.bound) :
    s.at cfg id = .ok ((m.get id).getD ⟨[], [], []⟩) ∧
    s.isValid cfg id = (m.get id).isSome ∧
    s.batchGetOne cfg id = .ok ((m.get id).getD ⟨[], [], []⟩) ∧
    s.rawValue cfg id = ((m.get id).map ScalarData.serialize).getD [] ∧
    s.itemIdOnly cfg id = ((m.get id).map (·.itemId)).getD [] :=
  ⟨at_spec h.rel hid, isValid_spec h.rel hid, batchGetOne_spec h.rel hid, rawValue_spec h.rel hid,
    itemIdOnly_spec h.rel hid⟩

/-- `scan_with_filter` returns the matching records in ascending id order, cut at the limit. -/
theorem C17_scan (cfg : StoreCfg) (hc : cfg.id.Ok) (s : Store) (m : RecordMap) (h : Represents cfg s m)
    (p : ScalarData → Bool) (limit : Nat) :
    s.scan cfg p limit = .ok (if limit = 0 then m.filter (fun e => p e.2)
      else (m.filter fun e => p e.2).take limit) := scan_spec hc h.rel p limit

/-- A database written by an old version (row under the unpadded key). -/
def legacyDb : Store := Store.openDb [(str "__COUNT__", leBytes 8 1),
  (str "d_7", ScalarData.serialize ⟨[], str "q", []⟩)]

/-- Legacy rows are represented, so the theorems above apply to such databases too. -/
example : Represents ⟨cfg32, []⟩ legacyDb [(7, ⟨[], str "q", []⟩)] := by
  have hkv : legacyDb.kv = [(countKey, leBytes 8 1), (legacyKey 7, ScalarData.serialize ⟨[], str "q", []⟩)] := by
    decide
  have hget : ∀ k, legacyDb.kv.get k = if countKey = k then some (leBytes 8 1)
      else if legacyKey 7 = k then some (ScalarData.serialize ⟨[], str "q", []⟩) else none := by
    intro k; rw [hkv]; rfl
  have hm : ∀ id, RecordMap.get [(7, ⟨[], str "q", []⟩)] id = if 7 = id then some ⟨[], str "q", []⟩ else none := by
    intro id; rfl
  have hc := cfg32_ok
  refine ⟨⟨?_, ?_, ?_, ?_, ?_, ?_, ?_, ?_⟩, by decide⟩
  · rw [hkv]; unfold KV.Sorted; rw [List.pairwise_cons]
    exact ⟨by intro e he; simp only [List.mem_singleton] at he; subst he; decide, by simp⟩
  · unfold RecordMap.Asc; simp
  · intro id r h
    rw [hm] at h
    split at h
    · rename_i he; subst he; injection h with h; subst h
      exact ⟨by decide, ⟨by decide, by decide, by decide, by simp, by simp⟩⟩
    · simp at h
  · intro id hid h
    rw [hm] at h
    split at h
    · simp at h
    · rename_i hne
      rw [hget, hget]
      rw [if_neg (ne_of_head countKey_head (dataKey_head cfg32 id) (by decide)),
        if_neg (fun he => hne (dataKey_legacyKey hc hid (by decide) he.symm).symm),
        if_neg (ne_of_head countKey_head (legacyKey_head id) (by decide)),
        if_neg (fun he => hne (legacyKey_inj he))]
      exact ⟨rfl, rfl⟩
  · intro id r h
    rw [hm] at h
    split at h
    · rename_i he; subst he; injection h with h; subst h
      right; exact ⟨by decide, by decide⟩
    · simp at h
  · intro s v
    rw [hget, if_neg (ne_of_head countKey_head (itemKey_head s) (by decide)),
      if_neg (ne_of_head (legacyKey_head 7) (itemKey_head s) (by decide))]
    constructor
    · intro h; simp at h
    · rintro ⟨id, r, h1, h2, h3, _⟩
      rw [hm] at h1
      split at h1
      · injection h1 with h1; subst h1; exact absurd h2.symm h3
      · simp at h1
  · intro k v hk
    rw [hget, if_neg (ne_of_head countKey_head hk (by decide)),
      if_neg (ne_of_head (legacyKey_head 7) hk (by decide))]
    constructor
    · intro h; simp at h
    · rintro ⟨_, id, r, _, h⟩; simp [fieldKeys] at h
  · intro k v hk
    rw [hget] at hk
    split at hk
    · rename_i he; exact Or.inr (Or.inr (Or.inr he.symm))
    · split at hk
      · rename_i he; exact Or.inl ⟨7, by decide, Or.inr he.symm⟩
      · simp at hk

end Alaya
