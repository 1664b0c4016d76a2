import Verif.Props.C17

/-! C19: the secondary index stays consistent with the records. -/
namespace Alaya
open Spec

/-- After every history, a key of the field-index key space (first byte 'f') is in the database exactly when a
stored record generates it: some indexed field `f` of the record at `id` has value `v` and the key is
`f_{f}_{enc v}_{id}`. -/
theorem C19_field_index_exact (cfg : StoreCfg) (hc : cfg.id.Ok) (ops : List StoreOp)
    (hok : ∀ op ∈ ops, OpOk cfg op) (hsz : (ops.map opSize).sum < 2 ^ 64) (s : Store) (rets : List Bool)
    (hrun : Store.empty.run cfg ops = .ok (s, rets)) (k : Bytes) (hk : k.head? = some 102) :
    (s.kv.get k).isSome ↔
      ∃ id f v r, id < cfg.id.bound ∧ s.isValid cfg id = true ∧ s.at cfg id = .ok r ∧ f ∈ cfg.fields ∧
        r.metadata.get f = some v ∧ k = fieldIndexKey f (encodeValue v) id := by
  obtain ⟨s', h1, h2⟩ := C17_history_refines cfg hc ops hok hsz
  rw [hrun] at h1
  injection h1 with h1
  rw [Prod.mk.injEq] at h1
  obtain ⟨rfl, _⟩ := h1
  constructor
  · intro hs
    obtain ⟨v, hv⟩ := Option.isSome_iff_exists.1 hs
    obtain ⟨_, id, r, hg, hf⟩ := (h2.rel.field k v hk).1 hv
    obtain ⟨f, w, h3, h4, h5⟩ := mem_fieldKeys.1 hf
    have hb := (h2.rel.ids id r hg).1
    exact ⟨id, f, w, r, hb, by rw [isValid_spec h2.rel hb, hg]; rfl,
      by rw [at_spec h2.rel hb, hg]; rfl, h3, h4, h5⟩
  · rintro ⟨id, f, w, r, hb, h6, h7, h3, h4, h5⟩
    rw [isValid_spec h2.rel hb] at h6
    rw [at_spec h2.rel hb] at h7
    obtain ⟨x, hx⟩ := Option.isSome_iff_exists.1 h6
    rw [hx] at h7
    injection h7 with h7
    simp only [Option.getD_some] at h7
    subst h7
    rw [(h2.rel.field k [] hk).2 ⟨rfl, id, x, hx, mem_fieldKeys.2 ⟨f, w, h3, h4, h5⟩⟩]
    rfl

-- the sample history of C17: the key of the old value is gone, the key of the new value is there
example : ∃ s rets, Store.empty.run sampleCfg sampleOps = .ok (s, rets) ∧
    s.kv.get (fieldIndexKey (str "c") (encodeValue (.int 1#64)) 3) = none ∧
    s.kv.get (fieldIndexKey (str "c") (encodeValue (.int 2#64)) 3) = some [] := by
  obtain ⟨s', h1, h2⟩ := C17_history_refines sampleCfg cfg32_ok sampleOps sampleOps_ok (by decide)
  refine ⟨s', _, h1, ?_, ?_⟩
  · cases hg : s'.kv.get (fieldIndexKey (str "c") (encodeValue (.int 1#64)) 3) with
    | none => rfl
    | some v =>
      obtain ⟨_, id, r, hm, hf⟩ := (h2.rel.field _ v (fieldIndexKey_head _ _ _)).1 hg
      obtain ⟨f, w, h3, h4, h5⟩ := mem_fieldKeys.1 hf
      have hid := fieldIndexKey_id_inj h5
      subst hid
      rw [show RecordMap.get (RecordMap.applyAll sampleCfg.id.bound [] sampleOps).1 3
        = some ⟨str "z", [], [(str "c", .int 2#64)]⟩ by decide] at hm
      injection hm with hm; subst hm
      simp only [sampleCfg, List.mem_singleton] at h3
      subst h3
      rw [show MetaMap.get [(str "c", MetaValue.int 2#64)] (str "c") = some (.int 2#64) by decide] at h4
      injection h4 with h4; subst h4
      exact absurd h5 (by decide)
  · exact (h2.rel.field _ [] (fieldIndexKey_head _ _ _)).2 ⟨rfl, 3, ⟨str "z", [], [(str "c", .int 2#64)]⟩,
      by decide, mem_fieldKeys.2 ⟨str "c", .int 2#64, by decide, by decide, rfl⟩⟩

end Alaya
