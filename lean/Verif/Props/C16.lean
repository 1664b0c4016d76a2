import Verif.Props.C17

/-! C16: item ids stay unique and resolvable. -/
namespace Alaya
open Spec

/-- After any history, two stored records with the same non-empty item id are the same record. -/
theorem C16_item_ids_unique (cfg : StoreCfg) (hc : cfg.id.Ok) (ops : List StoreOp)
    (hok : ∀ op ∈ ops, OpOk cfg op) (hsz : (ops.map opSize).sum < 2 ^ 64) (s : Store) (rets : List Bool)
    (hrun : Store.empty.run cfg ops = .ok (s, rets)) (a b : Nat) (ha : a < cfg.id.bound)
    (hb : b < cfg.id.bound) (r r' : ScalarData) (hra : s.at cfg a = .ok r) (hrb : s.at cfg b = .ok r')
    (hitem : r.itemId = r'.itemId) (hne : r.itemId ≠ []) : a = b := by
  obtain ⟨s', h1, h2⟩ := C17_history_refines cfg hc ops hok hsz
  rw [hrun] at h1
  injection h1 with h1
  rw [Prod.mk.injEq] at h1
  obtain ⟨rfl, _⟩ := h1
  rw [at_spec h2.rel ha] at hra
  rw [at_spec h2.rel hb] at hrb
  injection hra with hra
  injection hrb with hrb
  cases hma : RecordMap.get (RecordMap.applyAll cfg.id.bound [] ops).1 a with
  | none => rw [hma] at hra; subst hra; exact absurd rfl hne
  | some x =>
    cases hmb : RecordMap.get (RecordMap.applyAll cfg.id.bound [] ops).1 b with
    | none => rw [hmb] at hrb; subst hrb; exact absurd hitem hne
    | some y =>
      rw [hma] at hra; rw [hmb] at hrb
      simp only [Option.getD_some] at hra hrb
      subst hra; subst hrb
      exact h2.rel.owner_unique hma hmb hitem hne

/-- After any history, `find_by_item_id` finds `a` exactly when `a` currently holds a record with this
(non-empty) item id; in particular it never returns a removed record. -/
theorem C16_find_exact (cfg : StoreCfg) (hc : cfg.id.Ok) (ops : List StoreOp)
    (hok : ∀ op ∈ ops, OpOk cfg op) (hsz : (ops.map opSize).sum < 2 ^ 64) (s : Store) (rets : List Bool)
    (hrun : Store.empty.run cfg ops = .ok (s, rets)) (item : Bytes) (a : Nat) :
    findByItemId cfg.id s.kv item = some a ↔
      item ≠ [] ∧ a < cfg.id.bound ∧ s.isValid cfg a = true ∧
        ∃ r, s.at cfg a = .ok r ∧ r.itemId = item := by
  obtain ⟨s', h1, h2⟩ := C17_history_refines cfg hc ops hok hsz
  rw [hrun] at h1
  injection h1 with h1
  rw [Prod.mk.injEq] at h1
  obtain ⟨rfl, _⟩ := h1
  rw [h2.rel.findByItemId]
  constructor
  · rintro ⟨r, h3, h4, h5⟩
    have hb := (h2.rel.ids a r h3).1
    refine ⟨h5, hb, ?_, r, ?_, h4⟩
    · rw [isValid_spec h2.rel hb, h3]; rfl
    · rw [at_spec h2.rel hb, h3]; rfl
  · rintro ⟨h5, hb, h6, r, h7, h4⟩
    rw [isValid_spec h2.rel hb] at h6
    rw [at_spec h2.rel hb] at h7
    obtain ⟨x, hx⟩ := Option.isSome_iff_exists.1 h6
    rw [hx] at h7
    injection h7 with h7
    simp only [Option.getD_some] at h7
    subst h7
    exact ⟨x, hx, h4, h5⟩

-- the sample history of C17 meets the hypotheses; at its end "z" is found and "x", "y" are not
example : ∃ s rets, Store.empty.run sampleCfg sampleOps = .ok (s, rets) ∧
    findByItemId cfg32 s.kv (str "z") = some 3 ∧ findByItemId cfg32 s.kv (str "x") = none ∧
    findByItemId cfg32 s.kv (str "y") = none := by
  obtain ⟨s', h1, h2⟩ := C17_history_refines sampleCfg cfg32_ok sampleOps sampleOps_ok (by decide)
  refine ⟨s', _, h1, ?_, ?_, ?_⟩
  · rw [show cfg32 = sampleCfg.id from rfl, findByItemId_spec h2.rel]; decide
  · rw [show cfg32 = sampleCfg.id from rfl, findByItemId_spec h2.rel]; decide
  · rw [show cfg32 = sampleCfg.id from rfl, findByItemId_spec h2.rel]; decide

/-- An insert or update whose item id belongs to another record is refused and changes nothing. -/
theorem C16_duplicate_refused (cfg : StoreCfg) (hc : cfg.id.Ok) (s : Store) (m : RecordMap)
    (h : Represents cfg s m) (id o : Nat) (hid : id < cfg.id.bound) (r x : ScalarData) (hr : Storable r)
    (hx : m.get o = some x) (hox : o ≠ id) (hi : x.itemId = r.itemId) (hne : r.itemId ≠ []) :
    s.insert cfg id r = .ok (s, false) ∧ s.update cfg id r = .ok (s, false) := by
  have hf : m.itemFree r.itemId id = false := by
    rw [Bool.eq_false_iff]
    intro ht
    rw [RecordMap.itemFree_iff h.rel.asc] at ht
    rcases ht with ht | ht
    · exact hne ht
    · exact hox (ht o x hx hi)
  constructor
  · obtain ⟨s', h1, _, h3⟩ := insert_refines hc h hid hr
    have : (m.insert id r).2 = false := by unfold RecordMap.insert; rw [hf]; rfl
    rw [this] at h1 h3; rw [h3 rfl] at h1; exact h1
  · obtain ⟨s', h1, _, h3⟩ := update_refines hc h hid hr
    have : (m.update id r).2 = false := by unfold RecordMap.update; rw [hf]; simp
    rw [this] at h1 h3; rw [h3 rfl] at h1; exact h1

example : RecordMap.get [(3, ⟨str "x", [], []⟩)] 3 = some ⟨str "x", [], []⟩ ∧ (3 : Nat) ≠ 4 := by decide

end Alaya
