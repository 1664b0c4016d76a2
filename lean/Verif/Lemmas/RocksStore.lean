import Verif.Model.RocksStore
import Verif.Lemmas.RocksKeys
import Verif.Lemmas.RecordMap
import Verif.Props.C03

namespace Alaya
open Spec

/-- The database represents the abstract map. -/
structure Rel (cfg : StoreCfg) (kv : KV) (m : RecordMap) : Prop where
  sorted : kv.Sorted
  asc : m.Asc
  ids : ∀ id r, m.get id = some r → id < cfg.id.bound ∧ Storable r
  absent : ∀ id, id < cfg.id.bound → m.get id = none →
    kv.get (dataKey cfg.id id) = none ∧ kv.get (legacyKey id) = none
  present : ∀ id r, m.get id = some r →
    (kv.get (dataKey cfg.id id) = some r.serialize ∧
      (legacyKey id ≠ dataKey cfg.id id → kv.get (legacyKey id) = none)) ∨
    (kv.get (dataKey cfg.id id) = none ∧ kv.get (legacyKey id) = some r.serialize)
  item : ∀ s v, kv.get (itemKey s) = some v ↔
    ∃ id r, m.get id = some r ∧ r.itemId = s ∧ s ≠ [] ∧ v = leBytes cfg.id.size id
  field : ∀ k v, k.head? = some 102 → (kv.get k = some v ↔
    v = [] ∧ ∃ id r, m.get id = some r ∧ k ∈ fieldKeys cfg.fields id r)
  other : ∀ k v, kv.get k = some v →
    (∃ id, id < cfg.id.bound ∧ (k = dataKey cfg.id id ∨ k = legacyKey id)) ∨
    (∃ s, k = itemKey s) ∨ k.head? = some 102 ∨ k = countKey

/-! ### effect of the batches on a single key -/

theorem get_deleteItemIdx (kv : KV) (s k : Bytes) :
    (kv.write (deleteItemIdx s)).get k = if s ≠ [] ∧ k = itemKey s then none else kv.get k := by
  unfold deleteItemIdx
  by_cases h : s = []
  · simp [h, KV.write]
  · simp only [h, if_false, KV.write, List.foldl_cons, List.foldl_nil, KV.step, KV.get_del, ne_eq,
      not_false_iff, true_and]
    simp only [eq_comm]

theorem get_putItemIdx (c : IdCfg) (kv : KV) (s : Bytes) (id : Nat) (k : Bytes) :
    (kv.write (putItemIdx c s id)).get k
      = if s ≠ [] ∧ k = itemKey s then some (leBytes c.size id) else kv.get k := by
  unfold putItemIdx
  by_cases h : s = []
  · simp [h, KV.write]
  · simp only [h, if_false, KV.write, List.foldl_cons, List.foldl_nil, KV.step, KV.get_put, ne_eq,
      not_false_iff, true_and]
    simp only [eq_comm]

theorem get_optDel (kv : KV) (p : Prop) [Decidable p] (q k : Bytes) :
    (kv.write (if p then [.del q] else [])).get k = if p ∧ k = q then none else kv.get k := by
  by_cases h : p
  · simp only [h, if_true, KV.write, List.foldl_cons, List.foldl_nil, KV.step, KV.get_del, true_and]
    simp only [eq_comm]
  · simp [h, KV.write]

theorem get_del1 (kv : KV) (q k : Bytes) :
    (kv.write [.del q]).get k = if k = q then none else kv.get k := by
  simp only [KV.write, List.foldl_cons, List.foldl_nil, KV.step, KV.get_del]
  simp only [eq_comm]

theorem get_put1 (kv : KV) (q v k : Bytes) :
    (kv.write [.put q v]).get k = if k = q then some v else kv.get k := by
  simp only [KV.write, List.foldl_cons, List.foldl_nil, KV.step, KV.get_put]
  simp only [eq_comm]

theorem write_nil (kv : KV) : kv.write [] = kv := rfl

/-- Keys of an old row that a mutation removes. -/
def oldTouched (cfg : StoreCfg) (id : Nat) (old : Option (Bytes × ScalarData)) (k : Bytes) : Prop :=
  match old with
  | none => False
  | some p => k = p.1 ∨ (p.2.itemId ≠ [] ∧ k = itemKey p.2.itemId) ∨ k ∈ fieldKeys cfg.fields id p.2

instance (cfg : StoreCfg) (id : Nat) (old : Option (Bytes × ScalarData)) (k : Bytes) :
    Decidable (oldTouched cfg id old k) := by
  unfold oldTouched; split <;> infer_instance

/-- Content after a put of `new` at `id` replacing `old`. -/
def PostPut (cfg : StoreCfg) (kv kv' : KV) (id : Nat) (old : Option (Bytes × ScalarData))
    (new : ScalarData) : Prop :=
  ∀ k, kv'.get k =
    if k ∈ fieldKeys cfg.fields id new then some []
    else if new.itemId ≠ [] ∧ k = itemKey new.itemId then some (leBytes cfg.id.size id)
    else if k = dataKey cfg.id id then some new.serialize
    else if oldTouched cfg id old k then none
    else kv.get k

theorem postPut_insert (cfg : StoreCfg) (kv : KV) (id : Nat) (old : Option (Bytes × ScalarData))
    (new : ScalarData) : PostPut cfg kv (kv.write (insertOps cfg old id new)) id old new := by
  intro k
  unfold insertOps addFieldIndexes
  rw [KV.write_append, KV.write_puts, KV.write_append, get_putItemIdx, KV.write_append, get_put1]
  congr 2
  by_cases hd : k = dataKey cfg.id id
  · rw [if_pos hd, if_pos hd]
  · rw [if_neg hd, if_neg hd]
    cases old with
    | none => simp [oldTouched, write_nil]
    | some p =>
      simp only [oldTouched, removeFieldIndexes]
      rw [KV.write_append, KV.write_dels, KV.write_append, get_deleteItemIdx, get_optDel]
      by_cases h1 : k ∈ fieldKeys cfg.fields id p.2
      · simp [h1]
      · by_cases h2 : p.2.itemId ≠ [] ∧ k = itemKey p.2.itemId
        · simp [h2]
        · by_cases h3 : k = p.1
          · subst h3; simp [h1, h2, hd]
          · simp [h1, h2, h3]

theorem fieldKeys_head {fields : List Bytes} {id : Nat} {r : ScalarData} {k : Bytes}
    (h : k ∈ fieldKeys fields id r) : k.head? = some 102 := by
  unfold fieldKeys at h
  rw [List.mem_filterMap] at h
  obtain ⟨f, _, h⟩ := h
  cases hg : r.metadata.get f with
  | none => rw [hg] at h; simp at h
  | some v => rw [hg] at h; simp at h; rw [← h]; exact fieldIndexKey_head _ _ _

theorem mem_fieldKeys {fields : List Bytes} {id : Nat} {r : ScalarData} {k : Bytes} :
    k ∈ fieldKeys fields id r ↔
      ∃ f v, f ∈ fields ∧ r.metadata.get f = some v ∧ k = fieldIndexKey f (encodeValue v) id := by
  unfold fieldKeys
  rw [List.mem_filterMap]
  constructor
  · rintro ⟨f, hf, h⟩
    cases hg : r.metadata.get f with
    | none => rw [hg] at h; simp at h
    | some v => rw [hg] at h; simp at h; exact ⟨f, v, hf, hg, h.symm⟩
  · rintro ⟨f, v, hf, hg, rfl⟩
    exact ⟨f, hf, by rw [hg]; rfl⟩

theorem fieldKeys_id {fields : List Bytes} {a b : Nat} {r s : ScalarData} {k : Bytes}
    (h1 : k ∈ fieldKeys fields a r) (h2 : k ∈ fieldKeys fields b s) : a = b := by
  obtain ⟨f, v, _, _, rfl⟩ := mem_fieldKeys.1 h1
  obtain ⟨g, w, _, _, h⟩ := mem_fieldKeys.1 h2
  exact fieldIndexKey_id_inj h

/-! ### reading through the relation -/

theorem Rel.getData {cfg : StoreCfg} {kv : KV} {m : RecordMap} (h : Rel cfg kv m) {id : Nat}
    (hid : id < cfg.id.bound) :
    match m.get id with
    | none => Alaya.getData cfg.id kv id = none
    | some r => ∃ k, Alaya.getData cfg.id kv id = some (k, r.serialize) ∧
        ((k = dataKey cfg.id id ∧ kv.get (dataKey cfg.id id) ≠ none) ∨
          (k = legacyKey id ∧ kv.get (dataKey cfg.id id) = none)) := by
  unfold Alaya.getData
  cases hg : m.get id with
  | none =>
    obtain ⟨h1, h2⟩ := h.absent id hid hg
    simp [h1, h2]
  | some r =>
    rcases h.present id r hg with ⟨h1, _⟩ | ⟨h1, h2⟩
    · simp [h1]
    · have hne : legacyKey id ≠ dataKey cfg.id id := by
        intro he; rw [he, h1] at h2; simp at h2
      simp [h1, h2, hne]

/-- The old row as the operations see it. -/
theorem Rel.oldData {cfg : StoreCfg} {kv : KV} {m : RecordMap} (h : Rel cfg kv m) {id : Nat}
    (hid : id < cfg.id.bound) :
    match m.get id with
    | none => Alaya.oldData cfg.id kv id = .ok none
    | some r => ∃ k, Alaya.oldData cfg.id kv id = .ok (some (k, r)) ∧
        ((k = dataKey cfg.id id ∧ kv.get (dataKey cfg.id id) ≠ none) ∨
          (k = legacyKey id ∧ kv.get (dataKey cfg.id id) = none)) := by
  have hd := h.getData hid
  unfold Alaya.oldData
  cases hg : m.get id with
  | none => rw [hg] at hd; simp only at hd; rw [hd]
  | some r =>
    rw [hg] at hd
    obtain ⟨k, hk, hor⟩ := hd
    refine ⟨k, ?_, hor⟩
    rw [hk]
    have := C03_roundtrip r [] (h.ids id r hg).2
    rw [List.append_nil] at this
    simp only [this, PR.bind]

theorem Rel.findByItemId {cfg : StoreCfg} {kv : KV} {m : RecordMap} (h : Rel cfg kv m) (s : Bytes) (o : Nat) :
    Alaya.findByItemId cfg.id kv s = some o ↔ ∃ r, m.get o = some r ∧ r.itemId = s ∧ s ≠ [] := by
  unfold Alaya.findByItemId
  cases hg : kv.get (itemKey s) with
  | none =>
    simp only [reduceCtorEq, false_iff]
    rintro ⟨r, h1, h2, h3⟩
    have := (h.item s (leBytes cfg.id.size o)).2 ⟨o, r, h1, h2, h3, rfl⟩
    rw [hg] at this; simp at this
  | some v =>
    obtain ⟨id, r, h1, h2, h3, rfl⟩ := (h.item s v).1 hg
    have hid := (h.ids id r h1).1
    simp only [leBytes_length, ne_eq, not_true, if_false, Option.some.injEq]
    rw [leNat_leBytes_of_lt hid]
    constructor
    · rintro rfl; exact ⟨r, h1, h2, h3⟩
    · rintro ⟨r', h1', h2', _⟩
      have := (h.item s (leBytes cfg.id.size o)).2 ⟨o, r', h1', h2', h3, rfl⟩
      rw [hg] at this
      injection this with this
      exact leBytes_inj hid (h.ids o r' h1').1 this

theorem Rel.owner_unique {cfg : StoreCfg} {kv : KV} {m : RecordMap} (h : Rel cfg kv m) {a b : Nat}
    {r s : ScalarData} (ha : m.get a = some r) (hb : m.get b = some s) (hi : r.itemId = s.itemId)
    (hne : r.itemId ≠ []) : a = b := by
  have h1 := (h.findByItemId r.itemId a).2 ⟨r, ha, rfl, hne⟩
  have h2 := (h.findByItemId r.itemId b).2 ⟨s, hb, hi.symm, hne⟩
  rw [h1] at h2; injection h2

theorem Rel.itemAvailable {cfg : StoreCfg} {kv : KV} {m : RecordMap} (h : Rel cfg kv m) (s : Bytes) (id : Nat) :
    Alaya.itemAvailable cfg.id kv s id = m.itemFree s id := by
  rw [Bool.eq_iff_iff, RecordMap.itemFree_iff h.asc]
  unfold Alaya.itemAvailable
  by_cases hs : s = []
  · simp [hs]
  · rw [if_neg hs]
    cases hf : Alaya.findByItemId cfg.id kv s with
    | none =>
      simp only [true_iff]
      right
      intro id' r hg hi
      have := (h.findByItemId s id').2 ⟨r, hg, hi, hs⟩
      rw [hf] at this; simp at this
    | some o =>
      obtain ⟨r, h1, h2, _⟩ := (h.findByItemId s o).1 hf
      simp only [beq_iff_eq]
      constructor
      · rintro rfl
        right
        intro id' r' hg hi
        have := (h.findByItemId s id').2 ⟨r', hg, hi, hs⟩
        rw [hf] at this; injection this with this; exact this.symm
      · rintro (h3 | h3)
        · exact absurd h3 hs
        · exact h3 o r h1 h2

/-- `old` is what the operations read for `id`. -/
def OldOf (cfg : StoreCfg) (kv : KV) (m : RecordMap) (id : Nat) (old : Option (Bytes × ScalarData)) : Prop :=
  match m.get id with
  | none => old = none
  | some r => ∃ k, old = some (k, r) ∧
      ((k = dataKey cfg.id id ∧ kv.get (dataKey cfg.id id) ≠ none) ∨
          (k = legacyKey id ∧ kv.get (dataKey cfg.id id) = none))

theorem Rel.oldOf {cfg : StoreCfg} {kv : KV} {m : RecordMap} (h : Rel cfg kv m) {id : Nat}
    (hid : id < cfg.id.bound) : ∃ old, Alaya.oldData cfg.id kv id = .ok old ∧ OldOf cfg kv m id old := by
  have := h.oldData hid
  unfold OldOf
  cases hg : m.get id with
  | none => rw [hg] at this; exact ⟨none, this, rfl⟩
  | some r =>
    rw [hg] at this
    obtain ⟨k, h1, h2⟩ := this
    exact ⟨_, h1, k, rfl, h2⟩

/-- A row key of one id is not touched by the removal of the row of another id. -/
theorem oldTouched_data {cfg : StoreCfg} (hc : cfg.id.Ok) {kv : KV} {m : RecordMap} {id id' : Nat}
    (hid : id < cfg.id.bound) (hid' : id' < cfg.id.bound) (hne : id ≠ id')
    {old : Option (Bytes × ScalarData)} (ho : OldOf cfg kv m id old) {k : Bytes}
    (hk : k = dataKey cfg.id id' ∨ k = legacyKey id') : ¬ oldTouched cfg id old k := by
  have hh : k.head? = some 100 := by
    rcases hk with rfl | rfl
    · exact dataKey_head _ _
    · exact legacyKey_head _
  unfold OldOf at ho
  cases hg : m.get id with
  | none => rw [hg] at ho; simp only at ho; subst ho; simp [oldTouched]
  | some r =>
    rw [hg] at ho
    obtain ⟨k0, rfl, h0⟩ := ho
    simp only [oldTouched]
    rintro (h1 | ⟨_, h1⟩ | h1)
    · subst h1
      rcases h0 with ⟨h0, _⟩ | ⟨h0, _⟩ <;> rcases hk with h1 | h1
      · exact hne (dataKey_inj hc hid hid' (h0.symm.trans h1))
      · exact hne (dataKey_legacyKey hc hid hid' (h0.symm.trans h1))
      · exact hne (dataKey_legacyKey hc hid' hid (h1.symm.trans h0)).symm
      · exact hne (legacyKey_inj (h0.symm.trans h1))
    · exact ne_of_head hh (itemKey_head _) (by decide) h1
    · have := fieldKeys_head h1
      rw [hh] at this; simp at this

theorem postPut_data {cfg : StoreCfg} {kv kv' : KV} {id : Nat} {old : Option (Bytes × ScalarData)}
    {new : ScalarData} (hp : PostPut cfg kv kv' id old new) {k : Bytes} (hk : k.head? = some 100) :
    kv'.get k = if k = dataKey cfg.id id then some new.serialize
      else if oldTouched cfg id old k then none else kv.get k := by
  rw [hp k, if_neg, if_neg]
  · rintro ⟨_, h⟩; exact ne_of_head hk (itemKey_head _) (by decide) h
  · intro h; have := fieldKeys_head h; rw [hk] at this; simp at this

theorem rel_put {cfg : StoreCfg} (hc : cfg.id.Ok) {kv kv' : KV} {m : RecordMap} (h : Rel cfg kv m)
    (hs : kv'.Sorted) {id : Nat} (hid : id < cfg.id.bound) {old : Option (Bytes × ScalarData)}
    (ho : OldOf cfg kv m id old) {new : ScalarData} (hnew : Storable new)
    (hfree : m.itemFree new.itemId id = true) (hp : PostPut cfg kv kv' id old new) :
    Rel cfg kv' (m.put id new) := by
  rw [RecordMap.itemFree_iff h.asc] at hfree
  refine ⟨hs, RecordMap.asc_put h.asc id new, ?_, ?_, ?_, ?_, ?_, ?_⟩
  · intro id' r hg
    rw [RecordMap.get_put] at hg
    split at hg
    · rename_i he; subst he; injection hg with hg; subst hg; exact ⟨hid, hnew⟩
    · exact h.ids id' r hg
  · intro id' hid' hg
    rw [RecordMap.get_put] at hg
    split at hg
    · simp at hg
    · rename_i hne
      obtain ⟨h1, h2⟩ := h.absent id' hid' hg
      rw [postPut_data hp (dataKey_head _ _), postPut_data hp (legacyKey_head _)]
      rw [if_neg (fun e => hne (dataKey_inj hc hid' hid e).symm),
        if_neg (oldTouched_data hc hid hid' hne ho (Or.inl rfl)),
        if_neg (fun e => hne (dataKey_legacyKey hc hid hid' e.symm)),
        if_neg (oldTouched_data hc hid hid' hne ho (Or.inr rfl))]
      exact ⟨h1, h2⟩
  · intro id' r hg
    rw [RecordMap.get_put] at hg
    rw [postPut_data hp (dataKey_head _ _), postPut_data hp (legacyKey_head _)]
    split at hg
    · rename_i he; subst he; injection hg with hg; subst hg
      left
      rw [if_pos rfl]
      refine ⟨rfl, fun hne => ?_⟩
      rw [if_neg hne]
      unfold OldOf at ho
      cases hg : m.get id with
      | none =>
        rw [(h.absent id hid hg).2]; simp
      | some r =>
        rw [hg] at ho
        obtain ⟨k0, rfl, h0⟩ := ho
        rcases h0 with ⟨h0, hd⟩ | ⟨h0, _⟩
        · subst h0
          rcases h.present id r hg with ⟨_, h2⟩ | ⟨h1, _⟩
          · rw [h2 hne]; simp
          · exact absurd h1 hd
        · subst h0
          rw [if_pos (show oldTouched cfg id (some (legacyKey id, r)) (legacyKey id) from Or.inl rfl)]
    · rename_i hne
      have hid' := (h.ids id' r hg).1
      rw [if_neg (fun e => hne (dataKey_inj hc hid' hid e).symm),
        if_neg (oldTouched_data hc hid hid' hne ho (Or.inl rfl)),
        if_neg (fun e => hne (dataKey_legacyKey hc hid hid' e.symm)),
        if_neg (oldTouched_data hc hid hid' hne ho (Or.inr rfl))]
      exact h.present id' r hg
  · -- item index
    intro s v
    have hget : kv'.get (itemKey s) =
        if new.itemId ≠ [] ∧ s = new.itemId then some (leBytes cfg.id.size id)
        else if oldTouched cfg id old (itemKey s) then none else kv.get (itemKey s) := by
      rw [hp, if_neg, if_neg (ne_of_head (itemKey_head s) (dataKey_head cfg.id id) (by decide))]
      · by_cases he : new.itemId ≠ [] ∧ s = new.itemId
        · rw [if_pos he, if_pos ⟨he.1, by rw [he.2]⟩]
        · rw [if_neg he, if_neg (fun hh => he ⟨hh.1, itemKey_inj hh.2⟩)]
      · intro hf; have := fieldKeys_head hf; rw [itemKey_head] at this; simp at this
    rw [hget]
    by_cases h1 : new.itemId ≠ [] ∧ s = new.itemId
    · rw [if_pos h1]
      obtain ⟨hne, rfl⟩ := h1
      constructor
      · intro he; injection he with he
        exact ⟨id, new, by rw [RecordMap.get_put, if_pos rfl], rfl, hne, he.symm⟩
      · rintro ⟨id', r, hg, hi, _, rfl⟩
        rw [RecordMap.get_put] at hg
        split at hg
        · rename_i he; rw [he]
        · rcases hfree with hf | hf
          · exact absurd hf hne
          · rw [hf id' r hg hi]
    · rw [if_neg h1]
      have hput : ∀ id' r, (m.put id new).get id' = some r → r.itemId = s → s ≠ [] →
          id ≠ id' ∧ m.get id' = some r := by
        intro id' r hg hi hs0
        rw [RecordMap.get_put] at hg
        split at hg
        · injection hg with hg
          subst hg; exact absurd ⟨by rw [hi]; exact hs0, hi.symm⟩ h1
        · rename_i hne; exact ⟨hne, hg⟩
      by_cases h2 : oldTouched cfg id old (itemKey s)
      · rw [if_pos h2]
        constructor
        · intro he; simp at he
        · rintro ⟨id', r, hg, hi, hs0, rfl⟩
          obtain ⟨hne, hg'⟩ := hput id' r hg hi hs0
          -- the old row owned `s`
          unfold OldOf at ho
          cases hm : m.get id with
          | none => rw [hm] at ho; simp only at ho; subst ho; simp [oldTouched] at h2
          | some r0 =>
            rw [hm] at ho
            obtain ⟨k0, rfl, h0⟩ := ho
            simp only [oldTouched] at h2
            rcases h2 with h2 | ⟨h3, h2⟩ | h2
            · rcases h0 with ⟨h0, _⟩ | ⟨h0, _⟩
              · exact absurd (h2.trans h0) (ne_of_head (itemKey_head s) (dataKey_head cfg.id id) (by decide))
              · exact absurd (h2.trans h0) (ne_of_head (itemKey_head s) (legacyKey_head id) (by decide))
            · have hs1 := itemKey_inj h2
              exact absurd (h.owner_unique hm hg' (by rw [hi, hs1]) h3) hne
            · have := fieldKeys_head h2; rw [itemKey_head] at this; simp at this
      · rw [if_neg h2, h.item]
        constructor
        · rintro ⟨id', r, hg, hi, hs0, rfl⟩
          refine ⟨id', r, ?_, hi, hs0, rfl⟩
          rw [RecordMap.get_put, if_neg]
          · exact hg
          · rintro rfl
            apply h2
            unfold OldOf at ho
            rw [hg] at ho
            obtain ⟨k0, rfl, _⟩ := ho
            exact Or.inr (Or.inl ⟨by rw [hi]; exact hs0, by rw [hi]⟩)
        · rintro ⟨id', r, hg, hi, hs0, rfl⟩
          exact ⟨id', r, (hput id' r hg hi hs0).2, hi, hs0, rfl⟩
  · -- field index
    intro k v hk
    rw [hp]
    by_cases h1 : k ∈ fieldKeys cfg.fields id new
    · rw [if_pos h1]
      constructor
      · intro he; injection he with he
        exact ⟨he.symm, id, new, by rw [RecordMap.get_put, if_pos rfl], h1⟩
      · rintro ⟨rfl, _⟩; rfl
    · rw [if_neg h1, if_neg (fun hh => ne_of_head hk (itemKey_head _) (by decide) hh.2),
        if_neg (ne_of_head hk (dataKey_head cfg.id id) (by decide))]
      by_cases h2 : oldTouched cfg id old k
      · rw [if_pos h2]
        constructor
        · intro he; simp at he
        · rintro ⟨rfl, id', r, hg, hf⟩
          unfold OldOf at ho
          cases hm : m.get id with
          | none => rw [hm] at ho; simp only at ho; subst ho; simp [oldTouched] at h2
          | some r0 =>
            rw [hm] at ho
            obtain ⟨k0, rfl, h0⟩ := ho
            simp only [oldTouched] at h2
            rcases h2 with h2 | ⟨h3, h2⟩ | h2
            · rcases h0 with ⟨h0, _⟩ | ⟨h0, _⟩
              · exact absurd (h2.trans h0) (ne_of_head hk (dataKey_head cfg.id id) (by decide))
              · exact absurd (h2.trans h0) (ne_of_head hk (legacyKey_head id) (by decide))
            · exact absurd h2 (ne_of_head hk (itemKey_head _) (by decide))
            · have := fieldKeys_id h2 hf
              subst this
              rw [RecordMap.get_put, if_pos rfl] at hg
              injection hg with hg; subst hg
              exact absurd hf h1
      · rw [if_neg h2, h.field k v hk]
        constructor
        · rintro ⟨rfl, id', r, hg, hf⟩
          refine ⟨rfl, id', r, ?_, hf⟩
          rw [RecordMap.get_put, if_neg]
          · exact hg
          · rintro rfl
            apply h2
            unfold OldOf at ho
            rw [hg] at ho
            obtain ⟨k0, rfl, _⟩ := ho
            exact Or.inr (Or.inr hf)
        · rintro ⟨rfl, id', r, hg, hf⟩
          refine ⟨rfl, id', r, ?_, hf⟩
          rw [RecordMap.get_put] at hg
          split at hg
          · rename_i he; subst he; injection hg with hg; subst hg; exact absurd hf h1
          · exact hg
  · intro k v hk
    rw [hp] at hk
    split at hk
    · rename_i h1; exact Or.inr (Or.inr (Or.inl (fieldKeys_head h1)))
    · split at hk
      · rename_i h1; exact Or.inr (Or.inl ⟨_, h1.2⟩)
      · split at hk
        · rename_i h1; exact Or.inl ⟨id, hid, Or.inl h1⟩
        · split at hk
          · simp at hk
          · exact h.other k v hk

/-- Content after the removal of row `old` of `id`. -/
def PostDel (cfg : StoreCfg) (kv kv' : KV) (id : Nat) (old : Bytes × ScalarData) : Prop :=
  ∀ k, kv'.get k = if oldTouched cfg id (some old) k then none else kv.get k

theorem postDel_remove (cfg : StoreCfg) (kv : KV) (id : Nat) (p : Bytes × ScalarData) :
    PostDel cfg kv (kv.write ([.del p.1] ++ deleteItemIdx p.2.itemId ++
      removeFieldIndexes cfg.fields id p.2)) id p := by
  intro k
  simp only [oldTouched, removeFieldIndexes]
  rw [KV.write_append, KV.write_dels, KV.write_append, get_deleteItemIdx, get_del1]
  by_cases h1 : k ∈ fieldKeys cfg.fields id p.2
  · simp [h1]
  · by_cases h2 : p.2.itemId ≠ [] ∧ k = itemKey p.2.itemId
    · simp [h2]
    · by_cases h3 : k = p.1
      · subst h3; simp [h1, h2]
      · simp [h1, h2, h3]

theorem rel_del {cfg : StoreCfg} (hc : cfg.id.Ok) {kv kv' : KV} {m : RecordMap} (h : Rel cfg kv m)
    (hs : kv'.Sorted) {id : Nat} (hid : id < cfg.id.bound) {p : Bytes × ScalarData}
    (ho : OldOf cfg kv m id (some p)) (hp : PostDel cfg kv kv' id p) :
    Rel cfg kv' (m.del id) := by
  have hm : ∃ r, m.get id = some r ∧ p.2 = r ∧
      ((p.1 = dataKey cfg.id id ∧ kv.get (dataKey cfg.id id) ≠ none) ∨
          (p.1 = legacyKey id ∧ kv.get (dataKey cfg.id id) = none)) := by
    unfold OldOf at ho
    cases hm : m.get id with
    | none => rw [hm] at ho; simp at ho
    | some r =>
      rw [hm] at ho
      obtain ⟨k0, he, h0⟩ := ho
      injection he with he; subst he
      exact ⟨r, rfl, rfl, h0⟩
  obtain ⟨r, hm, hpr, h0⟩ := hm
  have hph : p.1.head? = some 100 := by
    rcases h0 with ⟨h0, _⟩ | ⟨h0, _⟩ <;> rw [h0]
    · exact dataKey_head _ _
    · exact legacyKey_head _
  refine ⟨hs, RecordMap.asc_del h.asc id, ?_, ?_, ?_, ?_, ?_, ?_⟩
  · intro id' r' hg
    rw [RecordMap.get_del] at hg
    split at hg
    · simp at hg
    · exact h.ids id' r' hg
  · intro id' hid' hg
    rw [RecordMap.get_del] at hg
    rw [hp, hp]
    by_cases hne : id = id'
    · subst hne
      rcases h.present id r hm with ⟨h1, h2⟩ | ⟨h1, h2⟩
      · rcases h0 with ⟨h0, hd⟩ | ⟨h0, hd⟩
        · have ht : oldTouched cfg id (some p) (dataKey cfg.id id) := Or.inl h0.symm
          rw [if_pos ht]
          refine ⟨rfl, ?_⟩
          by_cases he : legacyKey id = dataKey cfg.id id
          · rw [he, if_pos ht]
          · rw [h2 he]; simp
        · rw [h1] at hd; simp at hd
      · rcases h0 with ⟨h0, hd⟩ | ⟨h0, hd⟩
        · exact absurd h1 hd
        · have ht : oldTouched cfg id (some p) (legacyKey id) := Or.inl h0.symm
          rw [if_pos ht, h1]; simp
    · rw [if_neg hne] at hg
      obtain ⟨h1, h2⟩ := h.absent id' hid' hg
      rw [if_neg (oldTouched_data hc hid hid' hne ho (Or.inl rfl)),
        if_neg (oldTouched_data hc hid hid' hne ho (Or.inr rfl))]
      exact ⟨h1, h2⟩
  · intro id' r' hg
    rw [RecordMap.get_del] at hg
    split at hg
    · simp at hg
    · rename_i hne
      have hid' := (h.ids id' r' hg).1
      rw [hp, hp, if_neg (oldTouched_data hc hid hid' hne ho (Or.inl rfl)),
        if_neg (oldTouched_data hc hid hid' hne ho (Or.inr rfl))]
      exact h.present id' r' hg
  · intro s v
    rw [hp]
    by_cases h2 : oldTouched cfg id (some p) (itemKey s)
    · rw [if_pos h2]
      constructor
      · intro he; simp at he
      · rintro ⟨id', r', hg, hi, hs0, rfl⟩
        rw [RecordMap.get_del] at hg
        split at hg
        · simp at hg
        · rename_i hne
          simp only [oldTouched] at h2
          rcases h2 with h2 | ⟨h3, h2⟩ | h2
          · exact absurd h2 (ne_of_head (itemKey_head s) hph (by decide))
          · have hs1 := itemKey_inj h2
            rw [hpr] at hs1 h3
            exact absurd (h.owner_unique hm hg (by rw [hi, hs1]) h3) hne
          · have := fieldKeys_head h2; rw [itemKey_head] at this; simp at this
    · rw [if_neg h2, h.item]
      constructor
      · rintro ⟨id', r', hg, hi, hs0, rfl⟩
        refine ⟨id', r', ?_, hi, hs0, rfl⟩
        rw [RecordMap.get_del, if_neg]
        · exact hg
        · rintro rfl
          rw [hm] at hg; injection hg with hg; subst hg
          exact h2 (Or.inr (Or.inl ⟨by rw [hpr, hi]; exact hs0, by rw [hpr, hi]⟩))
      · rintro ⟨id', r', hg, hi, hs0, rfl⟩
        rw [RecordMap.get_del] at hg
        split at hg
        · simp at hg
        · exact ⟨id', r', hg, hi, hs0, rfl⟩
  · intro k v hk
    rw [hp]
    by_cases h2 : oldTouched cfg id (some p) k
    · rw [if_pos h2]
      constructor
      · intro he; simp at he
      · rintro ⟨rfl, id', r', hg, hf⟩
        rw [RecordMap.get_del] at hg
        split at hg
        · simp at hg
        · rename_i hne
          simp only [oldTouched] at h2
          rcases h2 with h2 | ⟨h3, h2⟩ | h2
          · exact absurd h2 (ne_of_head hk hph (by decide))
          · exact absurd h2 (ne_of_head hk (itemKey_head _) (by decide))
          · exact absurd (fieldKeys_id h2 hf) hne
    · rw [if_neg h2, h.field k v hk]
      constructor
      · rintro ⟨rfl, id', r', hg, hf⟩
        refine ⟨rfl, id', r', ?_, hf⟩
        rw [RecordMap.get_del, if_neg]
        · exact hg
        · rintro rfl
          rw [hm] at hg; injection hg with hg; subst hg
          exact h2 (Or.inr (Or.inr (by rw [hpr]; exact hf)))
      · rintro ⟨rfl, id', r', hg, hf⟩
        rw [RecordMap.get_del] at hg
        split at hg
        · simp at hg
        · exact ⟨rfl, id', r', hg, hf⟩
  · intro k v hk
    rw [hp] at hk
    split at hk
    · simp at hk
    · exact h.other k v hk

/-- The batch of `update` has the same effect as the one of `insert`. -/
theorem postPut_update {cfg : StoreCfg} {kv : KV} {m : RecordMap} (h : Rel cfg kv m) {id : Nat}
    {p : Bytes × ScalarData} (ho : OldOf cfg kv m id (some p)) (new : ScalarData) :
    PostPut cfg kv (kv.write
        ((if p.1 ≠ dataKey cfg.id id then [.del p.1] else []) ++
         [.put (dataKey cfg.id id) new.serialize] ++
         (if p.2.itemId ≠ new.itemId then deleteItemIdx p.2.itemId ++ putItemIdx cfg.id new.itemId id
          else []) ++
         removeFieldIndexes cfg.fields id p.2 ++ addFieldIndexes cfg.fields id new)) id (some p) new := by
  have hm : m.get id = some p.2 ∧ p.1.head? = some 100 := by
    unfold OldOf at ho
    cases hm : m.get id with
    | none => rw [hm] at ho; simp at ho
    | some r =>
      rw [hm] at ho
      obtain ⟨k0, he, h0⟩ := ho
      injection he with he; subst he
      refine ⟨rfl, ?_⟩
      rcases h0 with ⟨h0, _⟩ | ⟨h0, _⟩ <;> rw [h0]
      · exact dataKey_head _ _
      · exact legacyKey_head _
  intro k
  unfold addFieldIndexes removeFieldIndexes
  rw [KV.write_append, KV.write_puts, KV.write_append, KV.write_dels, KV.write_append]
  by_cases h1 : k ∈ fieldKeys cfg.fields id new
  · rw [if_pos h1, if_pos h1]
  rw [if_neg h1, if_neg h1]
  by_cases h2 : k ∈ fieldKeys cfg.fields id p.2
  · have hk := fieldKeys_head h2
    rw [if_pos h2, if_neg (fun hh => ne_of_head hk (itemKey_head _) (by decide) hh.2),
      if_neg (ne_of_head hk (dataKey_head cfg.id id) (by decide)),
      if_pos (show oldTouched cfg id (some p) k from Or.inr (Or.inr h2))]
  rw [if_neg h2]
  have hbase : ∀ k, (kv.write ((if p.1 ≠ dataKey cfg.id id then [.del p.1] else []) ++
         [.put (dataKey cfg.id id) new.serialize])).get k =
      if k = dataKey cfg.id id then some new.serialize else if k = p.1 then none else kv.get k := by
    intro k
    rw [KV.write_append, get_put1, get_optDel]
    by_cases hd : k = dataKey cfg.id id
    · rw [if_pos hd, if_pos hd]
    · rw [if_neg hd, if_neg hd]
      by_cases h3 : k = p.1
      · subst h3; simp [hd]
      · simp [h3]
  by_cases hi : p.2.itemId ≠ new.itemId
  · rw [if_pos hi, KV.write_append, get_putItemIdx, get_deleteItemIdx, hbase]
    by_cases h3 : new.itemId ≠ [] ∧ k = itemKey new.itemId
    · rw [if_pos h3, if_pos h3]
    rw [if_neg h3, if_neg h3]
    by_cases hd : k = dataKey cfg.id id
    · rw [if_pos hd, if_pos hd, if_neg]
      rintro ⟨_, h5⟩
      exact ne_of_head (dataKey_head cfg.id id) (itemKey_head _) (by decide) (hd.symm.trans h5)
    · rw [if_neg hd, if_neg hd]
      simp only [oldTouched]
      by_cases h4 : p.2.itemId ≠ [] ∧ k = itemKey p.2.itemId
      · simp [h4]
      · by_cases h5 : k = p.1
        · simp [h5]
        · simp [h2, h4, h5]
  · rw [if_neg hi, write_nil, hbase]
    have hi' : p.2.itemId = new.itemId := Classical.not_not.1 hi
    by_cases h3 : new.itemId ≠ [] ∧ k = itemKey new.itemId
    · rw [if_pos h3]
      have hk : k.head? = some 105 := by rw [h3.2]; exact itemKey_head _
      rw [if_neg (ne_of_head hk (dataKey_head cfg.id id) (by decide)),
        if_neg (ne_of_head hk hm.2 (by decide)), h3.2]
      exact (h.item _ _).2 ⟨id, p.2, hm.1, hi', h3.1, rfl⟩
    · rw [if_neg h3]
      by_cases hd : k = dataKey cfg.id id
      · rw [if_pos hd, if_pos hd]
      · rw [if_neg hd, if_neg hd]
        simp only [oldTouched, hi']
        by_cases h5 : k = p.1
        · simp [h5]
        · simp [h2, h3, h5]

end Alaya
