import Verif.Lemmas.RocksKeys

/-! C07: primary keys are collision free, ordered and invertible (both instantiated id types). -/
namespace Alaya

example : cfg32.Ok ∧ cfg64.Ok ∧ cfg32.bound = 2 ^ 32 ∧ cfg64.bound = 2 ^ 64 :=
  ⟨cfg32_ok, cfg64_ok, by decide, by decide⟩

/-- Keys are different for different ids. -/
theorem C07_data_key_injective (c : IdCfg) (hc : c.Ok) (a b : Nat) (ha : a < c.bound) (hb : b < c.bound)
    (h : dataKey c a = dataKey c b) : a = b := dataKey_inj hc ha hb h

/-- RocksDB iterates the records in the numeric order of their ids. -/
theorem C07_data_key_order (c : IdCfg) (hc : c.Ok) (a b : Nat) (ha : a < c.bound) (hb : b < c.bound) :
    dataKey c a < dataKey c b ↔ a < b := dataKey_lt_iff hc ha hb

example : dataKey cfg32 42 = str "d_0000000042" ∧ dataKey cfg32 4294967295 = str "d_4294967295" := by decide

/-- The key parses back to the id; so does the legacy key. -/
theorem C07_data_key_parse (c : IdCfg) (hc : c.Ok) (id : Nat) (h : id < c.bound) :
    parseDataKey c (dataKey c id) = .ok (some id) ∧ parseDataKey c (legacyKey id) = .ok (some id) :=
  ⟨parseDataKey_dataKey hc h, parseDataKey_legacyKey hc h⟩

/-- A primary key equals a legacy key only for the same id. -/
theorem C07_legacy_key_disjoint (c : IdCfg) (hc : c.Ok) (a b : Nat) (ha : a < c.bound) (hb : b < c.bound)
    (hab : a ≠ b) : dataKey c a ≠ legacyKey b ∧ legacyKey a ≠ legacyKey b :=
  ⟨fun h => hab (dataKey_legacyKey hc ha hb h), fun h => hab (legacyKey_inj h)⟩

example : legacyKey 42 = str "d_42" := by decide

/-- Primary and legacy keys never equal an item-id key, a field-index key or the count key, whatever
the item id, field name and value are. -/
theorem C07_key_spaces_disjoint (c : IdCfg) (id id' : Nat) (item field : Bytes) (v : MetaValue) :
    dataKey c id ≠ itemKey item ∧ dataKey c id ≠ fieldIndexKey field (encodeValue v) id' ∧
    dataKey c id ≠ countKey ∧ legacyKey id ≠ itemKey item ∧
    legacyKey id ≠ fieldIndexKey field (encodeValue v) id' ∧ legacyKey id ≠ countKey ∧
    itemKey item ≠ fieldIndexKey field (encodeValue v) id' ∧ itemKey item ≠ countKey ∧
    fieldIndexKey field (encodeValue v) id' ≠ countKey := by
  have h1 := dataKey_head c id
  have h2 := legacyKey_head id
  have h3 := itemKey_head item
  have h4 := fieldIndexKey_head field (encodeValue v) id'
  have h5 := countKey_head
  exact ⟨ne_of_head h1 h3 (by decide), ne_of_head h1 h4 (by decide), ne_of_head h1 h5 (by decide),
    ne_of_head h2 h3 (by decide), ne_of_head h2 h4 (by decide), ne_of_head h2 h5 (by decide),
    ne_of_head h3 h4 (by decide), ne_of_head h3 h5 (by decide), ne_of_head h4 h5 (by decide)⟩

/-- The id at the end of a field-index key is recovered, whatever underscores the field name and the
value contain. -/
theorem C07_field_key_id (c : IdCfg) (hc : c.Ok) (field : Bytes) (v : MetaValue) (id : Nat) (h : id < c.bound) :
    extractId c (fieldIndexKey field (encodeValue v) id) = some id := extractId_fieldIndexKey hc _ _ h

example : fieldIndexKey (str "a_b") (encodeValue (.string (str "x_y"))) 7 = str "f_a_b_s_x_y_7" := by decide

end Alaya
