import Verif.Props.C17
import Verif.Lemmas.FieldIndex

/-! C06: secondary-index lookups. -/
namespace Alaya
open Spec

/-- The store after a history on an empty store (used for concrete witnesses). -/
def storeOf (cfg : StoreCfg) (ops : List StoreOp) : Store :=
  match Store.empty.run cfg ops with
  | .ok p => p.1
  | _ => Store.empty

/-- Exact description of the equality lookup in every represented state (every state reached by a history,
see C17) for a field whose name is separated from the other indexed names: each matching id once; a stored
value matches when it is the searched value, or when both are strings and the stored one continues the searched
one with an underscore. -/
theorem C06_equality_characterised (cfg : StoreCfg) (hc : cfg.id.Ok) (s : Store) (m : RecordMap)
    (h : Represents cfg s m) (f : Bytes) (hf : f ∈ cfg.fields) (hs : FieldSep cfg.fields f) (v : MetaValue) :
    ∃ l, idsByFieldValue cfg.id s.kv f v = some l ∧ l.Nodup ∧
      ∀ id, id ∈ l ↔ ∃ r w, m.get id = some r ∧ r.metadata.get f = some w ∧
        (w = v ∨ ∃ a b, v = .string a ∧ w = .string b ∧ a ++ [us] <+: b) := by
  obtain ⟨l, h1, h2, h3⟩ := idsByFieldValue_spec hc h.rel hs v
  refine ⟨l, h1, h2, ?_⟩
  intro id
  rw [h3]
  exact ⟨fun ⟨_, h4⟩ => h4, fun h4 => ⟨hf, h4⟩⟩

example : str "c" ∈ sampleCfg.fields ∧ FieldSep sampleCfg.fields (str "c") := by decide

/-- The lookup returns exactly the records with `f = v` whenever no stored string value of the field continues
`v` with an underscore; for int, double (bit equality) and bool values this is automatic. -/
theorem C06_equality_exact_partial (cfg : StoreCfg) (hc : cfg.id.Ok) (s : Store) (m : RecordMap)
    (h : Represents cfg s m) (f : Bytes) (hf : f ∈ cfg.fields) (hs : FieldSep cfg.fields f) (v : MetaValue)
    (hv : ∀ a, v = .string a → ∀ id r b, m.get id = some r → r.metadata.get f = some (.string b) →
      ¬ (a ++ [us] <+: b)) :
    ∃ l, idsByFieldValue cfg.id s.kv f v = some l ∧ l.Nodup ∧
      ∀ id, id ∈ l ↔ ∃ r, m.get id = some r ∧ r.metadata.get f = some v := by
  obtain ⟨l, h1, h2, h3⟩ := C06_equality_characterised cfg hc s m h f hf hs v
  refine ⟨l, h1, h2, ?_⟩
  intro id
  rw [h3]
  constructor
  · rintro ⟨r, w, e1, e2, rfl | ⟨a, b, rfl, rfl, e3⟩⟩
    · exact ⟨r, e1, e2⟩
    · exact absurd e3 (hv a rfl id r b e1 e2)
  · rintro ⟨r, e1, e2⟩
    exact ⟨r, v, e1, e2, Or.inl rfl⟩

-- the final state of the sample history: the lookup of 2 in field "c" meets the hypotheses
example : ∃ s rets, Store.empty.run sampleCfg sampleOps = .ok (s, rets) ∧
    ∃ l, idsByFieldValue cfg32 s.kv (str "c") (.int 2#64) = some l ∧ 3 ∈ l := by
  obtain ⟨s, h1, h2⟩ := C17_history_refines sampleCfg cfg32_ok sampleOps sampleOps_ok (by decide)
  obtain ⟨l, h3, _, h4⟩ := C06_equality_exact_partial sampleCfg cfg32_ok s _ h2 (str "c") (by decide) (by decide)
    (.int 2#64) (by intro a ha; simp at ha)
  exact ⟨s, _, h1, l, h3, (h4 3).2 ⟨⟨str "z", [], [(str "c", .int 2#64)]⟩, by decide, by decide⟩⟩

/-- The full property fails: looking up "a" also returns a record whose value is "a_b". -/
theorem C06_string_prefix_refuted :
    let s := storeOf ⟨cfg32, [str "c"]⟩ [.insert 7 ⟨[], [], [(str "c", .string (str "a_b"))]⟩]
    idsByFieldValue cfg32 s.kv (str "c") (.string (str "a")) = some [7] := by decide

/-- Field names can collide as well: looking up field "c" = "x" returns a record that has no field "c" but a
field "c_s_x" (both indexed). -/
theorem C06_field_name_refuted :
    let s := storeOf ⟨cfg32, [str "c", str "c_s_x"]⟩ [.insert 7 ⟨[], [], [(str "c_s_x", .bool true)]⟩]
    idsByFieldValue cfg32 s.kv (str "c") (.string (str "x")) = some [7] := by decide

/-- Integer range lookup is exact: each id once, exactly the records whose field holds an integer in the closed
interval. -/
theorem C06_int_range_exact (cfg : StoreCfg) (hc : cfg.id.Ok) (s : Store) (m : RecordMap)
    (h : Represents cfg s m) (f : Bytes) (hf : f ∈ cfg.fields) (hs : FieldSep cfg.fields f)
    (lo hi : BitVec 64) :
    ∃ l, idsByIntRange cfg.id s.kv f lo hi = some l ∧ l.Nodup ∧
      ∀ id, id ∈ l ↔ ∃ r x, m.get id = some r ∧ r.metadata.get f = some (.int x) ∧
        lo.toInt ≤ x.toInt ∧ x.toInt ≤ hi.toInt := by
  obtain ⟨l, h1, h2, h3⟩ := idsByIntRange_spec hc h.rel hs lo hi
  refine ⟨l, h1, h2, ?_⟩
  intro id
  rw [h3]
  exact ⟨fun ⟨_, h4⟩ => h4, fun h4 => ⟨hf, h4⟩⟩

example : idsByIntRange cfg32 (storeOf sampleCfg sampleOps).kv (str "c") (BitVec.ofInt 64 (-1)) 2#64 = some [3] := by
  decide

/-- Double range lookup with non-zero bounds: exactly the records whose field holds a double with a value in
the closed interval (NaN patterns lie beyond the infinities). -/
theorem C06_double_range_exact_partial (cfg : StoreCfg) (hc : cfg.id.Ok) (s : Store) (m : RecordMap)
    (h : Represents cfg s m) (f : Bytes) (hf : f ∈ cfg.fields) (hs : FieldSep cfg.fields f)
    (lo hi : BitVec 64) (hlo : dblVal lo.toNat ≠ 0) (hhi : dblVal hi.toNat ≠ 0) :
    ∃ l, idsByDoubleRange cfg.id s.kv f lo hi = some l ∧ l.Nodup ∧
      ∀ id, id ∈ l ↔ ∃ r x, m.get id = some r ∧ r.metadata.get f = some (.double x) ∧
        dblVal lo.toNat ≤ dblVal x.toNat ∧ dblVal x.toNat ≤ dblVal hi.toNat := by
  obtain ⟨l, h1, h2, h3⟩ := idsByDoubleRange_spec hc h.rel hs lo hi
  refine ⟨l, h1, h2, ?_⟩
  intro id
  rw [h3]
  constructor
  · rintro ⟨_, r, x, e1, e2, e3⟩
    exact ⟨r, x, e1, e2, (C02_range_iff_partial lo hi x hlo hhi).1 e3⟩
  · rintro ⟨r, x, e1, e2, e3⟩
    exact ⟨hf, r, x, e1, e2, (C02_range_iff_partial lo hi x hlo hhi).2 e3⟩

set_option exponentiation.threshold 2100 in
example : dblVal (0xBFF8000000000000#64).toNat ≠ 0 ∧ dblVal (0x4002000000000000#64).toNat ≠ 0 := by
  decide

end Alaya
