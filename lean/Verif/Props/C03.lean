import Verif.Lemmas.ScalarData

/-! C03: record serialisation round-trips and no truncated record is accepted. -/
namespace Alaya

/-- A record that a program can hold and whose strings fit the 32-bit length fields: all strings
(and the number of metadata entries) below 2^32, metadata keys unique (it is a map). -/
structure Storable (r : ScalarData) : Prop where
  item : r.itemId.length < 2 ^ 32
  doc : r.document.length < 2 ^ 32
  count : r.metadata.length < 2 ^ 32
  entries : ∀ k v, (k, v) ∈ r.metadata → k.length < 2 ^ 32 ∧ (∀ s, v = .string s → s.length < 2 ^ 32)
  unique : (r.metadata.map Prod.fst).Nodup

/-- A concrete non-trivial record. -/
def sampleRecord : ScalarData :=
  ⟨str "id1", str "doc", [(str "a", .int 5), (str "b_c", .string (str "x")), ([], .bool true)]⟩

example : Storable sampleRecord := by
  refine ⟨by decide, by decide, by decide, ?_, by decide⟩
  intro k v h
  simp only [sampleRecord, List.mem_cons, Prod.mk.injEq, List.not_mem_nil, or_false] at h
  rcases h with ⟨rfl, rfl⟩ | ⟨rfl, rfl⟩ | ⟨rfl, rfl⟩
  · exact ⟨by decide, by simp⟩
  · exact ⟨by decide, by simp [str]⟩
  · exact ⟨by decide, by simp⟩

theorem Storable.fits {r : ScalarData} (h : Storable r) :
    ∀ e ∈ r.metadata, e.1.length < 2 ^ 32 ∧ e.2.Fits := by
  rintro ⟨k, v⟩ he
  have := h.entries k v he
  refine ⟨this.1, ?_⟩
  cases v with
  | string s => exact this.2 s rfl
  | _ => trivial

/-- `deserialize(serialize(r)) = r`, also when other bytes follow. -/
theorem C03_roundtrip (r : ScalarData) (rest : Bytes) (h : Storable r) :
    ScalarData.deserialize (r.serialize ++ rest) = .ok r :=
  deserialize_ser r rest h.item h.doc h.count h.fits h.unique

/-- Two different records never have the same stored form, not even one as a prefix of the other. -/
theorem C03_serialize_prefix_free (r s : ScalarData) (hr : Storable r) (hs : Storable s) (t : Bytes)
    (h : r.serialize = s.serialize ++ t) : r = s := by
  have h1 := C03_roundtrip r [] hr
  rw [List.append_nil, h, C03_roundtrip s t hs] at h1
  cases h1; rfl

example : Storable sampleRecord → sampleRecord.serialize = sampleRecord.serialize ++ [] := by simp

/-- Every strict prefix of a stored record is refused with an exception. -/
theorem C03_truncated_refused (r : ScalarData) (h : Storable r) (p s : Bytes)
    (hps : r.serialize = p ++ s) (hs : s ≠ []) : ScalarData.deserialize p = .bad := by
  have hrt := C03_roundtrip r [] h
  rw [List.append_nil] at hrt
  obtain ⟨rest, hrec⟩ := deserialize_ok hrt
  obtain ⟨c, e1, e2, e3⟩ := exact_desRecord _ _ _ hrec
  -- nothing is left over after the record
  have hrest : rest = [] := by
    have h0 := e2 ([] : Bytes)
    rw [List.append_nil] at h0
    have h1 : desRecord (r.serialize ++ [0]) = .ok (r, rest ++ [0]) := by
      rw [e1, List.append_assoc]; exact e2 _
    -- the parser consumes exactly the written bytes
    have h2 : desRecord (r.serialize) = .ok (r, []) := by
      unfold desRecord ScalarData.serialize
      simp only [List.append_assoc]
      rw [desString_ser _ _ h.item]
      simp only [PR.bind]
      rw [desString_ser _ _ h.doc]
      simp only
      unfold desMetadata desU32 serMetadata
      rw [splitN_append' (by simp)]
      simp only [PR.bind]
      have hp := parseEntries_ser r.metadata [] h.fits
      rw [List.append_nil] at hp
      rw [leNat_leBytes_of_lt (by simpa using h.count), desEntries_eq, hp]
      simp only [PR.bind]
      rw [mergeEntries_nodup _ _ (by simpa using h.unique)]
      simp
    rw [hrec] at h2
    simp only [PR.ok.injEq, Prod.mk.injEq, true_and] at h2
    exact h2
  subst hrest
  rw [List.append_nil] at e1
  rw [deserialize_eq, e3 p s (by rw [← e1]; exact hps) hs]
  rfl

example : sampleRecord.serialize = sampleRecord.serialize.take 20 ++ sampleRecord.serialize.drop 20
    ∧ sampleRecord.serialize.drop 20 ≠ [] := by decide

/-- The precondition is needed: a string of 2^32 bytes is stored with length 0 and the record that is
read back is a different one (here: any record with such an item id loses its item id). -/
theorem C03_long_string_refuted (i : Bytes) (hi : i.length = 2 ^ 32) :
    ∃ x, desString (serString i) = .ok ([], x) := by
  unfold desString serString
  rw [splitN_append' (by simp)]
  simp only
  have : leNat (leBytes 4 i.length) = 0 := by
    rw [leNat_leBytes, hi]
  rw [this]
  exact ⟨i, by simp [splitN]⟩

example : (List.replicate (2 ^ 32) (0 : UInt8)).length = 2 ^ 32 := List.length_replicate

/-- `serialized_size()` is the exact length of the stored form. -/
theorem C03_serialized_size (r : ScalarData) : r.serialize.length = r.serializedSize := by
  obtain ⟨i, d, m⟩ := r
  unfold ScalarData.serialize ScalarData.serializedSize serMetadata
  simp only [List.length_append, serString, leBytes_length]
  have : (serEntries m).length = (m.map fun e => 4 + e.1.length + 1 + e.2.payloadSize).sum := by
    induction m with
    | nil => rfl
    | cons e m ih =>
      obtain ⟨k, v⟩ := e
      simp only [serEntries, List.length_append, ih, List.map_cons, List.sum_cons, serString, leBytes_length]
      cases v <;> simp [serValue, serString, MetaValue.payloadSize] <;> omega
  rw [this]
  omega

end Alaya
