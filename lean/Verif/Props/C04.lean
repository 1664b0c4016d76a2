import Verif.Props.C03

/-! C04: the selective decoders agree with full decoding. -/
namespace Alaya

/-- Number of metadata entries announced in an accepted byte string: the 32-bit word behind the two
leading length-prefixed strings. -/
def announcedCount (data : Bytes) : Option Nat :=
  let a := 4 + leNat (data.take 4)
  let d1 := data.drop a
  let b := 4 + leNat (d1.take 4)
  let d2 := d1.drop b
  if d2.length < 4 then none else some (leNat (d2.take 4))

theorem skipString_eq {bs r : Bytes} (h : skipString bs = .ok r) :
    r = bs.drop (4 + leNat (bs.take 4)) := by
  unfold skipString at h
  cases hs : splitN 4 bs with
  | none => rw [hs] at h; cases h
  | some p =>
    obtain ⟨l, rest⟩ := p
    rw [hs] at h
    obtain ⟨e1, e2⟩ := splitN_some hs
    simp only at h
    split at h
    · cases h
    · simp only [PR.ok.injEq] at h
      rw [e1, List.take_append_of_le_length (by omega), List.take_of_length_le (by omega), ← h,
        ← List.drop_drop, ← e2, List.drop_left]

theorem announced_of {data r2 c body : Bytes} (h1 : (skipString data).bind skipString = .ok r2)
    (h2 : splitN 4 r2 = some (c, body)) : announcedCount data = some (leNat c) := by
  cases hs : skipString data with
  | bad => rw [hs] at h1; cases h1
  | ub => rw [hs] at h1; cases h1
  | ok r1 =>
    rw [hs] at h1
    simp only [PR.bind] at h1
    have e1 := skipString_eq hs
    have e2 := skipString_eq h1
    obtain ⟨f1, f2⟩ := splitN_some h2
    unfold announcedCount
    simp only
    rw [← e1, ← e2, f1]
    rw [if_neg (by simp; omega), List.take_append_of_le_length (by omega), List.take_of_length_le (by omega)]

theorem rawEntries_of {data : Bytes} {r : ScalarData} (h : ScalarData.deserialize data = .ok r)
    (hc : announcedCount data = some r.metadata.length) :
    ∃ r2 c body r3, (skipString data).bind skipString = .ok r2 ∧ splitN 4 r2 = some (c, body) ∧
      parseEntries (leNat c) body = .ok (r.metadata, r3) ∧ (r.metadata.map Prod.fst).Nodup := by
  obtain ⟨rest, hrec⟩ := deserialize_ok h
  obtain ⟨r2, c, body, es, r3, h1, h2, h3, h4⟩ := desRecord_ok hrec
  rw [announced_of h1 h2] at hc
  have hlen : ∀ n bs es r, parseEntries n bs = .ok (es, r) → es.length = n := by
    intro n
    induction n with
    | zero => intro bs es r h; simp only [parseEntries, PR.ok.injEq, Prod.mk.injEq] at h; rw [← h.1]; rfl
    | succ n ih =>
      intro bs es r h
      simp only [parseEntries] at h
      cases g1 : desString bs with
      | bad => rw [g1] at h; cases h
      | ub => rw [g1] at h; cases h
      | ok p =>
        obtain ⟨k, r1⟩ := p
        rw [g1] at h; simp only [PR.bind] at h
        cases g2 : desValue r1 with
        | bad => rw [g2] at h; cases h
        | ub => rw [g2] at h; cases h
        | ok q =>
          obtain ⟨v, r2⟩ := q
          rw [g2] at h; simp only at h
          cases g3 : parseEntries n r2 with
          | bad => rw [g3] at h; cases h
          | ub => rw [g3] at h; cases h
          | ok t =>
            obtain ⟨es', r3⟩ := t
            rw [g3] at h
            simp only [PR.ok.injEq, Prod.mk.injEq] at h
            rw [← h.1, List.length_cons, ih _ _ _ g3]
  have hl := hlen _ _ _ _ h3
  have hn := mergeEntries_length [] es (by simp) (by
    rw [← h4, hl]; simp only [Option.some.injEq] at hc; simp [hc])
  rw [List.nil_append] at hn
  have he : r.metadata = es := by
    rw [h4, mergeEntries_nodup [] es (by simpa using hn), List.nil_append]
  exact ⟨r2, c, body, r3, h1, h2, by rw [he]; exact h3, by rw [he]; exact hn⟩

/-- On every accepted byte string without duplicate keys (the announced entry count equals the size of
the decoded map, which is what `serialize` always produces), the selective decoder returns exactly the
wanted part of the map: same value for wanted fields, nothing for the others, no key twice. -/
theorem C04_selected_agrees_partial (data : Bytes) (r : ScalarData) (req : List Bytes)
    (h : ScalarData.deserialize data = .ok r)
    (hc : announcedCount data = some r.metadata.length) :
    ∃ m, desSelected data req = .ok m ∧ (m.map Prod.fst).Nodup ∧
      ∀ k, m.get k = if k ∈ req then r.metadata.get k else none := by
  obtain ⟨r2, c, body, r3, h1, h2, h3, hn⟩ := rawEntries_of h hc
  unfold desSelected
  by_cases hreq : req = []
  · subst hreq
    exact ⟨[], by simp, by simp, by simp [MetaMap.get]⟩
  · have : ¬ (req = [] ∨ data = []) := by
      simp [hreq, deserialize_ok_ne_nil h]
    rw [if_neg this, h1]
    simp only [h2]
    obtain ⟨m, hm, hmn, hms, hmg⟩ := selLoop_spec req (leNat c) [] body r3 r.metadata h3
      (by simpa using hn) (by simp)
    refine ⟨m, hm, hmn, ?_⟩
    intro k
    by_cases hk : k ∈ req
    · rw [if_pos hk, hmg k hk, List.nil_append]
    · rw [if_neg hk, MetaMap.get_eq_none_iff]
      exact fun hk' => hk (hms k hk')

/-- Full agreement for single-value decoding of a non-empty field name, under the same condition. -/
theorem C04_single_agrees_partial (data : Bytes) (r : ScalarData) (field : Bytes) (hf : field ≠ [])
    (h : ScalarData.deserialize data = .ok r)
    (hc : announcedCount data = some r.metadata.length) :
    desSingle data field = .ok (r.metadata.get field) := by
  obtain ⟨r2, c, body, r3, h1, h2, h3, hn⟩ := rawEntries_of h hc
  unfold desSingle
  have : ¬ (field = [] ∨ data = []) := by
    simp [hf, deserialize_ok_ne_nil h]
  rw [if_neg this, h1]
  simp only [h2]
  exact singleLoop_spec field _ _ _ _ h3

/-- Everything that `serialize` produces meets the condition. -/
theorem C04_serialized_condition (r : ScalarData) (rest : Bytes) (h : Storable r) :
    announcedCount (r.serialize ++ rest) = some r.metadata.length := by
  have hs : ∀ (s rest : Bytes), s.length < 2 ^ 32 → skipString (serString s ++ rest) = .ok rest :=
    fun s rest hl => skipString_of_desString (desString_ser s rest hl)
  have e : r.serialize ++ rest
      = serString r.itemId ++ (serString r.document ++ (leBytes 4 r.metadata.length ++ (serEntries r.metadata ++ rest))) := by
    simp [ScalarData.serialize, serMetadata]
  have h1 : (skipString (r.serialize ++ rest)).bind skipString
      = .ok (leBytes 4 r.metadata.length ++ (serEntries r.metadata ++ rest)) := by
    rw [e, hs _ _ h.item]
    simp only [PR.bind]
    exact hs _ _ h.doc
  rw [announced_of h1 (splitN_append' (by simp)), leNat_leBytes_of_lt (by simpa using h.count)]

/-- For stored records (output of `serialize`): selective = full, for every wanted set. -/
theorem C04_stored_selected (r : ScalarData) (rest : Bytes) (h : Storable r) (req : List Bytes) :
    ∃ m, desSelected (r.serialize ++ rest) req = .ok m ∧ (m.map Prod.fst).Nodup ∧
      ∀ k, m.get k = if k ∈ req then r.metadata.get k else none :=
  C04_selected_agrees_partial _ r req (C03_roundtrip r rest h) (C04_serialized_condition r rest h)

/-- For stored records: single-value decoding = full decoding, for every non-empty field name. -/
theorem C04_stored_single (r : ScalarData) (rest : Bytes) (h : Storable r) (field : Bytes) (hf : field ≠ []) :
    desSingle (r.serialize ++ rest) field = .ok (r.metadata.get field) :=
  C04_single_agrees_partial _ r field hf (C03_roundtrip r rest h) (C04_serialized_condition r rest h)

-- the hypotheses hold for a concrete record and select a proper part
example : ScalarData.deserialize sampleRecord.serialize = .ok sampleRecord ∧
    announcedCount sampleRecord.serialize = some sampleRecord.metadata.length ∧
    desSelected sampleRecord.serialize [str "b_c", str "zz"] = .ok [(str "b_c", .string (str "x"))] := by
  decide

/-- Bytes with the key "a" twice (1 then 2). -/
def dupBytes : Bytes :=
  serString [] ++ serString [] ++ leBytes 4 2 ++
    serEntries [(str "a", .int 1), (str "a", .int 2)]

/-- The unrestricted statement is false: with a duplicate key full decoding keeps the last value, the
selective decoder the first one. -/
theorem C04_duplicate_keys_refuted :
    ¬ ∀ (data : Bytes) (r : ScalarData) (req : List Bytes), ScalarData.deserialize data = .ok r →
      ∃ m, desSelected data req = .ok m ∧ ∀ k ∈ req, m.get k = r.metadata.get k := by
  intro h
  obtain ⟨m, hm, hk⟩ := h dupBytes ⟨[], [], [(str "a", .int 2)]⟩ [str "a"] (by decide)
  have h1 : desSelected dupBytes [str "a"] = .ok [(str "a", .int 1)] := by decide
  rw [h1] at hm
  cases hm
  have := hk (str "a") (by simp)
  revert this
  decide

/-- The empty field name is a legal metadata key, but single-value decoding never finds it. -/
theorem C04_single_empty_field_refuted :
    ¬ ∀ (r : ScalarData) (field : Bytes), Storable r →
      desSingle r.serialize field = .ok (r.metadata.get field) := by
  intro h
  have := h ⟨[], [], [([], .bool true)]⟩ [] ⟨by decide, by decide, by decide, by simp, by simp⟩
  revert this
  decide

end Alaya
