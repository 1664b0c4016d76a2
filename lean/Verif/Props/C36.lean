import Verif.Lemmas.DiskManifestSave

/-! C36: collection and segment manifests round-trip and refuse malformed text. -/
namespace Alaya.DiskManifest
open Alaya Alaya.ManifestText Alaya.DiskFlat

/-- A text is accepted as segment manifest exactly when it is at most 1 MiB, has no byte order mark, and its entries describe
a manifest: required keys present and proper, no key twice, every other key in the `x_` name space.  The result is the
described manifest. -/
theorem C36_segment_load_exact (file : Bytes) (m : SegMan) : SegMan.load file = some m ↔
    file.length ≤ 2 ^ 20 ∧ ¬ [0xEF, 0xBB, 0xBF] <+: file ∧ ∃ es, TextMeans file es ∧ SegDescribes es m :=
  seg_load_iff file m

/-- The same for collection manifests. -/
theorem C36_collection_load_exact (file : Bytes) (m : ColMan) : ColMan.load file = some m ↔
    file.length ≤ 2 ^ 20 ∧ ¬ [0xEF, 0xBB, 0xBF] <+: file ∧ ∃ es, TextMeans file es ∧ ColDescribes es m :=
  col_load_iff file m

/-- A text says one thing only. -/
theorem C36_text_unambiguous (file : Bytes) (es es' : List (Bytes × Bytes)) (h : TextMeans file es) (h' : TextMeans file es') :
    es = es' := by
  have a := (parseKvLines_iff file es).2 h
  have b := (parseKvLines_iff file es').2 h'
  rw [a] at b
  injection b

/-- Refusals spelled out for segment manifests: a missing required key, a key twice, an unknown key outside `x_`, a number
that is not a decimal below 2^64, or an improper name. -/
theorem C36_segment_refuses (file : Bytes) (es : List (Bytes × Bytes)) (ht : TextMeans file es)
    (hbad : (∃ k ∈ segRequired, k ∉ es.map (·.1)) ∨
      ¬ (es.map (·.1)).Nodup ∨
      (∃ e ∈ es, e.1 ∉ segRequired ∧ ¬ Ext e.1) ∨
      (∃ k ∈ [str "version", str "dim", str "count"], ∃ v, (k, v) ∈ es ∧ ¬ ∃ n, n < 2 ^ 64 ∧ IsDecimal v n) ∨
      (∃ v, (str "segment_id", v) ∈ es ∧ ¬ SegName v) ∨
      (∃ v, (str "ids_file", v) ∈ es ∧ ¬ BaseName v) ∨
      (∃ v, (str "vectors_file", v) ∈ es ∧ v ≠ [] ∧ ¬ BaseName v)) :
    SegMan.load file = none := by
  cases hl : SegMan.load file with
  | none => rfl
  | some m =>
    exfalso
    obtain ⟨_, _, es', ht', hd⟩ := (seg_load_iff file m).1 hl
    have : es = es' := C36_text_unambiguous file es es' ht ht'
    subst this
    have uniq : ∀ k v v', (k, v) ∈ es → (k, v') ∈ es → v = v' := by
      intro k v v' h1 h2
      have hn := hd.once
      clear ht ht' hd hbad
      induction es with
      | nil => cases h1
      | cons p r ih =>
        simp only [List.map_cons, List.nodup_cons] at hn
        rcases List.mem_cons.1 h1 with h1 | h1
        · rcases List.mem_cons.1 h2 with h2 | h2
          · rw [← h1] at h2; injection h2 with _ h2; exact h2.symm
          · exact absurd (List.mem_map.2 ⟨_, h2, by rw [← h1]⟩) hn.1
        · rcases List.mem_cons.1 h2 with h2 | h2
          · exact absurd (List.mem_map.2 ⟨_, h1, by rw [← h2]⟩) hn.1
          · exact ih h1 h2 hn.2
    rcases hbad with ⟨k, hk, hn⟩ | h | ⟨e, he, h1, h2⟩ | ⟨k, hk, v, hv, hn⟩ | ⟨v, hv, hn⟩ | ⟨v, hv, hn⟩ | ⟨v, hv, h0, hn⟩
    · obtain ⟨v1, g1, _⟩ := hd.version
      obtain ⟨v2, g2, _⟩ := hd.dim
      obtain ⟨v3, g3, _⟩ := hd.count
      have pres : ∀ k v, (k, v) ∈ es → k ∈ es.map (·.1) := fun k v h => List.mem_map.2 ⟨(k, v), h, rfl⟩
      simp only [segRequired, List.mem_cons, List.not_mem_nil, or_false] at hk
      rcases hk with rfl | rfl | rfl | rfl | rfl | rfl | rfl | rfl
      · exact hn (pres _ _ g1)
      · exact hn (pres _ _ hd.segmentId)
      · exact hn (pres _ _ hd.engine)
      · exact hn (pres _ _ hd.metric)
      · exact hn (pres _ _ g2)
      · exact hn (pres _ _ g3)
      · exact hn (pres _ _ hd.idsFile)
      · exact hn (pres _ _ hd.vectorsFile)
    · exact h hd.once
    · rcases hd.known e he with h | h
      · exact h1 h
      · exact h2 h
    · obtain ⟨v1, g1, d1⟩ := hd.version
      obtain ⟨v2, g2, d2⟩ := hd.dim
      obtain ⟨v3, g3, d3⟩ := hd.count
      simp only [List.mem_cons, List.not_mem_nil, or_false] at hk
      rcases hk with rfl | rfl | rfl
      · rw [uniq _ _ _ hv g1] at hn; exact hn ⟨_, by rw [hd.version1]; decide, d1⟩
      · rw [uniq _ _ _ hv g2] at hn; exact hn ⟨_, hd.dimPos.2, d2⟩
      · rw [uniq _ _ _ hv g3] at hn; exact hn ⟨_, hd.countPos.2, d3⟩
    · rw [uniq _ _ _ hv hd.segmentId] at hn; exact hn hd.segmentName
    · rw [uniq _ _ _ hv hd.idsFile] at hn; exact hn hd.idsName
    · rw [uniq _ _ _ hv hd.vectorsFile] at hn h0
      rcases hd.vectorsName with h | h
      · exact h0 h
      · exact hn h

/-- Refusals for collection manifests. -/
theorem C36_collection_refuses (file : Bytes) (es : List (Bytes × Bytes)) (ht : TextMeans file es)
    (hbad : (∃ k ∈ colRequired, k ∉ es.map (·.1)) ∨
      ¬ ((es.map (·.1)).filter (fun k => !(k == str "segment") && !(k == str "segments"))).Nodup ∨
      (str "segment" ∈ es.map (·.1) ∧ str "segments" ∈ es.map (·.1)) ∨
      (∃ v, (str "segment", v) ∈ es ∧ ¬ SegName v) ∨
      (∃ e ∈ es, e.1 ∉ colRequired ∧ e.1 ≠ str "segment" ∧ e.1 ≠ str "segments" ∧ ¬ Ext e.1)) :
    ColMan.load file = none := by
  cases hl : ColMan.load file with
  | none => rfl
  | some m =>
    exfalso
    obtain ⟨_, _, es', ht', hd⟩ := (col_load_iff file m).1 hl
    have : es = es' := C36_text_unambiguous file es es' ht ht'
    subst this
    rcases hbad with ⟨k, hk, hn⟩ | h | ⟨h1, h2⟩ | ⟨v, hv, hn⟩ | ⟨e, he, h1, h2, h3, h4⟩
    · obtain ⟨v1, g1, _⟩ := hd.version
      obtain ⟨v2, g2, _⟩ := hd.dim
      obtain ⟨v3, g3, _⟩ := hd.next
      have pres : ∀ k v, (k, v) ∈ es → k ∈ es.map (·.1) := fun k v h => List.mem_map.2 ⟨(k, v), h, rfl⟩
      simp only [colRequired, List.mem_cons, List.not_mem_nil, or_false] at hk
      rcases hk with rfl | rfl | rfl | rfl | rfl
      · exact hn (pres _ _ g1)
      · exact hn (pres _ _ g2)
      · exact hn (pres _ _ hd.metric)
      · exact hn (pres _ _ hd.engine)
      · exact hn (pres _ _ g3)
    · exact h hd.once
    · rcases hd.segs with ⟨h, _⟩ | ⟨h, _⟩
      · exact h h2
      · exact h h1
    · rcases hd.segs with ⟨_, h⟩ | ⟨h, _⟩
      · apply hn
        apply hd.segNames
        rw [h]
        exact List.mem_map.2 ⟨(str "segment", v), List.mem_filter.2 ⟨hv, by simp⟩, rfl⟩
      · exact h (List.mem_map.2 ⟨_, hv, rfl⟩)
    · rcases hd.known e he with h | h | h | h
      · exact h1 h
      · exact h2 h
      · exact h3 h
      · exact h4 h

theorem noBom_of_line {k v r : Bytes} {c : UInt8} (hc : c ≠ 0xEF) : ¬ [0xEF, 0xBB, 0xBF] <+: line (c :: k) v ++ r := by
  intro h
  have := h.head (by simp)
  simp [line] at this
  exact hc this.symm

/-- The full property: every valid manifest survives save and load. -/
def SegRoundTrip : Prop := ∀ m : SegMan, m.Valid → SegMan.load m.save = some m
def ColRoundTrip : Prop := ∀ m : ColMan, m.Valid → ColMan.load m.save = some m

/-- Saving and loading a valid segment manifest gives it back.  Missing: manifests whose text is longer than 1 MiB, which
`save` writes and `load` refuses. -/
theorem C36_segment_roundtrip_partial (m : SegMan) (h : m.Valid) (hsz : m.save.length ≤ 2 ^ 20) : SegMan.load m.save = some m := by
  refine (seg_load_iff _ m).2 ⟨hsz, ?_, m.entries, ?_, h.describes⟩
  · unfold SegMan.save
    simp only [List.append_assoc]
    exact noBom_of_line (c := 118) (by decide)
  · rw [m.save_eq]; exact text_of_entries _ h.lineEntries

/-- Saving and loading a valid collection manifest gives it back.  Missing: texts longer than 1 MiB, i.e. collections of more
than about 49 900 segments (`C36_collection_roundtrip_refuted`). -/
theorem C36_collection_roundtrip_partial (m : ColMan) (h : m.Valid) (hsz : m.save.length ≤ 2 ^ 20) :
    ColMan.load m.save = some m := by
  refine (col_load_iff _ m).2 ⟨hsz, ?_, m.entries, ?_, h.describes⟩
  · unfold ColMan.save
    simp only [List.append_assoc]
    exact noBom_of_line (c := 118) (by decide)
  · rw [m.save_eq]; exact text_of_entries _ h.lineEntries

/-- A manifest listing the segments 1 … n. -/
def manyMan (n : Nat) : ColMan :=
  { dim := 1, metric := .l2, engine := .flat, next := n + 1, segs := (List.range n).map (fun i => formatSegmentId (i + 1)), extras := [] }

theorem SegName.length {s : Bytes} (h : SegName s) : s.length = 12 := by
  obtain ⟨ds, rfl, h8, _⟩ := h
  rw [List.length_append, h8]; decide

theorem segLines_length : ∀ (l : List Bytes), (∀ s ∈ l, SegName s) → (l.flatMap (fun s => line (str "segment") s)).length = 21 * l.length
  | [], _ => rfl
  | s :: l, h => by
    rw [List.flatMap_cons, List.length_append, segLines_length l (fun x hx => h x (by simp [hx]))]
    have h1 := (h s (by simp)).length
    have h2 : (line (str "segment") s).length = 21 := by
      have : (str "segment").length = 7 := by decide
      unfold line
      rw [List.length_append, List.length_append, List.length_cons, this, h1]; rfl
    rw [h2, List.length_cons]; omega

/-- The full statement is false: after 50 000 flushes the manifest that `flush` publishes (every field valid) is longer than
the limit of `load`, so the collection cannot be opened any more. -/
theorem C36_collection_roundtrip_refuted : ¬ ColRoundTrip := by
  intro hall
  obtain ⟨n, hn, hn2⟩ : ∃ n, 50000 ≤ n ∧ n < 10 ^ 8 := ⟨50000, by omega, by omega⟩
  have hv : (manyMan n).Valid := by
    refine ⟨rfl, ⟨(by decide : 0 < 1), (by decide : 1 < 2 ^ 64)⟩, ?_, ?_, List.Pairwise.nil, by simp [manyMan]⟩
    · show n + 1 < 2 ^ 64
      have : (10 : Nat) ^ 8 + 1 < 2 ^ 64 := by decide
      omega
    · intro s hs
      obtain ⟨i, hi, rfl⟩ := List.mem_map.1 hs
      rw [List.mem_range] at hi
      exact formatSegmentId_name (by omega)
  have := hall _ hv
  obtain ⟨hl, _⟩ := (col_load_iff _ _).1 this
  unfold ColMan.save at hl
  have h21 : ((manyMan n).segs.flatMap (fun s => line (str "segment") s)).length = 21 * n := by
    rw [segLines_length _ hv.segNames]
    simp [manyMan]
  rw [List.length_append, List.length_append, h21] at hl
  omega

-- the hypotheses are met by ordinary manifests
def exSeg : SegMan :=
  { segmentId := str "seg_00000007", engine := .flat, metric := .cos, dim := 3, count := 2, idsFile := str "ids.u64.bin",
    vectorsFile := str "vectors.f32.bin", extras := [(str "x_a", str "1 = 2"), (str "x_b", [])] }

example : SegMan.load exSeg.save = some exSeg := by decide +kernel

def exCol : ColMan :=
  { dim := 3, metric := .ip, engine := .vamana, next := 4, segs := [str "seg_00000001", str "seg_00000003"],
    extras := [(str "x_max_pending_bytes", str "4096")] }

example : ColMan.load exCol.save = some exCol := by decide +kernel
example : exCol.Valid :=
  ⟨rfl, by decide, by decide, fun s hs => (validSegmentId_iff s).1 (List.all_eq_true.1 (by decide : exCol.segs.all validSegmentId = true) s hs),
    by decide, by
      intro e he
      have : e = (str "x_max_pending_bytes", str "4096") := by simpa [exCol] using he
      subst this
      exact ⟨⟨(isExt_iff _).1 (by decide), by decide, by decide⟩, by decide⟩⟩
-- comments, blanks and the csv form
example : (ColMan.load (str "# c\n version = 1 \ndim=2\nmetric=L2\n\nindex_type=disk_flat\nnext_segment_id=3\nsegments=seg_00000001,seg_00000002")).map (·.segs) =
    some [str "seg_00000001", str "seg_00000002"] := by decide +kernel
-- refusals: duplicate key, missing key, unknown key, overflow, traversal
example : SegMan.load (exSeg.save ++ str "dim=3\n") = none := by decide +kernel
example : SegMan.load (str "version=1\n") = none := by decide +kernel
example : SegMan.load (exSeg.save ++ str "y=3\n") = none := by decide +kernel
example : SegMan.load { exSeg with dim := 2 ^ 64 }.save = none := by decide +kernel
example : SegMan.load { exSeg with idsFile := str "../x" }.save = none := by decide +kernel
-- observation: a segment listed twice is accepted
example : (ColMan.load { exCol with segs := [str "seg_00000001", str "seg_00000001"] }.save).isSome = true := by decide +kernel

end Alaya.DiskManifest
