import Verif.Lemmas.DiskManifestLoad

namespace Alaya.DiskManifest
open Alaya Alaya.ManifestText Alaya.DiskFlat

theorem LineValue.trim {v : Bytes} (h : LineValue v) : Trim v v :=
  ⟨[], [], by simp, by simp, by simp, h.2.1, h.2.2⟩

/-- An entry that survives being written on a line. -/
def LineEntry (e : Bytes × Bytes) : Prop := e.1 ≠ [] ∧ e.1.head? ≠ some 35 ∧ LineValue e.1 ∧ 61 ∉ e.1 ∧ LineValue e.2

theorem LineEntry.means {e : Bytes × Bytes} (h : LineEntry e) : LineMeans (e.1 ++ 61 :: e.2) (some e) := by
  obtain ⟨k, v⟩ := e
  obtain ⟨h1, h2, h3, h4, h5⟩ := h
  simp only at *
  have hh : (k ++ 61 :: v).head? = k.head? := by
    cases k with
    | nil => exact absurd rfl h1
    | cons c k => rfl
  refine .entry _ k v k v ⟨[], [], by simp, by simp, by simp, ?_, ?_⟩ (by rw [hh]; exact h2) h4 h3.trim h5.trim
  · intro c hc; rw [hh] at hc; exact h3.2.1 c hc
  · intro c hc
    rw [List.getLast?_append] at hc
    cases hv : v with
    | nil =>
      rw [hv] at hc
      simp at hc
      subst hc
      unfold Ws
      decide
    | cons x t =>
      rw [hv, List.getLast?_cons_cons] at hc
      have := h5.2.2
      rw [hv] at this
      cases hg : (x :: t).getLast? with
      | none => simp at hg
      | some y => rw [hg] at hc; simp at hc; subst hc; exact this _ hg

theorem LineEntry.noNL {e : Bytes × Bytes} (h : LineEntry e) : 10 ∉ e.1 ++ 61 :: e.2 := by
  obtain ⟨_, _, h3, _, h5⟩ := h
  simp only [List.mem_append, List.mem_cons]
  rintro (h | h | h)
  · exact h3.1 h
  · exact absurd h (by decide)
  · exact h5.1 h

/-- Entries written one per line say what they are. -/
theorem text_of_entries : ∀ (es : List (Bytes × Bytes)), (∀ e ∈ es, LineEntry e) →
    TextMeans (es.flatMap (fun e => line e.1 e.2)) es
  | [], _ => ⟨[[]], (isLines_iff 10 _ _).2 rfl, .skip _ _ _ (.blank _ ⟨[], [], by simp, by simp, by simp, by simp, by simp⟩) .nil⟩
  | e :: es, h => by
    obtain ⟨ls, h1, h2⟩ := text_of_entries es (fun x hx => h x (by simp [hx]))
    have he := h e (by simp)
    refine ⟨(e.1 ++ 61 :: e.2) :: ls, ⟨by simp, ?_, ?_⟩, .entry _ _ _ _ _ he.means h2⟩
    · intro l hl
      rcases List.mem_cons.1 hl with rfl | hl
      · exact he.noNL
      · exact h1.2.1 l hl
    · rw [List.flatMap_cons]
      cases ls with
      | nil => exact absurd rfl h1.1
      | cons l' ls =>
        rw [intercalate_cons2, ← h1.2.2]
        simp [line]

theorem decStr_lineValue (n : Nat) : LineValue (decStr n) := by
  have hd : ∀ c ∈ decStr n, 48 ≤ c.toNat ∧ c.toNat ≤ 57 := (decStr_isDecimal n).2.1
  have hw : ∀ c ∈ decStr n, ¬ Ws c := by
    intro c hc hw
    have := hd c hc
    rcases hw with rfl | rfl | rfl | rfl <;> exact absurd this (by decide)
  refine ⟨fun h => hw _ h (Or.inr (Or.inr (Or.inr rfl))), ?_, ?_⟩
  · intro c hc; exact hw c (List.mem_of_mem_head? hc)
  · intro c hc; exact hw c (List.mem_of_mem_getLast? hc)

theorem SegName.lineValue {s : Bytes} (h : SegName s) : LineValue s := by
  obtain ⟨ds, rfl, h8, hd⟩ := h
  have hw : ∀ c ∈ str "seg_" ++ ds, ¬ Ws c := by
    intro c hc hw
    rcases List.mem_append.1 hc with hc | hc
    · have : ∀ c ∈ str "seg_", ¬ Ws c := by unfold Ws; decide
      exact this c hc hw
    · have := hd c hc
      rcases hw with rfl | rfl | rfl | rfl <;> exact absurd this (by decide)
  refine ⟨fun h => hw _ h (Or.inr (Or.inr (Or.inr rfl))), ?_, ?_⟩
  · intro c hc; exact hw c (List.mem_of_mem_head? hc)
  · intro c hc; exact hw c (List.mem_of_mem_getLast? hc)

instance (v : Bytes) : Decidable (LineValue v) :=
  decidable_of_iff (10 ∉ v ∧ (v.head?.all fun c => !(isWs c)) = true ∧ (v.getLast?.all fun c => !(isWs c)) = true) (by
    unfold LineValue
    have : ∀ o : Option UInt8, (o.all fun c => !(isWs c)) = true ↔ ∀ c, o = some c → ¬ Ws c := by
      intro o
      cases o with
      | none => simp
      | some c =>
        simp only [Option.all_some, Bool.not_eq_true', Option.some.injEq, forall_eq']
        rw [← isWs_iff]; simp
    rw [this, this])

theorem engine_lineValue (e : Engine) : LineValue e.name := by cases e <;> decide
theorem metric_lineValue (e : Metric) : LineValue (metricName e) := by cases e <;> decide

theorem Ext.lineEntry {k v : Bytes} (h : ExtKey k) (hv : LineValue v) : LineEntry (k, v) := by
  obtain ⟨⟨r, rfl⟩, h2, h3⟩ := h
  exact ⟨by simp [str], by simp [str], h2, h3, hv⟩

/-- The entries `SegmentManifest::save` writes. -/
def SegMan.entries (m : SegMan) : List (Bytes × Bytes) :=
  [(str "version", decStr m.version), (str "segment_id", m.segmentId), (str "index_type", m.engine.name),
   (str "metric", metricName m.metric), (str "dim", decStr m.dim), (str "count", decStr m.count),
   (str "ids_file", m.idsFile), (str "vectors_file", m.vectorsFile)] ++ m.extras

theorem SegMan.save_eq (m : SegMan) : m.save = m.entries.flatMap (fun e => line e.1 e.2) := by
  unfold SegMan.save SegMan.entries
  simp only [List.flatMap_append, List.flatMap_cons, List.flatMap_nil, List.append_nil, List.append_assoc]

/-- The entries `CollectionManifest::save` writes. -/
def ColMan.entries (m : ColMan) : List (Bytes × Bytes) :=
  [(str "version", decStr m.version), (str "dim", decStr m.dim), (str "metric", metricName m.metric),
   (str "index_type", m.engine.name), (str "next_segment_id", decStr m.next)] ++ m.segs.map (fun s => (str "segment", s)) ++
   m.extras

theorem ColMan.save_eq (m : ColMan) : m.save = m.entries.flatMap (fun e => line e.1 e.2) := by
  unfold ColMan.save ColMan.entries
  simp only [List.flatMap_append, List.flatMap_cons, List.flatMap_nil, List.append_nil, List.append_assoc, List.flatMap_map]

theorem SegMan.Valid.lineEntries {m : SegMan} (h : m.Valid) : ∀ e ∈ m.entries, LineEntry e := by
  intro e he
  unfold SegMan.entries at he
  rcases List.mem_append.1 he with he | he
  · have key : ∀ k : Bytes, k ∈ segRequired → k ≠ [] ∧ k.head? ≠ some 35 ∧ LineValue k ∧ 61 ∉ k := by decide
    have hv : e.1 ∈ segRequired ∧ LineValue e.2 := by
      simp only [List.mem_cons, List.not_mem_nil, or_false] at he
      rcases he with rfl | rfl | rfl | rfl | rfl | rfl | rfl | rfl
      · exact ⟨by simp [segRequired, colRequired], decStr_lineValue _⟩
      · exact ⟨by simp [segRequired, colRequired], h.segmentName.lineValue⟩
      · exact ⟨by simp [segRequired, colRequired], engine_lineValue _⟩
      · exact ⟨by simp [segRequired, colRequired], metric_lineValue _⟩
      · exact ⟨by simp [segRequired, colRequired], decStr_lineValue _⟩
      · exact ⟨by simp [segRequired, colRequired], decStr_lineValue _⟩
      · exact ⟨by simp [segRequired, colRequired], h.idsName.2⟩
      · refine ⟨by simp [segRequired, colRequired], ?_⟩
        rcases h.vectorsName with e | e
        · simp only; rw [e]; decide
        · exact e.2
    obtain ⟨a, b, c, d⟩ := key e.1 hv.1
    exact ⟨a, b, c, d, hv.2⟩
  · have := h.extras e he
    exact Ext.lineEntry this.1 this.2

theorem ColMan.Valid.lineEntries {m : ColMan} (h : m.Valid) : ∀ e ∈ m.entries, LineEntry e := by
  intro e he
  unfold ColMan.entries at he
  rcases List.mem_append.1 he with he | he
  · have key : ∀ k : Bytes, k ∈ str "segment" :: colRequired → k ≠ [] ∧ k.head? ≠ some 35 ∧ LineValue k ∧ 61 ∉ k := by decide
    have hv : e.1 ∈ str "segment" :: colRequired ∧ LineValue e.2 := by
      rcases List.mem_append.1 he with he | he
      · simp only [List.mem_cons, List.not_mem_nil, or_false] at he
        rcases he with rfl | rfl | rfl | rfl | rfl
        · exact ⟨by simp [segRequired, colRequired], decStr_lineValue _⟩
        · exact ⟨by simp [segRequired, colRequired], decStr_lineValue _⟩
        · exact ⟨by simp [segRequired, colRequired], metric_lineValue _⟩
        · exact ⟨by simp [segRequired, colRequired], engine_lineValue _⟩
        · exact ⟨by simp [segRequired, colRequired], decStr_lineValue _⟩
      · obtain ⟨s, hs, rfl⟩ := List.mem_map.1 he
        exact ⟨by simp, (h.segNames s hs).lineValue⟩
    obtain ⟨a, b, c, d⟩ := key e.1 hv.1
    exact ⟨a, b, c, d, hv.2⟩
  · have := h.extras e he
    exact Ext.lineEntry this.1 this.2

theorem asc_keys_nodup {kv : KV} (h : kv.Pairwise (fun a b => a.1 < b.1)) : (kv.map (·.1)).Nodup := by
  rw [List.Nodup, List.pairwise_map]
  exact h.imp (fun hlt => blt_ne hlt)

theorem SegMan.Valid.describes {m : SegMan} (h : m.Valid) : SegDescribes m.entries m := by
  have hkeys : m.entries.map (·.1) = segRequired ++ m.extras.map (·.1) := by
    unfold SegMan.entries; rw [List.map_append]; rfl
  refine {
    once := ?_
    version := ⟨_, by simp [SegMan.entries], decStr_isDecimal _⟩
    version1 := h.version
    segmentId := by simp [SegMan.entries]
    segmentName := h.segmentName
    engine := by simp [SegMan.entries]
    metric := by simp [SegMan.entries]
    dim := ⟨decStr m.dim, by simp [SegMan.entries], decStr_isDecimal _⟩
    dimPos := h.dim
    count := ⟨decStr m.count, by simp [SegMan.entries], decStr_isDecimal _⟩
    countPos := h.count
    idsFile := by simp [SegMan.entries]
    idsName := h.idsName.1
    vectorsFile := by simp [SegMan.entries]
    vectorsName := h.vectorsName.imp id (·.1)
    known := ?_
    extrasAsc := h.extrasAsc
    extras := ?_ }
  · rw [hkeys, List.nodup_append]
    refine ⟨by decide, asc_keys_nodup h.extrasAsc, ?_⟩
    intro a ha b hb e
    obtain ⟨x, hx, rfl⟩ := List.mem_map.1 hb
    exact ext_not_seg (h.extras x hx).1.1 (e ▸ ha)
  · intro e he
    have : e.1 ∈ m.entries.map (·.1) := List.mem_map.2 ⟨e, he, rfl⟩
    unfold SegMan.entries at he
    rcases List.mem_append.1 he with he | he
    · left
      have : e.1 ∈ ([(str "version", decStr m.version), (str "segment_id", m.segmentId), (str "index_type", m.engine.name),
        (str "metric", metricName m.metric), (str "dim", decStr m.dim), (str "count", decStr m.count),
        (str "ids_file", m.idsFile), (str "vectors_file", m.vectorsFile)] : List (Bytes × Bytes)).map (·.1) := List.mem_map.2 ⟨e, he, rfl⟩
      exact this
    · right; exact (h.extras e he).1.1
  · intro e
    constructor
    · intro he; exact ⟨List.mem_append.2 (Or.inr he), (h.extras e he).1.1⟩
    · rintro ⟨he, hx⟩
      unfold SegMan.entries at he
      rcases List.mem_append.1 he with he | he
      · have : e.1 ∈ ([(str "version", decStr m.version), (str "segment_id", m.segmentId), (str "index_type", m.engine.name),
          (str "metric", metricName m.metric), (str "dim", decStr m.dim), (str "count", decStr m.count),
          (str "ids_file", m.idsFile), (str "vectors_file", m.vectorsFile)] : List (Bytes × Bytes)).map (·.1) := List.mem_map.2 ⟨e, he, rfl⟩
        exact absurd this (ext_not_seg hx)
      · exact he

theorem ColMan.Valid.describes {m : ColMan} (h : m.Valid) : ColDescribes m.entries m := by
  have hfix : ∀ e : Bytes × Bytes, e ∈ ([(str "version", decStr m.version), (str "dim", decStr m.dim), (str "metric", metricName m.metric),
      (str "index_type", m.engine.name), (str "next_segment_id", decStr m.next)] : List (Bytes × Bytes)) → e.1 ∈ colRequired := by
    intro e he
    have : e.1 ∈ ([(str "version", decStr m.version), (str "dim", decStr m.dim), (str "metric", metricName m.metric),
      (str "index_type", m.engine.name), (str "next_segment_id", decStr m.next)] : List (Bytes × Bytes)).map (·.1) := List.mem_map.2 ⟨e, he, rfl⟩
    exact this
  have hext : ∀ e ∈ m.extras, e.1 ≠ str "segment" ∧ e.1 ≠ str "segments" := by
    intro e he
    have hx := (h.extras e he).1.1
    exact ⟨fun q => seg_keys_not.1 (by rw [← q]; exact (isExt_iff _).2 hx), fun q => seg_keys_not.2.1 (by rw [← q]; exact (isExt_iff _).2 hx)⟩
  have hcases : ∀ e ∈ m.entries, e.1 ∈ colRequired ∨ e.1 = str "segment" ∨ e ∈ m.extras := by
    intro e he
    unfold ColMan.entries at he
    rcases List.mem_append.1 he with he | he
    · rcases List.mem_append.1 he with he | he
      · exact Or.inl (hfix e he)
      · obtain ⟨s, _, rfl⟩ := List.mem_map.1 he; exact Or.inr (Or.inl rfl)
    · exact Or.inr (Or.inr he)
  refine {
    once := ?_
    version := ⟨_, by simp [ColMan.entries], decStr_isDecimal _⟩
    version1 := h.version
    dim := ⟨decStr m.dim, by simp [ColMan.entries], decStr_isDecimal _⟩
    dimPos := h.dim
    metric := by simp [ColMan.entries]
    engine := by simp [ColMan.entries]
    next := ⟨decStr m.next, by simp [ColMan.entries], decStr_isDecimal _⟩
    nextLt := h.next
    segs := Or.inl ⟨?_, ?_⟩
    segNames := h.segNames
    known := ?_
    extrasAsc := h.extrasAsc
    extras := ?_ }
  · unfold ColMan.entries
    rw [List.map_append, List.map_append, List.filter_append, List.filter_append]
    have e1 : (List.map (·.1) ([(str "version", decStr m.version), (str "dim", decStr m.dim), (str "metric", metricName m.metric),
      (str "index_type", m.engine.name), (str "next_segment_id", decStr m.next)] : List (Bytes × Bytes))).filter
        (fun k => !(k == str "segment") && !(k == str "segments")) = colRequired := by
      show colRequired.filter _ = colRequired
      decide
    have e2 : (List.map (·.1) (m.segs.map (fun s => (str "segment", s)))).filter
        (fun k => !(k == str "segment") && !(k == str "segments")) = [] := by
      rw [List.filter_eq_nil_iff]
      intro k hk
      obtain ⟨e, he, rfl⟩ := List.mem_map.1 hk
      obtain ⟨s, _, rfl⟩ := List.mem_map.1 he
      simp
    rw [e1, e2, List.append_nil, List.nodup_append]
    refine ⟨by decide, List.Nodup.sublist List.filter_sublist (asc_keys_nodup h.extrasAsc), ?_⟩
    intro a ha b hb e
    obtain ⟨x, hx, rfl⟩ := List.mem_map.1 (List.mem_filter.1 hb).1
    exact ext_not_col (h.extras x hx).1.1 (e ▸ ha)
  · intro hm
    obtain ⟨e, he, hk⟩ := List.mem_map.1 hm
    rcases hcases e he with g | g | g
    · rw [hk] at g; exact absurd g (by decide)
    · rw [hk] at g; exact absurd g (by decide)
    · exact (hext e g).2 hk
  · unfold ColMan.entries
    rw [List.filter_append, List.filter_append]
    have e1 : ([(str "version", decStr m.version), (str "dim", decStr m.dim), (str "metric", metricName m.metric),
      (str "index_type", m.engine.name), (str "next_segment_id", decStr m.next)] : List (Bytes × Bytes)).filter (fun e => e.1 == str "segment") = [] := by
      rw [List.filter_eq_nil_iff]
      intro e he hk
      have := hfix e he
      rw [show e.1 = str "segment" by simpa using hk] at this
      exact absurd this (by decide)
    have e2 : (m.segs.map (fun s => (str "segment", s))).filter (fun e => e.1 == str "segment") = m.segs.map (fun s => (str "segment", s)) := by
      rw [List.filter_eq_self]
      intro e he
      obtain ⟨s, _, rfl⟩ := List.mem_map.1 he
      simp
    have e3 : m.extras.filter (fun e => e.1 == str "segment") = [] := by
      rw [List.filter_eq_nil_iff]
      intro e he hk
      exact (hext e he).1 (by simpa using hk)
    rw [e1, e2, e3, List.nil_append, List.append_nil, List.map_map]
    exact (List.map_id m.segs).symm
  · intro e he
    rcases hcases e he with g | g | g
    · exact Or.inl g
    · exact Or.inr (Or.inl g)
    · exact Or.inr (Or.inr (Or.inr (h.extras e g).1.1))
  · intro e
    constructor
    · intro he; exact ⟨List.mem_append.2 (Or.inr he), (h.extras e he).1.1⟩
    · rintro ⟨he, hx⟩
      rcases hcases e he with g | g | g
      · exact absurd g (ext_not_col hx)
      · exact absurd ((isExt_iff _).2 (g ▸ hx)) seg_keys_not.1
      · exact g

theorem formatSegmentId_eq {n : Nat} (h : n < 10 ^ 8) : formatSegmentId n = str "seg_" ++ fixedDigits 10 decDigit 8 n := by
  unfold formatSegmentId
  obtain ⟨h1, h2⟩ := pad_decStr 8 n h (by decide)
  rw [h2]
  apply List.take_of_length_le
  have : (fixedDigits 10 decDigit 8 n).length = 8 := by rw [← h2]; simp; omega
  rw [List.length_append, this]
  decide

theorem formatSegmentId_name {n : Nat} (h : n < 10 ^ 8) : SegName (formatSegmentId n) := by
  refine ⟨fixedDigits 10 decDigit 8 n, formatSegmentId_eq h, ?_, ?_⟩
  · obtain ⟨h1, h2⟩ := pad_decStr 8 n h (by decide)
    rw [← h2]; simp; omega
  · obtain ⟨h1, h2⟩ := pad_decStr 8 n h (by decide)
    intro c hc
    rw [← h2] at hc
    rcases List.mem_append.1 hc with hc | hc
    · rw [List.mem_replicate] at hc; rw [hc.2]; decide
    · exact (decStr_isDecimal n).2.1 c hc

/-- From id 10^8 on the name is not a segment name. -/
theorem formatSegmentId_invalid {n : Nat} (h : 10 ^ 8 ≤ n) : ¬ SegName (formatSegmentId n) := by
  rintro ⟨ds, e, h8, _⟩
  have := congrArg List.length e
  unfold formatSegmentId at this
  have hl := decStr_length_gt (w := 8) h
  have h4 : (str "seg_").length = 4 := by decide
  rw [List.length_take, List.length_append, List.length_append, List.length_append, h8, h4, List.length_replicate] at this
  omega

end Alaya.DiskManifest
