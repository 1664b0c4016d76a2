import Verif.Lemmas.DiskManifest
import Verif.Spec.Manifests
import Verif.Props.C37

namespace Alaya.DiskManifest
open Alaya Alaya.ManifestText Alaya.DiskFlat

theorem ofName_iff (s : Bytes) (e : Engine) : Engine.ofName s = some e ↔ s = e.name := by
  unfold Engine.ofName
  by_cases h1 : s = str "disk_flat"
  · subst h1; cases e <;> decide
  · rw [if_neg h1]
    by_cases h2 : s = str "disk_vamana"
    · subst h2; cases e <;> decide
    · rw [if_neg h2]
      by_cases h3 : s = str "disk_laser"
      · subst h3; cases e <;> decide
      · rw [if_neg h3]
        cases e
        · simp [Engine.name, h1]
        · simp [Engine.name, h2]
        · simp [Engine.name, h3]

theorem metricOfName_iff (s : Bytes) (e : Metric) : metricOfName s = some e ↔ s = metricName e := by
  unfold metricOfName
  by_cases h1 : s = str "L2"
  · subst h1; cases e <;> decide
  · rw [if_neg h1]
    by_cases h2 : s = str "IP"
    · subst h2; cases e <;> decide
    · rw [if_neg h2]
      by_cases h3 : s = str "COS"
      · subst h3; cases e <;> decide
      · rw [if_neg h3]
        cases e
        · simp [metricName, h1]
        · simp [metricName, h2]
        · simp [metricName, h3]

theorem validSegmentId_iff (s : Bytes) : validSegmentId s = true ↔ SegName s := by
  unfold validSegmentId SegName
  simp only [Bool.and_eq_true, beq_iff_eq, List.all_eq_true, decide_eq_true_eq]
  constructor
  · rintro ⟨⟨h1, h2⟩, h3⟩
    exact ⟨s.drop 4, by rw [← h2, List.take_append_drop], by simp [h1], h3⟩
  · rintro ⟨ds, rfl, h2, h3⟩
    have h4 : (str "seg_").length = 4 := by decide
    refine ⟨⟨by rw [List.length_append, h2, h4], ?_⟩, ?_⟩
    · rw [List.take_append_of_le_length (by rw [h4]; exact Nat.le_refl _), List.take_of_length_le (by rw [h4]; exact Nat.le_refl _)]
    · rw [List.drop_append, h4]
      simpa [List.drop_of_length_le, h4] using h3

theorem validBasename_iff (s : Bytes) : validBasename s = true ↔ BaseName s := by
  unfold validBasename BaseName
  simp only [Bool.and_eq_true, Bool.not_eq_true', beq_eq_false_iff_ne, List.all_eq_true, ne_eq]
  constructor
  · rintro ⟨⟨⟨h1, h2⟩, h3⟩, h4⟩
    exact ⟨h1, h2, h3, fun h => (h4 _ h).1 rfl, fun h => (h4 _ h).2 rfl⟩
  · rintro ⟨h1, h2, h3, h4, h5⟩
    exact ⟨⟨⟨h1, h2⟩, h3⟩, fun c hc => ⟨fun e => h4 (e ▸ hc), fun e => h5 (e ▸ hc)⟩⟩

theorem isExt_iff (k : Bytes) : isExt k = true ↔ Ext k := by
  unfold isExt Ext
  rw [List.isPrefixOf_iff_prefix]
  constructor
  · rintro ⟨r, h⟩; exact ⟨r, h.symm⟩
  · rintro ⟨r, h⟩; exact ⟨r, h.symm⟩

theorem parse_dec_iff (s : Bytes) (n : Nat) : parseUint64 s = some n ↔ IsDecimal s n ∧ n < 2 ^ 64 := by
  rw [C37_parse_uint64_exact]
  unfold IsDecimal
  constructor
  · rintro ⟨h1, h2, h3, h4⟩; exact ⟨⟨h1, h2, h3⟩, h4⟩
  · rintro ⟨⟨h1, h2, h3⟩, h4⟩; exact ⟨h1, h2, h3, h4⟩

theorem stoullAll_decimal {s : Bytes} {n : Nat} (h : IsDecimal s n) : stoullAll s = if n < 2 ^ 64 then some n else none := by
  obtain ⟨h1, h2, h3⟩ := h
  cases s with
  | nil => exact absurd rfl h1
  | cons c cs =>
    have hc := h2 c (by simp)
    have hw : isSpace c = false := by
      unfold isSpace
      have : c ≠ 32 := by intro e; subst e; exact absurd hc.1 (by decide)
      simp [this]
      omega
    have hdrop : (c :: cs).dropWhile isSpace = c :: cs := by rw [List.dropWhile_cons_of_neg (by simp [hw])]
    unfold stoullAll
    rw [hdrop]
    simp only
    rw [if_neg (by intro e; subst e; exact absurd hc.1 (by decide)), if_neg (by intro e; subst e; exact absurd hc.1 (by decide))]
    by_cases hn : n < 2 ^ 64
    · rw [if_pos hn]
      exact (parse_dec_iff _ _).2 ⟨⟨by simp, h2, h3⟩, hn⟩
    · rw [if_neg hn]
      cases hx : parseUint64 (c :: cs) with
      | none => rfl
      | some k =>
        obtain ⟨⟨_, _, k3⟩, k4⟩ := (parse_dec_iff _ _).1 hx
        omega

theorem stoullAll_decStr {n : Nat} (h : n < 2 ^ 64) : stoullAll (decStr n) = some n := by
  rw [stoullAll_decimal (decStr_isDecimal n), if_pos h]

/-- Only digits, signs and white space are read. -/
theorem stoullAll_chars {s : Bytes} {n : Nat} (h : stoullAll s = some n) :
    s ≠ [] ∧ ∀ c ∈ s, isSpace c = true ∨ c = 43 ∨ c = 45 ∨ (48 ≤ c.toNat ∧ c.toNat ≤ 57) := by
  have key : ∀ cs k, parseUint64 cs = some k → ∀ c ∈ cs, 48 ≤ c.toNat ∧ c.toNat ≤ 57 :=
    fun cs k hk => ((parse_dec_iff _ _).1 hk).1.2.1
  unfold stoullAll at h
  have hsplit := List.takeWhile_append_dropWhile (p := isSpace) (l := s)
  cases hd : s.dropWhile isSpace with
  | nil => rw [hd] at h; cases h
  | cons c cs =>
    rw [hd] at h hsplit
    simp only at h
    refine ⟨by rw [← hsplit]; simp, ?_⟩
    intro x hx
    rw [← hsplit] at hx
    rcases List.mem_append.1 hx with hx | hx
    · exact Or.inl (List.all_eq_true.1 List.all_takeWhile x hx)
    · right
      by_cases c1 : c = 43
      · rw [if_pos c1] at h
        rcases List.mem_cons.1 hx with hx | hx
        · exact Or.inl (hx.trans c1)
        · exact Or.inr (Or.inr (key _ _ h x hx))
      · rw [if_neg c1] at h
        by_cases c2 : c = 45
        · rw [if_pos c2] at h
          rcases List.mem_cons.1 hx with hx | hx
          · exact Or.inr (Or.inl (hx.trans c2))
          · cases hp : parseUint64 cs with
            | none => rw [hp] at h; cases h
            | some k => exact Or.inr (Or.inr (key _ _ hp x hx))
        · rw [if_neg c2] at h
          exact Or.inr (Or.inr (key _ _ h x hx))

theorem at_of_get {kv : KV} {k v : Bytes} (h : kv.get k = some v) : at' kv k = v := by unfold at'; rw [h]; rfl

theorem reqOk_iff (kv : KV) (ex k : Bytes) : reqOk kv ex k = true ↔ ∃ v, kv.get k = some v ∧ (v ≠ [] ∨ k = ex) := by
  unfold reqOk
  cases h : kv.get k with
  | none => simp
  | some v => simp [beq_iff_eq]

theorem ext_not_seg {k : Bytes} (h : Ext k) : k ∉ segRequired := by
  obtain ⟨r, rfl⟩ := h
  intro hm
  have : ∀ y ∈ segRequired, y.take 2 ≠ str "x_" := by decide
  exact this _ hm (by simp [str])

theorem ext_not_col {k : Bytes} (h : Ext k) : k ∉ colRequired := by
  obtain ⟨r, rfl⟩ := h
  intro hm
  have : ∀ y ∈ colRequired, y.take 2 ≠ str "x_" := by decide
  exact this _ hm (by simp [str])

theorem seg_ofMap_iff (kv : KV) (es : List (Bytes × Bytes)) (hs : kv.Sorted) (hm : ∀ e, e ∈ kv ↔ e ∈ es)
    (hn : (es.map (·.1)).Nodup) (m : SegMan) : SegMan.ofMap kv = some m ↔ SegDescribes es m := by
  have hget : ∀ k v, kv.get k = some v ↔ (k, v) ∈ es := fun k v => by rw [← hm, KV.mem_iff_get hs]
  constructor
  · intro h
    unfold SegMan.ofMap at h
    by_cases h1 : segRequired.all (reqOk kv (str "vectors_file")) = true
    · rw [h1] at h
      rw [if_neg (by simp)] at h
      have hreq : ∀ k ∈ segRequired, (k, at' kv k) ∈ es := by
        intro k hk
        obtain ⟨v, hv, _⟩ := (reqOk_iff _ _ _).1 (List.all_eq_true.1 h1 k hk)
        rw [at_of_get hv]; exact (hget k v).1 hv
      split at h
      · cases h
      rename_i ver hver
      by_cases h2 : ver ≠ 1
      · rw [if_pos h2] at h; cases h
      rw [if_neg h2] at h
      by_cases h3 : ¬ (validSegmentId (at' kv (str "segment_id")) = true)
      · rw [if_pos (by simpa using h3)] at h; cases h
      replace h3 := Decidable.not_not.1 h3
      rw [if_neg (by simpa using h3)] at h
      split at h
      · cases h
      rename_i eng heng
      split at h
      · cases h
      rename_i met hmet
      split at h
      · cases h
      rename_i dim hdim
      by_cases h4 : dim = 0
      · rw [if_pos h4] at h; cases h
      rw [if_neg h4] at h
      split at h
      · cases h
      rename_i cnt hcnt
      by_cases h5 : cnt = 0
      · rw [if_pos h5] at h; cases h
      rw [if_neg h5] at h
      by_cases h6 : ¬ (validBasename (at' kv (str "ids_file")) = true)
      · rw [if_pos (by simpa using h6)] at h; cases h
      replace h6 := Decidable.not_not.1 h6
      rw [if_neg (by simpa using h6)] at h
      by_cases h7 : (!(at' kv (str "vectors_file") == []) && !(validBasename (at' kv (str "vectors_file")))) = true
      · rw [if_pos h7] at h; cases h
      rw [if_neg h7] at h
      by_cases h8 : ¬ (kv.all (fun e => segRequired.contains e.1 || isExt e.1) = true)
      · rw [if_pos (by simpa using h8)] at h; cases h
      replace h8 := Decidable.not_not.1 h8
      rw [if_neg (by rw [h8]; simp)] at h
      injection h with h
      subst h
      have hk : ∀ e ∈ es, e.1 ∈ segRequired ∨ Ext e.1 := by
        intro e he
        have := List.all_eq_true.1 h8 e ((hm e).2 he)
        simp only [Bool.or_eq_true, List.contains_iff_mem, isExt_iff] at this
        exact this
      exact {
        once := hn
        version := ⟨_, hreq _ (by decide), ((parse_dec_iff _ _).1 hver).1⟩
        version1 := by simpa using h2
        segmentId := hreq _ (by decide)
        segmentName := (validSegmentId_iff _).1 h3
        engine := by have := hreq (str "index_type") (by decide); rw [(ofName_iff _ _).1 heng] at this; exact this
        metric := by have := hreq (str "metric") (by decide); rw [(metricOfName_iff _ _).1 hmet] at this; exact this
        dim := ⟨_, hreq _ (by decide), ((parse_dec_iff _ _).1 hdim).1⟩
        dimPos := ⟨Nat.pos_of_ne_zero h4, ((parse_dec_iff _ _).1 hdim).2⟩
        count := ⟨_, hreq _ (by decide), ((parse_dec_iff _ _).1 hcnt).1⟩
        countPos := ⟨Nat.pos_of_ne_zero h5, ((parse_dec_iff _ _).1 hcnt).2⟩
        idsFile := hreq _ (by decide)
        idsName := (validBasename_iff _).1 h6
        vectorsFile := hreq _ (by decide)
        vectorsName := by
          by_cases e : at' kv (str "vectors_file") = []
          · exact Or.inl e
          · refine Or.inr ((validBasename_iff _).1 ?_)
            cases hv : validBasename (at' kv (str "vectors_file")) with
            | true => rfl
            | false => exact absurd (by rw [hv]; simp [e]) h7
        known := hk
        extrasAsc := List.Pairwise.sublist List.filter_sublist hs
        extras := by
          intro e
          rw [List.mem_filter, hm]
          constructor
          · rintro ⟨h1, h2⟩
            refine ⟨h1, (hk e h1).resolve_left ?_⟩
            simpa using h2
          · rintro ⟨h1, h2⟩
            exact ⟨h1, by have := ext_not_seg h2; simpa using this⟩ }
    · rw [if_pos (by simpa using h1)] at h; cases h
  · intro h
    obtain ⟨vver, hver, hver'⟩ := h.version
    obtain ⟨vdim, hdim, hdim'⟩ := h.dim
    obtain ⟨vcnt, hcnt, hcnt'⟩ := h.count
    have gver := (hget _ _).2 hver
    have gdim := (hget _ _).2 hdim
    have gcnt := (hget _ _).2 hcnt
    have gid := (hget _ _).2 h.segmentId
    have geng := (hget _ _).2 h.engine
    have gmet := (hget _ _).2 h.metric
    have gids := (hget _ _).2 h.idsFile
    have gvec := (hget _ _).2 h.vectorsFile
    unfold SegMan.ofMap
    have hall : segRequired.all (reqOk kv (str "vectors_file")) = true := by
      rw [List.all_eq_true]
      intro k hk
      rw [reqOk_iff]
      simp only [segRequired, List.mem_cons, List.not_mem_nil, or_false] at hk
      rcases hk with rfl | rfl | rfl | rfl | rfl | rfl | rfl | rfl
      · exact ⟨_, gver, Or.inl hver'.1⟩
      · refine ⟨_, gid, Or.inl ?_⟩
        obtain ⟨ds, e, h8, _⟩ := h.segmentName
        rw [e]; simp [str]
      · refine ⟨_, geng, Or.inl ?_⟩; cases m.engine <;> decide
      · refine ⟨_, gmet, Or.inl ?_⟩; cases m.metric <;> decide
      · exact ⟨_, gdim, Or.inl hdim'.1⟩
      · exact ⟨_, gcnt, Or.inl hcnt'.1⟩
      · exact ⟨_, gids, Or.inl h.idsName.1⟩
      · exact ⟨_, gvec, Or.inr rfl⟩
    rw [hall, if_neg (by simp), at_of_get gver, (parse_dec_iff _ _).2 ⟨hver', by rw [h.version1]; decide⟩]
    simp only
    rw [if_neg (by simp [h.version1]), at_of_get gid, (validSegmentId_iff _).2 h.segmentName, if_neg (by simp),
      at_of_get geng, (ofName_iff _ _).2 rfl]
    simp only
    rw [at_of_get gmet, (metricOfName_iff _ _).2 rfl]
    simp only
    rw [at_of_get gdim, (parse_dec_iff _ _).2 ⟨hdim', h.dimPos.2⟩]
    simp only
    rw [if_neg (Nat.pos_iff_ne_zero.1 h.dimPos.1), at_of_get gcnt, (parse_dec_iff _ _).2 ⟨hcnt', h.countPos.2⟩]
    simp only
    rw [if_neg (Nat.pos_iff_ne_zero.1 h.countPos.1), at_of_get gids, (validBasename_iff _).2 h.idsName, if_neg (by simp),
      at_of_get gvec, if_neg, if_neg]
    · congr 1
      have : kv.filter (fun e => !(segRequired.contains e.1)) = m.extras := by
        apply KV.ext_mem (List.Pairwise.sublist List.filter_sublist hs) h.extrasAsc
        intro e
        rw [List.mem_filter, hm, h.extras]
        constructor
        · rintro ⟨h1, h2⟩
          exact ⟨h1, (h.known e h1).resolve_left (by simpa using h2)⟩
        · rintro ⟨h1, h2⟩
          exact ⟨h1, by have := ext_not_seg h2; simpa using this⟩
      rw [this]
    · have : kv.all (fun e => segRequired.contains e.1 || isExt e.1) = true := by
        rw [List.all_eq_true]
        intro e he
        simp only [Bool.or_eq_true, List.contains_iff_mem, isExt_iff]
        exact h.known e ((hm e).1 he)
      rw [this]; simp
    · rcases h.vectorsName with e | e
      · rw [e]; simp
      · rw [(validBasename_iff _).2 e]; simp

theorem readBody_iff (f b : Bytes) : readBody f = some b ↔ f = b ∧ f.length ≤ 1048576 ∧ ¬ [0xEF, 0xBB, 0xBF] <+: f := by
  unfold readBody
  by_cases h1 : f.length > 1048576
  · rw [if_pos h1]; constructor
    · intro h; cases h
    · rintro ⟨_, h, _⟩; omega
  · rw [if_neg h1]
    have hp : f.take 3 = [0xEF, 0xBB, 0xBF] ↔ [0xEF, 0xBB, 0xBF] <+: f := by
      rw [List.prefix_iff_eq_take]; exact ⟨fun h => h.symm, fun h => h.symm⟩
    by_cases h2 : f.take 3 = [0xEF, 0xBB, 0xBF]
    · rw [if_pos h2]; constructor
      · intro h; cases h
      · rintro ⟨_, _, h⟩; exact absurd (hp.1 h2) h
    · rw [if_neg h2]
      constructor
      · intro h; injection h with h; exact ⟨h, by omega, fun h => h2 (hp.2 h)⟩
      · rintro ⟨h, _⟩; rw [h]

/-- Distinct keys are accepted. -/
theorem toMap_exists : ∀ (es : List (Bytes × Bytes)) (kv0 : KV), kv0.Sorted → (es.map (·.1)).Nodup →
    (∀ k ∈ es.map (·.1), k ∉ kv0.map (·.1)) → ∃ kv, toMap kv0 es = some kv := by
  intro es
  induction es with
  | nil => intro kv0 _ _ _; exact ⟨kv0, rfl⟩
  | cons p r ih =>
    intro kv0 hs hn hd
    obtain ⟨k, v⟩ := p
    unfold toMap
    have hk : ¬ (kv0.get k).isSome = true := fun hk => hd k (by simp) ((KV.get_isSome_iff hs k).1 hk)
    rw [if_neg hk]
    simp only [List.map_cons, List.nodup_cons] at hn
    apply ih _ (KV.sorted_put hs k v) hn.2
    intro x hx hm
    obtain ⟨e, he, rfl⟩ := List.mem_map.1 hm
    rcases (KV.mem_put_new hs (by simpa using hk) v e).1 he with rfl | he
    · exact hn.1 hx
    · exact hd e.1 (by simp [hx]) (List.mem_map.2 ⟨e, he, rfl⟩)

theorem seg_load_iff (f : Bytes) (m : SegMan) : SegMan.load f = some m ↔
    f.length ≤ 1048576 ∧ ¬ [0xEF, 0xBB, 0xBF] <+: f ∧ ∃ es, TextMeans f es ∧ SegDescribes es m := by
  unfold SegMan.load
  constructor
  · intro h
    split at h
    · cases h
    rename_i b hb
    obtain ⟨rfl, h1, h2⟩ := (readBody_iff _ _).1 hb
    split at h
    · cases h
    rename_i es hes
    split at h
    · cases h
    rename_i kv hkv
    obtain ⟨g1, _, g3, g4⟩ := (toMap_iff es [] kv List.Pairwise.nil).1 hkv
    exact ⟨h1, h2, es, (parseKvLines_iff _ _).1 hes, (seg_ofMap_iff kv es g3 (by simpa using g4) g1 m).1 h⟩
  · rintro ⟨h1, h2, es, h3, h4⟩
    rw [(readBody_iff f f).2 ⟨rfl, h1, h2⟩]
    simp only
    rw [(parseKvLines_iff f es).2 h3]
    simp only
    obtain ⟨kv, hkv⟩ := toMap_exists es [] List.Pairwise.nil h4.once (by simp)
    obtain ⟨g1, _, g3, g4⟩ := (toMap_iff es [] kv List.Pairwise.nil).1 hkv
    rw [hkv]
    simp only
    exact (seg_ofMap_iff kv es g3 (by simpa using g4) g1 m).2 h4

def isSegKey (k : Bytes) : Bool := k == str "segment"
def isSegsKey (k : Bytes) : Bool := k == str "segments"

/-- The scalar entries. -/
def scalars (es : List (Bytes × Bytes)) : List (Bytes × Bytes) := es.filter (fun e => !(isSegKey e.1) && !(isSegsKey e.1))

theorem colLoop_iff (es : List (Bytes × Bytes)) (kv0 kv : KV) (rs0 rs : List Bytes) (c0 c : Option Bytes) :
    colLoop kv0 rs0 c0 es = some (kv, rs, c) ↔
      toMap kv0 (scalars es) = some kv ∧ rs = rs0 ++ (es.filter (fun e => isSegKey e.1)).map (·.2) ∧
        c.toList = c0.toList ++ (es.filter (fun e => isSegsKey e.1)).map (·.2) := by
  induction es generalizing kv0 rs0 c0 with
  | nil =>
    simp only [colLoop, scalars, List.filter_nil, toMap, List.map_nil, List.append_nil, Option.some.injEq, Prod.mk.injEq]
    constructor
    · rintro ⟨rfl, rfl, rfl⟩; exact ⟨rfl, rfl, rfl⟩
    · rintro ⟨h1, h2, h3⟩
      refine ⟨h1, h2.symm, ?_⟩
      cases c <;> cases c0 <;> simp_all
  | cons p r ih =>
    obtain ⟨k, v⟩ := p
    unfold colLoop
    by_cases h1 : k = str "segment"
    · have e1 : isSegKey k = true := by simp [isSegKey, h1]
      have e2 : isSegsKey k = false := by rw [h1]; decide
      rw [if_pos h1, ih]
      simp only [scalars, List.filter_cons, e1, e2]
      simp
    · rw [if_neg h1]
      have e1 : isSegKey k = false := by simpa [isSegKey] using h1
      by_cases h2 : k = str "segments"
      · have e2 : isSegsKey k = true := by simp [isSegsKey, h2]
        rw [if_pos h2]
        cases c0 with
        | some x =>
          rw [if_pos (by rfl)]
          constructor
          · intro h; cases h
          · rintro ⟨_, _, h3⟩
            simp only [List.filter_cons, e2, if_true, List.map_cons] at h3
            have := congrArg List.length h3
            cases c <;> simp at this
        | none =>
          rw [if_neg (by simp), ih]
          simp only [scalars, List.filter_cons, e1, e2]
          simp
      · have e2 : isSegsKey k = false := by simpa [isSegsKey] using h2
        rw [if_neg h2]
        have hsc : scalars ((k, v) :: r) = (k, v) :: scalars r := by
          simp [scalars, List.filter_cons, e1, e2]
        rw [hsc]
        simp only [List.filter_cons, e1, e2, toMap]
        by_cases h3 : (kv0.get k).isSome = true
        · rw [if_pos h3, if_pos h3]; simp
        · rw [if_neg h3, if_neg h3, ih]; simp

theorem splitSep_snoc (sep : UInt8) : ∀ (t cur : Bytes), splitSep sep cur (t ++ [sep]) = splitSep sep cur t ++ [[]]
  | [], cur => by simp [splitSep]
  | c :: t, cur => by
    simp only [List.cons_append, splitSep]
    by_cases h : c = sep
    · rw [if_pos h, if_pos h, splitSep_snoc sep t]; rfl
    · rw [if_neg h, if_neg h, splitSep_snoc sep t]

theorem parseCsv_iff (v : Bytes) (ps : List Bytes) : parseSegmentsCsv v = some ps ↔ IsLines 44 v ps ∧ ∀ p ∈ ps, p ≠ [] := by
  rw [isLines_iff]
  unfold parseSegmentsCsv
  by_cases h1 : v = []
  · rw [if_pos h1]
    subst h1
    constructor
    · intro h; cases h
    · rintro ⟨h, h2⟩; simp [splitSep] at h; subst h; exact absurd rfl (h2 [] (by simp))
  · rw [if_neg h1]
    by_cases h2 : v.head? = some 44 ∨ v.getLast? = some 44
    · rw [if_pos h2]
      constructor
      · intro h; cases h
      · rintro ⟨h, h3⟩
        subst h
        rcases h2 with h2 | h2
        · cases v with
          | nil => exact absurd rfl h1
          | cons c t =>
            simp at h2
            subst h2
            exact absurd rfl (h3 [] (by simp [splitSep]))
        · obtain ⟨t, ht⟩ : ∃ t, v = t ++ [44] := by
            rw [List.getLast?_eq_some_iff] at h2
            exact h2
          rw [ht, splitSep_snoc] at h3
          exact absurd rfl (h3 [] (by simp))
    · rw [if_neg h2]
      simp only
      by_cases h3 : (splitSep 44 [] v).any (fun p => p == []) = true
      · rw [if_pos h3]
        constructor
        · intro h; cases h
        · rintro ⟨h, h4⟩
          subst h
          obtain ⟨p, hp, he⟩ := List.any_eq_true.1 h3
          exact absurd (by simpa using he) (h4 p hp)
      · rw [if_neg h3]
        constructor
        · intro h; injection h with h
          refine ⟨h, fun p hp he => h3 (List.any_eq_true.2 ⟨p, by rw [h]; exact hp, by simp [he]⟩)⟩
        · rintro ⟨h, _⟩; rw [h]

theorem SegName.ne_nil {s : Bytes} (h : SegName s) : s ≠ [] := by
  obtain ⟨ds, e, _, _⟩ := h
  rw [e]; simp [str]

theorem filter_key_eq (es : List (Bytes × Bytes)) (k : Bytes) : es.filter (fun e => e.1 == k) = [] ↔ k ∉ es.map (·.1) := by
  rw [List.filter_eq_nil_iff]
  constructor
  · intro h hm
    obtain ⟨e, he, rfl⟩ := List.mem_map.1 hm
    exact h e he (by simp)
  · intro h e he hk
    exact h (List.mem_map.2 ⟨e, he, by simpa using hk⟩)

theorem colSegs_iff (es : List (Bytes × Bytes)) (rs : List Bytes) (c : Option Bytes) (segs : List Bytes)
    (hr : rs = (es.filter (fun e => isSegKey e.1)).map (·.2)) (hc : c.toList = (es.filter (fun e => isSegsKey e.1)).map (·.2))
    (hv : ∀ s ∈ segs, SegName s) : colSegs rs c = some segs ↔ ListsSegs es segs := by
  unfold colSegs ListsSegs
  cases c with
  | none =>
    have h0 : str "segments" ∉ es.map (·.1) := by
      rw [← filter_key_eq]
      have : (es.filter (fun e => isSegsKey e.1)).map (·.2) = [] := hc.symm
      exact List.map_eq_nil_iff.1 this
    constructor
    · intro h; injection h with h; left; exact ⟨h0, by rw [← h, hr]; rfl⟩
    · rintro (⟨_, h⟩ | ⟨_, v, h, _⟩)
      · simp only; rw [h, hr]; rfl
      · exact absurd (by rw [(filter_key_eq es (str "segments")).2 h0] at h; exact h) (by simp)
  | some v =>
    have hone : es.filter (fun e => e.1 == str "segments") = [(str "segments", v)] := by
      have h1 : [v] = (es.filter (fun e => isSegsKey e.1)).map (·.2) := hc
      have hk : ∀ e ∈ es.filter (fun e => isSegsKey e.1), e.1 = str "segments" := by
        intro e he
        have := (List.mem_filter.1 he).2
        simpa [isSegsKey] using this
      show es.filter (fun e => isSegsKey e.1) = _
      cases hf : es.filter (fun e => isSegsKey e.1) with
      | nil => rw [hf] at h1; simp at h1
      | cons a t =>
        rw [hf] at h1 hk
        simp at h1
        have := hk a (by simp)
        obtain ⟨a1, a2⟩ := a
        simp only at this h1
        rw [h1.2, this, h1.1]
    have hmem : str "segments" ∈ es.map (·.1) := by
      rcases Decidable.em (str "segments" ∈ es.map (·.1)) with h | h
      · exact h
      · rw [(filter_key_eq es _).2 h] at hone; simp at hone
    simp only
    by_cases h : rs = []
    · rw [if_pos h, parseCsv_iff]
      have h0 : str "segment" ∉ es.map (·.1) := by
        rw [← filter_key_eq]
        rw [h] at hr
        exact List.map_eq_nil_iff.1 hr.symm
      constructor
      · rintro ⟨h1, h2⟩; right; exact ⟨h0, v, hone, h1⟩
      · rintro (⟨h1, _⟩ | ⟨_, v', h1, h2⟩)
        · exact absurd hmem h1
        · rw [hone] at h1; simp at h1; subst h1
          exact ⟨h2, fun p hp => (hv p hp).ne_nil⟩
    · rw [if_neg h]
      constructor
      · intro h; cases h
      · rintro (⟨h1, _⟩ | ⟨h1, _⟩)
        · exact absurd hmem h1
        · rw [← filter_key_eq] at h1
          refine absurd ?_ h
          rw [hr]
          exact List.map_eq_nil_iff.2 h1

theorem seg_keys_not : ¬ isExt (str "segment") = true ∧ ¬ isExt (str "segments") = true ∧
    str "segment" ∉ colRequired ∧ str "segments" ∉ colRequired := by decide

theorem col_ofMap_iff (kv : KV) (es : List (Bytes × Bytes)) (rs : List Bytes) (c : Option Bytes) (hs : kv.Sorted)
    (hm : ∀ e, e ∈ kv ↔ e ∈ scalars es) (hn : ((scalars es).map (·.1)).Nodup)
    (hr : rs = (es.filter (fun e => isSegKey e.1)).map (·.2)) (hc : c.toList = (es.filter (fun e => isSegsKey e.1)).map (·.2))
    (m : ColMan) : ColMan.ofMap kv rs c = some m ↔ ColDescribes es m := by
  have hsc : ∀ k v, k ≠ str "segment" → k ≠ str "segments" → ((k, v) ∈ scalars es ↔ (k, v) ∈ es) := by
    intro k v h1 h2
    simp only [scalars, List.mem_filter, isSegKey, isSegsKey]
    simp [h1, h2]
  have hget : ∀ k v, k ≠ str "segment" → k ≠ str "segments" → (kv.get k = some v ↔ (k, v) ∈ es) := by
    intro k v h1 h2
    rw [← hsc k v h1 h2, ← hm, KV.mem_iff_get hs]
  have hreqk : ∀ k ∈ colRequired, k ≠ str "segment" ∧ k ≠ str "segments" := by decide
  have hextk : ∀ k, Ext k → k ≠ str "segment" ∧ k ≠ str "segments" := by
    intro k hk
    exact ⟨fun e => seg_keys_not.1 (by rw [← e]; exact (isExt_iff k).2 hk), fun e => seg_keys_not.2.1 (by rw [← e]; exact (isExt_iff k).2 hk)⟩
  have honce : ((es.map (·.1)).filter (fun k => !(k == str "segment") && !(k == str "segments"))) = (scalars es).map (·.1) := by
    rw [List.filter_map]; rfl
  constructor
  · intro h
    unfold ColMan.ofMap at h
    by_cases h1 : ¬ (colRequired.all (reqOk kv []) = true)
    · rw [if_pos (by simpa using h1)] at h; cases h
    replace h1 := Decidable.not_not.1 h1
    rw [h1] at h
    rw [if_neg (by simp)] at h
    have hreq : ∀ k ∈ colRequired, (k, at' kv k) ∈ es := by
      intro k hk
      obtain ⟨v, hv, _⟩ := (reqOk_iff _ _ _).1 (List.all_eq_true.1 h1 k hk)
      rw [at_of_get hv]; exact (hget k v (hreqk k hk).1 (hreqk k hk).2).1 hv
    split at h
    · cases h
    rename_i ver hver
    by_cases h2 : ver ≠ 1
    · rw [if_pos h2] at h; cases h
    rw [if_neg h2] at h
    split at h
    · cases h
    rename_i dim hdim
    by_cases h4 : dim = 0
    · rw [if_pos h4] at h; cases h
    rw [if_neg h4] at h
    split at h
    · cases h
    rename_i met hmet
    split at h
    · cases h
    rename_i eng heng
    split at h
    · cases h
    rename_i nxt hnxt
    split at h
    · cases h
    rename_i segs hsegs
    by_cases h3 : ¬ (segs.all validSegmentId = true)
    · rw [if_pos (by simpa using h3)] at h; cases h
    replace h3 := Decidable.not_not.1 h3
    rw [if_neg (by rw [h3]; simp)] at h
    by_cases h8 : ¬ (kv.all (fun e => colRequired.contains e.1 || isExt e.1) = true)
    · rw [if_pos (by simpa using h8)] at h; cases h
    replace h8 := Decidable.not_not.1 h8
    rw [if_neg (by rw [h8]; simp)] at h
    injection h with h
    subst h
    have hnames : ∀ s ∈ segs, SegName s := fun s hs => (validSegmentId_iff s).1 (List.all_eq_true.1 h3 s hs)
    have hk : ∀ e ∈ scalars es, e.1 ∈ colRequired ∨ Ext e.1 := by
      intro e he
      have := List.all_eq_true.1 h8 e ((hm e).2 he)
      simp only [Bool.or_eq_true, List.contains_iff_mem, isExt_iff] at this
      exact this
    exact {
      once := by rw [honce]; exact hn
      version := ⟨_, hreq _ (by decide), ((parse_dec_iff _ _).1 hver).1⟩
      version1 := by simpa using h2
      dim := ⟨_, hreq _ (by decide), ((parse_dec_iff _ _).1 hdim).1⟩
      dimPos := ⟨Nat.pos_of_ne_zero h4, ((parse_dec_iff _ _).1 hdim).2⟩
      metric := by have := hreq (str "metric") (by decide); rw [(metricOfName_iff _ _).1 hmet] at this; exact this
      engine := by have := hreq (str "index_type") (by decide); rw [(ofName_iff _ _).1 heng] at this; exact this
      next := ⟨_, hreq _ (by decide), ((parse_dec_iff _ _).1 hnxt).1⟩
      nextLt := ((parse_dec_iff _ _).1 hnxt).2
      segs := (colSegs_iff es rs c segs hr hc hnames).1 hsegs
      segNames := hnames
      known := by
        intro e he
        by_cases g1 : e.1 = str "segment"
        · exact Or.inr (Or.inl g1)
        by_cases g2 : e.1 = str "segments"
        · exact Or.inr (Or.inr (Or.inl g2))
        rcases hk e ((hsc e.1 e.2 g1 g2).2 he) with g | g
        · exact Or.inl g
        · exact Or.inr (Or.inr (Or.inr g))
      extrasAsc := List.Pairwise.sublist List.filter_sublist hs
      extras := by
        intro e
        rw [List.mem_filter, hm]
        constructor
        · rintro ⟨h1, h2⟩
          exact ⟨(List.mem_filter.1 h1).1, (hk e h1).resolve_left (by simpa using h2)⟩
        · rintro ⟨h1, h2⟩
          refine ⟨(hsc e.1 e.2 (hextk _ h2).1 (hextk _ h2).2).2 h1, ?_⟩
          have := ext_not_col h2
          simpa using this }
  · intro h
    obtain ⟨vver, hver, hver'⟩ := h.version
    obtain ⟨vdim, hdim, hdim'⟩ := h.dim
    obtain ⟨vnxt, hnxt, hnxt'⟩ := h.next
    have gver := (hget _ _ (by decide) (by decide)).2 hver
    have gdim := (hget _ _ (by decide) (by decide)).2 hdim
    have gnxt := (hget _ _ (by decide) (by decide)).2 hnxt
    have geng := (hget _ _ (by decide) (by decide)).2 h.engine
    have gmet := (hget _ _ (by decide) (by decide)).2 h.metric
    unfold ColMan.ofMap
    have hall : colRequired.all (reqOk kv []) = true := by
      rw [List.all_eq_true]
      intro k hk
      rw [reqOk_iff]
      simp only [colRequired, List.mem_cons, List.not_mem_nil, or_false] at hk
      rcases hk with rfl | rfl | rfl | rfl | rfl
      · exact ⟨_, gver, Or.inl hver'.1⟩
      · exact ⟨_, gdim, Or.inl hdim'.1⟩
      · refine ⟨_, gmet, Or.inl ?_⟩; cases m.metric <;> decide
      · refine ⟨_, geng, Or.inl ?_⟩; cases m.engine <;> decide
      · exact ⟨_, gnxt, Or.inl hnxt'.1⟩
    rw [hall, if_neg (by simp), at_of_get gver, (parse_dec_iff _ _).2 ⟨hver', by rw [h.version1]; decide⟩]
    simp only
    rw [if_neg (by simp [h.version1]), at_of_get gdim, (parse_dec_iff _ _).2 ⟨hdim', h.dimPos.2⟩]
    simp only
    rw [if_neg (Nat.pos_iff_ne_zero.1 h.dimPos.1), at_of_get gmet, (metricOfName_iff _ _).2 rfl]
    simp only
    rw [at_of_get geng, (ofName_iff _ _).2 rfl]
    simp only
    rw [at_of_get gnxt, (parse_dec_iff _ _).2 ⟨hnxt', h.nextLt⟩]
    simp only
    rw [(colSegs_iff es rs c m.segs hr hc h.segNames).2 h.segs]
    simp only
    have hv : m.segs.all validSegmentId = true := List.all_eq_true.2 (fun s hs => (validSegmentId_iff s).2 (h.segNames s hs))
    rw [hv, if_neg (by simp), if_neg]
    · congr 1
      have : kv.filter (fun e => !(colRequired.contains e.1)) = m.extras := by
        apply KV.ext_mem (List.Pairwise.sublist List.filter_sublist hs) h.extrasAsc
        intro e
        rw [List.mem_filter, hm, h.extras]
        constructor
        · rintro ⟨h1, h2⟩
          have h1' := List.mem_filter.1 h1
          refine ⟨h1'.1, ?_⟩
          have hk := h1'.2
          simp only [isSegKey, isSegsKey, Bool.and_eq_true, Bool.not_eq_true', beq_eq_false_iff_ne] at hk
          rcases h.known e h1'.1 with g | g | g | g
          · exact absurd g (by simpa using h2)
          · exact absurd g hk.1
          · exact absurd g hk.2
          · exact g
        · rintro ⟨h1, h2⟩
          refine ⟨(hsc e.1 e.2 (hextk _ h2).1 (hextk _ h2).2).2 h1, ?_⟩
          have := ext_not_col h2
          simpa using this
      rw [this]
    · have : kv.all (fun e => colRequired.contains e.1 || isExt e.1) = true := by
        rw [List.all_eq_true]
        intro e he
        simp only [Bool.or_eq_true, List.contains_iff_mem, isExt_iff]
        have h1' := List.mem_filter.1 ((hm e).1 he)
        have hk := h1'.2
        simp only [isSegKey, isSegsKey, Bool.and_eq_true, Bool.not_eq_true', beq_eq_false_iff_ne] at hk
        rcases h.known e h1'.1 with g | g | g | g
        · exact Or.inl g
        · exact absurd g hk.1
        · exact absurd g hk.2
        · exact Or.inr g
      rw [this]; simp

theorem col_load_iff (f : Bytes) (m : ColMan) : ColMan.load f = some m ↔
    f.length ≤ 1048576 ∧ ¬ [0xEF, 0xBB, 0xBF] <+: f ∧ ∃ es, TextMeans f es ∧ ColDescribes es m := by
  unfold ColMan.load
  constructor
  · intro h
    split at h
    · cases h
    rename_i b hb
    obtain ⟨rfl, h1, h2⟩ := (readBody_iff _ _).1 hb
    split at h
    · cases h
    rename_i es hes
    split at h
    · cases h
    rename_i kv rs c hkv
    obtain ⟨g0, gr, gc⟩ := (colLoop_iff es [] kv [] rs none c).1 hkv
    obtain ⟨g1, _, g3, g4⟩ := (toMap_iff (scalars es) [] kv List.Pairwise.nil).1 g0
    exact ⟨h1, h2, es, (parseKvLines_iff _ _).1 hes,
      (col_ofMap_iff kv es rs c g3 (by simpa using g4) g1 (by simpa using gr) (by simpa using gc) m).1 h⟩
  · rintro ⟨h1, h2, es, h3, h4⟩
    rw [(readBody_iff f f).2 ⟨rfl, h1, h2⟩]
    simp only
    rw [(parseKvLines_iff f es).2 h3]
    simp only
    have hn : ((scalars es).map (·.1)).Nodup := by
      have := h4.once
      rw [List.filter_map] at this
      exact this
    obtain ⟨kv, hkv⟩ := toMap_exists (scalars es) [] List.Pairwise.nil hn (by simp)
    obtain ⟨g1, _, g3, g4⟩ := (toMap_iff (scalars es) [] kv List.Pairwise.nil).1 hkv
    obtain ⟨c, hc⟩ : ∃ c : Option Bytes, c.toList = (es.filter (fun e => isSegsKey e.1)).map (·.2) := by
      rcases h4.segs with ⟨h, _⟩ | ⟨_, v, h, _⟩
      · refine ⟨none, ?_⟩
        have := (filter_key_eq es (str "segments")).2 h
        show [] = (es.filter (fun e => e.1 == str "segments")).map (·.2)
        rw [this]; rfl
      · refine ⟨some v, ?_⟩
        show [v] = (es.filter (fun e => e.1 == str "segments")).map (·.2)
        rw [h]; rfl
    rw [(colLoop_iff es [] kv [] ((es.filter (fun e => isSegKey e.1)).map (·.2)) none c).2 ⟨hkv, by simp, by simpa using hc⟩]
    simp only
    exact (col_ofMap_iff kv es _ c g3 (by simpa using g4) g1 rfl hc m).2 h4

end Alaya.DiskManifest
