import Verif.Model.LaserSeg
import Verif.Lemmas.VamanaSegHist

/-! Lemmas about LASER segments: names, the manifest of an import, what opening checks, the steps of an import. -/
namespace Alaya.LaserSeg
open Alaya Alaya.DiskFlat Alaya.DiskManifest Alaya.DiskColl2

/-! ### Maps built by assignments -/

theorem kvOf_append (l : List (Bytes × Bytes)) (e : Bytes × Bytes) : kvOf (l ++ [e]) = (kvOf l).put e.1 e.2 := by
  unfold kvOf; rw [List.foldl_append]; rfl

theorem rev_rec {α : Type} {P : List α → Prop} (h0 : P []) (h1 : ∀ l a, P l → P (l ++ [a])) (l : List α) : P l := by
  have : ∀ r : List α, P r.reverse := by
    intro r
    induction r with
    | nil => exact h0
    | cons a r ih => rw [List.reverse_cons]; exact h1 _ _ ih
  have h := this l.reverse
  rwa [List.reverse_reverse] at h

theorem kvOf_sorted (l : List (Bytes × Bytes)) : (kvOf l).Sorted := by
  induction l using rev_rec with
  | h0 => exact List.Pairwise.nil
  | h1 l e ih => rw [kvOf_append]; exact KV.sorted_put ih _ _

theorem kvOf_mem (l : List (Bytes × Bytes)) : ∀ e ∈ kvOf l, e ∈ l := by
  induction l using rev_rec with
  | h0 => intro e he; cases he
  | h1 l a ih =>
    intro e he
    rw [kvOf_append] at he
    obtain ⟨k, v⟩ := e
    have hg := (KV.mem_iff_get (KV.sorted_put (kvOf_sorted l) _ _) k v).1 he
    rw [KV.get_put] at hg
    by_cases h : a.1 = k
    · rw [if_pos h] at hg
      injection hg with hg
      exact List.mem_append.2 (Or.inr (by rw [List.mem_singleton, ← h, ← hg]))
    · rw [if_neg h] at hg
      exact List.mem_append.2 (Or.inl (ih _ ((KV.mem_iff_get (kvOf_sorted l) k v).2 hg)))

theorem kvOf_get_none {l : List (Bytes × Bytes)} {k : Bytes} (h : k ∉ l.map (·.1)) : (kvOf l).get k = none := by
  cases hg : (kvOf l).get k with
  | none => rfl
  | some v => exact absurd (List.mem_map.2 ⟨_, kvOf_mem l _ ((KV.mem_iff_get (kvOf_sorted l) k v).2 hg), rfl⟩) h

theorem kvOf_get (l : List (Bytes × Bytes)) : (l.map (·.1)).Nodup → ∀ {k v : Bytes}, (k, v) ∈ l → (kvOf l).get k = some v := by
  induction l using rev_rec with
  | h0 => intro _ k v h; cases h
  | h1 l a ih =>
    intro hn k v h
    rw [List.map_append, List.nodup_append] at hn
    rw [kvOf_append, KV.get_put]
    rcases List.mem_append.1 h with h | h
    · rw [if_neg, ih hn.1 h]
      intro e
      exact hn.2.2 k (List.mem_map.2 ⟨_, h, rfl⟩) a.1 (by simp) e.symm
    · rw [List.mem_singleton] at h
      rw [← h, if_pos rfl]

theorem kvOf_size (l : List (Bytes × Bytes)) : (kvOf l).length ≤ l.length := by
  induction l using rev_rec with
  | h0 => exact Nat.le_refl 0
  | h1 l e ih =>
    rw [kvOf_append, List.length_append]
    have : ∀ (kv : KV) (k v : Bytes), (kv.put k v).length ≤ kv.length + 1 := by
      intro kv k v
      induction kv with
      | nil => simp [KV.put]
      | cons a kv ih =>
        unfold KV.put
        split <;> (try split) <;> simp only [List.length_cons] <;> omega
    have := this (kvOf l) e.1 e.2
    simp only [List.length_cons, List.length_nil]
    omega

/-- Files copied by name. -/
theorem kvOf_copied (src : KV) (names : List (Bytes × Bytes)) (g : Bytes) :
    (kvOf (names.filterMap (fun a => (src.get a.1).map (fun c => (a.1, c))))).get g =
      if g ∈ names.map (·.1) then src.get g else none := by
  induction names using rev_rec with
  | h0 => rfl
  | h1 l a ih =>
    rw [List.filterMap_append, List.map_append]
    cases hs : src.get a.1 with
    | none =>
      have : List.filterMap (fun a : Bytes × Bytes => Option.map (fun c => (a.1, c)) (src.get a.1)) [a] = [] := by
        simp [hs]
      rw [this, List.append_nil, ih]
      by_cases h : g ∈ l.map (·.1)
      · rw [if_pos h, if_pos (List.mem_append.2 (Or.inl h))]
      · rw [if_neg h]
        split
        · rename_i h'
          rcases List.mem_append.1 h' with h' | h'
          · exact absurd h' h
          · rw [show g = a.1 by simpa using h', hs]
        · rfl
    | some c =>
      have : List.filterMap (fun a : Bytes × Bytes => Option.map (fun c => (a.1, c)) (src.get a.1)) [a] = [(a.1, c)] := by
        simp [hs]
      rw [this, kvOf_append, KV.get_put, ih]
      by_cases h : a.1 = g
      · rw [if_pos h, if_pos (by simp [h]), ← h, hs]
      · rw [if_neg h]
        have : g ∈ l.map (·.1) ++ [a].map (·.1) ↔ g ∈ l.map (·.1) := by
          rw [List.mem_append]
          refine ⟨fun h' => h'.elim id (fun h' => absurd (by simpa using h' : g = a.1).symm h), Or.inl⟩
        simp only [this]

/-! ### Names -/

/-- Names of native files: printable, no slash, beginning with `d`. -/
structure Plain (s : Bytes) : Prop where
  head : ∃ t, s = 100 :: t
  chars : ∀ c ∈ s, 32 < c.toNat ∧ c.toNat ≠ 47

theorem Plain.base {s : Bytes} (h : Plain s) : BaseName s := by
  obtain ⟨⟨t, ht⟩, hc⟩ := h
  refine ⟨by rw [ht]; simp, ?_, ?_, fun hm => (hc _ hm).2 (by decide), fun hm => absurd (hc _ hm).1 (by decide)⟩
  · rw [ht]; intro e; injection e with e; exact absurd e (by decide)
  · rw [ht]; intro e; injection e with e; exact absurd e (by decide)

theorem noWs {c : UInt8} (h : 32 < c.toNat) : ¬ ManifestText.Ws c := by
  unfold ManifestText.Ws
  rintro (rfl | rfl | rfl | rfl) <;> exact absurd h (by decide)

theorem lineValue_of {s : Bytes} (h : ∀ c ∈ s, 32 < c.toNat) : LineValue s :=
  ⟨fun hm => absurd (h _ hm) (by decide), fun c hc => noWs (h c (List.mem_of_mem_head? hc)),
    fun c hc => noWs (h c (List.mem_of_getLast? hc))⟩

theorem Plain.line {s : Bytes} (h : Plain s) : LineValue s := lineValue_of (fun c hc => (h.chars c hc).1)

theorem Plain.append {s t : Bytes} (h : Plain s) (ht : ∀ c ∈ t, 32 < c.toNat ∧ c.toNat ≠ 47) : Plain (s ++ t) := by
  obtain ⟨⟨u, hu⟩, hc⟩ := h
  refine ⟨⟨u ++ t, by rw [hu]; rfl⟩, fun c hm => ?_⟩
  rcases List.mem_append.1 hm with hm | hm
  · exact hc c hm
  · exact ht c hm

theorem decStr_plain (n : Nat) : ∀ c ∈ decStr n, 32 < c.toNat ∧ c.toNat ≠ 47 := by
  intro c hc
  have := (decStr_isDecimal n).2.1 c hc
  omega

theorem prefix_plain {name : Bytes} (h : SegName name) : Plain (prefixOf name) := by
  obtain ⟨ds, rfl, _, hd⟩ := h
  have h0 : Plain (str "dsqg_") := ⟨⟨str "sqg_", by decide⟩, by decide⟩
  unfold prefixOf
  refine h0.append (fun c hc => ?_)
  rcases List.mem_append.1 hc with hc | hc
  · exact (by decide : ∀ c ∈ str "seg_", 32 < c.toNat ∧ c.toNat ≠ 47) c hc
  · have := hd c hc; omega

theorem index_plain {pre : Bytes} (h : Plain pre) (R md : Nat) : Plain (indexName pre R md) := by
  unfold indexName
  exact ((((h.append (by decide)).append (decStr_plain R)).append (by decide)).append (decStr_plain md)).append (by decide)

theorem prefix_length {name : Bytes} (h : SegName name) : (prefixOf name).length = 17 := by
  unfold prefixOf
  rw [List.length_append, h.length]; decide

theorem index_length {pre : Bytes} {R md : Nat} (h : pre.length = 17) (hR : R < 2 ^ 64) (hm : md < 2 ^ 64) :
    (indexName pre R md).length ≤ 68 := by
  have h1 := decStr_len20 hR
  have h2 := decStr_len20 hm
  unfold indexName
  simp only [List.length_append, h]
  have : (str "_R").length = 2 ∧ (str "_MD").length = 3 ∧ (str ".index").length = 6 := by decide
  omega

/-- The seven names. -/
theorem names_plain {pre idx : Bytes} (hp : Plain pre) (hi : Plain idx) : ∀ a ∈ required idx ++ optional pre, Plain a.1 := by
  intro a ha
  unfold required optional at ha
  simp only [List.cons_append, List.nil_append, List.mem_cons, List.not_mem_nil, or_false] at ha
  rcases ha with rfl | rfl | rfl | rfl | rfl | rfl | rfl
  · exact hi
  · exact hi.append (by decide)
  · exact hi.append (by decide)
  · exact hi.append (by decide)
  · exact hp.append (by decide)
  · exact hp.append (by decide)
  · exact hp.append (by decide)

theorem names_length {pre idx : Bytes} (hp : pre.length ≤ 68) (hi : idx.length ≤ 68) : ∀ a ∈ required idx ++ optional pre, a.1.length ≤ 84 := by
  have : (str "_rotator").length = 8 ∧ (str "_cache_ids").length = 10 ∧ (str "_cache_nodes").length = 12 ∧ (str "_medoids").length = 8 ∧
    (str "_medoids_indices").length = 16 ∧ (str "_pca.bin").length = 8 := by decide
  intro a ha
  unfold required optional at ha
  simp only [List.cons_append, List.nil_append, List.mem_cons, List.not_mem_nil, or_false] at ha
  rcases ha with rfl | rfl | rfl | rfl | rfl | rfl | rfl <;> simp only [List.length_append] <;> omega

/-! ### The manifest of an import -/

/-- What the library guarantees about the text of a float: one short line. -/
structure TextOk (E : Env) : Prop where
  line : ∀ b, LineValue (E.print b) ∧ (E.print b).length ≤ 64 ∧ E.print b ≠ []

/-- Numbers of the types of their fields. -/
structure ParamsOk (p : Params) : Prop where
  R : p.R < 2 ^ 32
  ef : p.ef < 2 ^ 32
  beam : p.beam < 2 ^ 32

/-- All keys an import may write. -/
def allKeys : List Bytes :=
  [str "x_laser_filename_prefix", str "x_laser_index_file", str "x_laser_rotator_file", str "x_laser_cache_ids_file",
    str "x_laser_cache_nodes_file", str "x_laser_medoids_file", str "x_laser_medoids_indices_file", str "x_laser_pca_file",
    str "x_R", str "x_main_dim", str "x_default_ef", str "x_default_beam_width", str "x_laser_native_format_version",
    str "x_platform_requires", str "x_laser_search_dram_budget_gb", str "x_laser_distance_field_supported"]

set_option maxRecDepth 10000 in
theorem allKeys_nodup : allKeys.Nodup := by decide +kernel

theorem extraList_keys (E : Env) (p : Params) (src : KV) (pre idx : Bytes) (md : Nat) :
    ((extraList E p src pre idx md).map (·.1)).Sublist allKeys := by
  unfold extraList
  simp only [List.map_append, List.map_map]
  have h1 : ((List.filter (fun a : Bytes × Bytes => (src.get a.1).isSome) (optional pre)).map
      ((fun x : Bytes × Bytes => x.1) ∘ fun a : Bytes × Bytes => (a.2, a.1))).Sublist
      [str "x_laser_medoids_file", str "x_laser_medoids_indices_file", str "x_laser_pca_file"] :=
    List.Sublist.map ((fun x : Bytes × Bytes => x.1) ∘ fun a : Bytes × Bytes => (a.2, a.1))
      (List.filter_sublist (p := fun a : Bytes × Bytes => (src.get a.1).isSome) (l := optional pre))
  exact List.Sublist.append (List.Sublist.append (List.Sublist.append (List.Sublist.refl [str "x_laser_filename_prefix"])
    (List.Sublist.refl [str "x_laser_index_file", str "x_laser_rotator_file", str "x_laser_cache_ids_file", str "x_laser_cache_nodes_file"])) h1)
    (List.Sublist.refl [str "x_R", str "x_main_dim", str "x_default_ef", str "x_default_beam_width", str "x_laser_native_format_version",
      str "x_platform_requires", str "x_laser_search_dram_budget_gb", str "x_laser_distance_field_supported"])

theorem extras_get {E : Env} {p : Params} {src : KV} {pre idx : Bytes} {md : Nat} {k v : Bytes}
    (h : (k, v) ∈ extraList E p src pre idx md) : (kvOf (extraList E p src pre idx md)).get k = some v :=
  kvOf_get _ ((extraList_keys E p src pre idx md).nodup allKeys_nodup) h

set_option maxRecDepth 10000 in
theorem allKeys_ext : ∀ k ∈ allKeys, isExt k = true ∧ LineValue k ∧ 61 ∉ k ∧ k.length ≤ 64 := by decide +kernel

theorem extras_ok {E : Env} (hE : TextOk E) {p : Params} (hp : ParamsOk p) (src : KV) {name : Bytes} (hn : SegName name) {md : Nat}
    (hm : md < 2 ^ 32) : ∀ e ∈ kvOf (extraList E p src (prefixOf name) (indexName (prefixOf name) p.R md) md),
      ExtKey e.1 ∧ e.1.length ≤ 64 ∧ LineValue e.2 ∧ e.2.length ≤ 84 := by
  intro e he
  have he := kvOf_mem _ _ he
  have hk : e.1 ∈ allKeys := (extraList_keys E p src _ _ md).subset (List.mem_map.2 ⟨e, he, rfl⟩)
  obtain ⟨k1, k2, k3, k4⟩ := allKeys_ext _ hk
  refine ⟨⟨(isExt_iff _).1 k1, k2, k3⟩, k4, ?_⟩
  have hR := hp.R
  have hpre := prefix_plain hn
  have hidx := index_plain hpre p.R md
  have hl := prefix_length hn
  have hil := index_length hl (show p.R < 2 ^ 64 by omega) (show md < 2 ^ 64 by omega)
  have hnames := names_plain hpre hidx
  have hlen := names_length (show (prefixOf name).length ≤ 68 by omega) hil
  have dec : ∀ n, n < 2 ^ 32 → LineValue (decStr n) ∧ (decStr n).length ≤ 84 := fun n h =>
    ⟨decStr_lineValue n, by have := decStr_len20 (show n < 2 ^ 64 by omega); omega⟩
  unfold extraList at he
  rcases List.mem_append.1 he with he | he
  · rcases List.mem_append.1 he with he | he
    · rcases List.mem_append.1 he with he | he
      · rw [List.mem_singleton.1 he]; exact ⟨hpre.line, by simp only; omega⟩
      · obtain ⟨a, ha, rfl⟩ := List.mem_map.1 he
        have := List.mem_append.2 (Or.inl ha : a ∈ required (indexName (prefixOf name) p.R md) ∨ a ∈ optional (prefixOf name))
        exact ⟨(hnames a this).line, hlen a this⟩
    · obtain ⟨a, ha, rfl⟩ := List.mem_map.1 he
      have := List.mem_append.2 (Or.inr (List.mem_filter.1 ha).1 : a ∈ required (indexName (prefixOf name) p.R md) ∨ a ∈ optional (prefixOf name))
      exact ⟨(hnames a this).line, hlen a this⟩
  · simp only [List.mem_cons, List.not_mem_nil, or_false] at he
    rcases he with rfl | rfl | rfl | rfl | rfl | rfl | rfl | rfl
    · exact dec _ hp.R
    · exact dec _ hm
    · exact dec _ hp.ef
    · exact dec _ hp.beam
    · exact (by decide : LineValue (str "1") ∧ (str "1").length ≤ 84)
    · exact (by decide : LineValue (str "linux+libaio") ∧ (str "linux+libaio").length ≤ 84)
    · have := hE.line p.budget; exact ⟨this.1, by simp only; omega⟩
    · exact (by decide : LineValue (str "false") ∧ (str "false").length ≤ 84)

/-- A manifest of a LASER segment. -/
def genMan (name : Bytes) (dim n : Nat) (kv : KV) : SegMan :=
  { segmentId := name, engine := .laser, metric := .l2, dim := dim, count := n, idsFile := idsName, vectorsFile := [], extras := kv }

theorem gen_valid {name : Bytes} (hn : SegName name) {dim n : Nat} (hd : 0 < dim ∧ dim < 2 ^ 32) (hc : 0 < n ∧ n < 2 ^ 64) {kv : KV}
    (hs : kv.Sorted) (hx : ∀ e ∈ kv, ExtKey e.1 ∧ e.1.length ≤ 64 ∧ LineValue e.2 ∧ e.2.length ≤ 84) : (genMan name dim n kv).Valid :=
  { version := rfl
    segmentName := hn
    dim := ⟨hd.1, Nat.lt_trans hd.2 (by decide)⟩
    count := hc
    idsName := idsFile_ok
    vectorsName := Or.inl rfl
    extrasAsc := hs
    extras := fun e he => ⟨(hx e he).1, (hx e he).2.2.1⟩ }

theorem lines_length : ∀ (l : List (Bytes × Bytes)), (∀ e ∈ l, e.1.length ≤ 64 ∧ e.2.length ≤ 84) →
    (l.flatMap (fun e => line e.1 e.2)).length ≤ 150 * l.length
  | [], _ => by simp
  | e :: l, h => by
    have h1 := h e (by simp)
    have h2 := lines_length l (fun x hx => h x (by simp [hx]))
    rw [List.flatMap_cons, List.length_append, line_length, List.length_cons]
    omega

theorem gen_size {name : Bytes} (hn : SegName name) {dim n : Nat} (hd : 0 < dim ∧ dim < 2 ^ 32) (hc : 0 < n ∧ n < 2 ^ 64) {kv : KV}
    (hx : ∀ e ∈ kv, ExtKey e.1 ∧ e.1.length ≤ 64 ∧ LineValue e.2 ∧ e.2.length ≤ 84) (hl : kv.length ≤ 16) :
    (genMan name dim n kv).save.length ≤ 2 ^ 20 := by
  rw [SegMan.save_eq]
  refine Nat.le_trans (lines_length _ ?_) ?_
  · intro e he
    unfold SegMan.entries at he
    rcases List.mem_append.1 he with he | he
    · have h1 := decStr_len20 (show dim < 2 ^ 64 from Nat.lt_trans hd.2 (by decide))
      have h2 := decStr_len20 hc.2
      have h4 := SegName.length hn
      simp only [List.mem_cons, List.not_mem_nil, or_false] at he
      rcases he with rfl | rfl | rfl | rfl | rfl | rfl | rfl | rfl
      · exact ⟨(by decide : (str "version").length ≤ 64), by
          have := decStr_len20 (show 1 < 2 ^ 64 by decide)
          show (decStr 1).length ≤ 84; omega⟩
      · exact ⟨(by decide : (str "segment_id").length ≤ 64), by show name.length ≤ 84; omega⟩
      · exact ⟨(by decide : (str "index_type").length ≤ 64), (by decide : (Engine.name .laser).length ≤ 84)⟩
      · exact ⟨(by decide : (str "metric").length ≤ 64), (by decide : (metricName .l2).length ≤ 84)⟩
      · exact ⟨(by decide : (str "dim").length ≤ 64), by show (decStr dim).length ≤ 84; omega⟩
      · exact ⟨(by decide : (str "count").length ≤ 64), by show (decStr n).length ≤ 84; omega⟩
      · exact ⟨(by decide : (str "ids_file").length ≤ 64), (by decide : idsName.length ≤ 84)⟩
      · exact ⟨(by decide : (str "vectors_file").length ≤ 64), (by decide : ([] : Bytes).length ≤ 84)⟩
    · exact ⟨(hx e he).2.1, (hx e he).2.2.2⟩
  · unfold SegMan.entries
    have h1 : (genMan name dim n kv).extras.length ≤ 16 := hl
    simp only [List.length_append, List.length_cons, List.length_nil]
    omega

theorem man_load {E : Env} (hE : TextOk E) {p : Params} (hp : ParamsOk p) (src : KV) {name : Bytes} (hn : SegName name) {dim n : Nat}
    (hd : 0 < dim ∧ dim < 2 ^ 32) (hc : 0 < n ∧ n < 2 ^ 64) : SegMan.load (manOf E p src name dim n).save = some (manOf E p src name dim n) := by
  have hx := extras_ok hE hp src hn hd.2
  have hs := kvOf_sorted (extraList E p src (prefixOf name) (indexName (prefixOf name) p.R dim) dim)
  have hl : (kvOf (extraList E p src (prefixOf name) (indexName (prefixOf name) p.R dim) dim)).length ≤ 16 := by
    refine Nat.le_trans (kvOf_size _) ?_
    have := (extraList_keys E p src (prefixOf name) (indexName (prefixOf name) p.R dim) dim).length_le
    rw [List.length_map] at this
    exact this
  have e : manOf E p src name dim n = genMan name dim n (kvOf (extraList E p src (prefixOf name) (indexName (prefixOf name) p.R dim) dim)) := rfl
  rw [e]
  generalize kvOf (extraList E p src (prefixOf name) (indexName (prefixOf name) p.R dim) dim) = kv at hx hs hl
  exact C36_segment_roundtrip_partial _ (gen_valid hn hd hc hs hx) (gen_size hn hd hc hx hl)

end Alaya.LaserSeg
