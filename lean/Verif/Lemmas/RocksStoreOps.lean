import Verif.Lemmas.RocksStore

namespace Alaya
open Spec

/-- Store represents the abstract map, including the cached count. -/
structure Represents (cfg : StoreCfg) (s : Store) (m : RecordMap) : Prop where
  rel : Rel cfg s.kv m
  count : s.count = m.length

theorem insert_refines {cfg : StoreCfg} (hc : cfg.id.Ok) {s : Store} {m : RecordMap} (h : Represents cfg s m)
    {id : Nat} (hid : id < cfg.id.bound) {r : ScalarData} (hr : Storable r) :
    ∃ s', s.insert cfg id r = .ok (s', (m.insert id r).2) ∧ Represents cfg s' (m.insert id r).1 ∧
      ((m.insert id r).2 = false → s' = s) := by
  obtain ⟨old, h1, h2⟩ := h.rel.oldOf hid
  unfold Store.insert RecordMap.insert
  rw [h1]
  simp only [PR.bind]
  rw [h.rel.itemAvailable]
  cases hf : m.itemFree r.itemId id with
  | false => exact ⟨s, rfl, h, fun _ => rfl⟩
  | true =>
    refine ⟨_, rfl, ⟨?_, ?_⟩, by simp⟩
    · exact rel_put hc h.rel (KV.sorted_write h.rel.sorted _) hid h2 hr hf (postPut_insert _ _ _ _ _)
    · simp only [if_true]
      rw [RecordMap.length_put h.rel.asc]
      unfold OldOf at h2
      cases hm : m.get id with
      | none => rw [hm] at h2; simp only at h2; subst h2; simp [h.count]
      | some r0 => rw [hm] at h2; obtain ⟨k, rfl, _⟩ := h2; simp [h.count]

theorem update_refines {cfg : StoreCfg} (hc : cfg.id.Ok) {s : Store} {m : RecordMap} (h : Represents cfg s m)
    {id : Nat} (hid : id < cfg.id.bound) {r : ScalarData} (hr : Storable r) :
    ∃ s', s.update cfg id r = .ok (s', (m.update id r).2) ∧ Represents cfg s' (m.update id r).1 ∧
      ((m.update id r).2 = false → s' = s) := by
  obtain ⟨old, h1, h2⟩ := h.rel.oldOf hid
  unfold Store.update RecordMap.update
  rw [h1]
  simp only [PR.bind]
  have h2' := h2
  unfold OldOf at h2
  cases hm : m.get id with
  | none => rw [hm] at h2; simp only at h2; subst h2; exact ⟨s, rfl, h, fun _ => rfl⟩
  | some r0 =>
    rw [hm] at h2; obtain ⟨k, rfl, _⟩ := h2
    simp only [Option.isSome_some, Bool.true_and]
    rw [h.rel.itemAvailable]
    cases hf : m.itemFree r.itemId id with
    | false => exact ⟨s, rfl, h, fun _ => rfl⟩
    | true =>
      refine ⟨_, rfl, ⟨?_, ?_⟩, by simp⟩
      · exact rel_put hc h.rel (KV.sorted_write h.rel.sorted _) hid h2' hr hf (postPut_update h.rel h2' r)
      · simp only [if_true]
        rw [RecordMap.length_put h.rel.asc, hm]
        exact h.count

theorem remove_refines {cfg : StoreCfg} (hc : cfg.id.Ok) {s : Store} {m : RecordMap} (h : Represents cfg s m)
    {id : Nat} (hid : id < cfg.id.bound) :
    ∃ s', s.remove cfg id = .ok (s', (m.remove id).2) ∧ Represents cfg s' (m.remove id).1 ∧
      ((m.remove id).2 = false → s' = s) := by
  obtain ⟨old, h1, h2⟩ := h.rel.oldOf hid
  unfold Store.remove RecordMap.remove
  rw [h1]
  simp only [PR.bind]
  have h2' := h2
  unfold OldOf at h2
  cases hm : m.get id with
  | none => rw [hm] at h2; simp only at h2; subst h2; exact ⟨s, rfl, h, fun _ => rfl⟩
  | some r0 =>
    rw [hm] at h2; obtain ⟨k, rfl, _⟩ := h2
    refine ⟨_, rfl, ⟨?_, ?_⟩, by simp⟩
    · exact rel_del hc h.rel (KV.sorted_write h.rel.sorted _) hid h2' (postDel_remove _ _ _ (k, r0))
    · simp only [Option.isSome_some, if_true]
      rw [RecordMap.length_del h.rel.asc, hm, h.count]
      simp only [Option.isSome_some, if_true]
      split <;> omega

/-! ### batch insert -/

theorem batchIds_eq (c : IdCfg) (start : Nat) (hs : start < c.bound) (recs : List ScalarData) :
    batchIds c start recs = batchPairs c.bound start recs := by
  unfold batchPairs
  induction recs generalizing start with
  | nil => rfl
  | cons r rest ih =>
    rw [batchIds, ih _ (Nat.mod_lt _ c.bound_pos), List.length_cons, List.range_succ_eq_map,
      List.zipWith_cons_cons, List.zipWith_map_left]
    congr 1
    · simp [Nat.mod_eq_of_lt hs]
    · congr 1
      funext i r
      congr 1
      rw [Nat.mod_add_mod]
      congr 1; omega

theorem batchPairs_fst (bound start : Nat) (recs : List ScalarData) :
    (batchPairs bound start recs).map Prod.fst = (List.range recs.length).map fun i => (start + i) % bound := by
  unfold batchPairs
  rw [List.map_zipWith]
  apply List.ext_getElem
  · simp
  · intro i h1 h2; simp

theorem batchPairs_snd (bound start : Nat) (recs : List ScalarData) :
    (batchPairs bound start recs).map Prod.snd = recs := by
  unfold batchPairs
  rw [List.map_zipWith]
  apply List.ext_getElem
  · simp
  · intro i h1 h2; simp

theorem mod_shift_inj {b s i j : Nat} (hi : i < b) (hj : j < b) (h : (s + i) % b = (s + j) % b) : i = j := by
  have hs : s % b < b := Nat.mod_lt _ (by omega)
  rw [Nat.add_mod, Nat.mod_eq_of_lt hi, Nat.add_mod s j, Nat.mod_eq_of_lt hj] at h
  generalize s % b = t at *
  have e1 : (t + i) % b = if t + i < b then t + i else t + i - b := by
    split
    · exact Nat.mod_eq_of_lt ‹_›
    · rw [Nat.mod_eq_sub_mod (by omega), Nat.mod_eq_of_lt (by omega)]
  have e2 : (t + j) % b = if t + j < b then t + j else t + j - b := by
    split
    · exact Nat.mod_eq_of_lt ‹_›
    · rw [Nat.mod_eq_sub_mod (by omega), Nat.mod_eq_of_lt (by omega)]
  rw [e1, e2] at h
  split at h <;> split at h <;> omega

theorem batchPairs_nodup {bound start : Nat} {recs : List ScalarData} (h : recs.length ≤ bound) :
    ((batchPairs bound start recs).map Prod.fst).Nodup := by
  rw [batchPairs_fst]
  unfold List.Nodup
  rw [List.pairwise_map]
  apply List.Pairwise.imp_of_mem _ (List.nodup_range (n := recs.length))
  intro a b ha hb hne he
  rw [List.mem_range] at ha hb
  exact hne (mod_shift_inj (by omega) (by omega) he)

theorem batchPairs_lt {bound start : Nat} (hb : 0 < bound) {recs : List ScalarData} {e : Nat × ScalarData}
    (he : e ∈ batchPairs bound start recs) : e.1 < bound ∧ e.2 ∈ recs := by
  constructor
  · have : e.1 ∈ (batchPairs bound start recs).map Prod.fst := List.mem_map_of_mem he
    rw [batchPairs_fst] at this
    obtain ⟨i, _, hi⟩ := List.mem_map.1 this
    rw [← hi]; exact Nat.mod_lt _ hb
  · have : e.2 ∈ (batchPairs bound start recs).map Prod.snd := List.mem_map_of_mem he
    rw [batchPairs_snd] at this; exact this

theorem batchDup_eq (seen items : List Bytes) :
    batchDup seen items = false ↔
      (items.filter (!·.isEmpty)).Nodup ∧ ∀ i ∈ items, i ≠ [] → i ∉ seen := by
  induction items generalizing seen with
  | nil => simp [batchDup]
  | cons i rest ih =>
    unfold batchDup
    by_cases hi : i = []
    · subst hi
      simp [ih]
    · rw [if_neg hi]
      by_cases hm : i ∈ seen
      · rw [if_pos hm]
        simp only [Bool.true_eq_false, false_iff]
        rintro ⟨_, h⟩
        exact h i (by simp) hi hm
      · rw [if_neg hm, ih]
        have hne : (!i.isEmpty) = true := by simpa using hi
        rw [List.filter_cons, if_pos hne, List.nodup_cons]
        constructor
        · rintro ⟨h1, h2⟩
          refine ⟨⟨?_, h1⟩, ?_⟩
          · intro hmem
            rw [List.mem_filter] at hmem
            exact h2 i hmem.1 hi (by simp)
          · intro j hj hj0
            rcases List.mem_cons.1 hj with rfl | hj
            · exact hm
            · have := h2 j hj hj0; simp only [List.mem_cons, not_or] at this; exact this.2
        · rintro ⟨⟨h1, h2⟩, h3⟩
          refine ⟨h2, ?_⟩
          intro j hj hj0
          simp only [List.mem_cons, not_or]
          refine ⟨?_, h3 j (by simp [hj]) hj0⟩
          rintro rfl
          exact h1 (by rw [List.mem_filter]; exact ⟨hj, by simpa using hj0⟩)

theorem oldAll_ok {cfg : StoreCfg} {kv : KV} {m : RecordMap} (h : Rel cfg kv m)
    (es : List (Nat × ScalarData)) (hes : ∀ e ∈ es, e.1 < cfg.id.bound) :
    ∃ rs, oldAll cfg.id kv es = .ok rs ∧ rs.map (fun e => (e.1, e.2.1)) = es ∧
      ∀ e ∈ rs, OldOf cfg kv m e.1 e.2.2 := by
  induction es with
  | nil => exact ⟨[], rfl, rfl, by simp⟩
  | cons e es ih =>
    obtain ⟨old, h1, h2⟩ := h.oldOf (hes e (by simp))
    obtain ⟨rs, h3, h4, h5⟩ := ih (fun x hx => hes x (by simp [hx]))
    refine ⟨(e.1, e.2, old) :: rs, ?_, ?_, ?_⟩
    · unfold oldAll; rw [h1]; simp only [PR.bind]; rw [h3]
    · simp [h4]
    · intro x hx
      rcases List.mem_cons.1 hx with rfl | hx
      · exact h2
      · exact h5 x hx

/-- Writing the concatenated batches is the same as putting the records one by one. -/
theorem rel_batch {cfg : StoreCfg} (hc : cfg.id.Ok)
    (rs : List (Nat × ScalarData × Option (Bytes × ScalarData))) :
    ∀ {kv : KV} {m : RecordMap}, Rel cfg kv m →
      (∀ e ∈ rs, e.1 < cfg.id.bound ∧ Storable e.2.1 ∧ OldOf cfg kv m e.1 e.2.2 ∧
        m.itemFree e.2.1.itemId e.1 = true) →
      (rs.map (·.1)).Nodup → ((rs.map (·.2.1.itemId)).filter (!·.isEmpty)).Nodup →
      Rel cfg (kv.write (rs.flatMap fun e => insertOps cfg e.2.2 e.1 e.2.1))
        (rs.foldl (fun m e => m.put e.1 e.2.1) m) ∧
      m.length + (rs.filter fun e => e.2.2.isNone).length
        = (rs.foldl (fun m e => m.put e.1 e.2.1) m).length := by
  induction rs with
  | nil => intro kv m h _ _ _; exact ⟨h, rfl⟩
  | cons e rs ih =>
    intro kv m h hall hnd hitems
    obtain ⟨id, r, old⟩ := e
    obtain ⟨hid, hr, ho, hf⟩ := hall (id, r, old) (by simp)
    simp only at hid hr ho hf
    rw [List.map_cons, List.nodup_cons] at hnd
    have hp := postPut_insert cfg kv id old r
    have h1 := rel_put hc h (KV.sorted_write h.sorted (insertOps cfg old id r)) hid ho hr hf hp
    have hih := ih h1 ?_ hnd.2 ?_
    · rw [List.flatMap_cons, KV.write_append, List.foldl_cons]
      refine ⟨hih.1, ?_⟩
      rw [← hih.2, RecordMap.length_put h.asc, List.filter_cons]
      unfold OldOf at ho
      cases hm : m.get id with
      | none => rw [hm] at ho; simp only at ho; subst ho; simp; omega
      | some r0 => rw [hm] at ho; obtain ⟨k, rfl, _⟩ := ho; simp
    · intro e' he'
      obtain ⟨hid', hr', ho', hf'⟩ := hall e' (by simp [he'])
      have hne : id ≠ e'.1 := fun hh => hnd.1 (List.mem_map.2 ⟨e', he', hh.symm⟩)
      refine ⟨hid', hr', ?_, ?_⟩
      · unfold OldOf at ho' ⊢
        rw [RecordMap.get_put, if_neg hne]
        have hk : (kv.write (insertOps cfg old id r)).get (dataKey cfg.id e'.1)
            = kv.get (dataKey cfg.id e'.1) := by
          rw [postPut_data hp (dataKey_head _ _), if_neg (fun hh => hne (dataKey_inj hc hid' hid hh).symm),
            if_neg (oldTouched_data hc hid hid' hne ho (Or.inl rfl))]
        rw [hk]; exact ho'
      · rw [RecordMap.itemFree_iff h1.asc]
        rw [RecordMap.itemFree_iff h.asc] at hf'
        by_cases hi : e'.2.1.itemId = []
        · exact Or.inl hi
        · right
          intro id'' r'' hg hitem
          rw [RecordMap.get_put] at hg
          split at hg
          · rename_i hh; subst hh
            injection hg with hg; subst hg
            exfalso
            have hne0 : (!r.itemId.isEmpty) = true := by rw [hitem]; simpa using hi
            rw [List.map_cons, List.filter_cons, if_pos hne0, List.nodup_cons] at hitems
            apply hitems.1
            rw [List.mem_filter]
            refine ⟨?_, hne0⟩
            rw [show (id, r, old).2.1.itemId = r.itemId from rfl, hitem]
            exact List.mem_map.2 ⟨e', he', rfl⟩
          · rcases hf' with hf' | hf'
            · exact absurd hf' hi
            · exact hf' _ _ hg hitem
    · rw [List.map_cons, List.filter_cons] at hitems
      split at hitems
      · exact (List.nodup_cons.1 hitems).2
      · exact hitems

theorem batchInsert_refines {cfg : StoreCfg} (hc : cfg.id.Ok) {s : Store} {m : RecordMap} (h : Represents cfg s m)
    {start : Nat} (hstart : start < cfg.id.bound) {recs : List ScalarData} (hlen : recs.length ≤ cfg.id.bound)
    (hrs : ∀ r ∈ recs, Storable r) :
    ∃ s', s.batchInsert cfg start recs = .ok (s', (m.batchInsert (batchPairs cfg.id.bound start recs)).2) ∧
      Represents cfg s' (m.batchInsert (batchPairs cfg.id.bound start recs)).1 ∧
      ((m.batchInsert (batchPairs cfg.id.bound start recs)).2 = false → s' = s) := by
  have hitems : (batchPairs cfg.id.bound start recs).map (fun e => e.2.itemId) = recs.map (·.itemId) := by
    have := congrArg (List.map (·.itemId)) (batchPairs_snd cfg.id.bound start recs)
    rw [List.map_map] at this
    exact this
  unfold Store.batchInsert RecordMap.batchInsert
  rw [hitems, batchIds_eq _ _ hstart]
  have hlt := fun e he => batchPairs_lt (start := start) cfg.id.bound_pos (recs := recs) (e := e) he
  have hnd := batchPairs_nodup (start := start) hlen
  generalize batchPairs cfg.id.bound start recs = es at *
  cases hdup : batchDup [] (recs.map (·.itemId)) with
  | true =>
    have : ¬ ((recs.map (·.itemId)).filter (!·.isEmpty)).Nodup := by
      intro hn
      have := (batchDup_eq [] _).2 ⟨hn, by simp⟩
      rw [hdup] at this; simp at this
    simp only [if_true]
    rw [if_neg (fun hh => this hh.1)]
    exact ⟨s, rfl, h, fun _ => rfl⟩
  | false =>
    have hn := ((batchDup_eq [] _).1 hdup).1
    obtain ⟨rs, h1, h2, h3⟩ := oldAll_ok h.rel es (fun e he => (hlt e he).1)
    simp only [Bool.false_eq_true, if_false, h1, PR.bind]
    subst h2
    have hav : (rs.all fun e => itemAvailable cfg.id s.kv e.2.1.itemId e.1) = true ↔
        ∀ e ∈ rs, m.itemFree e.2.1.itemId e.1 = true := by
      rw [List.all_eq_true]
      constructor
      · intro hh e he; rw [← h.rel.itemAvailable]; exact hh e he
      · intro hh e he; rw [h.rel.itemAvailable]; exact hh e he
    by_cases hall : ∀ e ∈ rs, m.itemFree e.2.1.itemId e.1 = true
    · rw [if_pos (hav.2 hall), if_pos]
      · refine ⟨_, rfl, ?_, by simp⟩
        have := rel_batch hc rs h.rel (fun e he =>
            ⟨(hlt (e.1, e.2.1) (List.mem_map.2 ⟨e, he, rfl⟩)).1,
             hrs _ (hlt (e.1, e.2.1) (List.mem_map.2 ⟨e, he, rfl⟩)).2, h3 e he, hall e he⟩)
          (by rw [List.map_map] at hnd; exact hnd)
          (by rw [List.map_map] at hitems; rw [← hitems] at hn; exact hn)
        constructor
        · simp only [List.foldl_map]; exact this.1
        · simp only [List.foldl_map]; rw [← this.2, h.count]
      · refine ⟨hn, ?_⟩
        intro e he
        obtain ⟨x, hx, rfl⟩ := List.mem_map.1 he
        exact hall x hx
    · rw [if_neg (fun hh => hall (hav.1 hh)), if_neg]
      · exact ⟨s, rfl, h, fun _ => rfl⟩
      · rintro ⟨_, hh⟩
        exact hall (fun e he => hh (e.1, e.2.1) (List.mem_map.2 ⟨e, he, rfl⟩))

/-! ### flush and reopen -/

theorem rel_count {cfg : StoreCfg} {kv : KV} {m : RecordMap} (h : Rel cfg kv m) (v : Bytes) :
    Rel cfg (kv.put countKey v) m := by
  have hput : ∀ k, k ≠ countKey → (kv.put countKey v).get k = kv.get k := by
    intro k hk; rw [KV.get_put, if_neg (Ne.symm hk)]
  have hd : ∀ id, (kv.put countKey v).get (dataKey cfg.id id) = kv.get (dataKey cfg.id id) :=
    fun id => hput _ (ne_of_head (dataKey_head _ _) countKey_head (by decide))
  have hl : ∀ id, (kv.put countKey v).get (legacyKey id) = kv.get (legacyKey id) :=
    fun id => hput _ (ne_of_head (legacyKey_head _) countKey_head (by decide))
  refine ⟨KV.sorted_put h.sorted _ _, h.asc, h.ids, ?_, ?_, ?_, ?_, ?_⟩
  · intro id; rw [hd, hl]; exact h.absent id
  · intro id r; rw [hd, hl]; exact h.present id r
  · intro s w; rw [hput _ (ne_of_head (itemKey_head s) countKey_head (by decide))]; exact h.item s w
  · intro k w hk; rw [hput _ (ne_of_head hk countKey_head (by decide))]; exact h.field k w hk
  · intro k w hk
    by_cases he : k = countKey
    · exact Or.inr (Or.inr (Or.inr he))
    · rw [hput k he] at hk; exact h.other k w hk

theorem flush_refines {cfg : StoreCfg} {s : Store} {m : RecordMap} (h : Represents cfg s m) :
    Represents cfg s.saveCount m := ⟨rel_count h.rel _, h.count⟩

theorem reopen_refines {cfg : StoreCfg} {s : Store} {m : RecordMap} (h : Represents cfg s m)
    (hl : m.length < 2 ^ 64) : Represents cfg s.reopen m := by
  refine ⟨rel_count h.rel _, ?_⟩
  unfold Store.reopen Store.openDb Store.saveCount
  simp only [KV.get_put, if_true, leBytes_length]
  rw [leNat_leBytes_of_lt (by rw [h.count]; exact hl), h.count]

/-- Preconditions on the arguments of a call: ids are values of the id type, records can be stored. -/
def OpOk (cfg : StoreCfg) : StoreOp → Prop
  | .insert id r => id < cfg.id.bound ∧ Storable r
  | .batchInsert start recs => start < cfg.id.bound ∧ recs.length ≤ cfg.id.bound ∧ ∀ r ∈ recs, Storable r
  | .update id r => id < cfg.id.bound ∧ Storable r
  | .remove id => id < cfg.id.bound
  | .flush => True
  | .reopen => True

/-- Number of records a call can add. -/
def opSize : StoreOp → Nat
  | .insert _ _ => 1
  | .batchInsert _ recs => recs.length
  | _ => 0

theorem length_put_le {m : RecordMap} (id : Nat) (r : ScalarData) : (m.put id r).length ≤ m.length + 1 := by
  induction m with
  | nil => simp [RecordMap.put]
  | cons e m ih =>
    obtain ⟨a, b⟩ := e
    simp only [RecordMap.put]
    split
    · simp
    · split
      · simp
      · simp only [List.length_cons]; omega

theorem length_puts_le (recs : List (Nat × ScalarData)) (m : RecordMap) :
    (recs.foldl (fun m e => m.put e.1 e.2) m).length ≤ m.length + recs.length := by
  induction recs generalizing m with
  | nil => simp
  | cons e recs ih =>
    rw [List.foldl_cons, List.length_cons]
    have := ih (m.put e.1 e.2)
    have := length_put_le (m := m) e.1 e.2
    omega

theorem apply_length (b : Nat) {m : RecordMap} (hm : m.Asc) (op : StoreOp) :
    (m.apply b op).1.length ≤ m.length + opSize op := by
  cases op with
  | insert id r =>
    simp only [RecordMap.apply, RecordMap.insert, opSize]
    split
    · exact length_put_le _ _
    · simp
  | batchInsert st recs =>
    simp only [RecordMap.apply, RecordMap.batchInsert, opSize]
    split
    · have h1 := length_puts_le (batchPairs b st recs) m
      have h2 : (batchPairs b st recs).length = recs.length := by simp [batchPairs]
      simp only; omega
    · simp
  | update id r =>
    simp only [RecordMap.apply, RecordMap.update, opSize]
    split
    · rename_i h
      simp only [Bool.and_eq_true] at h
      rw [RecordMap.length_put hm, h.1]; simp
    · simp
  | remove id =>
    simp only [RecordMap.apply, RecordMap.remove, opSize]
    split
    · simp only [RecordMap.del]; exact List.length_filter_le _ _
    · simp
  | flush => simp [RecordMap.apply, opSize]
  | reopen => simp [RecordMap.apply, opSize]

theorem step_refines {cfg : StoreCfg} (hc : cfg.id.Ok) {s : Store} {m : RecordMap} (h : Represents cfg s m)
    (op : StoreOp) (hop : OpOk cfg op) (hl : m.length < 2 ^ 64) :
    ∃ s', s.step cfg op = .ok (s', (m.apply cfg.id.bound op).2) ∧ Represents cfg s' (m.apply cfg.id.bound op).1 ∧
      ((m.apply cfg.id.bound op).2 = false → s' = s) := by
  cases op with
  | insert id r => exact insert_refines hc h hop.1 hop.2
  | batchInsert st recs => exact batchInsert_refines hc h hop.1 hop.2.1 hop.2.2
  | update id r => exact update_refines hc h hop.1 hop.2
  | remove id => exact remove_refines hc h hop
  | flush => exact ⟨_, rfl, flush_refines h, by simp [RecordMap.apply]⟩
  | reopen => exact ⟨_, rfl, reopen_refines h hl, by simp [RecordMap.apply]⟩

theorem run_refines {cfg : StoreCfg} (hc : cfg.id.Ok) (ops : List StoreOp) :
    ∀ {s : Store} {m : RecordMap}, Represents cfg s m → (∀ op ∈ ops, OpOk cfg op) →
      m.length + (ops.map opSize).sum < 2 ^ 64 →
      ∃ s', s.run cfg ops = .ok (s', (m.applyAll cfg.id.bound ops).2) ∧
        Represents cfg s' (m.applyAll cfg.id.bound ops).1 := by
  induction ops with
  | nil => intro s m h _ _; exact ⟨s, rfl, h⟩
  | cons op ops ih =>
    intro s m h hok hsz
    rw [List.map_cons, List.sum_cons] at hsz
    obtain ⟨s1, h1, h2, _⟩ := step_refines hc h op (hok op (by simp)) (by omega)
    have hlen := apply_length cfg.id.bound h.rel.asc op
    obtain ⟨s2, h3, h4⟩ := ih h2 (fun o ho => hok o (by simp [ho])) (by omega)
    refine ⟨s2, ?_, h4⟩
    unfold Store.run
    rw [h1]; simp only [PR.bind]; rw [h3]; rfl

/-- A fresh database. -/
def Store.empty : Store := Store.openDb []

theorem repr_empty (cfg : StoreCfg) : Represents cfg Store.empty [] := by
  refine ⟨⟨List.Pairwise.nil, List.Pairwise.nil, ?_, ?_, ?_, ?_, ?_, ?_⟩, rfl⟩
  · intro id r h; simp [RecordMap.get] at h
  · intro id _ _; exact ⟨rfl, rfl⟩
  · intro id r h; simp [RecordMap.get] at h
  · intro s v; simp [Store.empty, Store.openDb, KV.get, RecordMap.get]
  · intro k v _; simp [Store.empty, Store.openDb, KV.get, RecordMap.get]
  · intro k v h; simp [Store.empty, Store.openDb, KV.get] at h

/-! ### reads -/

theorem deserialize_ser' {r : ScalarData} (h : Storable r) : ScalarData.deserialize r.serialize = .ok r := by
  have := C03_roundtrip r [] h
  rwa [List.append_nil] at this

theorem serialize_ne_nil (r : ScalarData) : r.serialize ≠ [] := by
  intro h
  have := congrArg List.length h
  simp [ScalarData.serialize, serString] at this

theorem at_spec {cfg : StoreCfg} {s : Store} {m : RecordMap} (h : Rel cfg s.kv m) {id : Nat}
    (hid : id < cfg.id.bound) : s.at cfg id = .ok ((m.get id).getD ⟨[], [], []⟩) := by
  have := h.getData hid
  unfold Store.at
  cases hm : m.get id with
  | none => rw [hm] at this; simp only at this; rw [this]; rfl
  | some r =>
    rw [hm] at this; obtain ⟨k, h1, _⟩ := this
    rw [h1]; exact deserialize_ser' (h.ids id r hm).2

theorem isValid_spec {cfg : StoreCfg} {s : Store} {m : RecordMap} (h : Rel cfg s.kv m) {id : Nat}
    (hid : id < cfg.id.bound) : s.isValid cfg id = (m.get id).isSome := by
  have := h.getData hid
  unfold Store.isValid
  cases hm : m.get id with
  | none => rw [hm] at this; simp only at this; rw [this]; rfl
  | some r => rw [hm] at this; obtain ⟨k, h1, _⟩ := this; rw [h1]; rfl

theorem rawValue_spec {cfg : StoreCfg} {s : Store} {m : RecordMap} (h : Rel cfg s.kv m) {id : Nat}
    (hid : id < cfg.id.bound) : s.rawValue cfg id = ((m.get id).map ScalarData.serialize).getD [] := by
  have := h.getData hid
  unfold Store.rawValue
  cases hm : m.get id with
  | none => rw [hm] at this; simp only at this; rw [this]; rfl
  | some r => rw [hm] at this; obtain ⟨k, h1, _⟩ := this; rw [h1]; rfl

theorem batchGetOne_spec {cfg : StoreCfg} {s : Store} {m : RecordMap} (h : Rel cfg s.kv m) {id : Nat}
    (hid : id < cfg.id.bound) : s.batchGetOne cfg id = .ok ((m.get id).getD ⟨[], [], []⟩) := by
  unfold Store.batchGetOne
  rw [rawValue_spec h hid]
  cases hm : m.get id with
  | none => simp
  | some r =>
    simp only [Option.map_some, Option.getD_some]
    rw [if_neg (serialize_ne_nil r), deserialize_ser' (h.ids id r hm).2]

theorem itemIdOnly_spec {cfg : StoreCfg} {s : Store} {m : RecordMap} (h : Rel cfg s.kv m) {id : Nat}
    (hid : id < cfg.id.bound) : s.itemIdOnly cfg id = ((m.get id).map (·.itemId)).getD [] := by
  unfold Store.itemIdOnly
  rw [rawValue_spec h hid]
  cases hm : m.get id with
  | none => rfl
  | some r =>
    simp only [Option.map_some, Option.getD_some]
    have hs := (h.ids id r hm).2
    unfold ScalarData.serialize serString
    simp only [List.append_assoc]
    rw [splitN_append' (by simp)]
    simp only
    rw [leNat_leBytes_of_lt (by have := hs.item; simpa using this), splitN_append]

theorem owner_spec {m : RecordMap} (hm : m.Asc) (s : Bytes) (o : Nat)
    (hu : ∀ a b r r', m.get a = some r → m.get b = some r' → r.itemId = r'.itemId → r.itemId ≠ [] → a = b) :
    m.owner s = some o ↔ ∃ r, m.get o = some r ∧ r.itemId = s ∧ s ≠ [] := by
  unfold RecordMap.owner
  by_cases hs : s = []
  · simp [hs]
  · have : s.isEmpty = false := by simpa using hs
    rw [this]
    simp only [Bool.false_eq_true, if_false]
    constructor
    · intro h
      cases hf : m.find? (fun e => e.2.itemId == s) with
      | none => rw [hf] at h; simp at h
      | some e =>
        rw [hf] at h
        simp only [Option.map_some, Option.some.injEq] at h
        have h1 := List.find?_some hf
        have h2 := List.mem_of_find?_eq_some hf
        obtain ⟨a, r⟩ := e
        simp only at h; subst h
        exact ⟨r, (RecordMap.mem_iff_get hm _ _).1 h2, by simpa using h1, hs⟩
    · rintro ⟨r, h1, h2, _⟩
      cases hf : m.find? (fun e => e.2.itemId == s) with
      | none =>
        rw [List.find?_eq_none] at hf
        have := hf (o, r) ((RecordMap.mem_iff_get hm _ _).2 h1)
        simp [h2] at this
      | some e =>
        have h3 := List.find?_some hf
        have h4 := List.mem_of_find?_eq_some hf
        obtain ⟨a, r'⟩ := e
        have h5 : r'.itemId = s := by simpa using h3
        have := hu a o r' r ((RecordMap.mem_iff_get hm _ _).1 h4) h1 (by rw [h5, h2]) (by rw [h5]; exact hs)
        simp [this]

theorem findByItemId_spec {cfg : StoreCfg} {s : Store} {m : RecordMap} (h : Rel cfg s.kv m) (item : Bytes) :
    Alaya.findByItemId cfg.id s.kv item = m.owner item := by
  have hu : ∀ a b r r', m.get a = some r → m.get b = some r' → r.itemId = r'.itemId → r.itemId ≠ [] → a = b :=
    fun a b r r' h1 h2 h3 h4 => h.owner_unique h1 h2 h3 h4
  apply Option.ext
  intro o
  rw [h.findByItemId, owner_spec h.asc item o hu]

/-! ### full scan -/

theorem scanLoop_takeWhile (c : IdCfg) (p : ScalarData → Bool) (l : KV) :
    scanLoop c p l = scanLoop c p (l.takeWhile fun e => dataPre.isPrefixOf e.1) := by
  induction l with
  | nil => rfl
  | cons e l ih =>
    by_cases hp : dataPre.isPrefixOf e.1 = true
    · rw [List.takeWhile_cons, if_pos hp]
      simp only [scanLoop, hp, if_true]
      rw [ih]
    · rw [List.takeWhile_cons, if_neg hp]
      simp only [scanLoop, hp]
      rfl

/-- Id and record of a data row. -/
def rowOf (c : IdCfg) (e : Bytes × Bytes) : Nat × ScalarData :=
  (match parseDataKey c e.1 with | .ok (some i) => i | _ => 0,
   match ScalarData.deserialize e.2 with | .ok r => r | _ => ⟨[], [], []⟩)

/-- A well formed data row. -/
def GoodRow (c : IdCfg) (e : Bytes × Bytes) (id : Nat) (r : ScalarData) : Prop :=
  id < c.bound ∧ Storable r ∧ (e.1 = dataKey c id ∨ e.1 = legacyKey id) ∧ e.2 = r.serialize

theorem goodRow_parse {c : IdCfg} (hc : c.Ok) {e : Bytes × Bytes} {id : Nat} {r : ScalarData}
    (h : GoodRow c e id r) : parseDataKey c e.1 = .ok (some id) ∧ ScalarData.deserialize e.2 = .ok r ∧
      dataPre.isPrefixOf e.1 = true := by
  obtain ⟨h1, h2, h3, h4⟩ := h
  refine ⟨?_, by rw [h4]; exact deserialize_ser' h2, ?_⟩
  · rcases h3 with h3 | h3 <;> rw [h3]
    · exact parseDataKey_dataKey hc h1
    · exact parseDataKey_legacyKey hc h1
  · rw [List.isPrefixOf_iff_prefix]
    rcases h3 with h3 | h3 <;> rw [h3]
    · exact dataKey_prefix _ _
    · exact List.prefix_append _ _

theorem goodRow_rowOf {c : IdCfg} (hc : c.Ok) {e : Bytes × Bytes} {id : Nat} {r : ScalarData}
    (h : GoodRow c e id r) : rowOf c e = (id, r) := by
  obtain ⟨h1, h2, _⟩ := goodRow_parse hc h
  unfold rowOf; rw [h1, h2]

theorem scanLoop_good {c : IdCfg} (hc : c.Ok) (p : ScalarData → Bool) (l : KV)
    (hl : ∀ e ∈ l, ∃ id r, GoodRow c e id r) :
    scanLoop c p l = .ok ((l.map (rowOf c)).filter fun e => p e.2) := by
  induction l with
  | nil => rfl
  | cons e l ih =>
    obtain ⟨id, r, hg⟩ := hl e (by simp)
    obtain ⟨h1, h2, h3⟩ := goodRow_parse hc hg
    simp only [scanLoop, h3, if_true, h1, PR.bind, h2, ih (fun x hx => hl x (by simp [hx])), List.map_cons,
      List.filter_cons, goodRow_rowOf hc hg]

theorem Rel.rows {cfg : StoreCfg} {kv : KV} {m : RecordMap} (h : Rel cfg kv m)
    (e : Bytes × Bytes) (he : e ∈ kv.filter fun e => dataPre.isPrefixOf e.1) :
    ∃ id r, GoodRow cfg.id e id r ∧ m.get id = some r := by
  rw [List.mem_filter] at he
  obtain ⟨he, hp⟩ := he
  rw [List.isPrefixOf_iff_prefix] at hp
  have hh : e.1.head? = some 100 := by
    obtain ⟨t, ht⟩ := hp; rw [← ht]; rfl
  obtain ⟨k, v⟩ := e
  have hg := (KV.mem_iff_get h.sorted k v).1 he
  rcases h.other k v hg with ⟨id, hid, hk⟩ | ⟨s, hk⟩ | hk | hk
  · cases hm : m.get id with
    | none =>
      obtain ⟨h1, h2⟩ := h.absent id hid hm
      rcases hk with hk | hk <;> subst hk
      · rw [h1] at hg; simp at hg
      · rw [h2] at hg; simp at hg
    | some r =>
      refine ⟨id, r, ⟨hid, (h.ids id r hm).2, hk, ?_⟩, hm⟩
      simp only
      rcases h.present id r hm with ⟨h1, h2⟩ | ⟨h1, h2⟩ <;> rcases hk with hk | hk <;> subst hk
      · rw [h1] at hg; injection hg with hg; exact hg.symm
      · by_cases heq : legacyKey id = dataKey cfg.id id
        · rw [heq, h1] at hg; injection hg with hg; exact hg.symm
        · rw [h2 heq] at hg; simp at hg
      · rw [h1] at hg; simp at hg
      · rw [h2] at hg; injection hg with hg; exact hg.symm
  · exact absurd hk (ne_of_head hh (itemKey_head s) (by decide))
  · simp only at hh; rw [hk] at hh; simp at hh
  · exact absurd hk (ne_of_head hh countKey_head (by decide))

/-- The rows of the database are exactly the records of the map. -/
theorem Rel.rowOf_mem {cfg : StoreCfg} (hc : cfg.id.Ok) {kv : KV} {m : RecordMap} (h : Rel cfg kv m)
    (x : Nat × ScalarData) :
    x ∈ (kv.filter fun e => dataPre.isPrefixOf e.1).map (rowOf cfg.id) ↔ x ∈ m := by
  rw [List.mem_map]
  constructor
  · rintro ⟨e, he, rfl⟩
    obtain ⟨id, r, hg, hm⟩ := h.rows e he
    rw [goodRow_rowOf hc hg]
    exact (RecordMap.mem_iff_get h.asc _ _).2 hm
  · intro hx
    obtain ⟨id, r⟩ := x
    have hm := (RecordMap.mem_iff_get h.asc _ _).1 hx
    have hid := (h.ids id r hm)
    have : ∃ k, kv.get k = some r.serialize ∧ (k = dataKey cfg.id id ∨ k = legacyKey id) := by
      rcases h.present id r hm with ⟨h1, _⟩ | ⟨_, h1⟩
      · exact ⟨_, h1, Or.inl rfl⟩
      · exact ⟨_, h1, Or.inr rfl⟩
    obtain ⟨k, hk, hor⟩ := this
    have hg : GoodRow cfg.id (k, r.serialize) id r := ⟨hid.1, hid.2, hor, rfl⟩
    refine ⟨(k, r.serialize), ?_, goodRow_rowOf hc hg⟩
    rw [List.mem_filter]
    exact ⟨(KV.mem_iff_get h.sorted _ _).2 hk, (goodRow_parse hc hg).2.2⟩

theorem Rel.rows_nodup {cfg : StoreCfg} (hc : cfg.id.Ok) {kv : KV} {m : RecordMap} (h : Rel cfg kv m) :
    ((kv.filter fun e => dataPre.isPrefixOf e.1).map (rowOf cfg.id)).Pairwise fun a b => a.1 ≠ b.1 := by
  rw [List.pairwise_map]
  have hs : (kv.filter fun e => dataPre.isPrefixOf e.1).Pairwise fun a b => a.1 < b.1 :=
    List.Pairwise.sublist List.filter_sublist h.sorted
  apply List.Pairwise.imp_of_mem _ hs
  intro a b ha hb hlt heq
  obtain ⟨i, r, hga, hma⟩ := h.rows a ha
  obtain ⟨j, r', hgb, hmb⟩ := h.rows b hb
  rw [goodRow_rowOf hc hga, goodRow_rowOf hc hgb] at heq
  simp only at heq; subst heq
  have hka := (KV.mem_iff_get h.sorted a.1 a.2).1 (List.mem_filter.1 ha).1
  have hkb := (KV.mem_iff_get h.sorted b.1 b.2).1 (List.mem_filter.1 hb).1
  have hne : a.1 ≠ b.1 := blt_ne hlt
  have key : kv.get (dataKey cfg.id i) ≠ none ∧ kv.get (legacyKey i) ≠ none ∧
      legacyKey i ≠ dataKey cfg.id i := by
    rcases hga.2.2.1 with h1 | h1 <;> rcases hgb.2.2.1 with h2 | h2
    · exact absurd (h1.trans h2.symm) hne
    · rw [h1] at hka; rw [h2] at hkb; rw [h1, h2] at hne
      exact ⟨by rw [hka]; simp, by rw [hkb]; simp, Ne.symm hne⟩
    · rw [h1] at hka; rw [h2] at hkb; rw [h1, h2] at hne
      exact ⟨by rw [hkb]; simp, by rw [hka]; simp, hne⟩
    · exact absurd (h1.trans h2.symm) hne
  rcases h.present i r hma with ⟨_, h2⟩ | ⟨h1, _⟩
  · exact key.2.1 (h2 key.2.2)
  · exact key.1 h1

theorem scan_spec {cfg : StoreCfg} (hc : cfg.id.Ok) {s : Store} {m : RecordMap} (h : Rel cfg s.kv m)
    (p : ScalarData → Bool) (limit : Nat) :
    s.scan cfg p limit = .ok (if limit = 0 then m.filter (fun e => p e.2)
      else (m.filter fun e => p e.2).take limit) := by
  unfold Store.scan
  rw [scanLoop_takeWhile]
  have hsc : (s.kv.seek dataPre).takeWhile (fun e => dataPre.isPrefixOf e.1)
      = s.kv.filter fun e => dataPre.isPrefixOf e.1 := KV.prefixScan_eq_filter h.sorted dataPre
  rw [hsc, scanLoop_good hc p _ (fun e he => by
    obtain ⟨id, r, hg, _⟩ := h.rows e he; exact ⟨id, r, hg⟩)]
  simp only [PR.bind]
  generalize hl : ((s.kv.filter fun e => dataPre.isPrefixOf e.1).map (rowOf cfg.id)).filter
    (fun e => p e.2) = l
  have hmem : ∀ x, x ∈ l ↔ x ∈ m.filter fun e => p e.2 := by
    intro x
    rw [← hl, List.mem_filter, List.mem_filter, h.rowOf_mem hc]
  have hnd : l.Pairwise fun a b => a.1 ≠ b.1 := by
    rw [← hl]; exact List.Pairwise.sublist List.filter_sublist (h.rows_nodup hc)
  have hsort : l.mergeSort (fun a b => decide (a.1 ≤ b.1)) = m.filter fun e => p e.2 := by
    apply asc_ext
    · have h1 := List.pairwise_mergeSort (le := fun (a b : Nat × ScalarData) => decide (a.1 ≤ b.1))
        (by intro a b c; simp; omega) (by intro a b; simp; omega) l
      have h2 : (l.mergeSort fun a b => decide (a.1 ≤ b.1)).Pairwise fun a b => a.1 ≠ b.1 :=
        (List.Perm.pairwise_iff (fun hh => Ne.symm hh) (List.mergeSort_perm l _)).2 hnd
      unfold RecordMap.Asc
      have h3 := h1.and h2
      apply List.Pairwise.imp _ h3
      rintro a b ⟨h4, h5⟩
      simp only [decide_eq_true_eq] at h4
      omega
    · exact List.Pairwise.sublist List.filter_sublist h.asc
    · intro e; rw [List.mem_mergeSort]; exact hmem e
  rw [hsort]
  congr 1
  by_cases h0 : limit = 0
  · simp [h0]
  · rw [if_neg h0]
    split
    · rfl
    · rw [List.take_of_length_le]; omega

end Alaya
