import Verif.Lemmas.DiskAnnLabels

/-
C45. Label bookkeeping of the updatable DiskANN index is exact.

Full statement: for any history of insert / remove / remove_by_label / batch operations, contains_label(l) iff l was inserted
and not removed since, live_count() equals the number of live labels, two live labels never share a slot, the slot's label is the
label inserted, and rejected calls change nothing.

Everything but the `live_count()` part is proved for every history (`C45_history_partial`); the `live_count()` part is proved for
histories without I/O exceptions (`C45_clean_history`) and fails otherwise: see `C45_failed_insert_refuted`.
-/
namespace Alaya.DiskAnn
open Alaya Alaya.DiskSlots Alaya.DiskAnn.Spec

theorem step_spec {n k : Nat} {s : Idx} {live dark : List (Nat × Nat)} (h : LInv n k s live dark) (o : Op)
    (hk : n + k + cost o < 4294967296) : ∃ live' dark', Spec.Step live o (step s o).2 live' ∧
      LInv n (k + cost o) (step s o).1 live' dark' ∧ (Clean o → dark = [] → dark' = []) ∧ (∀ p ∈ dark, p ∈ dark') ∧
      ((step s o).2 = .rejected → (step s o).1 = s) := by
  cases o with
  | insert l f =>
    simp only [cost] at hk ⊢
    have hi := insertable_iff h [l]
    simp only [List.mem_singleton, forall_eq, List.nodup_cons, List.not_mem_nil, not_false_eq_true, List.nodup_nil, and_self,
      true_and] at hi
    simp only [step]
    by_cases hf : Free live l
    · rw [if_pos (hi.mpr hf)]
      have hr : ¬ Refused live (.insert l f) := fun q => q hf
      by_cases c1 : f = .search
      · rw [if_pos c1]
        subst c1
        exact ⟨live, dark, .done hr ⟨rfl, rfl⟩, h.mono (by omega), fun _ q => q, fun _ q => q, by intro q; cases q⟩
      · rw [if_neg c1]
        obtain ⟨x, s1, e1, hm, hne, h1⟩ := allocStep_spec h (by omega) l
        rw [e1]
        simp only
        have hx : x ∉ slots live := by
          intro q
          obtain ⟨p, q1, q2⟩ := List.mem_map.mp q
          exact hne p (List.mem_append_left _ q1) q2
        by_cases c2 : f = .write
        · rw [if_pos c2]
          subst c2
          exact ⟨live, (l, x) :: dark, .done hr ⟨rfl, rfl⟩, h1, (by intro q; cases q), fun p q => List.mem_cons_of_mem _ q,
            by intro q; cases q⟩
        · rw [if_neg c2]
          obtain ⟨s2, e2, hm2, h2⟩ := publishStep_spec h1 (l := l) (x := x) List.mem_cons_self
            (fun p hp e => hf.2 (List.mem_map.mpr ⟨p, hp, e⟩)) hf.1
          rw [e2]
          simp only
          rw [List.erase_cons_head] at h2
          refine ⟨(l, x) :: live, dark, .done hr ⟨?_, ?_⟩, h2, fun _ q => q, fun _ q => q, ?_⟩
          · cases f
            · rfl
            · exact absurd rfl c1
            · exact absurd rfl c2
            · rfl
          · rw [if_neg (fun q => q.elim c1 c2)]
            exact ⟨x, hx, rfl⟩
          · intro q; split at q <;> cases q
    · rw [if_neg (fun q => hf (hi.mp q))]
      exact ⟨live, dark, .refused hf, h.mono (by omega), fun _ q => q, fun _ q => q, fun _ => rfl⟩
  | batchInsert ls evs =>
    simp only [cost] at hk ⊢
    have hi := insertable_iff h ls
    simp only [step]
    by_cases hf : ls.Nodup ∧ ∀ l ∈ ls, Free live l
    · rw [if_pos (hi.mpr hf)]
      have hr : ¬ Refused live (.batchInsert ls evs) := fun q => q hf
      have hb : BInv ls live dark ⟨fun _ => none, fun _ => false⟩ [] dark :=
        ⟨by simp, List.nodup_nil, (by intro i l _ q; cases q), (by intro i q; cases q), (by intro i x q; cases q),
          fun p hp => .inl hp, fun p hp => hp, (by intro i x q; cases q)⟩
      obtain ⟨s', t', new, dark', e, h', hb', hd⟩ := batchRun_spec hf.1 hf.2 evs (new := []) h hb hk
      rw [e]
      simp only
      have hran : ∀ i, i < ls.length → (t'.done i = true ↔ Ran evs i) := by
        intro i hi'
        rw [hd i hi']
        constructor
        · rintro (q | ⟨q, _⟩ | q)
          · cases q
          · cases q
          · exact q
        · exact fun q => .inr (.inr q)
      refine ⟨new ++ live, dark', .done hr ⟨rfl, new, rfl, ?_, hb'.nnd, ?_, ?_⟩, h', ?_, hb'.old, by intro q; cases q⟩
      · have := h'.nd
        rw [List.map_append, List.nodup_append] at this
        exact this.1
      · intro i l hl
        have hlt := (List.getElem?_eq_some_iff.mp hl).1
        rw [← hran i hlt]
        constructor
        · intro q
          obtain ⟨p, q1, q2⟩ := List.mem_map.mp q
          obtain ⟨j, q3, q4⟩ := hb'.nl p q1
          rw [q2] at q3
          exact idx_inj hf.1 q3 hl ▸ q4
        · exact hb'.dn i l hl
      · intro l q
        obtain ⟨p, q1, q2⟩ := List.mem_map.mp q
        obtain ⟨j, q3, _⟩ := hb'.nl p q1
        exact q2 ▸ List.mem_of_getElem? q3
      · intro hcl hd0
        refine List.eq_nil_iff_forall_not_mem.mpr fun p hp => ?_
        rcases hb'.dk p hp with q | ⟨j, q1, q2, q3⟩
        · rw [hd0] at q; cases q
        · have hlt := (List.getElem?_eq_some_iff.mp q3).1
          rw [(hran j hlt).mpr (hcl j hlt)] at q2
          cases q2
    · rw [if_neg (fun q => hf (hi.mp q))]
      exact ⟨live, dark, .refused hf, h.mono (by omega), fun _ q => q, fun _ q => q, fun _ => rfl⟩
  | remove id ok =>
    simp only [cost, Nat.add_zero] at hk ⊢
    simp only [step]
    obtain ⟨d1, d2⟩ := doRemove_spec hk h [id] ok
    simp only [List.mem_singleton, forall_eq, List.nodup_cons, List.not_mem_nil, not_false_eq_true, List.nodup_nil, and_self,
      true_and] at d1 d2
    by_cases c : id ∈ slots live
    · have hr : ¬ Refused live (.remove id ok) := fun q => q c
      have d := d2 c
      cases ok with
      | true =>
        rw [if_pos rfl] at d
        refine ⟨_, dark, .done hr ?_, d.2, fun _ q => q, fun _ q => q, by rw [d.1]; intro q; cases q⟩
        exact ⟨d.1, rfl⟩
      | false =>
        rw [if_neg (by decide)] at d
        rw [d]
        exact ⟨live, dark, .done hr ⟨rfl, rfl⟩, h, fun _ q => q, fun _ q => q, fun _ => rfl⟩
    · rw [d1 c]
      exact ⟨live, dark, .refused c, h, fun _ q => q, fun _ q => q, fun _ => rfl⟩
  | removeByLabel l ok =>
    simp only [cost, Nat.add_zero] at hk ⊢
    simp only [step]
    cases hm : s.map l with
    | none =>
      refine ⟨live, dark, .refused ?_, h, fun _ q => q, fun _ q => q, fun _ => rfl⟩
      intro q
      obtain ⟨p, q1, q2⟩ := List.mem_map.mp q
      have := (h.map l p.2).mpr (by rw [← q2]; exact q1)
      rw [hm] at this; cases this
    | some x =>
      have hlx := (h.map l x).mp hm
      have hr : ¬ Refused live (.removeByLabel l ok) := fun q => q (List.mem_map.mpr ⟨_, hlx, rfl⟩)
      obtain ⟨-, d2⟩ := doRemove_spec hk h [x] ok
      have d := d2 ⟨by simp, by
        intro id hid
        rw [List.mem_singleton] at hid
        exact List.mem_map.mpr ⟨_, hlx, hid.symm⟩⟩
      cases ok with
      | true =>
        rw [if_pos rfl] at d
        refine ⟨_, dark, .done hr ?_, d.2, fun _ q => q, fun _ q => q, by simp only [d.1]; intro q; cases q⟩
        refine ⟨d.1, ?_⟩
        rw [filter_labels h [l] [x]]
        · simp only [List.mem_singleton]
        · intro y
          simp only [List.mem_singleton, exists_eq_left]
          rw [← h.map, hm]
          constructor
          · rintro rfl; rfl
          · intro e; cases e; rfl
      | false =>
        rw [if_neg (by decide)] at d
        simp only [d]
        exact ⟨live, dark, .done hr ⟨rfl, rfl⟩, h, fun _ q => q, fun _ q => q, by intro q; cases q⟩
  | batchRemove ids ok =>
    simp only [cost, Nat.add_zero] at hk ⊢
    simp only [step]
    obtain ⟨d1, d2⟩ := doRemove_spec hk h ids ok
    by_cases c : ids.Nodup ∧ ∀ id ∈ ids, id ∈ slots live
    · have hr : ¬ Refused live (.batchRemove ids ok) := fun q => q c
      have d := d2 c
      cases ok with
      | true =>
        rw [if_pos rfl] at d
        exact ⟨_, dark, .done hr ⟨d.1, rfl⟩, d.2, fun _ q => q, fun _ q => q, by rw [d.1]; intro q; cases q⟩
      | false =>
        rw [if_neg (by decide)] at d
        rw [d]
        exact ⟨live, dark, .done hr ⟨rfl, rfl⟩, h, fun _ q => q, fun _ q => q, fun _ => rfl⟩
    · rw [d1 c]
      exact ⟨live, dark, .refused c, h, fun _ q => q, fun _ q => q, fun _ => rfl⟩
  | batchRemoveByLabels ls ok =>
    simp only [cost, Nat.add_zero] at hk ⊢
    simp only [step]
    obtain ⟨l1, l2⟩ := lookupAll_spec h ls
    by_cases c : ls.Nodup ∧ ∀ l ∈ ls, l ∈ labels live
    · have hr : ¬ Refused live (.batchRemoveByLabels ls ok) := fun q => q c
      obtain ⟨ids, e, hi, hn⟩ := l2 c
      rw [e]
      simp only
      obtain ⟨-, d2⟩ := doRemove_spec hk h ids ok
      have d := d2 ⟨hn, by
        intro id hid
        obtain ⟨l, _, q⟩ := (hi id).mp hid
        exact List.mem_map.mpr ⟨_, q, rfl⟩⟩
      cases ok with
      | true =>
        rw [if_pos rfl] at d
        exact ⟨_, dark, .done hr ⟨d.1, filter_labels h ls ids hi⟩, d.2, fun _ q => q, fun _ q => q,
          by rw [d.1]; intro q; cases q⟩
      | false =>
        rw [if_neg (by decide)] at d
        rw [d]
        exact ⟨live, dark, .done hr ⟨rfl, rfl⟩, h, fun _ q => q, fun _ q => q, fun _ => rfl⟩
    · rw [l1 c]
      exact ⟨live, dark, .refused c, h, fun _ q => q, fun _ q => q, fun _ => rfl⟩

theorem run_spec {n : Nat} : ∀ (ops : List Op) {k : Nat} {s : Idx} {live dark : List (Nat × Nat)}, LInv n k s live dark →
    n + k + totalCost ops < 4294967296 → ∃ live' dark', Trace live ops (results s ops) live' ∧
      LInv n (k + totalCost ops) (run s ops) live' dark' ∧ ((∀ o ∈ ops, Clean o) → dark = [] → dark' = []) ∧
      (∀ p ∈ dark, p ∈ dark')
  | [], k, s, live, dark, h, _ => ⟨live, dark, .nil, h, fun _ q => q, fun _ q => q⟩
  | o :: os, k, s, live, dark, h, hk => by
    rw [totalCost] at hk
    obtain ⟨live1, dark1, t1, h1, c1, d1, _⟩ := step_spec h o (by omega)
    obtain ⟨live2, dark2, t2, h2, c2, d2⟩ := run_spec os h1 (by omega)
    refine ⟨live2, dark2, .cons t1 t2, ?_, ?_, fun p hp => d2 p (d1 p hp)⟩
    · rw [totalCost, ← Nat.add_assoc]; exact h2
    · intro hc hd
      exact c2 (fun o' ho => hc o' (List.mem_cons_of_mem _ ho)) (c1 (hc o List.mem_cons_self) hd)

theorem fresh_spec {ls : List Nat} (hnd : ls.Nodup) (hres : noLabel ∉ ls) (hn : ls.length < 4294967296) :
    ∃ s, fresh ls = some s ∧ LInv ls.length 0 s ls.zipIdx [] := by
  obtain ⟨sl, e, h⟩ := SInv.init hn
  have hsl : sl.next = ls.length := by
    unfold Slots.mk' at e
    cases hr : Tomb.reset ls.length with
    | none => rw [hr] at e; cases e
    | some t => rw [hr] at e; injection e with e; subst e; rfl
  have hz : ls.zipIdx.map (·.2) = List.range ls.length := by
    rw [List.zipIdx_map_snd, List.range_eq_range']
  refine ⟨_, by unfold fresh; rw [e]; rfl, ⟨⟨_, h, ?_, ?_⟩, hsl.symm, hsl.symm, ?_, ?_, ?_, ?_, ?_⟩⟩
  · intro x; rw [List.append_nil, hz]
  · intro x; rw [hz]
  · intro p hp
    rw [List.append_nil] at hp
    exact List.mem_zipIdx_iff_getElem?.mp hp
  · intro l x
    show (if l ∈ ls then some (ls.idxOf l) else none) = some x ↔ _
    rw [List.mem_zipIdx_iff_getElem?]
    constructor
    · intro q
      split at q
      · rename_i hm
        cases q
        have hlt := List.idxOf_lt_length_iff.mpr hm
        simp only
        rw [List.getElem?_eq_getElem hlt, List.getElem_idxOf hlt]
      · cases q
    · intro q
      simp only at q
      have hm := List.mem_of_getElem? q
      rw [if_pos hm]
      have hlt := List.idxOf_lt_length_iff.mpr hm
      have : ls[ls.idxOf l]? = some l := by rw [List.getElem?_eq_getElem hlt, List.getElem_idxOf hlt]
      rw [idx_inj hnd this q]
  · rw [List.append_nil, hz]; exact List.nodup_range
  · show ((ls.length : Nat) : Int) = _
    rw [List.length_zipIdx]; simp
  · intro p hp
    have := List.mem_zipIdx_iff_getElem?.mp hp
    intro e'
    rw [e'] at this
    exact hres (List.mem_of_getElem? this)

theorem contains_iff {n k : Nat} {s : Idx} {live dark : List (Nat × Nat)} (h : LInv n k s live dark) (l : Nat) :
    containsLabel s l = true ↔ l ∈ labels live := by
  unfold containsLabel
  constructor
  · intro q
    obtain ⟨x, hx⟩ := Option.isSome_iff_exists.mp q
    exact List.mem_map.mpr ⟨_, (h.map l x).mp hx, rfl⟩
  · intro q
    obtain ⟨p, q1, q2⟩ := List.mem_map.mp q
    rw [(h.map l p.2).mpr (by rw [← q2]; exact q1)]
    rfl

/-- What holds of an index whose live pairs are `live`, apart from `live_count()`. -/
structure Exact (s : Idx) (live : List (Nat × Nat)) : Prop where
  contains : ∀ l, containsLabel s l = true ↔ l ∈ labels live
  apart : (slots live).Nodup
  once : (labels live).Nodup
  label : ∀ p ∈ live, s.labels[p.2]? = some p.1 ∧ s.map p.1 = some p.2
  visible : ∀ x, removable s x = true ↔ x ∈ slots live

theorem LInv.exact {n k : Nat} {s : Idx} {live dark : List (Nat × Nat)} (h : LInv n k s live dark) : Exact s live := by
  have hn := h.nd
  rw [List.map_append, List.nodup_append] at hn
  refine ⟨contains_iff h, hn.1, ?_, fun p hp => ⟨h.lab p (List.mem_append_left _ hp), (h.map p.1 p.2).mpr hp⟩, removable_iff h⟩
  unfold labels
  rw [List.Nodup, List.pairwise_map]
  have h1 := hn.1
  rw [List.Nodup, List.pairwise_map] at h1
  refine List.Pairwise.imp_of_mem ?_ h1
  intro a b ha hb hne e
  have e1 := (h.map a.1 a.2).mpr ha
  have e2 := (h.map b.1 b.2).mpr hb
  rw [← e, e1] at e2
  injection e2 with e2
  exact hne e2

/-- **C45** (all but `live_count()`): after every history on a freshly built index the calls ended as `Spec.Trace` prescribes, and
labels, slots and `contains_label` agree with the live pairs it ends in. `live_count()` exceeds their number by the number of
slots lost to inserts that ended with an exception. -/
theorem C45_history_partial (ls : List Nat) (ops : List Op) (hnd : ls.Nodup) (hres : noLabel ∉ ls)
    (hk : ls.length + totalCost ops < 4294967296) :
    ∃ s, fresh ls = some s ∧ ∃ live dark, Trace ls.zipIdx ops (results s ops) live ∧ Exact (run s ops) live ∧
      (run s ops).live = ((live.length + dark : Nat) : Int) := by
  obtain ⟨s, e, h⟩ := fresh_spec hnd hres (by omega)
  obtain ⟨live, dark, t, h', _, _⟩ := run_spec ops h (by omega)
  exact ⟨s, e, live, dark.length, t, h'.exact, by rw [h'.cnt]; push_cast; rfl⟩

/-- **C45** for histories in which no I/O exception occurs: `live_count()` is the number of live labels too. -/
theorem C45_clean_history (ls : List Nat) (ops : List Op) (hnd : ls.Nodup) (hres : noLabel ∉ ls)
    (hk : ls.length + totalCost ops < 4294967296) (hc : ∀ o ∈ ops, Clean o) :
    ∃ s, fresh ls = some s ∧ ∃ live, Trace ls.zipIdx ops (results s ops) live ∧ Exact (run s ops) live ∧
      (run s ops).live = live.length := by
  obtain ⟨s, e, h⟩ := fresh_spec hnd hres (by omega)
  obtain ⟨live, dark, t, h', hd, _⟩ := run_spec ops h (by omega)
  refine ⟨s, e, live, t, h'.exact, ?_⟩
  rw [h'.cnt, hd hc rfl]
  rfl

/-- A refused call leaves everything as it was, after any history. -/
theorem C45_rejected_unchanged (ls : List Nat) (ops : List Op) (o : Op) (hnd : ls.Nodup) (hres : noLabel ∉ ls)
    (hk : ls.length + totalCost ops + cost o < 4294967296) (s : Idx) (hs : fresh ls = some s)
    (hr : (step (run s ops) o).2 = .rejected) : (step (run s ops) o).1 = run s ops := by
  obtain ⟨s', e, h⟩ := fresh_spec hnd hres (by omega)
  rw [hs] at e
  cases e
  obtain ⟨live, dark, t, h', _, _⟩ := run_spec ops h (by omega)
  obtain ⟨_, _, _, _, _, _, q⟩ := step_spec h' o (by omega)
  exact q hr

/-- An insert whose node write throws is off by one for good: after every continuation `live_count()` is larger than the number
of live labels. -/
theorem C45_failed_insert_refuted (ls : List Nat) (l : Nat) (ops : List Op) (hnd : (l :: ls).Nodup)
    (hres : noLabel ∉ l :: ls) (hk : ls.length + 1 + totalCost ops < 4294967296) (s : Idx) (hs : fresh ls = some s) :
    (step s (.insert l .write)).2 = .failed ∧ ∃ live, Exact (run (step s (.insert l .write)).1 ops) live ∧
      (run (step s (.insert l .write)).1 ops).live > (live.length : Int) := by
  rw [List.nodup_cons] at hnd
  rw [List.mem_cons, not_or] at hres
  obtain ⟨s', e, h⟩ := fresh_spec hnd.2 hres.2 (by omega)
  rw [hs] at e
  cases e
  have hlab : ∀ p ∈ ls.zipIdx, p.1 ∈ ls := fun p hp => List.mem_of_getElem? (List.mem_zipIdx_iff_getElem?.mp hp)
  have hf : Free ls.zipIdx l := by
    refine ⟨fun q => hres.1 q.symm, fun q => ?_⟩
    obtain ⟨p, q1, q2⟩ := List.mem_map.mp q
    exact hnd.1 (q2 ▸ hlab p q1)
  have hi := (insertable_iff h [l]).mpr ⟨by simp, by simpa using hf⟩
  obtain ⟨x, s1, e1, _, _, h1⟩ := allocStep_spec h (by omega) l
  have hst : step s (.insert l .write) = (s1, .failed) := by
    simp only [step]
    rw [if_pos hi, if_neg (by decide), e1]
    simp only
    rw [if_pos trivial]
  rw [hst]
  obtain ⟨live, dark, t, h', _, hd⟩ := run_spec ops h1 (by omega)
  refine ⟨rfl, live, h'.exact, ?_⟩
  simp only
  rw [h'.cnt]
  have : 0 < dark.length := List.length_pos_of_mem (hd _ List.mem_cons_self)
  omega

/-- The same through `batch_insert`, which moreover reports success for a label that is not there. -/
theorem C45_batch_swallows_refuted : ∃ s, fresh [7] = some s ∧
    (step s (.batchInsert [8, 9] [.alloc 0, .alloc 1, .publish 1])).2 = .ok ∧
    containsLabel (step s (.batchInsert [8, 9] [.alloc 0, .alloc 1, .publish 1])).1 8 = false ∧
    containsLabel (step s (.batchInsert [8, 9] [.alloc 0, .alloc 1, .publish 1])).1 9 = true ∧
    (step s (.batchInsert [8, 9] [.alloc 0, .alloc 1, .publish 1])).1.live = 3 := by
  refine ⟨_, rfl, ?_⟩
  decide +kernel

/-- The hypotheses are met by a history with slot reuse, refused calls and a batch whose tasks interleave. -/
example : ([5, 6, 7] : List Nat).Nodup ∧ noLabel ∉ [5, 6, 7] ∧
    (∀ o ∈ [Op.removeByLabel 6 true, .insert 9 .none, .insert 9 .none, .batchInsert [6, 10] [.alloc 1, .alloc 0, .publish 0, .publish 1],
      .batchRemove [0, 0] true, .remove 0 true], Clean o) ∧
    (fresh [5, 6, 7]).map (fun s => results s [Op.removeByLabel 6 true, .insert 9 .none, .insert 9 .none,
      .batchInsert [6, 10] [.alloc 1, .alloc 0, .publish 0, .publish 1], .batchRemove [0, 0] true, .remove 0 true]) =
      some [.ok, .ok, .rejected, .ok, .rejected, .ok] := by
  refine ⟨by decide, by decide, ?_, by decide +kernel⟩
  intro o ho
  simp only [List.mem_cons, List.not_mem_nil, or_false] at ho
  rcases ho with rfl | rfl | rfl | rfl | rfl | rfl
  · rfl
  · rfl
  · rfl
  · intro i hi
    match i, hi with
    | 0, _ => exact ⟨[.alloc 1], [], [.publish 1], rfl⟩
    | 1, _ => exact ⟨[], [.alloc 0, .publish 0], [], rfl⟩
  · rfl
  · rfl

end Alaya.DiskAnn
