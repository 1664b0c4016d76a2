import Verif.Lemmas.DiskAnnFlush

/-
C47: a crash during flush() leaves a directory that loads into a state where every live slot has its label and no live slot is handed out,
or that is refused.
-/
namespace Alaya.DiskAnn
open Alaya Alaya.DiskSlots

/-- A slot that searches see. -/
def Live (t : Idx) (x : Nat) : Prop := x < t.maxSlot ∧ t.slots.tomb.isDeleted x = false

/-- The slots `j` inserts in a row get. -/
def handOut : Nat → Slots → Option (List Nat)
  | 0, _ => some []
  | j + 1, s => match s.alloc with
    | none => none
    | some (id, s') => (handOut j s').map (id :: ·)

/-- The vector stored for a live slot belongs to the slot's label, and no insert gets a live slot. -/
structure Sound (t : Idx) (recs : Nat → Nat) : Prop where
  labelled : ∀ x, Live t x → t.labels[x]? = some (recs x)
  fresh : ∀ j ids, t.slots.next + j < 2 ^ 32 → handOut j t.slots = some ids → ids.Nodup ∧ ∀ i ∈ ids, ¬ Live t i

def Survives (geo : Nat → Nat → Nat × Nat) (d : Dir) : Prop :=
  load geo d = .throws ∨ ∃ t, load geo d = .ok t ∧ Sound t d.recs

theorem handOut_spec : ∀ (j n k : Nat) (s : Slots) (a : Ledger) (ids : List Nat), SInv n k s a → n + k + j < 4294967296 →
    handOut j s = some ids → ids.Nodup ∧ ∀ i ∈ ids, i ∉ a.held
  | 0, n, k, s, a, ids, _, _, h => by
    injection h with h
    subst h
    exact ⟨List.nodup_nil, by simp⟩
  | j + 1, n, k, s, a, ids, hs, hk, h => by
    obtain ⟨id, s', e, hn, hs'⟩ := hs.alloc (by omega)
    unfold handOut at h
    rw [e] at h
    simp only [Option.map_eq_some_iff] at h
    obtain ⟨ids', e', rfl⟩ := h
    obtain ⟨q1, q2⟩ := handOut_spec j n (k + 1) s' _ ids' hs' (by omega) e'
    refine ⟨List.nodup_cons.mpr ⟨fun q => q2 id q List.mem_cons_self, q1⟩, ?_⟩
    intro i hi
    rcases List.mem_cons.mp hi with q | q
    · subst q; exact hn
    · exact fun q' => q2 i q (List.mem_cons_of_mem _ q')

theorem live_iff {n k : Nat} {t : Idx} {a : Ledger} (h : SInv n k t.slots a) (hm : t.maxSlot = t.slots.next) (x : Nat) :
    Live t x ↔ x ∈ a.visible := by
  obtain ⟨l, hl, hd⟩ := h.tomb
  unfold Live
  rw [hm]
  constructor
  · rintro ⟨q1, q2⟩
    by_cases hv : x ∈ a.visible
    · exact hv
    · have := (isDeleted_spec hl x).mpr ((hd x).mpr ⟨q1, hv⟩)
      rw [q2] at this
      cases this
  · intro hv
    refine ⟨h.heldLt x (h.vis x hv), ?_⟩
    cases hb : t.slots.tomb.isDeleted x with
    | false => rfl
    | true => exact absurd hv ((hd x).mp ((isDeleted_spec hl x).mp hb)).2

/-- The counters only bound `next`. -/
theorem SInv.tight {n k : Nat} {s : Slots} {a : Ledger} (h : SInv n k s a) : SInv s.next 0 s a :=
  ⟨h.tomb, h.freeNd, h.freeLt, h.disj, h.heldNd, h.heldLt, h.vis, by omega, h.size⟩

theorem sound_of {n k : Nat} {t : Idx} {a : Ledger} {recs : Nat → Nat} (h : SInv n k t.slots a) (hm : t.maxSlot = t.slots.next)
    (hl : ∀ x ∈ a.visible, t.labels[x]? = some (recs x)) : Sound t recs := by
  refine ⟨fun x hx => hl x ((live_iff h hm x).mp hx), ?_⟩
  intro j ids hj e
  obtain ⟨q1, q2⟩ := handOut_spec j _ _ _ _ _ (SInv.tight h) (by omega) e
  exact ⟨q1, fun i hi hlv => q2 i hi (h.vis i ((live_iff h hm i).mp hlv))⟩

/-- Loading a directory whose three files are complete: meta and ids of one state, the allocator of possibly another. -/
theorem load_cases {geo : Nat → Nat → Nat × Nat} {d : Dir} {m : Meta} {labels : List Nat} {n k : Nat} {sl : Slots} {a : Ledger}
    (h1 : readMeta d.head = some m) (h2 : readIds d.ids m.maxSlot = some labels) (h3 : loadSlots d m.maxSlot = .ok sl)
    (hs : SInv n k sl a) (hm : m.maxSlot = sl.next) (hl : ∀ x ∈ a.visible, labels[x]? = some (d.recs x)) : Survives geo d := by
  unfold Survives load
  rw [h1]
  simp only
  split
  · exact .inl rfl
  rw [h2]
  simp only
  rw [h3]
  simp only
  cases e : rebuild labels sl.tomb.isDeleted (List.range labels.length) (fun _ => none) with
  | none => exact .inl rfl
  | some map =>
    simp only
    by_cases hc : d.cache = false
    · rw [if_pos hc]; exact .inl rfl
    · rw [if_neg hc]
      refine .inr ⟨_, rfl, sound_of (n := n) (k := k) (a := a) hs ?_ hl⟩
      simp only
      split
      · rw [hm]; exact Nat.max_self _
      · exact hm

theorem refuse_meta {geo : Nat → Nat → Nat × Nat} {d : Dir} (h : readMeta d.head = none) : load geo d = .throws := by
  unfold load; rw [h]

theorem refuse_ids {geo : Nat → Nat → Nat × Nat} {d : Dir} {m : Meta} (h1 : readMeta d.head = some m) (h2 : readIds d.ids m.maxSlot = none) :
    load geo d = .throws := by
  unfold load
  rw [h1]
  simp only
  split
  · rfl
  · rw [h2]

theorem refuse_slots {geo : Nat → Nat → Nat × Nat} {d : Dir} {m : Meta} {labels : List Nat} (h1 : readMeta d.head = some m)
    (h2 : readIds d.ids m.maxSlot = some labels) (h3 : loadSlots d m.maxSlot = .throws) : load geo d = .throws := by
  unfold load
  rw [h1]
  simp only
  split
  · rfl
  · rw [h2]
    simp only
    rw [h3]

/-- Header and ids of two different states with different numbers of slots (a crash between the two files after an insert): refused. -/
theorem C47_count_mismatch_refused {geo : Nat → Nat → Nat × Nat} {d : Dir} {m : Meta} {ls : List Nat} (h1 : readMeta d.head = some m)
    (h2 : d.ids = idsBytes ls) (hn : ls.length < 2 ^ 64) (hne : ls.length ≠ m.maxSlot) : load geo d = .throws := by
  refine refuse_ids h1 ?_
  rw [h2]
  unfold readIds idsBytes
  rw [splitN_append' (leBytes_length 8 ls.length)]
  simp only
  rw [leNat_leBytes_of_lt (by omega), if_pos hne]

/-- An index state with its bookkeeping: the invariant of C45, stored vectors that belong to their labels, and values that fit. -/
structure State (n k : Nat) (hdr : Meta) (s : Idx) (recs : Nat → Nat) (live dark : List (Nat × Nat)) : Prop where
  inv : LInv n k s live dark
  bound : n + k < 4294967296
  nonempty : s.maxSlot ≠ 0
  dim : hdr.dim ≠ 0
  fits : (s.header hdr).Fits
  labels : ∀ l ∈ s.labels, l < 2 ^ 64
  recs : ∀ p ∈ live, recs p.2 = p.1

/-- The directory the crash happens in: left by an earlier flush, or (no `slots.bin`) by the build. -/
structure Before (hdr : Meta) (s : Idx) (recs : Nat → Nat) (d : Dir) : Prop where
  head : d.head = metaBytes (s.header hdr)
  ids : d.ids = idsBytes s.labels
  slots : d.slots = some s.slots.save ∨ (d.slots = none ∧ Slots.mk' s.maxSlot = some s.slots)
  recs : d.recs = recs

theorem State.head {n k : Nat} {hdr : Meta} {s : Idx} {recs : Nat → Nat} {live dark : List (Nat × Nat)}
    (h : State n k hdr s recs live dark) : readMeta (metaBytes (s.header hdr)) = some (s.header hdr) :=
  readMeta_write _ h.fits h.nonempty h.dim

theorem State.len {n k : Nat} {hdr : Meta} {s : Idx} {recs : Nat → Nat} {live dark : List (Nat × Nat)}
    (h : State n k hdr s recs live dark) : s.labels.length = s.maxSlot ∧ s.maxSlot = s.slots.next ∧ s.slots.next < 4294967296 := by
  obtain ⟨a, ha, _⟩ := h.inv.slots
  have h1 := h.inv.len
  have h2 := h.inv.max
  have h3 := ha.next
  have h4 := h.bound
  exact ⟨by omega, h2, by omega⟩

theorem State.ids {n k : Nat} {hdr : Meta} {s : Idx} {recs : Nat → Nat} {live dark : List (Nat × Nat)}
    (h : State n k hdr s recs live dark) : readIds (idsBytes s.labels) s.maxSlot = some s.labels := by
  obtain ⟨h1, h2, h3⟩ := h.len
  rw [← h1]
  exact readIds_write _ h.labels (by omega)

/-- While loading, the allocator file of a state gives a state with the same bookkeeping. -/
theorem State.saved {n k : Nat} {hdr : Meta} {s : Idx} {recs : Nat → Nat} {live dark : List (Nat × Nat)}
    (h : State n k hdr s recs live dark) {d : Dir} (hd : d.slots = some s.slots.save ∨ (d.slots = none ∧ Slots.mk' s.maxSlot = some s.slots)) :
    ∃ sl a, loadSlots d s.maxSlot = .ok sl ∧ SInv n k sl a ∧ sl.next = s.slots.next ∧ ∀ x, x ∈ a.visible ↔ x ∈ live.map (·.2) := by
  obtain ⟨a, ha, _, hv⟩ := h.inv.slots
  rcases hd with hd | ⟨hd, hm⟩
  · obtain ⟨t, e, _⟩ := load_save ha h.bound
    refine ⟨_, a, ?_, ha.reopen h.bound e, rfl, hv⟩
    unfold loadSlots
    rw [hd]
    exact e
  · refine ⟨s.slots, a, ?_, ha, rfl, hv⟩
    unfold loadSlots
    rw [hd]
    simp only
    rw [Nat.mod_eq_of_lt (by have := h.len; omega), hm]

/-- Every crash point, if since the last flush no fresh slot was taken and no slot that was live then got another vector (removals, and
inserts into slots that were free at the last flush). What is missing is refuted below. -/
theorem C47_crash_partial {n k k0 : Nat} {hdr : Meta} {geo : Nat → Nat → Nat × Nat} {s0 s : Idx} {r0 r : Nat → Nat}
    {live0 dark0 live dark : List (Nat × Nat)} {d : Dir} (h0 : State n k0 hdr s0 r0 live0 dark0) (hd : Before hdr s0 r0 d)
    (h : State n k hdr s r live dark) (hnext : s.slots.next = s0.slots.next)
    (hkeep : ∀ p ∈ live0, s.labels[p.2]? = some p.1 ∧ r p.2 = p.1) (pt : Point) : Survives geo (crash hdr s r d pt) := by
  obtain ⟨l1, l2, l3⟩ := h.len
  obtain ⟨l4, l5, l6⟩ := h0.len
  have hmax : s.maxSlot = s0.maxSlot := by omega
  obtain ⟨sl, a, e, hs, hn, hv⟩ := h0.saved hd.slots
  have hold : ∀ x ∈ a.visible, ∃ p ∈ live0, p.2 = x := by
    intro x hx
    obtain ⟨p, hp, rfl⟩ := List.mem_map.mp ((hv x).mp hx)
    exact ⟨p, hp, rfl⟩
  have hlab0 : ∀ p ∈ live0, s0.labels[p.2]? = some p.1 := fun p hp => h0.inv.lab p (List.mem_append_left _ hp)
  have hlab : ∀ p ∈ live, s.labels[p.2]? = some p.1 := fun p hp => h.inv.lab p (List.mem_append_left _ hp)
  cases pt with
  | pages done =>
    refine load_cases (m := s0.header hdr) (labels := s0.labels) (sl := sl) (a := a) ?_ ?_ ?_ hs ?_ ?_
    · show readMeta d.head = _
      rw [hd.head]; exact h0.head
    · show readIds d.ids _ = _
      rw [hd.ids]; exact h0.ids
    · exact e
    · show s0.maxSlot = _
      rw [hn]; exact l5
    · intro x hx
      obtain ⟨p, hp, rfl⟩ := hold x hx
      show _ = some (if p.2 ∈ done then r p.2 else d.recs p.2)
      rw [hlab0 p hp, hd.recs, (hkeep p hp).2, h0.recs p hp]
      split <;> rfl
  | head j =>
    by_cases hj : j < 73
    · exact .inl (refuse_meta (readMeta_prefix _ h.fits j hj))
    · refine load_cases (m := s.header hdr) (labels := s0.labels) (sl := sl) (a := a) ?_ ?_ ?_ hs ?_ ?_
      · show readMeta ((metaBytes (s.header hdr)).take j) = _
        rw [List.take_of_length_le (by rw [metaBytes_length]; omega)]; exact h.head
      · show readIds d.ids s.maxSlot = _
        rw [hd.ids, hmax]; exact h0.ids
      · show loadSlots _ s.maxSlot = _
        rw [hmax]; exact e
      · show s.maxSlot = _
        omega
      · intro x hx
        obtain ⟨p, hp, rfl⟩ := hold x hx
        show _ = some (r p.2)
        rw [hlab0 p hp, (hkeep p hp).2]
  | ids j =>
    by_cases hj : j < (idsBytes s.labels).length
    · exact .inl (refuse_ids (m := s.header hdr) h.head (readIds_prefix _ (by omega) _ _ hj))
    · refine load_cases (m := s.header hdr) (labels := s.labels) (sl := sl) (a := a) h.head ?_ ?_ hs ?_ ?_
      · show readIds ((idsBytes s.labels).take j) s.maxSlot = _
        rw [List.take_of_length_le (by omega)]; exact h.ids
      · show loadSlots _ s.maxSlot = _
        rw [hmax]; exact e
      · show s.maxSlot = _
        omega
      · intro x hx
        obtain ⟨p, hp, rfl⟩ := hold x hx
        show _ = some (r p.2)
        rw [(hkeep p hp).1, (hkeep p hp).2]
  | cache b =>
    refine load_cases (m := s.header hdr) (labels := s.labels) (sl := sl) (a := a) h.head h.ids ?_ hs ?_ ?_
    · show loadSlots _ s.maxSlot = _
      rw [hmax]; exact e
    · show s.maxSlot = _
      omega
    · intro x hx
      obtain ⟨p, hp, rfl⟩ := hold x hx
      show _ = some (r p.2)
      rw [(hkeep p hp).1, (hkeep p hp).2]
  | slots j =>
    obtain ⟨a', ha', _, hv'⟩ := h.inv.slots
    by_cases hj : j < s.slots.save.length
    · exact .inl (refuse_slots (m := s.header hdr) h.head h.ids (slots_prefix ha' h.bound j hj))
    · obtain ⟨sl', a2, e2, hs2, hn2, hv2⟩ := h.saved (d := crash hdr s r d (.slots j)) (.inl (by
        show some (s.slots.save.take j) = _
        rw [List.take_of_length_le (by omega)]))
      refine load_cases (m := s.header hdr) (labels := s.labels) (sl := sl') (a := a2) h.head h.ids e2 hs2 ?_ ?_
      · show s.maxSlot = _
        omega
      · intro x hx
        obtain ⟨p, hp, rfl⟩ := List.mem_map.mp ((hv2 x).mp hx)
        show _ = some (r p.2)
        rw [hlab p hp, h.recs p hp]

theorem removeAll_keep : ∀ (ids : List Nat) (s s' : Idx), removeAll s ids = some s' →
    s'.labels = s.labels ∧ s'.slots.next = s.slots.next ∧ s'.maxSlot = s.maxSlot
  | [], s, s', h => by
    injection h with h
    subst h
    exact ⟨rfl, rfl, rfl⟩
  | id :: ids, s, s', h => by
    unfold removeAll at h
    cases e : removeStep s id with
    | none => rw [e] at h; cases h
    | some s1 =>
      rw [e] at h
      obtain ⟨h1, h2, h3⟩ := removeAll_keep ids s1 s' h
      unfold removeStep at e
      cases e1 : s.labels[id]? with
      | none => rw [e1] at e; cases e
      | some l =>
        rw [e1] at e
        simp only at e
        cases e2 : s.slots.release id with
        | none => rw [e2] at e; cases e
        | some sl =>
          rw [e2] at e
          injection e with e
          subst e
          unfold Slots.release at e2
          rw [Option.map_eq_some_iff] at e2
          obtain ⟨t, _, rfl⟩ := e2
          exact ⟨h1, h2, h3⟩

/-- After any removals since the last flush: every crash point. -/
theorem C47_removals_partial {n k : Nat} {hdr : Meta} {geo : Nat → Nat → Nat × Nat} {s0 s : Idx} {r : Nat → Nat}
    {live dark : List (Nat × Nat)} {d : Dir} (h0 : State n k hdr s0 r live dark) (hd : Before hdr s0 r d) (ids : List Nat)
    (hnd : ids.Nodup) (hin : ∀ id ∈ ids, id ∈ live.map (·.2)) (e : removeAll s0 ids = some s) (pt : Point) :
    Survives geo (crash hdr s r d pt) := by
  obtain ⟨s', e', hl⟩ := removeAll_spec h0.bound ids h0.inv hnd hin
  rw [e] at e'
  injection e' with e'
  subst e'
  obtain ⟨k1, k2, k3⟩ := removeAll_keep ids s0 s e
  have hle : s.live ≤ s0.live := by
    rw [hl.cnt, h0.inv.cnt]
    have := List.length_filter_le (fun p : Nat × Nat => decide (p.2 ∉ ids)) live
    omega
  have hf := h0.fits
  refine C47_crash_partial h0 hd ⟨hl, h0.bound, by rw [k3]; exact h0.nonempty, h0.dim, ?_, by rw [k1]; exact h0.labels, ?_⟩ k2 ?_ pt
  · have hm : s.header hdr = { s0.header hdr with live := s.live.toNat } := by
      unfold Idx.header
      rw [k3]
    rw [hm]
    refine ⟨hf.points, hf.dim, hf.degree, hf.medoid, hf.hasPq, hf.pqChunks, hf.nodeLen, hf.nps, hf.maxSlot, ?_⟩
    have hlv := hf.live
    change s0.live.toNat < 2 ^ 64 at hlv
    show s.live.toNat < 2 ^ 64
    omega
  · intro p hp
    exact h0.recs p (List.mem_filter.mp hp).1
  · intro p hp
    rw [k1]
    exact ⟨h0.inv.lab p (List.mem_append_left _ hp), h0.recs p hp⟩

/-- A flush that is not interrupted gives back the state: free list, counters, tombstones, labels, lookup; and it is sound. -/
theorem C47_complete_partial {n k : Nat} {hdr : Meta} {geo : Nat → Nat → Nat × Nat} {s : Idx} {r : Nat → Nat} {live dark : List (Nat × Nat)}
    (h : State n k hdr s r live dark) (hg : geo hdr.dim hdr.degree = (hdr.nodeLen, hdr.nps)) :
    ∃ t, load geo (flushed hdr s r) = .ok t ∧ t.slots.free = s.slots.free ∧ t.slots.next = s.slots.next ∧
      (∀ x, t.slots.tomb.isDeleted x = s.slots.tomb.isDeleted x) ∧ t.labels = s.labels ∧ (∀ l, t.map l = s.map l) ∧
      t.maxSlot = s.maxSlot ∧ t.live = s.live ∧ Sound t r := by
  obtain ⟨l1, l2, l3⟩ := h.len
  obtain ⟨a, ha, hheld, hv⟩ := h.inv.slots
  obtain ⟨tb, e, htb⟩ := load_save ha h.bound
  obtain ⟨l, hl, hdead⟩ := ha.tomb
  have hdel : ∀ x, tb.isDeleted x = s.slots.tomb.isDeleted x := by
    intro x
    rw [Bool.eq_iff_iff, isDeleted_spec (htb l hl), isDeleted_spec hl]
  have hM : ∀ l x, s.map l = some x ↔ (tb.isDeleted x = false ∧ s.labels[x]? = some l) := by
    intro lab x
    rw [h.inv.map, hdel]
    constructor
    · intro hp
      refine ⟨?_, h.inv.lab _ (List.mem_append_left _ hp)⟩
      cases hb : s.slots.tomb.isDeleted x with
      | false => rfl
      | true =>
        exact absurd ((hv x).mpr (List.mem_map.mpr ⟨_, hp, rfl⟩)) ((hdead x).mp ((isDeleted_spec hl x).mp hb)).2
    · rintro ⟨q1, q2⟩
      have hlt := (List.getElem?_eq_some_iff.mp q2).1
      have hvis : x ∈ a.visible := by
        by_cases hx : x ∈ a.visible
        · exact hx
        · have := (isDeleted_spec hl x).mpr ((hdead x).mpr ⟨by omega, hx⟩)
          rw [q1] at this
          cases this
      obtain ⟨p, hp, rfl⟩ := List.mem_map.mp ((hv x).mp hvis)
      have := h.inv.lab p (List.mem_append_left _ hp)
      rw [q2] at this
      injection this with this
      rw [this]
      exact hp
  obtain ⟨m', em, hm'⟩ := rebuild_spec s.labels tb.isDeleted s.map hM (fun lab x q => h.inv.res (lab, x) ((h.inv.map lab x).mp q))
    (List.range s.labels.length) (fun _ => none) [] (by simpa using List.nodup_range) (by intro x hx; exact List.mem_range.mp hx)
    (by intro lab x; simp)
  have hmap : ∀ lab, m' lab = s.map lab := by
    intro lab
    cases q : s.map lab with
    | none =>
      cases q' : m' lab with
      | none => rfl
      | some y => rw [((hm' lab y).mp q').1] at q; cases q
    | some y =>
      refine (hm' lab y).mpr ⟨q, ?_⟩
      have := ((hM lab y).mp q).2
      rw [List.nil_append, List.mem_range]
      exact (List.getElem?_eq_some_iff.mp this).1
  have hlive : ((s.live.toNat : Nat) : Int) = s.live := by
    have := h.inv.cnt
    omega
  have hload : load geo (flushed hdr s r) = .ok ⟨⟨s.slots.free, s.slots.next, tb⟩, s.labels, m', max s.maxSlot s.slots.next, (s.live.toNat : Nat)⟩ := by
    unfold load
    rw [show (flushed hdr s r).head = metaBytes (s.header hdr) from rfl, h.head]
    simp only
    rw [if_neg (fun q => q hg), show (flushed hdr s r).ids = idsBytes s.labels from rfl, show (s.header hdr).maxSlot = s.maxSlot from rfl, h.ids]
    simp only
    rw [show loadSlots (flushed hdr s r) s.maxSlot = Slots.load s.slots.save from rfl, e]
    simp only
    rw [em]
    rfl
  refine ⟨_, hload, rfl, rfl, hdel, rfl, hmap, ?_, hlive, ?_⟩
  · show max s.maxSlot s.slots.next = _
    rw [← l2]; exact Nat.max_self _
  · refine sound_of (a := a) (ha.reopen h.bound e) ?_ ?_
    · show max s.maxSlot s.slots.next = _
      rw [← l2]; exact Nat.max_self _
    · intro x hx
      obtain ⟨p, hp, rfl⟩ := List.mem_map.mp ((hv x).mp hx)
      rw [h.recs p hp]
      exact h.inv.lab p (List.mem_append_left _ hp)

/-- Dimension 2, degree 4, no PQ. -/
def exHdr : Meta := ⟨0, 2, 4, 0, 0, 0, 28, 146, 0, 0⟩
def exGeo : Nat → Nat → Nat × Nat := fun _ _ => (28, 146)

def outcome {α : Type} (p : α → Bool) : Out α → Bool
  | .ok a => p a
  | _ => false

theorem outcome_ok {α : Type} {p : α → Bool} {o : Out α} (h : outcome p o = true) : ∃ a, o = .ok a ∧ p a = true := by
  cases o with
  | ok a => exact ⟨a, rfl, h⟩
  | ub => cases h
  | throws => cases h

/-- One vector is built (label 7) and flushed, then label 8 is inserted and the flush crashes before `slots.bin` is written: slot 1 is live
(label 8), and the next insert gets slot 1. -/
theorem C47_live_slot_handed_out_refuted : ∃ s0, fresh [7] = some s0 ∧
    ¬ Survives exGeo (crash exHdr (run s0 [.insert 8 .none]) (fun x => x + 7) (flushed exHdr s0 (fun _ => 7)) (.cache true)) := by
  obtain ⟨t0, e0, _⟩ := SInv.init (n := 1) (by omega)
  have ef : fresh [7] = some ⟨t0, [7], fun l => if l ∈ [7] then some ([7].idxOf l) else none, 1, 1⟩ := by
    unfold fresh
    rw [show [7].length = 1 from rfl, e0]
    rfl
  have hb : (fresh [7]).any (fun s0 => outcome (fun t => decide (handOut 1 t.slots = some [1]) && decide (t.slots.next = 1) &&
      (decide (1 < t.maxSlot) && !t.slots.tomb.isDeleted 1))
      (load exGeo (crash exHdr (run s0 [.insert 8 .none]) (fun x => x + 7) (flushed exHdr s0 (fun _ => 7)) (.cache true)))) = true := by
    decide +kernel
  rw [ef, Option.any_some] at hb
  refine ⟨_, ef, ?_⟩
  obtain ⟨t, et, ht⟩ := outcome_ok hb
  simp only [Bool.and_eq_true, decide_eq_true_eq, Bool.not_eq_true'] at ht
  rintro (q | ⟨t', q, hs⟩)
  · rw [et] at q; cases q
  · rw [et] at q
    injection q with q
    subst q
    exact (hs.fresh 1 [1] (by rw [ht.1.2]; decide) ht.1.1).2 1 (by simp) ht.2

/-- Label 7 is removed and label 8 inserted into the same slot; a crash after the pages were written and before `meta.bin` (or a crash at
any time after the page was evicted from the cache): label 7 is live again and has the vector of label 8. -/
theorem C47_wrong_vector_refuted : ∃ s0, fresh [7] = some s0 ∧
    ¬ Survives exGeo (crash exHdr (run s0 [.removeByLabel 7 true, .insert 8 .none]) (fun _ => 8) (flushed exHdr s0 (fun _ => 7)) (.pages [0])) := by
  obtain ⟨t0, e0, _⟩ := SInv.init (n := 1) (by omega)
  have ef : fresh [7] = some ⟨t0, [7], fun l => if l ∈ [7] then some ([7].idxOf l) else none, 1, 1⟩ := by
    unfold fresh
    rw [show [7].length = 1 from rfl, e0]
    rfl
  have hb : (fresh [7]).any (fun s0 => outcome (fun t => decide (t.labels = [7]) && (decide (0 < t.maxSlot) && !t.slots.tomb.isDeleted 0))
      (load exGeo (crash exHdr (run s0 [.removeByLabel 7 true, .insert 8 .none]) (fun _ => 8) (flushed exHdr s0 (fun _ => 7)) (.pages [0])))) =
      true := by
    decide +kernel
  rw [ef, Option.any_some] at hb
  refine ⟨_, ef, ?_⟩
  obtain ⟨t, et, ht⟩ := outcome_ok hb
  simp only [Bool.and_eq_true, decide_eq_true_eq, Bool.not_eq_true'] at ht
  rintro (q | ⟨t', q, hs⟩)
  · rw [et] at q; cases q
  · rw [et] at q
    injection q with q
    subst q
    have := hs.labelled 0 ht.2
    rw [ht.1] at this
    change some 7 = some 8 at this
    injection this with this
    omega

/-- The first state of the witnesses meets the hypotheses of `C47_complete_partial`, of `C47_removals_partial` (with `ids = [0]`) and of
`C47_crash_partial`. -/
example : ∃ s0, fresh [7] = some s0 ∧ State 1 0 exHdr s0 (fun _ => 7) [(7, 0)] [] ∧ Before exHdr s0 (fun _ => 7) (flushed exHdr s0 (fun _ => 7)) ∧
    exGeo exHdr.dim exHdr.degree = (exHdr.nodeLen, exHdr.nps) := by
  obtain ⟨t0, e0, h0⟩ := SInv.init (n := 1) (by omega)
  have ef : fresh [7] = some ⟨t0, [7], fun l => if l ∈ [7] then some ([7].idxOf l) else none, 1, 1⟩ := by
    unfold fresh
    rw [show [7].length = 1 from rfl, e0]
    rfl
  have hn : t0.next = 1 := by
    unfold Slots.mk' at e0
    rw [Option.map_eq_some_iff] at e0
    obtain ⟨_, _, rfl⟩ := e0
    rfl
  refine ⟨_, ef, ⟨⟨⟨_, h0, ?_, ?_⟩, ?_, ?_, ?_, ?_, ?_, ?_, ?_⟩, by decide, (fun q => Nat.one_ne_zero q), by decide, ?_, ?_, ?_⟩, ⟨rfl, rfl, .inl rfl, rfl⟩, rfl⟩
  · intro x; simp
  · intro x; simp
  · exact hn.symm
  · exact hn.symm
  · intro p hp
    simp at hp
    subst hp
    rfl
  · intro l x
    simp only [List.mem_singleton, Prod.mk.injEq]
    by_cases hl : l = 7
    · subst hl
      simp [eq_comm]
    · simp [hl]
  · simp
  · rfl
  · intro p hp
    simp at hp
    subst hp
    decide
  · have e : Idx.header exHdr ⟨t0, [7], fun l => if l ∈ [7] then some ([7].idxOf l) else none, 1, 1⟩ = ⟨1, 2, 4, 0, 0, 0, 28, 146, 1, 1⟩ := rfl
    rw [e]
    constructor <;> decide
  · intro l hl
    simp at hl
    subst hl
    decide
  · intro p hp
    simp at hp
    subst hp
    rfl

/-- The hypotheses of `C47_count_mismatch_refused`: header after a second insert, ids of one slot. -/
example : ∃ d : Dir, readMeta d.head = some ⟨2, 2, 4, 0, 0, 0, 28, 146, 2, 2⟩ ∧ d.ids = idsBytes [7] :=
  ⟨⟨metaBytes ⟨2, 2, 4, 0, 0, 0, 28, 146, 2, 2⟩, idsBytes [7], none, true, fun _ => 0⟩,
    by decide +kernel, rfl⟩

end Alaya.DiskAnn
