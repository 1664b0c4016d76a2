import Verif.Props.C42

/-! C41: slots of a disk index are handed out once. -/
namespace Alaya.DiskSlots
open Alaya Alaya.Wal

/-- What the user of the allocator knows: the slots it holds and those it has published. -/
structure Ledger where
  held : List Nat
  visible : List Nat

/-- The states reachable from an index of `n` nodes with `k` calls of `alloc`: `publish` and `free` are called for held slots
only, and the allocator may be saved and loaded at any time. -/
inductive Reach (n : Nat) : Nat → Slots → Ledger → Prop
  | init {s : Slots} : Slots.mk' n = some s → Reach n 0 s ⟨List.range n, List.range n⟩
  | alloc {k : Nat} {s s' : Slots} {a : Ledger} {id : Nat} : Reach n k s a → s.alloc = some (id, s') →
      Reach n (k + 1) s' ⟨id :: a.held, a.visible⟩
  | publish {k : Nat} {s : Slots} {a : Ledger} {id : Nat} : Reach n k s a → id ∈ a.held →
      Reach n k (s.publish id) ⟨a.held, id :: a.visible⟩
  | free {k : Nat} {s s' : Slots} {a : Ledger} {id : Nat} : Reach n k s a → id ∈ a.held → s.release id = some s' →
      Reach n k s' ⟨a.held.filter (· ≠ id), a.visible.filter (· ≠ id)⟩
  | reopen {k : Nat} {s s' : Slots} {a : Ledger} : Reach n k s a → Slots.load s.save = .ok s' → Reach n k s' a

/-- The invariant. -/
structure SInv (n k : Nat) (s : Slots) (a : Ledger) : Prop where
  tomb : ∃ l, TombInv s.tomb l ∧ ∀ id, id ∈ l ↔ id < s.next ∧ id ∉ a.visible
  freeNd : s.free.Nodup
  freeLt : ∀ f ∈ s.free, f < s.next
  disj : ∀ f ∈ s.free, f ∉ a.held
  heldNd : a.held.Nodup
  heldLt : ∀ h ∈ a.held, h < s.next
  vis : ∀ v ∈ a.visible, v ∈ a.held
  next : s.next ≤ n + k
  size : s.free.length + a.held.length = s.next

theorem Tomb.set_mem {t : Tomb} {l : List Nat} (h : TombInv t l) {id : Nat} (hid : id < 4294967296) :
    ∃ t' l', t.set id = some t' ∧ TombInv t' l' ∧ ∀ x, x ∈ l' ↔ x = id ∨ x ∈ l := by
  obtain ⟨t', e, h'⟩ := set_spec h hid
  refine ⟨t', _, e, h', ?_⟩
  intro x
  split
  · rename_i hi
    constructor
    · exact Or.inr
    · rintro (rfl | h)
      · exact hi
      · exact h
  · exact List.mem_cons

theorem SInv.init {n : Nat} (hn : n < 4294967296) : ∃ s, Slots.mk' n = some s ∧ SInv n 0 s ⟨List.range n, List.range n⟩ := by
  obtain ⟨t, e, h, -⟩ := reset_spec (n := n) (by omega)
  refine ⟨⟨[], n, t⟩, by unfold Slots.mk'; rw [e]; rfl, ⟨[], h, ?_⟩, List.nodup_nil, by simp, by simp, List.nodup_range, ?_, fun _ h => h,
    Nat.le_refl _, by simp⟩
  · intro id
    simp only [List.mem_range]
    constructor
    · intro h; cases h
    · rintro ⟨h1, h2⟩; exact absurd h1 h2
  · intro h hh; exact List.mem_range.1 hh

theorem SInv.alloc {n k : Nat} {s : Slots} {a : Ledger} (h : SInv n k s a) (hk : n + k + 1 < 4294967296) :
    ∃ id s', s.alloc = some (id, s') ∧ id ∉ a.held ∧ SInv n (k + 1) s' ⟨id :: a.held, a.visible⟩ := by
  obtain ⟨l, hl, hm⟩ := h.tomb
  have hnx := h.next
  cases hf : s.free with
  | cons f rest =>
    have hfin : f ∈ s.free := by rw [hf]; simp
    obtain ⟨t', l', e, h', hm'⟩ := Tomb.set_mem hl (id := f) (by have := h.freeLt f hfin; omega)
    have hnd := h.freeNd
    rw [hf, List.nodup_cons] at hnd
    have hfh := h.disj f hfin
    refine ⟨f, { s with free := rest, tomb := t' }, by unfold Slots.alloc; rw [hf]; simp only [e]; rfl, hfh,
      ⟨l', h', ?_⟩, hnd.2, ?_, ?_, ?_, ?_, ?_, by simp only; omega, ?_⟩
    · intro x
      simp only
      rw [hm', hm]
      constructor
      · rintro (rfl | h1)
        · exact ⟨h.freeLt _ hfin, fun hv => hfh (h.vis _ hv)⟩
        · exact h1
      · exact Or.inr
    · intro x hx
      exact h.freeLt x (by rw [hf]; simp [show x ∈ rest from hx])
    · intro x hx hmem
      have hx : x ∈ rest := hx
      rcases List.mem_cons.1 hmem with rfl | hmem
      · exact hnd.1 hx
      · exact h.disj x (by rw [hf]; simp [hx]) hmem
    · exact List.nodup_cons.2 ⟨hfh, h.heldNd⟩
    · intro x hx
      rcases List.mem_cons.1 hx with rfl | hx
      · exact h.freeLt _ hfin
      · exact h.heldLt x hx
    · intro v hv
      exact List.mem_cons.2 (Or.inr (h.vis v hv))
    · have := h.size
      rw [hf] at this
      simp only [List.length_cons] at this ⊢
      omega
  | nil =>
    obtain ⟨t', l', e, h', hm'⟩ := Tomb.set_mem hl (id := s.next) (by omega)
    have hnh : s.next ∉ a.held := fun hh => Nat.lt_irrefl _ (h.heldLt _ hh)
    have hw : (s.next + 1) % 4294967296 = s.next + 1 := Nat.mod_eq_of_lt (by omega)
    refine ⟨s.next, { s with next := s.next + 1, tomb := t' }, by unfold Slots.alloc; rw [hf]; simp only [e, hw]; rfl, hnh,
      ⟨l', h', ?_⟩, h.freeNd, ?_, ?_, ?_, ?_, ?_, by simp only; omega, ?_⟩
    · intro x
      simp only
      rw [hm', hm]
      constructor
      · rintro (rfl | ⟨h1, h2⟩)
        · exact ⟨by omega, fun hv => hnh (h.vis _ hv)⟩
        · exact ⟨by omega, h2⟩
      · rintro ⟨h1, h2⟩
        by_cases hx : x = s.next
        · exact Or.inl hx
        · exact Or.inr ⟨by omega, h2⟩
    · intro x hx
      have : x ∈ s.free := hx
      rw [hf] at this; cases this
    · intro x hx
      have : x ∈ s.free := hx
      rw [hf] at this; cases this
    · exact List.nodup_cons.2 ⟨hnh, h.heldNd⟩
    · intro x hx
      simp only
      rcases List.mem_cons.1 hx with rfl | hx
      · omega
      · have := h.heldLt x hx; omega
    · intro v hv
      exact List.mem_cons.2 (Or.inr (h.vis v hv))
    · have := h.size
      simp only [List.length_cons] at this ⊢
      omega

theorem SInv.publish {n k : Nat} {s : Slots} {a : Ledger} {id : Nat} (h : SInv n k s a) (hid : id ∈ a.held) :
    SInv n k (s.publish id) ⟨a.held, id :: a.visible⟩ := by
  obtain ⟨l, hl, hm⟩ := h.tomb
  refine ⟨⟨l.erase id, clear_spec hl id, ?_⟩, h.freeNd, h.freeLt, h.disj, h.heldNd, h.heldLt, ?_, h.next, h.size⟩
  · intro x
    rw [hl.nodup.mem_erase_iff, hm]
    simp only [Slots.publish, List.mem_cons, not_or]
    constructor
    · rintro ⟨h1, h2, h3⟩; exact ⟨h2, h1, h3⟩
    · rintro ⟨h2, h1, h3⟩; exact ⟨h1, h2, h3⟩
  · intro v hv
    rcases List.mem_cons.1 hv with rfl | hv
    · exact hid
    · exact h.vis v hv

theorem length_filter_ne {l : List Nat} (h : l.Nodup) {x : Nat} (hx : x ∈ l) : (l.filter (· ≠ x)).length + 1 = l.length := by
  have e : l.filter (· ≠ x) = l.erase x := by
    rw [h.erase_eq_filter]
    apply List.filter_congr
    intro y _
    rw [Bool.eq_iff_iff]; simp
  rw [e, List.length_erase_of_mem hx]
  have := List.length_pos_of_mem hx
  omega

theorem SInv.free {n k : Nat} {s : Slots} {a : Ledger} {id : Nat} (h : SInv n k s a) (hk : n + k < 4294967296) (hid : id ∈ a.held) :
    ∃ s', s.release id = some s' ∧ SInv n k s' ⟨a.held.filter (· ≠ id), a.visible.filter (· ≠ id)⟩ := by
  obtain ⟨l, hl, hm⟩ := h.tomb
  have hnx := h.next
  have hlt := h.heldLt id hid
  obtain ⟨t', l', e, h', hm'⟩ := Tomb.set_mem hl (id := id) (by omega)
  refine ⟨{ s with free := id :: s.free, tomb := t' }, by unfold Slots.release; rw [e]; rfl, ⟨l', h', ?_⟩, ?_, ?_, ?_,
    h.heldNd.filter _, ?_, ?_, h.next, ?_⟩
  · intro x
    rw [hm', hm]
    simp only [List.mem_filter, decide_eq_true_eq, not_and, Decidable.not_not]
    constructor
    · rintro (rfl | ⟨h1, h2⟩)
      · exact ⟨hlt, fun _ => rfl⟩
      · exact ⟨h1, fun hv => absurd hv h2⟩
    · rintro ⟨h1, h2⟩
      by_cases hx : x = id
      · exact Or.inl hx
      · exact Or.inr ⟨h1, fun hv => hx (h2 hv)⟩
  · exact List.nodup_cons.2 ⟨fun hf => h.disj id hf hid, h.freeNd⟩
  · intro x hx
    rcases List.mem_cons.1 hx with rfl | hx
    · exact hlt
    · exact h.freeLt x hx
  · intro x hx hmem
    simp only [List.mem_filter, decide_eq_true_eq] at hmem
    rcases List.mem_cons.1 hx with rfl | hx
    · exact hmem.2 rfl
    · exact h.disj x hx hmem.1
  · intro x hx
    exact h.heldLt x (List.mem_filter.1 hx).1
  · intro v hv
    simp only [List.mem_filter, decide_eq_true_eq] at hv ⊢
    exact ⟨h.vis v hv.1, hv.2⟩
  · have h1 := h.size
    have h2 := length_filter_ne h.heldNd hid
    simp only [List.length_cons] at h1 h2 ⊢
    omega

theorem readU32s_flatMap : ∀ (l : List Nat) (rest : Bytes), (∀ x ∈ l, x < 4294967296) →
    readU32s l.length (l.flatMap (leBytes 4) ++ rest) = l
  | [], _, _ => rfl
  | x :: l, rest, h => by
    simp only [List.length_cons, List.flatMap_cons, List.append_assoc, readU32s]
    rw [List.take_append_of_le_length (by simp), List.drop_append_of_le_length (by simp)]
    rw [List.take_of_length_le (by simp), List.drop_of_length_le (by simp), List.nil_append,
      readU32s_flatMap l rest (fun y hy => h y (by simp [hy]))]
    rw [leNat_leBytes_of_lt (by have := h x (by simp); omega)]

theorem flatMap_length4 (l : List Nat) : (l.flatMap (leBytes 4)).length = l.length * 4 := by
  induction l with
  | nil => rfl
  | cons i is ih => rw [List.flatMap_cons, List.length_append, ih, List.length_cons, leBytes_length]; omega

theorem load_save {n k : Nat} {s : Slots} {a : Ledger} (h : SInv n k s a) (hk : n + k < 4294967296) :
    ∃ t, Slots.load s.save = .ok ⟨s.free, s.next, t⟩ ∧ (∀ l, TombInv s.tomb l → TombInv t l) := by
  obtain ⟨l, hl, hm⟩ := h.tomb
  have hnx := h.next
  have hlen : s.free.length ≤ s.next := by
    have := h.size; omega
  obtain ⟨u, e, hu, -⟩ := deserialize_serialize hl []
  rw [List.append_nil] at e
  refine ⟨u, ?_, ?_⟩
  · unfold Slots.load Slots.save
    generalize hrest : s.free.reverse.flatMap (leBytes 4) ++ s.tomb.serialize = R
    have hshape : leBytes 8 slotMagic ++ leBytes 8 s.next ++ leBytes 8 s.free.length ++ s.free.reverse.flatMap (leBytes 4) ++ s.tomb.serialize =
        leBytes 8 slotMagic ++ (leBytes 8 s.next ++ (leBytes 8 s.free.length ++ R)) := by
      rw [← hrest]; simp only [List.append_assoc]
    rw [hshape]
    have d8 : ∀ (w : Nat) (b : Bytes), (leBytes 8 w ++ b).drop 8 = b := by
      intro w b; rw [List.drop_append_of_le_length (by simp), List.drop_of_length_le (by simp), List.nil_append]
    have t8 : ∀ (w : Nat) (b : Bytes), (leBytes 8 w ++ b).take 8 = leBytes 8 w := by
      intro w b; rw [List.take_append_of_le_length (by simp), List.take_of_length_le (by simp)]
    have d16 : ∀ (x y : Nat) (b : Bytes), (leBytes 8 x ++ (leBytes 8 y ++ b)).drop 16 = b := by
      intro x y b; rw [show (16 : Nat) = 8 + 8 from rfl, ← List.drop_drop, d8, d8]
    have d24 : ∀ (x y z : Nat) (b : Bytes), (leBytes 8 x ++ (leBytes 8 y ++ (leBytes 8 z ++ b))).drop 24 = b := by
      intro x y z b; rw [show (24 : Nat) = 16 + 8 from rfl, ← List.drop_drop, d16, d8]
    have hRl : s.free.length * 4 ≤ R.length := by
      rw [← hrest, List.length_append, flatMap_length4, List.length_reverse]; omega
    have hRd : R.drop (s.free.length * 4) = s.tomb.serialize := by
      rw [← hrest, List.drop_append_of_le_length (by rw [flatMap_length4, List.length_reverse]; omega),
        List.drop_of_length_le (by rw [flatMap_length4, List.length_reverse]; omega), List.nil_append]
    have hRr : readU32s s.free.length R = s.free.reverse := by
      rw [← hrest]
      have := readU32s_flatMap s.free.reverse s.tomb.serialize (by
        intro x hx
        have := h.freeLt x (List.mem_reverse.1 hx)
        omega)
      rw [List.length_reverse] at this
      exact this
    rw [if_neg (by simp only [List.length_append, leBytes_length]; omega), t8, leNat_leBytes_of_lt (by decide), if_neg (by simp), d8, t8,
      leNat_leBytes_of_lt (by omega), d16, t8, leNat_leBytes_of_lt (by omega), d24]
    simp only
    rw [if_neg (by omega), if_neg (by omega), hRd, e]
    simp only
    rw [hRr, List.reverse_reverse]
  · intro l' hl'
    refine { hu with nodup := hl'.nodup, bits := ?_, count := ?_ }
    · intro id
      rw [hu.bits, ← hl.bits, hl'.bits]
    · rw [hu.count, ← hl.count, hl'.count]

theorem SInv.reopen {n k : Nat} {s s' : Slots} {a : Ledger} (h : SInv n k s a) (hk : n + k < 4294967296) (e : Slots.load s.save = .ok s') :
    SInv n k s' a := by
  obtain ⟨t, e', ht⟩ := load_save h hk
  rw [e] at e'
  injection e' with e'
  subst e'
  obtain ⟨l, hl, hm⟩ := h.tomb
  exact ⟨⟨l, ht l hl, hm⟩, h.freeNd, h.freeLt, h.disj, h.heldNd, h.heldLt, h.vis, h.next, h.size⟩

theorem Reach.inv {n k : Nat} {s : Slots} {a : Ledger} (h : Reach n k s a) : n + k < 4294967296 → SInv n k s a := by
  induction h with
  | init e =>
    intro hn
    obtain ⟨s', e', h⟩ := SInv.init (n := n) (by omega)
    rw [e] at e'
    injection e' with e'
    exact e' ▸ h
  | alloc _ e ih =>
    intro hk
    obtain ⟨id, s', e', _, h⟩ := (ih (by omega)).alloc (by omega)
    rw [e] at e'
    injection e' with e'
    injection e' with e1 e2
    exact e1 ▸ e2 ▸ h
  | publish _ hid ih => exact fun hk => (ih hk).publish hid
  | free _ hid e ih =>
    intro hk
    obtain ⟨s', e', h⟩ := (ih hk).free hk hid
    rw [e] at e'
    injection e' with e'
    exact e' ▸ h
  | reopen _ e ih => exact fun hk => (ih hk).reopen hk e

/-- The full statement of C41 for histories that start with `n` nodes: `alloc` returns a slot that is not held. -/
def AllocFresh (n : Nat) : Prop :=
  ∀ k s a, Reach n k s a → ∃ id s', s.alloc = some (id, s') ∧ id ∉ a.held

/-- While fewer than 2^32 slots were handed out, `alloc` returns a slot that is not held.
Missing for the full statement: the counter of fresh slots has 32 bits and wraps (`C41_wrap_refuted`). -/
theorem C41_alloc_fresh_partial {n k : Nat} {s : Slots} {a : Ledger} (h : Reach n k s a) (hk : n + k + 1 < 2 ^ 32) :
    ∃ id s', s.alloc = some (id, s') ∧ id ∉ a.held := by
  obtain ⟨id, s', e, hn, _⟩ := (h.inv (by omega)).alloc (by omega)
  exact ⟨id, s', e, hn⟩

/-- A slot that was ever handed out is search-visible exactly between `publish` and `free`; every visible slot is held; and
no slot is lost: the slots ever handed out are the free ones and the held ones. -/
theorem C41_visible_partial {n k : Nat} {s : Slots} {a : Ledger} (h : Reach n k s a) (hk : n + k < 2 ^ 32) :
    (∀ id, id < s.next → (s.tomb.isDeleted id = false ↔ id ∈ a.visible)) ∧ (∀ id ∈ a.visible, id ∈ a.held) ∧
      (∀ id ∈ a.held, id < s.next) ∧ a.held.Nodup ∧ s.free.length + a.held.length = s.next := by
  have hi := h.inv hk
  obtain ⟨l, hl, hm⟩ := hi.tomb
  refine ⟨?_, hi.vis, hi.heldLt, hi.heldNd, hi.size⟩
  intro id hid
  have h1 := isDeleted_spec hl id
  rw [hm] at h1
  by_cases hv : id ∈ a.visible
  · simp only [hv, iff_true]
    cases hd : s.tomb.isDeleted id
    · rfl
    · exact absurd hv (h1.1 hd).2
  · simp only [hv, iff_false]
    intro hd
    rw [hd] at h1
    have := h1.2 ⟨hid, hv⟩
    cases this

/-- Publishing and freeing a held slot never fails. -/
theorem C41_free_total_partial {n k : Nat} {s : Slots} {a : Ledger} (h : Reach n k s a) (hk : n + k < 2 ^ 32) {id : Nat}
    (hid : id ∈ a.held) : ∃ s', s.release id = some s' := by
  obtain ⟨s', e, _⟩ := (h.inv hk).free hk hid
  exact ⟨s', e⟩

/-- Saving and loading gives back the free list in its order, the counter, and the answers and the count of the bitmap. -/
theorem C41_save_load_partial {n k : Nat} {s : Slots} {a : Ledger} (h : Reach n k s a) (hk : n + k < 2 ^ 32) :
    ∃ s', Slots.load s.save = .ok s' ∧ s'.free = s.free ∧ s'.next = s.next ∧ s'.tomb.count = s.tomb.count ∧
      ∀ id, s'.tomb.isDeleted id = s.tomb.isDeleted id := by
  have hi := h.inv hk
  obtain ⟨t, e, ht⟩ := load_save hi hk
  obtain ⟨l, hl, -⟩ := hi.tomb
  refine ⟨_, e, rfl, rfl, (ht l hl).count.trans hl.count.symm, ?_⟩
  intro id
  rw [Bool.eq_iff_iff, isDeleted_spec (ht l hl), isDeleted_spec hl]

/-- The counter wraps: with 2^32 - 1 slots in use the second `alloc` hands out slot 0, which is held and visible. -/
theorem C41_wrap_refuted : ¬ AllocFresh (2 ^ 32 - 1) := by
  intro hall
  obtain ⟨t, e, h, -⟩ := reset_spec (n := 2 ^ 32 - 1) (by omega)
  obtain ⟨t1, l1, e1, h1, -⟩ := Tomb.set_mem h (id := 2 ^ 32 - 1) (by omega)
  have hm : Slots.mk' (2 ^ 32 - 1) = some ⟨[], 2 ^ 32 - 1, t⟩ := by unfold Slots.mk'; rw [e]; rfl
  have ha : Slots.alloc ⟨[], 2 ^ 32 - 1, t⟩ = some (2 ^ 32 - 1, ⟨[], 0, t1⟩) := by
    unfold Slots.alloc
    simp only [e1]
    rfl
  obtain ⟨t2, l2, e2, -, -⟩ := Tomb.set_mem h1 (id := 0) (by omega)
  have hr := Reach.alloc (Reach.init hm) ha
  obtain ⟨id, s', e', hn⟩ := hall _ _ _ hr
  have hb : Slots.alloc ⟨[], 0, t1⟩ = some (0, ⟨[], 1, t2⟩) := by
    unfold Slots.alloc
    simp only [e2]
    rfl
  rw [hb] at e'
  injection e' with e'
  injection e' with e' _
  subst e'
  simp only [List.mem_cons, List.mem_range] at hn
  omega

/-- The hypotheses are met by a history that allocates, publishes, frees and reuses: the freed slot 0 comes back. -/
example : ∃ s a, Reach 2 2 s a ∧ a.held = [0, 2, 1] ∧ a.visible = [2, 1] := by
  obtain ⟨s0, e0, h0⟩ := SInv.init (n := 2) (by omega)
  have r0 := Reach.init e0
  obtain ⟨id1, s1, e1, n1, h1⟩ := h0.alloc (by omega)
  have r1 := Reach.alloc r0 e1
  have hs0 : s0.free = [] ∧ s0.next = 2 := by
    unfold Slots.mk' at e0
    cases hr : Tomb.reset 2 with
    | none => rw [hr] at e0; cases e0
    | some t => rw [hr] at e0; injection e0 with e0; subst e0; exact ⟨rfl, rfl⟩
  have hid1 : id1 = 2 := by
    unfold Slots.alloc at e1
    rw [hs0.1] at e1
    simp only [hs0.2] at e1
    cases hr : s0.tomb.set 2 with
    | none => rw [hr] at e1; cases e1
    | some t => rw [hr] at e1; injection e1 with e1; injection e1 with e1 _; exact e1.symm
  subst hid1
  have r2 := Reach.publish r1 (id := 2) (by simp)
  have h2 := h1.publish (id := 2) (by simp)
  obtain ⟨s3, e3, h3⟩ := h2.free (by omega) (id := 0) (by simp)
  have r3 := Reach.free r2 (by simp) e3
  obtain ⟨id4, s4, e4, n4, h4⟩ := h3.alloc (by omega)
  have r4 := Reach.alloc r3 e4
  have hid4 : id4 = 0 := by
    unfold Slots.release at e3
    cases hr : (s1.publish 2).tomb.set 0 with
    | none => rw [hr] at e3; cases e3
    | some t =>
      rw [hr] at e3
      injection e3 with e3
      subst e3
      unfold Slots.alloc at e4
      simp only at e4
      cases hr4 : t.set 0 with
      | none => rw [hr4] at e4; cases e4
      | some t4 => rw [hr4] at e4; injection e4 with e4; injection e4 with e4 _; exact e4.symm
  subst hid4
  exact ⟨s4, _, r4, by decide, by decide⟩

end Alaya.DiskSlots
