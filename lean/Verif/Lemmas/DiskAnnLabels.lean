import Verif.Model.DiskAnnLabels
import Verif.Props.C41
import Verif.Spec.DiskAnnLabels

namespace Alaya.DiskAnn
open Alaya Alaya.DiskSlots

/-- What the calls so far amount to: `live` are the labels with their slots, `dark` the slots that were taken by an insert which
has not been (or never will be) published. -/
structure LInv (n k : Nat) (s : Idx) (live dark : List (Nat × Nat)) : Prop where
  slots : ∃ a, SInv n k s.slots a ∧ (∀ x, x ∈ a.held ↔ x ∈ (live ++ dark).map (·.2)) ∧
    (∀ x, x ∈ a.visible ↔ x ∈ live.map (·.2))
  len : s.labels.length = s.slots.next
  max : s.maxSlot = s.slots.next
  lab : ∀ p ∈ live ++ dark, s.labels[p.2]? = some p.1
  map : ∀ l x, s.map l = some x ↔ (l, x) ∈ live
  nd : ((live ++ dark).map (·.2)).Nodup
  cnt : s.live = live.length + dark.length
  res : ∀ p ∈ live, p.1 ≠ noLabel

theorem alloc_next {s s' : Slots} {id : Nat} (h : s.alloc = some (id, s')) (hf : ∀ f ∈ s.free, f < s.next)
    (hn : s.next + 1 < 4294967296) :
    (id < s.next ∧ s'.next = s.next) ∨ (id = s.next ∧ s'.next = s.next + 1) := by
  unfold Slots.alloc at h
  cases hfr : s.free with
  | cons f rest =>
    rw [hfr] at h
    simp only [Option.map_eq_some_iff] at h
    obtain ⟨t, _, e⟩ := h
    injection e with e1 e2
    subst e1 e2
    exact .inl ⟨hf _ (by rw [hfr]; exact List.mem_cons_self), rfl⟩
  | nil =>
    rw [hfr] at h
    simp only [Option.map_eq_some_iff] at h
    obtain ⟨t, _, e⟩ := h
    injection e with e1 e2
    subst e1 e2
    exact .inr ⟨rfl, Nat.mod_eq_of_lt hn⟩

theorem setLabel_length (ls : List Nat) (x l : Nat) : (setLabel ls x l).length = max ls.length (x + 1) := by
  unfold setLabel
  rw [List.length_set]
  split
  · rw [List.length_append, List.length_replicate]; omega
  · omega

theorem setLabel_self (ls : List Nat) (x l : Nat) : (setLabel ls x l)[x]? = some l := by
  unfold setLabel
  rw [List.getElem?_set_self]
  split
  · rw [List.length_append, List.length_replicate]; omega
  · omega

theorem setLabel_ne (ls : List Nat) (x l y v : Nat) (hne : y ≠ x) (h : ls[y]? = some v) :
    (setLabel ls x l)[y]? = some v := by
  unfold setLabel
  rw [List.getElem?_set_ne (fun e => hne e.symm)]
  split
  · rw [List.getElem?_append_left (List.getElem?_eq_some_iff.mp h).1]; exact h
  · exact h

theorem LInv.held {n k : Nat} {s : Idx} {live dark : List (Nat × Nat)} (h : LInv n k s live dark) {p : Nat × Nat}
    (hp : p ∈ live ++ dark) : p.2 < s.slots.next := by
  obtain ⟨a, h1, h2, _⟩ := h.slots
  exact h1.heldLt _ ((h2 _).mpr (List.mem_map_of_mem hp))

theorem allocStep_spec {n k : Nat} {s : Idx} {live dark : List (Nat × Nat)} (h : LInv n k s live dark)
    (hk : n + k + 1 < 4294967296) (l : Nat) : ∃ x s', allocStep s l = some (x, s') ∧ s'.map = s.map ∧
      (∀ p ∈ live ++ dark, p.2 ≠ x) ∧ LInv n (k + 1) s' live ((l, x) :: dark) := by
  obtain ⟨a, h1, h2, h3⟩ := h.slots
  obtain ⟨x, sl, e, hnew, h'⟩ := h1.alloc hk
  have hnx := alloc_next e h1.freeLt (by have := h1.next; omega)
  have hne : ∀ p ∈ live ++ dark, p.2 ≠ x := by
    intro p hp e'
    exact hnew ((h2 x).mpr (e' ▸ List.mem_map_of_mem hp))
  refine ⟨x, { s with slots := sl, maxSlot := Nat.max s.maxSlot sl.next, labels := setLabel s.labels x l, live := s.live + 1 },
    ?_, rfl, hne, ⟨⟨_, h', ?_, h3⟩, ?_, ?_, ?_, h.map, ?_, ?_, h.res⟩⟩
  · unfold allocStep; rw [e]
  · intro y
    simp only [List.mem_cons, List.map_append, List.map_cons, List.mem_append]
    rw [h2, List.map_append, List.mem_append]
    constructor
    · rintro (q | q | q)
      · exact .inr (.inl q)
      · exact .inl q
      · exact .inr (.inr q)
    · rintro (q | q | q)
      · exact .inr (.inl q)
      · exact .inl q
      · exact .inr (.inr q)
  · show (setLabel s.labels x l).length = sl.next
    rw [setLabel_length, h.len]
    omega
  · show Nat.max s.maxSlot sl.next = sl.next
    rw [h.max]
    exact Nat.max_eq_right (by omega)
  · intro p hp
    show (setLabel s.labels x l)[p.2]? = some p.1
    rcases List.mem_append.mp hp with q | q
    · exact setLabel_ne _ _ _ _ _ (hne p (List.mem_append_left _ q)) (h.lab p (List.mem_append_left _ q))
    · rcases List.mem_cons.mp q with rfl | q
      · exact setLabel_self _ _ _
      · exact setLabel_ne _ _ _ _ _ (hne p (List.mem_append_right _ q)) (h.lab p (List.mem_append_right _ q))
  · have hp : ((live ++ (l, x) :: dark).map (·.2)).Perm (x :: (live ++ dark).map (·.2)) := by
      rw [List.map_append, List.map_append, List.map_cons]
      exact List.perm_middle
    rw [hp.nodup_iff, List.nodup_cons]
    refine ⟨fun hm => ?_, h.nd⟩
    obtain ⟨p, hp, e'⟩ := List.mem_map.mp hm
    exact hne p hp e'
  · show s.live + 1 = _
    rw [h.cnt, List.length_cons]
    push_cast
    omega

theorem publishStep_spec {n k : Nat} {s : Idx} {live dark : List (Nat × Nat)} (h : LInv n k s live dark)
    {l x : Nat} (hd : (l, x) ∈ dark) (hl : ∀ p ∈ live, p.1 ≠ l) (hr : l ≠ noLabel) :
    ∃ s', publishStep s x = some s' ∧ (∀ m, m ≠ l → s'.map m = s.map m) ∧
      LInv n k s' ((l, x) :: live) (dark.erase (l, x)) := by
  obtain ⟨a, h1, h2, h3⟩ := h.slots
  have hlab := h.lab (l, x) (List.mem_append_right _ hd)
  have hheld : x ∈ a.held := (h2 x).mpr (List.mem_map.mpr ⟨(l, x), List.mem_append_right _ hd, rfl⟩)
  have hperm : (((l, x) :: live) ++ dark.erase (l, x)).Perm (live ++ dark) := by
    have := (List.perm_cons_erase hd).symm
    refine List.Perm.trans ?_ (List.Perm.append_left live this)
    rw [List.cons_append]
    exact List.perm_middle.symm
  refine ⟨{ s with slots := s.slots.publish x, map := fun m => if m = l then some x else s.map m }, ?_, ?_,
    ⟨⟨_, h1.publish hheld, ?_, ?_⟩, h.len, h.max, ?_, ?_, ?_, ?_, ?_⟩⟩
  · unfold publishStep; rw [hlab]
  · intro m hm
    show (if m = l then some x else s.map m) = s.map m
    rw [if_neg hm]
  · intro y
    rw [h2]
    exact (hperm.map _).mem_iff.symm
  · intro y
    simp only [List.mem_cons, List.map_cons]
    rw [h3]
  · intro p hp
    exact h.lab p (hperm.mem_iff.mp hp)
  · intro m y
    show (if m = l then some x else s.map m) = some y ↔ _
    by_cases hm : m = l
    · rw [if_pos hm, List.mem_cons]
      subst hm
      constructor
      · intro e; cases e; exact .inl rfl
      · rintro (e | e)
        · cases e; rfl
        · exact absurd rfl (hl _ e)
    · rw [if_neg hm, h.map, List.mem_cons]
      constructor
      · exact .inr
      · rintro (e | e)
        · cases e; exact absurd rfl hm
        · exact e
  · exact ((hperm.map _).nodup_iff).mpr h.nd
  · have := hperm.length_eq
    rw [List.length_append, List.length_append] at this
    rw [show (({ s with slots := s.slots.publish x, map := fun m => if m = l then some x else s.map m } : Idx)).live = s.live
      from rfl, h.cnt]
    omega
  · intro p hp
    rcases List.mem_cons.mp hp with rfl | hp
    · exact hr
    · exact h.res p hp

theorem removable_iff {n k : Nat} {s : Idx} {live dark : List (Nat × Nat)} (h : LInv n k s live dark) (x : Nat) :
    removable s x = true ↔ x ∈ live.map (·.2) := by
  obtain ⟨a, h1, h2, h3⟩ := h.slots
  obtain ⟨t, ht, hm⟩ := h1.tomb
  have hd := isDeleted_spec ht x
  unfold removable
  rw [Bool.and_eq_true, decide_eq_true_eq, Bool.not_eq_true', h.max]
  constructor
  · rintro ⟨q1, q2⟩
    rw [← h3]
    refine Classical.byContradiction fun hv => ?_
    have := hd.mpr ((hm x).mpr ⟨q1, hv⟩)
    rw [q2] at this; cases this
  · intro hx
    have hv := (h3 x).mpr hx
    refine ⟨h1.heldLt _ (h1.vis _ hv), ?_⟩
    cases hq : s.slots.tomb.isDeleted x with
    | false => rfl
    | true => exact absurd hv ((hm x).mp (hd.mp hq)).2

theorem removeStep_spec {n k : Nat} {s : Idx} {live dark : List (Nat × Nat)} (h : LInv n k s live dark)
    (hk : n + k < 4294967296) {x : Nat} (hx : x ∈ live.map (·.2)) :
    ∃ s', removeStep s x = some s' ∧ LInv n k s' (live.filter fun p => p.2 ≠ x) dark := by
  obtain ⟨a, h1, h2, h3⟩ := h.slots
  obtain ⟨⟨l, x'⟩, hp, e⟩ := List.mem_map.mp hx
  simp only at e
  subst e
  have hlab := h.lab (l, x') (List.mem_append_left _ hp)
  simp only at hlab
  have hheld : x' ∈ a.held := (h2 x').mpr (List.mem_map.mpr ⟨(l, x'), List.mem_append_left _ hp, rfl⟩)
  obtain ⟨sl, e', h'⟩ := h1.free hk hheld
  have hnd := h.nd
  rw [List.map_append, List.nodup_append] at hnd
  obtain ⟨n1, n2, n3⟩ := hnd
  have hmap : s.map l = some x' := (h.map l x').mpr hp
  have huniq : ∀ q ∈ live, q.2 = x' → q = (l, x') := by
    intro q hq e
    rw [List.Nodup, List.pairwise_map] at n1
    refine Classical.byContradiction fun hne => ?_
    rcases List.mem_iff_getElem.mp hq with ⟨i, hi, rfl⟩
    rcases List.mem_iff_getElem.mp hp with ⟨j, hj, hjv⟩
    have hpw := List.pairwise_iff_getElem.mp n1
    rcases Nat.lt_trichotomy i j with c | c | c
    · exact hpw i j hi hj c (by rw [hjv, e])
    · subst c; exact hne hjv
    · exact hpw j i hj hi c (by rw [hjv, e])
  have hlen : (live.filter fun p => p.2 ≠ x').length + 1 = live.length := by
    have q := length_filter_ne n1 hx
    rw [List.length_map] at q
    rw [← q, List.filter_map, List.length_map]
    rfl
  have hsl : sl.next = s.slots.next := by
    unfold Slots.release at e'
    rw [Option.map_eq_some_iff] at e'
    obtain ⟨t, _, rfl⟩ := e'
    rfl
  refine ⟨{ s with slots := sl, map := fun m => if m = l ∧ s.map l = some x' then none else s.map m, live := s.live - 1 },
    by unfold removeStep; rw [hlab]; simp only [e'], ⟨⟨_, h', ?_, ?_⟩, ?_, ?_, ?_, ?_, ?_, ?_, ?_⟩⟩
  · intro y
    simp only [List.mem_filter, decide_eq_true_eq, List.map_append, List.mem_append, List.mem_map]
    rw [h2]
    simp only [List.map_append, List.mem_append, List.mem_map]
    constructor
    · rintro ⟨⟨p, q1, q2⟩ | ⟨p, q1, q2⟩, q3⟩
      · exact .inl ⟨p, ⟨q1, by rw [q2]; exact q3⟩, q2⟩
      · exact .inr ⟨p, q1, q2⟩
    · rintro (⟨p, ⟨q1, q3⟩, q2⟩ | ⟨p, q1, q2⟩)
      · exact ⟨.inl ⟨p, q1, q2⟩, by rw [← q2]; exact q3⟩
      · refine ⟨.inr ⟨p, q1, q2⟩, fun e => ?_⟩
        subst e
        exact n3 _ hx _ (List.mem_map.mpr ⟨p, q1, q2⟩) rfl
  · intro y
    simp only [List.mem_filter, decide_eq_true_eq, List.mem_map]
    rw [h3]
    simp only [List.mem_map]
    constructor
    · rintro ⟨⟨p, q1, q2⟩, q3⟩; exact ⟨p, ⟨q1, by rw [q2]; exact q3⟩, q2⟩
    · rintro ⟨p, ⟨q1, q3⟩, q2⟩; exact ⟨⟨p, q1, q2⟩, by rw [← q2]; exact q3⟩
  · show s.labels.length = sl.next
    rw [hsl]; exact h.len
  · show s.maxSlot = sl.next
    rw [hsl]; exact h.max
  · intro p hp'
    refine h.lab p ?_
    rcases List.mem_append.mp hp' with q | q
    · exact List.mem_append_left _ (List.mem_filter.mp q).1
    · exact List.mem_append_right _ q
  · intro m y
    show (if m = l ∧ s.map l = some x' then none else s.map m) = some y ↔ _
    rw [List.mem_filter]
    simp only [decide_eq_true_eq]
    by_cases hm : m = l
    · subst hm
      rw [if_pos ⟨rfl, hmap⟩]
      constructor
      · intro q; cases q
      · rintro ⟨q1, q2⟩
        have := (h.map m y).mpr q1
        rw [hmap] at this; cases this
        exact absurd rfl q2
    · rw [if_neg (fun q => hm q.1), h.map]
      constructor
      · intro q
        refine ⟨q, fun e => hm ?_⟩
        subst e
        exact (Prod.mk.inj (huniq _ q rfl)).1
      · exact fun q => q.1
  · rw [List.map_append, List.nodup_append]
    have hsub : ((live.filter fun p => p.2 ≠ x').map (·.2)).Sublist (live.map (·.2)) := List.filter_sublist.map _
    exact ⟨n1.sublist hsub, n2, fun u hu v hv => n3 u (hsub.subset hu) v hv⟩
  · show s.live - 1 = _
    rw [h.cnt]
    omega
  · intro p hp'
    exact h.res p (List.mem_filter.mp hp').1

end Alaya.DiskAnn

namespace Alaya.DiskAnn
open Alaya Alaya.DiskSlots Alaya.DiskAnn.Spec

theorem LInv.mono {n k k' : Nat} {s : Idx} {live dark : List (Nat × Nat)} (h : LInv n k s live dark) (hk : k ≤ k') :
    LInv n k' s live dark := by
  obtain ⟨a, h1, h2, h3⟩ := h.slots
  exact ⟨⟨a, { h1 with next := by have := h1.next; omega }, h2, h3⟩, h.len, h.max, h.lab, h.map, h.nd, h.cnt, h.res⟩

/-- State of a batch: which tasks are done and where their pairs are. -/
structure BInv (ls : List Nat) (live0 dark0 : List (Nat × Nat)) (t : Tasks) (new dark : List (Nat × Nat)) : Prop where
  nl : ∀ p ∈ new, ∃ i, ls[i]? = some p.1 ∧ t.done i = true
  nnd : (labels new).Nodup
  dn : ∀ i l, ls[i]? = some l → t.done i = true → l ∈ labels new
  ds : ∀ i, t.done i = true → (t.slot i).isSome = true
  pend : ∀ i x, t.slot i = some x → ∃ l, ls[i]? = some l ∧ (t.done i = false → (l, x) ∈ dark)
  dk : ∀ p ∈ dark, p ∈ dark0 ∨ ∃ i, t.slot i = some p.2 ∧ t.done i = false ∧ ls[i]? = some p.1
  old : ∀ p ∈ dark0, p ∈ dark
  fr : ∀ i x, t.slot i = some x → x ∉ dark0.map (·.2)

theorem idx_inj {ls : List Nat} (hnd : ls.Nodup) {i j l : Nat} (hi : ls[i]? = some l) (hj : ls[j]? = some l) : i = j := by
  obtain ⟨a, ha⟩ := List.getElem?_eq_some_iff.mp hi
  obtain ⟨b, hb⟩ := List.getElem?_eq_some_iff.mp hj
  rcases Nat.lt_trichotomy i j with c | c | c
  · exact absurd (ha.trans hb.symm) (List.pairwise_iff_getElem.mp hnd i j a b c)
  · exact c
  · exact absurd (hb.trans ha.symm) (List.pairwise_iff_getElem.mp hnd j i b a c)

theorem batchStep_spec {n k : Nat} {ls : List Nat} {live0 dark0 new dark : List (Nat × Nat)} {s : Idx} {t : Tasks}
    (hnd : ls.Nodup) (hfree : ∀ l ∈ ls, Free live0 l) (h : LInv n k s (new ++ live0) dark)
    (hb : BInv ls live0 dark0 t new dark) (hk : n + k + 1 < 4294967296) (e : BEv) :
    ∃ s' t' new' dark', batchStep ls s t e = some (s', t') ∧ LInv n (k + 1) s' (new' ++ live0) dark' ∧
      BInv ls live0 dark0 t' new' dark' ∧
      (∀ i, (t'.slot i).isSome = true ↔ (t.slot i).isSome = true ∨ (e = .alloc i ∧ i < ls.length)) ∧
      (∀ i, t'.done i = true ↔ t.done i = true ∨ (e = .publish i ∧ (t.slot i).isSome = true)) := by
  cases e with
  | alloc i =>
    simp only [batchStep]
    cases hs : t.slot i with
    | some x =>
      refine ⟨s, t, new, dark, rfl, h.mono (by omega), hb, ?_, ?_⟩
      · intro j
        constructor
        · exact .inl
        · rintro (q | ⟨q, _⟩)
          · exact q
          · cases q; rw [hs]; rfl
      · intro j; constructor
        · exact .inl
        · rintro (q | ⟨q, _⟩)
          · exact q
          · cases q
    | none =>
      cases hl : ls[i]? with
      | none =>
        refine ⟨s, t, new, dark, rfl, h.mono (by omega), hb, ?_, ?_⟩
        · intro j
          constructor
          · exact .inl
          · rintro (q | ⟨q, q2⟩)
            · exact q
            · cases q
              have := List.getElem?_eq_none_iff.mp hl
              omega
        · intro j; constructor
          · exact .inl
          · rintro (q | ⟨q, _⟩)
            · exact q
            · cases q
      | some l =>
        obtain ⟨x, s', e1, hm, hne, h'⟩ := allocStep_spec h hk l
        refine ⟨s', { t with slot := fun j => if j = i then some x else t.slot j }, new, (l, x) :: dark, by simp only [e1], h', ⟨?_, hb.nnd, ?_, ?_, ?_, ?_,
          fun p hp => List.mem_cons_of_mem _ (hb.old p hp), ?_⟩, ?_, ?_⟩
        · exact hb.nl
        · exact hb.dn
        · intro j hj
          show Option.isSome (if j = i then some x else t.slot j) = true
          split
          · rfl
          · exact hb.ds j hj
        · intro j y hj
          change (if j = i then some x else t.slot j) = some y at hj
          by_cases c : j = i
          · rw [if_pos c] at hj; cases hj
            subst c
            exact ⟨l, hl, fun _ => List.mem_cons_self⟩
          · rw [if_neg c] at hj
            obtain ⟨m, q1, q2⟩ := hb.pend j y hj
            exact ⟨m, q1, fun q => List.mem_cons_of_mem _ (q2 q)⟩
        · intro p hp
          rcases List.mem_cons.mp hp with rfl | hp
          · refine .inr ⟨i, if_pos rfl, ?_, hl⟩
            cases hd : t.done i with
            | false => rfl
            | true => have := hb.ds i hd; rw [hs] at this; cases this
          · rcases hb.dk p hp with q | ⟨j, q1, q2, q3⟩
            · exact .inl q
            · refine .inr ⟨j, ?_, q2, q3⟩
              show (if j = i then some x else t.slot j) = some p.2
              rw [if_neg]
              · exact q1
              · rintro rfl; rw [hs] at q1; cases q1
        · intro j y hj hy
          change (if j = i then some x else t.slot j) = some y at hj
          by_cases c : j = i
          · rw [if_pos c] at hj; cases hj
            obtain ⟨p, q1, q2⟩ := List.mem_map.mp hy
            exact hne p (List.mem_append_right _ (hb.old p q1)) q2
          · rw [if_neg c] at hj
            exact hb.fr j y hj hy
        · intro j
          show Option.isSome (if j = i then some x else t.slot j) = true ↔ _
          by_cases c : j = i
          · subst c
            rw [if_pos rfl]
            exact ⟨fun _ => .inr ⟨rfl, (List.getElem?_eq_some_iff.mp hl).1⟩, fun _ => rfl⟩
          · rw [if_neg c]
            constructor
            · exact .inl
            · rintro (q | ⟨q, _⟩)
              · exact q
              · cases q; exact absurd rfl c
        · intro j; constructor
          · exact .inl
          · rintro (q | ⟨q, _⟩)
            · exact q
            · cases q
  | publish i =>
    simp only [batchStep]
    cases hs : t.slot i with
    | none =>
      refine ⟨s, t, new, dark, rfl, h.mono (by omega), hb, ?_, ?_⟩
      · intro j
        constructor
        · exact .inl
        · rintro (q | ⟨q, _⟩)
          · exact q
          · cases q
      · intro j; constructor
        · exact .inl
        · rintro (q | ⟨q, q2⟩)
          · exact q
          · cases q; rw [hs] at q2; cases q2
    | some x =>
      cases hd : t.done i with
      | true =>
        refine ⟨s, t, new, dark, rfl, h.mono (by omega), hb, ?_, ?_⟩
        · intro j
          constructor
          · exact .inl
          · rintro (q | ⟨q, _⟩)
            · exact q
            · cases q
        · intro j; constructor
          · exact .inl
          · rintro (q | ⟨q, q2⟩)
            · exact q
            · cases q; exact hd
      | false =>
        obtain ⟨l, hl, hdk⟩ := hb.pend i x hs
        have hnl : ∀ p ∈ new ++ live0, p.1 ≠ l := by
          intro p hp e
          rcases List.mem_append.mp hp with q | q
          · obtain ⟨j, q1, q2⟩ := hb.nl p q
            rw [e] at q1
            rw [idx_inj hnd q1 hl, hd] at q2
            cases q2
          · exact (hfree l (List.mem_of_getElem? hl)).2 (List.mem_map.mpr ⟨p, q, e⟩)
        obtain ⟨s', e1, hm, h'⟩ := publishStep_spec h (hdk hd) hnl (hfree l (List.mem_of_getElem? hl)).1
        refine ⟨s', { t with done := fun j => if j = i then true else t.done j }, (l, x) :: new, dark.erase (l, x),
          by simp only [e1]; rfl, h'.mono (by omega), ⟨?_, ?_, ?_, ?_, ?_, ?_, ?_, hb.fr⟩, ?_, ?_⟩
        · intro p hp
          rcases List.mem_cons.mp hp with rfl | hp
          · exact ⟨i, hl, if_pos rfl⟩
          · obtain ⟨j, q1, q2⟩ := hb.nl p hp
            refine ⟨j, q1, ?_⟩
            show (if j = i then true else t.done j) = true
            split
            · rfl
            · exact q2
        · show (l :: labels new).Nodup
          rw [List.nodup_cons]
          refine ⟨fun hm => ?_, hb.nnd⟩
          obtain ⟨p, q1, q2⟩ := List.mem_map.mp hm
          exact hnl p (List.mem_append_left _ q1) q2
        · intro j m hj hdj
          change (if j = i then true else t.done j) = true at hdj
          show m ∈ l :: labels new
          by_cases c : j = i
          · subst c; rw [hl] at hj; cases hj; exact List.mem_cons_self
          · rw [if_neg c] at hdj
            exact List.mem_cons_of_mem _ (hb.dn j m hj hdj)
        · intro j hj
          change (if j = i then true else t.done j) = true at hj
          by_cases c : j = i
          · subst c; show (t.slot j).isSome = true; rw [hs]; rfl
          · rw [if_neg c] at hj; exact hb.ds j hj
        · intro j y hj
          obtain ⟨m, q1, q2⟩ := hb.pend j y hj
          refine ⟨m, q1, fun q => ?_⟩
          change (if j = i then true else t.done j) = false at q
          by_cases c : j = i
          · rw [if_pos c] at q; cases q
          · rw [if_neg c] at q
            refine (List.mem_erase_of_ne ?_).mpr (q2 q)
            intro e
            cases e
            exact c (idx_inj hnd q1 hl)
        · intro p hp
          rcases hb.dk p (List.mem_of_mem_erase hp) with q | ⟨j, q1, q2, q3⟩
          · exact .inl q
          · by_cases c : j = i
            · subst c
              rw [hs] at q1; cases q1
              rw [hl] at q3; cases q3
              exfalso
              have hdn : dark.Nodup := by
                have := h.nd
                rw [List.map_append, List.nodup_append] at this
                exact List.Pairwise.imp (fun h e => h (by rw [e])) (List.pairwise_map.mp this.2.1)
              exact hdn.not_mem_erase hp
            · refine .inr ⟨j, q1, ?_, q3⟩
              show (if j = i then true else t.done j) = false
              rw [if_neg c]; exact q2
        · intro p hp
          refine (List.mem_erase_of_ne ?_).mpr (hb.old p hp)
          rintro rfl
          exact hb.fr i x hs (List.mem_map.mpr ⟨_, hp, rfl⟩)
        · intro j
          constructor
          · exact .inl
          · rintro (q | ⟨q, _⟩)
            · exact q
            · cases q
        · intro j
          show (if j = i then true else t.done j) = true ↔ _
          by_cases c : j = i
          · subst c
            rw [if_pos rfl]
            exact ⟨fun _ => .inr ⟨rfl, by rw [hs]; rfl⟩, fun _ => rfl⟩
          · rw [if_neg c]
            constructor
            · exact .inl
            · rintro (q | ⟨q, _⟩)
              · exact q
              · cases q; exact absurd rfl c

/-- Which tasks are done after some sections, from where the tasks stand now. -/
theorem batchRun_spec {n : Nat} {ls : List Nat} {live0 dark0 : List (Nat × Nat)} (hnd : ls.Nodup)
    (hfree : ∀ l ∈ ls, Free live0 l) : ∀ (evs : List BEv) {k : Nat} {s : Idx} {t : Tasks} {new dark : List (Nat × Nat)},
    LInv n k s (new ++ live0) dark → BInv ls live0 dark0 t new dark → n + k + evs.length < 4294967296 →
    ∃ s' t' new' dark', batchRun ls s t evs = some (s', t') ∧ LInv n (k + evs.length) s' (new' ++ live0) dark' ∧
      BInv ls live0 dark0 t' new' dark' ∧
      ∀ i, i < ls.length → (t'.done i = true ↔ t.done i = true ∨ ((t.slot i).isSome = true ∧ .publish i ∈ evs) ∨ Ran evs i)
  | [], k, s, t, new, dark, h, hb, _ => by
    refine ⟨s, t, new, dark, rfl, h, hb, ?_⟩
    intro i _
    constructor
    · exact .inl
    · rintro (q | ⟨_, q⟩ | ⟨a, b, c, q⟩)
      · exact q
      · cases q
      · have := congrArg List.length q
        simp only [List.length_nil, List.length_append, List.length_cons] at this
        omega
  | e :: es, k, s, t, new, dark, h, hb, hk => by
    rw [List.length_cons] at hk
    obtain ⟨s1, t1, new1, dark1, e1, h1, hb1, hsl, hdn⟩ := batchStep_spec hnd hfree h hb (by omega) e
    obtain ⟨s2, t2, new2, dark2, e2, h2, hb2, hd2⟩ := batchRun_spec hnd hfree es h1 hb1 (by omega)
    refine ⟨s2, t2, new2, dark2, by rw [batchRun, e1]; exact e2, ?_, hb2, ?_⟩
    · rw [List.length_cons, show k + (es.length + 1) = k + 1 + es.length from by omega]; exact h2
    · intro i hi
      rw [hd2 i hi, hdn i, hsl i]
      constructor
      · rintro ((q | ⟨q1, q2⟩) | ⟨q1 | ⟨q1, _⟩, q2⟩ | ⟨a, b, c, q⟩)
        · exact .inl q
        · exact .inr (.inl ⟨q2, by rw [q1]; exact List.mem_cons_self⟩)
        · exact .inr (.inl ⟨q1, List.mem_cons_of_mem _ q2⟩)
        · obtain ⟨b, c, rfl⟩ := List.append_of_mem q2
          exact .inr (.inr ⟨[], b, c, by rw [q1]; rfl⟩)
        · exact .inr (.inr ⟨e :: a, b, c, by rw [q]; rfl⟩)
      · rintro (q | ⟨q1, q2⟩ | ⟨a, b, c, q⟩)
        · exact .inl (.inl q)
        · rcases List.mem_cons.mp q2 with q2 | q2
          · exact .inl (.inr ⟨q2.symm, q1⟩)
          · exact .inr (.inl ⟨.inl q1, q2⟩)
        · cases a with
          | nil =>
            simp only [List.nil_append, List.cons_append, List.cons.injEq] at q
            exact .inr (.inl ⟨.inr ⟨q.1, hi⟩, by rw [q.2]; exact List.mem_append_right _ List.mem_cons_self⟩)
          | cons a0 a =>
            simp only [List.cons_append, List.cons.injEq] at q
            exact .inr (.inr ⟨a, b, c, q.2⟩)

theorem removeAll_spec {n k : Nat} {dark : List (Nat × Nat)} (hk : n + k < 4294967296) : ∀ (ids : List Nat) {s : Idx}
    {live : List (Nat × Nat)}, LInv n k s live dark → ids.Nodup → (∀ id ∈ ids, id ∈ slots live) →
    ∃ s', removeAll s ids = some s' ∧ LInv n k s' (live.filter fun p => p.2 ∉ ids) dark
  | [], s, live, h, _, _ => ⟨s, rfl, by
      rw [List.filter_eq_self.mpr (by simp)]; exact h⟩
  | id :: ids, s, live, h, hnd, hin => by
    rw [List.nodup_cons] at hnd
    obtain ⟨s1, e1, h1⟩ := removeStep_spec h hk (hin id List.mem_cons_self)
    obtain ⟨s2, e2, h2⟩ := removeAll_spec hk ids h1 hnd.2 (by
      intro y hy
      obtain ⟨p, q1, q2⟩ := List.mem_map.mp (hin y (List.mem_cons_of_mem _ hy))
      refine List.mem_map.mpr ⟨p, List.mem_filter.mpr ⟨q1, ?_⟩, q2⟩
      simp only [decide_eq_true_eq]
      intro e
      exact hnd.1 (e ▸ q2 ▸ hy))
    refine ⟨s2, by rw [removeAll, e1]; exact e2, ?_⟩
    rw [List.filter_filter] at h2
    have : (live.filter fun p => decide (p.2 ∉ id :: ids)) =
        live.filter fun p => decide (p.2 ∉ ids) && decide (p.2 ≠ id) := by
      apply List.filter_congr
      intro p _
      simp only [List.mem_cons, not_or, Bool.decide_and]
      rw [Bool.and_comm]
    rw [this]
    exact h2

theorem doRemove_spec {n k : Nat} {s : Idx} {live dark : List (Nat × Nat)} (hk : n + k < 4294967296) (h : LInv n k s live dark)
    (ids : List Nat) (ok : Bool) :
    (¬ (ids.Nodup ∧ ∀ id ∈ ids, id ∈ slots live) → doRemove s ids ok = (s, .rejected)) ∧
    (ids.Nodup ∧ (∀ id ∈ ids, id ∈ slots live) → if ok then
        (doRemove s ids ok).2 = .ok ∧ LInv n k (doRemove s ids ok).1 (live.filter fun p => p.2 ∉ ids) dark
      else doRemove s ids ok = (s, .failed)) := by
  have hc : (ids.all (removable s) && decide ids.Nodup) = true ↔ (ids.Nodup ∧ ∀ id ∈ ids, id ∈ slots live) := by
    rw [Bool.and_eq_true, decide_eq_true_eq, List.all_eq_true]
    constructor
    · rintro ⟨q1, q2⟩; exact ⟨q2, fun id hid => (removable_iff h id).mp (q1 id hid)⟩
    · rintro ⟨q1, q2⟩; exact ⟨fun id hid => (removable_iff h id).mpr (q2 id hid), q1⟩
  constructor
  · intro q
    unfold doRemove
    rw [if_neg (fun e => q (hc.mp e))]
  · intro q
    cases ok with
    | false =>
      rw [if_neg (by decide)]
      unfold doRemove
      rw [if_pos (hc.mpr q)]
      rfl
    | true =>
      rw [if_pos rfl]
      obtain ⟨s', e, h'⟩ := removeAll_spec hk ids h q.1 q.2
      have : doRemove s ids true = (s', .ok) := by
        unfold doRemove
        rw [if_pos (hc.mpr q), if_pos rfl, e]
      rw [this]
      exact ⟨rfl, h'⟩

theorem lookupAll_spec {n k : Nat} {s : Idx} {live dark : List (Nat × Nat)} (h : LInv n k s live dark) : ∀ ls : List Nat,
    (¬ (ls.Nodup ∧ ∀ l ∈ ls, l ∈ labels live) → lookupAll s ls = none) ∧
    (ls.Nodup ∧ (∀ l ∈ ls, l ∈ labels live) → ∃ ids, lookupAll s ls = some ids ∧
      (∀ x, x ∈ ids ↔ ∃ l, l ∈ ls ∧ (l, x) ∈ live) ∧ ids.Nodup)
  | [] => by
    refine ⟨fun q => absurd ⟨List.nodup_nil, by simp⟩ q, fun _ => ⟨[], rfl, by simp, List.nodup_nil⟩⟩
  | l :: ls => by
    obtain ⟨i1, i2⟩ := lookupAll_spec h ls
    simp only [lookupAll]
    by_cases hc : l ∈ ls
    · rw [if_pos (by simpa using hc)]
      refine ⟨fun _ => rfl, fun q => ?_⟩
      exact absurd hc (List.nodup_cons.mp q.1).1
    · rw [if_neg (by simpa using hc)]
      cases hm : s.map l with
      | none =>
        refine ⟨fun _ => rfl, fun q => ?_⟩
        obtain ⟨p, q1, q2⟩ := List.mem_map.mp (q.2 l List.mem_cons_self)
        have := (h.map l p.2).mpr (by rw [← q2]; exact q1)
        rw [hm] at this; cases this
      | some x =>
        have hlx := (h.map l x).mp hm
        constructor
        · intro q
          rw [i1]
          · rfl
          intro q'
          refine q ⟨List.nodup_cons.mpr ⟨hc, q'.1⟩, fun m hm' => ?_⟩
          rcases List.mem_cons.mp hm' with rfl | hm'
          · exact List.mem_map.mpr ⟨_, hlx, rfl⟩
          · exact q'.2 m hm'
        · rintro ⟨q1, q2⟩
          obtain ⟨ids, e, hi, hn⟩ := i2 ⟨(List.nodup_cons.mp q1).2, fun m hm' => q2 m (List.mem_cons_of_mem _ hm')⟩
          refine ⟨x :: ids, by rw [e]; rfl, ?_, ?_⟩
          · intro y
            rw [List.mem_cons, hi]
            constructor
            · rintro (rfl | ⟨m, q3, q4⟩)
              · exact ⟨l, List.mem_cons_self, hlx⟩
              · exact ⟨m, List.mem_cons_of_mem _ q3, q4⟩
            · rintro ⟨m, q3, q4⟩
              rcases List.mem_cons.mp q3 with rfl | q3
              · have := (h.map m y).mpr q4
                rw [hm] at this; cases this; exact .inl rfl
              · exact .inr ⟨m, q3, q4⟩
          · rw [List.nodup_cons]
            refine ⟨fun hx => ?_, hn⟩
            obtain ⟨m, q3, q4⟩ := (hi x).mp hx
            have e1 := h.lab _ (List.mem_append_left _ q4)
            have e2 := h.lab _ (List.mem_append_left _ hlx)
            simp only at e1 e2
            rw [e1] at e2; cases e2
            exact hc q3

theorem insertable_iff {n k : Nat} {s : Idx} {live dark : List (Nat × Nat)} (h : LInv n k s live dark) (ls : List Nat) :
    insertable s ls = true ↔ ls.Nodup ∧ ∀ l ∈ ls, Free live l := by
  have hm : ∀ l, (s.map l).isNone = true ↔ l ∉ labels live := by
    intro l
    rw [Option.isNone_iff_eq_none]
    constructor
    · intro e hl
      obtain ⟨p, q1, q2⟩ := List.mem_map.mp hl
      have := (h.map l p.2).mpr (by rw [← q2]; exact q1)
      rw [e] at this; cases this
    · intro hl
      cases e : s.map l with
      | none => rfl
      | some x => exact absurd (List.mem_map.mpr ⟨_, (h.map l x).mp e, rfl⟩) hl
  unfold insertable
  simp only [Bool.and_eq_true, List.all_eq_true, decide_eq_true_eq]
  constructor
  · rintro ⟨⟨q1, q2⟩, q3⟩; exact ⟨q2, fun l hl => ⟨q1 l hl, (hm l).mp (q3 l hl)⟩⟩
  · rintro ⟨q1, q2⟩; exact ⟨⟨fun l hl => (q2 l hl).1, q1⟩, fun l hl => (hm l).mpr (q2 l hl).2⟩

theorem filter_labels {n k : Nat} {s : Idx} {live dark : List (Nat × Nat)} (h : LInv n k s live dark) (ls ids : List Nat)
    (hi : ∀ x, x ∈ ids ↔ ∃ l, l ∈ ls ∧ (l, x) ∈ live) :
    (live.filter fun p => decide (p.2 ∉ ids)) = live.filter fun p => decide (p.1 ∉ ls) := by
  apply List.filter_congr
  intro p hp
  rw [decide_eq_decide, hi]
  constructor
  · intro q hl; exact q ⟨p.1, hl, hp⟩
  · rintro q ⟨l, q1, q2⟩
    have e1 := h.lab _ (List.mem_append_left _ q2)
    have e2 := h.lab _ (List.mem_append_left _ hp)
    simp only at e1
    rw [e1] at e2; cases e2
    exact q q1

end Alaya.DiskAnn
