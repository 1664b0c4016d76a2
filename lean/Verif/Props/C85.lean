import Verif.Lemmas.PQShare

/- C85: reading codes while other threads insert and remove. -/
namespace Alaya.PQShare

/-- What a search needs once it has loaded the address of the codes: the buffer is still there, each of its slots is inside, and nobody
is about to write one of these rows. -/
def Spec.Safe {ρ : Type} (s : State ρ) : Prop :=
  ∀ (t base : Nat) (ids : List Nat), s.thr[t]? = some (.got base ids) → ∀ slot, slot ∈ ids → (∃ row, s.look base slot = some row) ∧
    ∀ (u : Nat) (x : Nat) (row : ρ), s.thr[u]? = some (.grown x row) → x ≠ slot

theorem look_lt {ρ : Type} {s : State ρ} {rows : List ρ} {base slot : Nat} (hr : s.heap[base]? = some (some rows)) (h : slot < rows.length) :
    ∃ row, s.look base slot = some row := by
  unfold State.look
  rw [hr]
  exact ⟨rows[slot], List.getElem?_eq_getElem h⟩

theorem run_inv {ρ : Type} {locked : Bool} {zero : ρ} (P : State ρ → Prop) (hP : ∀ s t a s', P s → s.step locked zero t a = some s' → P s') :
    ∀ (as : List (Nat × Act ρ)) (s s' : State ρ), P s → s.run locked zero as = some s' → P s' := by
  intro as
  induction as with
  | nil => intro s s' h hr; injection hr with hr; rw [← hr]; exact h
  | cons x as ih =>
    obtain ⟨t, a⟩ := x
    intro s s' h hr
    unfold State.run at hr
    split at hr
    · simp at hr
    · rename_i s1 h1
      exact ih s1 s' (hP s t a s1 h h1) hr

theorem reach_locked {ρ : Type} (zero : ρ) (rows : List ρ) (cap threads : Nat) (as : List (Nat × Act ρ)) (s : State ρ)
    (h : (State.init rows cap threads).run true zero as = some s) : Sized s ∧ Excl s :=
  run_inv (fun s => Sized s ∧ Excl s) (fun s t a s' hs hst => ⟨hs.1.step hst, (hs.2.step hst).1⟩) as _ _ ⟨Sized.init rows cap threads, Excl.init rows cap threads⟩ h

/-- If searches hold the shared lock, reading the codes is safe in every state that insertions, removals and searches can reach,
even when the codes have to be moved. -/
theorem C85_locked {ρ : Type} (zero : ρ) (rows : List ρ) (cap threads : Nat) (as : List (Nat × Act ρ)) (s : State ρ)
    (h : (State.init rows cap threads).run true zero as = some s) : Spec.Safe s := by
  obtain ⟨hz, he⟩ := reach_locked zero rows cap threads as s h
  obtain ⟨rows', hr, _, hph⟩ := hz.rows
  intro t base ids ht slot hslot
  have hb := he.base t base ids ht
  refine ⟨look_lt (by rw [hb]; exact hr) ((hph t _ ht).1 slot hslot), ?_⟩
  intro u x row hu
  exact (he.excl u t _ _ hu ht rfl rfl).elim

/-- While such a search runs, no code changes and the codes stay where they are. -/
theorem C85_locked_frozen {ρ : Type} (zero : ρ) (rows : List ρ) (cap threads : Nat) (as : List (Nat × Act ρ)) (s : State ρ)
    (h : (State.init rows cap threads).run true zero as = some s) (t : Nat) (p : Phase ρ) (hp : s.thr[t]? = some p) (hrd : p.reader = true)
    (u : Nat) (a : Act ρ) (s' : State ρ) (hs : s.step true zero u a = some s') : s'.cur = s.cur ∧ ∀ base slot, s'.look base slot = s.look base slot := by
  obtain ⟨_, he⟩ := reach_locked zero rows cap threads as s h
  obtain ⟨h1, h2⟩ := (he.step hs).2 t p hp hrd
  refine ⟨h2, fun base slot => ?_⟩
  unfold State.look
  rw [h1]

/-- Whoever reads with or without a lock: a step changes the stored code of no slot other than the one being encoded, and that one gets
the row it was given. -/
theorem C85_step {ρ : Type} (locked : Bool) (zero : ρ) (rows : List ρ) (cap threads : Nat) (as : List (Nat × Act ρ)) (s : State ρ)
    (h : (State.init rows cap threads).run locked zero as = some s) (t : Nat) (a : Act ρ) (s' : State ρ) (hs : s.step locked zero t a = some s') :
    (∀ slot row, s.look s.cur slot = some row → s'.look s'.cur slot = some row ∨ ∃ row', s.thr[t]? = some (.grown slot row') ∧ a = .write) ∧
    (∀ slot row, s.thr[t]? = some (.grown slot row) → a = .write → s'.look s'.cur slot = some row) := by
  have hz : Sized s := run_inv Sized (fun s t a s' hs hst => hs.step hst) as _ _ (Sized.init rows cap threads) h
  obtain ⟨rows0, hr, _, _⟩ := hz.rows
  have hlook : ∀ (s1 : State ρ) (rs : List ρ), s1.heap[s1.cur]? = some (some rs) → ∀ slot, s1.look s1.cur slot = rs[slot]? := by
    intro s1 rs h1 slot; unfold State.look; rw [h1]
  obtain ⟨p, p', hp, hthr, hc⟩ := step_cases hs
  have same : s'.heap = s.heap → s'.cur = s.cur → ∀ slot row, s.look s.cur slot = some row → s'.look s'.cur slot = some row := by
    intro h1 h2 slot row hl
    unfold State.look at hl ⊢
    rw [h1, h2]; exact hl
  rcases hc with ⟨row, slot, rest, rfl, rfl, rfl, hf, hs⟩ | ⟨row, rfl, rfl, hf, rfl, hs⟩ | ⟨slot, rfl, rfl, rfl, hv, hs⟩ | ⟨slot, row, rfl, rfl, rfl, hw, hl, hs⟩ |
    ⟨slot, row, newCap, s1, rfl, rfl, rfl, h1, hs⟩ | ⟨slot, row, s1, rfl, rfl, rfl, h1, hs⟩ | ⟨slot, rfl, rfl, rfl, hs⟩ | ⟨rfl, rfl, rfl, hs⟩ |
    ⟨ids, rfl, rfl, rfl, hl, hs⟩ | ⟨ids, rfl, rfl, rfl, hs⟩ | ⟨base, ids, slot, rfl, rfl, hm, rfl, hs⟩ | ⟨ids, rfl, rfl, rfl, hs⟩
  · exact ⟨fun x r hx => Or.inl (same (by rw [hs]) (by rw [hs]) x r hx), fun x r _ ha => by simp at ha⟩
  · exact ⟨fun x r hx => Or.inl (same (by rw [hs]) (by rw [hs]) x r hx), fun x r _ ha => by simp at ha⟩
  · exact ⟨fun x r hx => Or.inl (same (by rw [hs]) (by rw [hs]) x r hx), fun x r _ ha => by simp at ha⟩
  · exact ⟨fun x r hx => Or.inl (same (by rw [hs]) (by rw [hs]) x r hx), fun x r _ ha => by simp at ha⟩
  · obtain ⟨_, _, _, rows', hr', _, _, hsame, _, _⟩ := resize_rows h1 hr
    refine ⟨fun x r hx => Or.inl ?_, fun x r _ ha => by simp at ha⟩
    rw [hlook s rows0 hr] at hx
    rw [hlook s' rows' (by rw [hs]; exact hr')]
    obtain ⟨hlt, _⟩ := List.getElem?_eq_some_iff.1 hx
    rw [hsame x hlt]; exact hx
  · obtain ⟨_, _, _, _, _, hr', hn⟩ := put_rows h1 hr
    refine ⟨fun x r hx => ?_, fun x r hx _ => ?_⟩
    · by_cases e : x = slot
      · right; rw [e]; exact ⟨row, hp, rfl⟩
      · left
        rw [hlook s rows0 hr] at hx
        rw [hlook s' _ (by rw [hs]; exact hr'), List.getElem?_set_ne (fun y => e y.symm)]
        exact hx
    · rw [hp] at hx
      injection hx with hx
      injection hx with e1 e2
      subst e1; subst e2
      rw [hlook s' _ (by rw [hs]; exact hr'), List.getElem?_set, if_pos rfl, if_pos hn]
  · exact ⟨fun x r hx => Or.inl (same (by rw [hs]) (by rw [hs]) x r hx), fun x r _ ha => by simp at ha⟩
  · exact ⟨fun x r hx => Or.inl (same (by rw [hs]) (by rw [hs]) x r hx), fun x r _ ha => by simp at ha⟩
  · exact ⟨fun x r hx => Or.inl (same (by rw [hs]) (by rw [hs]) x r hx), fun x r _ ha => by simp at ha⟩
  · exact ⟨fun x r hx => Or.inl (same (by rw [hs]) (by rw [hs]) x r hx), fun x r _ ha => by simp at ha⟩
  · exact ⟨fun x r hx => Or.inl (same (by rw [hs]) (by rw [hs]) x r hx), fun x r _ ha => by simp at ha⟩
  · exact ⟨fun x r hx => Or.inl (same (by rw [hs]) (by rw [hs]) x r hx), fun x r _ ha => by simp at ha⟩

/-- The number of insertions in a list of steps. -/
def Spec.inserts {ρ : Type} (as : List (Nat × Act ρ)) : Nat := (as.filter (fun x => match x.2 with
  | .insert _ => true
  | _ => false)).length

theorem fresh_step {ρ : Type} {locked : Bool} {zero : ρ} {s s' : State ρ} {t : Nat} {a : Act ρ} (I : Sized s) (h : s.step locked zero t a = some s') :
    s.fresh ≤ s'.fresh ∧ s'.fresh ≤ s.fresh + Spec.inserts [(t, a)] := by
  obtain ⟨rows, hr, _, _⟩ := I.rows
  obtain ⟨p, p', hp, hthr, hc⟩ := step_cases h
  rcases hc with ⟨row, slot, rest, rfl, rfl, rfl, hf, hs⟩ | ⟨row, rfl, rfl, hf, rfl, hs⟩ | ⟨slot, rfl, rfl, rfl, hv, hs⟩ | ⟨slot, row, rfl, rfl, rfl, hw, hl, hs⟩ |
    ⟨slot, row, newCap, s1, rfl, rfl, rfl, h1, hs⟩ | ⟨slot, row, s1, rfl, rfl, rfl, h1, hs⟩ | ⟨slot, rfl, rfl, rfl, hs⟩ | ⟨rfl, rfl, rfl, hs⟩ |
    ⟨ids, rfl, rfl, rfl, hl, hs⟩ | ⟨ids, rfl, rfl, rfl, hs⟩ | ⟨base, ids, slot, rfl, rfl, hm, rfl, hs⟩ | ⟨ids, rfl, rfl, rfl, hs⟩
  · rw [hs]; exact ⟨Nat.le_refl _, Nat.le_add_right _ _⟩
  · rw [hs]; exact ⟨Nat.le_succ _, Nat.le_refl _⟩
  · rw [hs]; exact ⟨Nat.le_refl _, Nat.le_add_right _ _⟩
  · rw [hs]; exact ⟨Nat.le_refl _, Nat.le_add_right _ _⟩
  · have e := (resize_rows h1 hr).2.2.1
    rw [hs]
    change s.fresh ≤ s1.fresh ∧ s1.fresh ≤ _
    rw [e]; exact ⟨Nat.le_refl _, Nat.le_add_right _ _⟩
  · have e := (put_rows h1 hr).2.2.1
    rw [hs]
    change s.fresh ≤ s1.fresh ∧ s1.fresh ≤ _
    rw [e]; exact ⟨Nat.le_refl _, Nat.le_add_right _ _⟩
  · rw [hs]; exact ⟨Nat.le_refl _, Nat.le_add_right _ _⟩
  · rw [hs]; exact ⟨Nat.le_refl _, Nat.le_add_right _ _⟩
  · rw [hs]; exact ⟨Nat.le_refl _, Nat.le_add_right _ _⟩
  · rw [hs]; exact ⟨Nat.le_refl _, Nat.le_add_right _ _⟩
  · rw [hs]; exact ⟨Nat.le_refl _, Nat.le_add_right _ _⟩
  · rw [hs]; exact ⟨Nat.le_refl _, Nat.le_add_right _ _⟩

theorem inserts_cons {ρ : Type} (x : Nat × Act ρ) (as : List (Nat × Act ρ)) : Spec.inserts (x :: as) = Spec.inserts [x] + Spec.inserts as := by
  unfold Spec.inserts
  rw [← List.singleton_append, List.filter_append, List.length_append]

theorem dark_run {ρ : Type} {locked : Bool} {zero : ρ} : ∀ (as : List (Nat × Act ρ)) (s s' : State ρ), Sized s → Dark s →
    (∀ t slot, (t, Act.remove slot) ∉ as) → s.fresh + Spec.inserts as ≤ s.cap → s.run locked zero as = some s' →
    Sized s' ∧ Dark s' ∧ s'.cur = s.cur ∧ s'.cap = s.cap ∧ ∀ v, v ∈ s.visible → v ∈ s'.visible ∧ s'.look s'.cur v = s.look s.cur v := by
  intro as
  induction as with
  | nil => intro s s' hz hd _ _ hr; injection hr with hr; subst hr; exact ⟨hz, hd, rfl, rfl, fun v hv => ⟨hv, rfl⟩⟩
  | cons x as ih =>
    obtain ⟨t, a⟩ := x
    intro s s' hz hd hnr hcap hr
    unfold State.run at hr
    split at hr
    · simp at hr
    · rename_i s1 h1
      rw [inserts_cons] at hcap
      obtain ⟨hf1, hf2⟩ := fresh_step hz h1
      obtain ⟨d1, d2, d3, d4, d5, d6⟩ := hd.step hz h1 (fun slot e => hnr t slot (by rw [← e]; exact List.mem_cons_self)) (by omega)
      obtain ⟨i1, i2, i3, i4, i5⟩ := ih s1 s' (hz.step h1) d1 (fun t slot hm => hnr t slot (List.mem_cons_of_mem _ hm)) (by rw [d2]; omega) hr
      refine ⟨i1, i2, i3.trans d5, i4.trans d2, fun v hv => ?_⟩
      obtain ⟨j1, j2⟩ := i5 v (d4 v hv)
      exact ⟨j1, j2.trans (d6 v hv)⟩

/-- Searches without a lock are safe too, if nothing is removed meanwhile and the codes were given room for all insertions beforehand. -/
theorem C85_unlocked_partial {ρ : Type} (zero : ρ) (rows : List ρ) (cap threads : Nat) (as : List (Nat × Act ρ)) (s : State ρ)
    (hnr : ∀ t slot, (t, Act.remove slot) ∉ as) (hcap : rows.length + Spec.inserts as ≤ cap) (h : (State.init rows cap threads).run false zero as = some s) :
    Spec.Safe s := by
  obtain ⟨hz, hd, _, _, _⟩ := dark_run as _ _ (Sized.init rows cap threads) (Dark.init rows cap threads) hnr hcap h
  obtain ⟨rows', hr, _, hph⟩ := hz.rows
  intro t base ids ht slot hslot
  have hb := hd.base t base ids ht
  refine ⟨look_lt (by rw [hb]; exact hr) ((hph t _ ht).1 slot hslot), ?_⟩
  intro u x row hu e
  have h1 := (hd.slot u _ x hu rfl).2
  rw [e] at h1
  exact h1 (hd.ids t _ slot ht hslot)

/-- Under the same conditions the code of a slot never changes once it is visible. -/
theorem C85_unlocked_frozen_partial {ρ : Type} (zero : ρ) (rows : List ρ) (cap threads : Nat) (as bs : List (Nat × Act ρ)) (s1 s2 : State ρ)
    (hnr : ∀ t slot, (t, Act.remove slot) ∉ as ++ bs) (hcap : rows.length + Spec.inserts (as ++ bs) ≤ cap)
    (h1 : (State.init rows cap threads).run false zero as = some s1) (h2 : s1.run false zero bs = some s2) :
    s2.cur = s1.cur ∧ ∀ v, v ∈ s1.visible → v ∈ s2.visible ∧ s2.look s2.cur v = s1.look s1.cur v := by
  have e : Spec.inserts (as ++ bs) = Spec.inserts as + Spec.inserts bs := by
    unfold Spec.inserts; rw [List.filter_append, List.length_append]
  obtain ⟨hz, hd, _, hc1, _⟩ := dark_run as _ _ (Sized.init rows cap threads) (Dark.init rows cap threads)
    (fun t slot hm => hnr t slot (List.mem_append_left _ hm)) (by change rows.length + _ ≤ cap; omega) h1
  have hfresh : s1.fresh ≤ rows.length + Spec.inserts as := by
    have key : ∀ (as : List (Nat × Act ρ)) (s s' : State ρ), Sized s → s.run false zero as = some s' → s'.fresh ≤ s.fresh + Spec.inserts as := by
      intro as
      induction as with
      | nil => intro s s' _ hr; injection hr with hr; rw [hr]; exact Nat.le_add_right _ _
      | cons x as ih =>
        obtain ⟨t, a⟩ := x
        intro s s' hz hr
        unfold State.run at hr
        split at hr
        · simp at hr
        · rename_i s1 hs1
          have := (fresh_step hz hs1).2
          have := ih s1 s' (hz.step hs1) hr
          rw [inserts_cons]; omega
    exact key as _ _ (Sized.init rows cap threads) h1
  obtain ⟨_, _, i3, _, i5⟩ := dark_run bs s1 s2 hz hd (fun t slot hm => hnr t slot (List.mem_append_right _ hm))
    (by rw [hc1]; change _ ≤ cap; omega) h2
  exact ⟨i3, i5⟩

/-- The two conditions are needed. Without a lock an insertion that has to move the codes frees the buffer a search is about to read,
although the search reads only slots that were visible before. -/
theorem C85_unlocked_growth_refuted : ∃ (as : List (Nat × Act Nat)) (s : State Nat) (base : Nat) (ids : List Nat),
    (State.init [10, 20] 2 2).run false 0 as = some s ∧ (∀ t slot, (t, Act.remove slot) ∉ as) ∧ s.thr[0]? = some (.got base ids) ∧ 1 ∈ ids ∧
      s.look base 1 = none := by
  refine ⟨[(0, .snapshot), (0, .start), (1, .insert 30), (0, .load), (1, .lock), (1, .grow 4)],
    ⟨[none, some [10, 20, 0]], 1, 4, [0, 1], [], 3, [.got 0 [0, 1], .grown 2 30]⟩, 0, [0, 1], by decide +kernel, ?_, rfl, by decide, rfl⟩
  intro t slot hm
  simp at hm

/-- Without a lock a slot that a search still reads can be removed, given to the next insertion and written, with room for all codes. -/
theorem C85_unlocked_reuse_refuted : ∃ (as : List (Nat × Act Nat)) (s s' : State Nat) (base : Nat) (ids : List Nat) (row : Nat),
    (State.init [10, 20] 100 2).run false 0 as = some s ∧ s.thr[0]? = some (.got base ids) ∧ 1 ∈ ids ∧ s.thr[1]? = some (.grown 1 row) ∧
      s.step false 0 1 .write = some s' ∧ s.look base 1 = some 20 ∧ s'.look base 1 = some 30 :=
  ⟨[(0, .snapshot), (0, .start), (1, .remove 1), (1, .insert 30), (0, .load), (1, .lock), (1, .grow 100)],
    ⟨[some [10, 20]], 0, 100, [0], [], 2, [.got 0 [0, 1], .grown 1 30]⟩, ⟨[some [10, 30]], 0, 100, [0], [], 2, [.got 0 [0, 1], .wrote 1]⟩, 0, [0, 1], 30,
    by decide +kernel, rfl, by decide, rfl, by decide +kernel, rfl, rfl⟩

/-! ### Cases -/

/-- The steps of the two refutations are not possible with the lock. -/
example : (State.init [10, 20] 2 2).run true 0 [(0, .snapshot), (0, .start), (1, .insert 30), (0, .load), (1, .lock)] = none := by decide +kernel

/-- A search with the lock, then an insertion that moves the codes, then a search that reads the new slot. -/
example : (State.init [10, 20] 2 2).run true 0 [(0, .snapshot), (1, .insert 30), (0, .start), (0, .load), (0, .read 1), (0, .finish), (1, .lock),
    (1, .grow 4), (1, .write), (1, .publish), (0, .snapshot), (0, .start), (0, .load)] =
    some ⟨[none, some [10, 20, 30]], 1, 4, [2, 0, 1], [], 3, [.got 1 [2, 0, 1], .idle]⟩ := by decide +kernel

/-- Without a lock, with room: the search runs across the write. -/
example : (State.init [10, 20] 3 2).run false 0 [(0, .snapshot), (0, .start), (1, .insert 30), (0, .load), (1, .lock), (1, .grow 0)] =
    some ⟨[some [10, 20, 0]], 0, 3, [0, 1], [], 3, [.got 0 [0, 1], .grown 2 30]⟩ ∧
    2 + Spec.inserts [(0, .snapshot), (0, .start), (1, .insert 30), (0, .load), (1, .lock), (1, (.grow 0 : Act Nat))] ≤ 3 := by decide +kernel

end Alaya.PQShare
