import Verif.Model.PQShare
import Mathlib.Tactic.ByContra

/- Invariants of the shared codes. -/
namespace Alaya.PQShare

/-- The rows of the current buffer. -/
def State.rows {ρ : Type} (s : State ρ) : Option (List ρ) := (s.heap[s.cur]?).join

/-- Slots that a reader may read. -/
def Phase.ids {ρ : Type} : Phase ρ → List Nat
  | .snap ids => ids
  | .reading ids => ids
  | .got _ ids => ids
  | _ => []

/-- The slot an inserter works on. -/
def Phase.slot {ρ : Type} : Phase ρ → Option Nat
  | .ins s _ => some s
  | .enc s _ => some s
  | .grown s _ => some s
  | .wrote s => some s
  | _ => none

/-- The slot whose row exists although it is not visible yet. -/
def Phase.ready {ρ : Type} : Phase ρ → Option Nat
  | .grown s _ => some s
  | .wrote s => some s
  | _ => none

/-- Sizes. -/
structure Sized {ρ : Type} (s : State ρ) : Prop where
  rows : ∃ rows, s.heap[s.cur]? = some (some rows) ∧ (∀ v, v ∈ s.visible → v < rows.length) ∧
    (∀ (t : Nat) (p : Phase ρ), s.thr[t]? = some p → (∀ v, v ∈ p.ids → v < rows.length) ∧ ∀ v, p.ready = some v → v < rows.length)
  one : ∀ (t u : Nat) (p q : Phase ρ), s.thr[t]? = some p → s.thr[u]? = some q → p.writer = true → q.writer = true → t = u

theorem set_phase {ρ : Type} {thr : List (Phase ρ)} {t u : Nat} {p q : Phase ρ} (h : (thr.set t p)[u]? = some q) :
    (u = t ∧ q = p) ∨ (u ≠ t ∧ thr[u]? = some q) := by
  rw [List.getElem?_set] at h
  split at h
  · rename_i e
    split at h
    · injection h with h; exact Or.inl ⟨e.symm, h.symm⟩
    · simp at h
  · rename_i e; exact Or.inr ⟨fun x => e x.symm, h⟩

theorem any_false {α : Type} {f : α → Bool} {l : List α} (h : l.any f = false) (t : Nat) (p : α) (hp : l[t]? = some p) : f p = false := by
  rw [List.any_eq_false] at h
  have := h p (List.mem_of_getElem? hp)
  simpa using this

/-- What every step does to heap and phases. -/
theorem step_cases {ρ : Type} {locked : Bool} {zero : ρ} {s s' : State ρ} {t : Nat} {a : Act ρ} (h : s.step locked zero t a = some s') :
    ∃ p p', s.thr[t]? = some p ∧ s'.thr = s.thr.set t p' ∧
    ( (∃ row slot rest, p = .idle ∧ a = .insert row ∧ p' = .ins slot row ∧ s.free = slot :: rest ∧ s' = { s with free := rest, thr := s.thr.set t p' })
    ∨ (∃ row, p = .idle ∧ a = .insert row ∧ s.free = [] ∧ p' = .ins s.fresh row ∧ s' = { s with fresh := s.fresh + 1, thr := s.thr.set t p' })
    ∨ (∃ slot, p = .idle ∧ a = .remove slot ∧ p' = .idle ∧ slot ∈ s.visible ∧
        s' = { s with visible := s.visible.filter (· ≠ slot), free := slot :: s.free, thr := s.thr.set t p' })
    ∨ (∃ slot row, p = .ins slot row ∧ a = .lock ∧ p' = .enc slot row ∧ s.thr.any Phase.writer = false ∧ (locked = true → s.thr.any Phase.reader = false) ∧
        s' = { s with thr := s.thr.set t p' })
    ∨ (∃ slot row newCap s1, p = .enc slot row ∧ a = .grow newCap ∧ p' = .grown slot row ∧ s.resize zero (slot + 1) newCap = some s1 ∧
        s' = { s1 with thr := s.thr.set t p' })
    ∨ (∃ slot row s1, p = .grown slot row ∧ a = .write ∧ p' = .wrote slot ∧ s.put slot row = some s1 ∧ s' = { s1 with thr := s.thr.set t p' })
    ∨ (∃ slot, p = .wrote slot ∧ a = .publish ∧ p' = .idle ∧ s' = { s with visible := slot :: s.visible, thr := s.thr.set t p' })
    ∨ (p = .idle ∧ a = .snapshot ∧ p' = .snap s.visible ∧ s' = { s with thr := s.thr.set t p' })
    ∨ (∃ ids, p = .snap ids ∧ a = .start ∧ p' = .reading ids ∧ (locked = true → s.thr.any Phase.writer = false) ∧ s' = { s with thr := s.thr.set t p' })
    ∨ (∃ ids, p = .reading ids ∧ a = .load ∧ p' = .got s.cur ids ∧ s' = { s with thr := s.thr.set t p' })
    ∨ (∃ base ids slot, p = .got base ids ∧ a = .read slot ∧ slot ∈ ids ∧ p' = .reading ids ∧ s' = { s with thr := s.thr.set t p' })
    ∨ (∃ ids, p = .reading ids ∧ a = .finish ∧ p' = .idle ∧ s' = { s with thr := s.thr.set t p' }) ) := by
  unfold State.step at h
  split at h
  · rename_i row ht
    split at h
    · rename_i slot rest hf
      injection h with h
      exact ⟨_, .ins slot row, ht, by rw [← h], Or.inl ⟨row, slot, rest, rfl, rfl, rfl, hf, h.symm⟩⟩
    · rename_i hf
      injection h with h
      exact ⟨_, .ins s.fresh row, ht, by rw [← h], Or.inr (Or.inl ⟨row, rfl, rfl, hf, rfl, h.symm⟩)⟩
  · rename_i slot ht
    split at h
    · rename_i hv
      injection h with h
      have hset : s.thr.set t (.idle : Phase ρ) = s.thr := by
        apply List.ext_getElem?
        intro i
        rw [List.getElem?_set]
        split
        · rename_i e
          subst e
          obtain ⟨hlt, hg⟩ := List.getElem?_eq_some_iff.1 ht
          rw [if_pos hlt, ht]
        · rfl
      refine ⟨_, .idle, ht, by rw [← h, hset], Or.inr (Or.inr (Or.inl ⟨slot, rfl, rfl, rfl, hv, ?_⟩))⟩
      rw [hset]; exact h.symm
    · simp at h
  · rename_i slot row ht
    split at h
    · rename_i hc
      injection h with h
      exact ⟨_, .enc slot row, ht, by rw [← h], Or.inr (Or.inr (Or.inr (Or.inl ⟨slot, row, rfl, rfl, rfl, hc.1, hc.2, h.symm⟩)))⟩
    · simp at h
  · rename_i slot row newCap ht
    obtain ⟨s1, h1, h2⟩ := Option.map_eq_some_iff.1 h
    have e : s1.thr = s.thr := by
      unfold State.resize at h1
      split at h1
      · split at h1
        · injection h1 with h1; rw [← h1]
        · split at h1
          · injection h1 with h1; rw [← h1]
          · split at h1
            · injection h1 with h1; rw [← h1]
            · simp at h1
      · simp at h1
    rw [e] at h2
    exact ⟨_, .grown slot row, ht, by rw [← h2], Or.inr (Or.inr (Or.inr (Or.inr (Or.inl ⟨slot, row, newCap, s1, rfl, rfl, rfl, h1, h2.symm⟩))))⟩
  · rename_i slot row ht
    obtain ⟨s1, h1, h2⟩ := Option.map_eq_some_iff.1 h
    have e : s1.thr = s.thr := by
      unfold State.put at h1
      split at h1
      · split at h1
        · injection h1 with h1; rw [← h1]
        · simp at h1
      · simp at h1
    rw [e] at h2
    exact ⟨_, .wrote slot, ht, by rw [← h2], Or.inr (Or.inr (Or.inr (Or.inr (Or.inr (Or.inl ⟨slot, row, s1, rfl, rfl, rfl, h1, h2.symm⟩)))))⟩
  · rename_i slot ht
    injection h with h
    exact ⟨_, .idle, ht, by rw [← h], Or.inr (Or.inr (Or.inr (Or.inr (Or.inr (Or.inr (Or.inl ⟨slot, rfl, rfl, rfl, h.symm⟩))))))⟩
  · rename_i ht
    injection h with h
    exact ⟨_, .snap s.visible, ht, by rw [← h], Or.inr (Or.inr (Or.inr (Or.inr (Or.inr (Or.inr (Or.inr (Or.inl ⟨rfl, rfl, rfl, h.symm⟩)))))))⟩
  · rename_i ids ht
    split at h
    · rename_i hc
      injection h with h
      exact ⟨_, .reading ids, ht, by rw [← h], Or.inr (Or.inr (Or.inr (Or.inr (Or.inr (Or.inr (Or.inr (Or.inr (Or.inl ⟨ids, rfl, rfl, rfl, hc, h.symm⟩))))))))⟩
    · simp at h
  · rename_i ids ht
    injection h with h
    exact ⟨_, .got s.cur ids, ht, by rw [← h], Or.inr (Or.inr (Or.inr (Or.inr (Or.inr (Or.inr (Or.inr (Or.inr (Or.inr (Or.inl ⟨ids, rfl, rfl, rfl, h.symm⟩)))))))))⟩
  · rename_i base ids slot ht
    split at h
    · rename_i hm
      injection h with h
      exact ⟨_, .reading ids, ht, by rw [← h], Or.inr (Or.inr (Or.inr (Or.inr (Or.inr (Or.inr (Or.inr (Or.inr (Or.inr (Or.inr (Or.inl
        ⟨base, ids, slot, rfl, rfl, hm, rfl, h.symm⟩))))))))))⟩
    · simp at h
  · rename_i ids ht
    injection h with h
    exact ⟨_, .idle, ht, by rw [← h], Or.inr (Or.inr (Or.inr (Or.inr (Or.inr (Or.inr (Or.inr (Or.inr (Or.inr (Or.inr (Or.inr
      ⟨ids, rfl, rfl, rfl, h.symm⟩))))))))))⟩
  · simp at h

/-- Growing keeps the rows that exist. -/
theorem resize_rows {ρ : Type} {zero : ρ} {s s1 : State ρ} {n newCap : Nat} (h : s.resize zero n newCap = some s1) {rows : List ρ}
    (hr : s.heap[s.cur]? = some (some rows)) : s1.visible = s.visible ∧ s1.free = s.free ∧ s1.fresh = s.fresh ∧
      ∃ rows', s1.heap[s1.cur]? = some (some rows') ∧ n ≤ rows'.length ∧ rows.length ≤ rows'.length ∧ (∀ i, i < rows.length → rows'[i]? = rows[i]?) ∧
        (n ≤ s.cap → s1.cur = s.cur ∧ s1.cap = s.cap) ∧ (n ≤ rows.length → s1 = s) := by
  obtain ⟨hlt, hge⟩ := List.getElem?_eq_some_iff.1 hr
  have hpad : ∀ i, i < rows.length → (rows ++ List.replicate (n - rows.length) zero)[i]? = rows[i]? := fun i hi => List.getElem?_append_left hi
  unfold State.resize at h
  rw [hr] at h
  simp only at h
  split at h
  · rename_i hle
    injection h with h
    subst h
    exact ⟨rfl, rfl, rfl, rows, hr, hle, Nat.le_refl _, fun _ _ => rfl, fun _ => ⟨rfl, rfl⟩, fun _ => rfl⟩
  · rename_i hle
    split at h
    · injection h with h
      subst h
      refine ⟨rfl, rfl, rfl, rows ++ List.replicate (n - rows.length) zero, ?_, ?_, ?_, hpad, fun _ => ⟨rfl, rfl⟩, fun x => absurd x hle⟩
      · simp only [List.getElem?_set]; rw [if_pos trivial, if_pos hlt]
      · rw [List.length_append, List.length_replicate]; omega
      · rw [List.length_append]; omega
    · rename_i hcap
      split at h
      · injection h with h
        subst h
        refine ⟨rfl, rfl, rfl, rows ++ List.replicate (n - rows.length) zero, ?_, ?_, ?_, hpad, fun x => absurd x hcap, fun x => absurd x hle⟩
        · simp only
          rw [List.getElem?_append_right (Nat.le_of_eq (List.length_set ..)), List.length_set, Nat.sub_self]; rfl
        · rw [List.length_append, List.length_replicate]; omega
        · rw [List.length_append]; omega
      · simp at h

theorem put_rows {ρ : Type} {s s1 : State ρ} {slot : Nat} {row : ρ} (h : s.put slot row = some s1) {rows : List ρ}
    (hr : s.heap[s.cur]? = some (some rows)) : s1.visible = s.visible ∧ s1.free = s.free ∧ s1.fresh = s.fresh ∧ s1.cur = s.cur ∧ s1.cap = s.cap ∧
      s1.heap[s1.cur]? = some (some (rows.set slot row)) ∧ slot < rows.length := by
  obtain ⟨hlt, hge⟩ := List.getElem?_eq_some_iff.1 hr
  unfold State.put at h
  rw [hr] at h
  simp only at h
  split at h
  · rename_i hs
    injection h with h
    subst h
    refine ⟨rfl, rfl, rfl, rfl, rfl, ?_, hs⟩
    simp only [List.getElem?_set]; rw [if_pos trivial, if_pos hlt]
  · simp at h

theorem Sized.init {ρ : Type} (rows : List ρ) (cap threads : Nat) : Sized (State.init rows cap threads) := by
  have hidle : ∀ (t : Nat) (p : Phase ρ), (State.init rows cap threads).thr[t]? = some p → p = .idle := by
    intro t p h
    unfold State.init at h
    simp only at h
    rw [List.getElem?_replicate] at h
    split at h
    · injection h with h; exact h.symm
    · simp at h
  refine ⟨⟨rows, rfl, ?_, ?_⟩, ?_⟩
  · intro v hv; exact List.mem_range.1 hv
  · intro t p h
    rw [hidle t p h]
    exact ⟨fun v hv => by simp [Phase.ids] at hv, fun v hv => by simp [Phase.ready] at hv⟩
  · intro t u p q hp hq hw
    rw [hidle t p hp] at hw; simp [Phase.writer] at hw

theorem Sized.step {ρ : Type} {locked : Bool} {zero : ρ} {s s' : State ρ} {t : Nat} {a : Act ρ} (I : Sized s) (h : s.step locked zero t a = some s') : Sized s' := by
  obtain ⟨p, p', hp, hthr, hc⟩ := step_cases h
  obtain ⟨rows, hr, hvis, hph⟩ := I.rows
  have hpp := hph t p hp
  -- keeping rows, given facts on the new phase
  have keep : ∀ (rows' : List ρ), s'.heap[s'.cur]? = some (some rows') → rows.length ≤ rows'.length → (∀ v, v ∈ s'.visible → v < rows'.length) →
      (∀ v, v ∈ p'.ids → v < rows'.length) → (∀ v, p'.ready = some v → v < rows'.length) →
      (p'.writer = true → p.writer = true ∨ s.thr.any Phase.writer = false) → Sized s' := by
    intro rows' hr' hle hv hi hrd hw
    refine ⟨⟨rows', hr', hv, ?_⟩, ?_⟩
    · intro u q hq
      rw [hthr] at hq
      rcases set_phase hq with ⟨_, rfl⟩ | ⟨_, hq⟩
      · exact ⟨hi, hrd⟩
      · have := hph u q hq
        exact ⟨fun v hv => Nat.lt_of_lt_of_le (this.1 v hv) hle, fun v hv => Nat.lt_of_lt_of_le (this.2 v hv) hle⟩
    · intro u w q x hq hx hqw hxw
      rw [hthr] at hq hx
      rcases set_phase hq with ⟨e1, rfl⟩ | ⟨e1, hq0⟩
      · rcases set_phase hx with ⟨e2, rfl⟩ | ⟨e2, hx⟩
        · rw [e1, e2]
        · rcases hw hqw with hw | hw
          · rw [e1]; exact I.one t w p x hp hx hw hxw
          · rw [any_false hw w x hx] at hxw; simp at hxw
      · rcases set_phase hx with ⟨e2, rfl⟩ | ⟨e2, hx⟩
        · rcases hw hxw with hw | hw
          · rw [e2]; exact I.one u t q p hq0 hp hqw hw
          · rw [any_false hw u q hq0] at hqw; simp at hqw
        · exact I.one u w q x hq0 hx hqw hxw
  rcases hc with ⟨row, slot, rest, rfl, rfl, rfl, hf, hs⟩ | ⟨row, rfl, rfl, hf, rfl, hs⟩ | ⟨slot, rfl, rfl, rfl, hv, hs⟩ | ⟨slot, row, rfl, rfl, rfl, hw, hl, hs⟩ |
    ⟨slot, row, newCap, s1, rfl, rfl, rfl, h1, hs⟩ | ⟨slot, row, s1, rfl, rfl, rfl, h1, hs⟩ | ⟨slot, rfl, rfl, rfl, hs⟩ | ⟨rfl, rfl, rfl, hs⟩ |
    ⟨ids, rfl, rfl, rfl, hl, hs⟩ | ⟨ids, rfl, rfl, rfl, hs⟩ | ⟨base, ids, slot, rfl, rfl, hm, rfl, hs⟩ | ⟨ids, rfl, rfl, rfl, hs⟩
  · exact keep rows (by rw [hs]; exact hr) (Nat.le_refl _) (by rw [hs]; exact hvis) (by simp [Phase.ids]) (by simp [Phase.ready]) (by simp [Phase.writer])
  · exact keep rows (by rw [hs]; exact hr) (Nat.le_refl _) (by rw [hs]; exact hvis) (by simp [Phase.ids]) (by simp [Phase.ready]) (by simp [Phase.writer])
  · refine keep rows (by rw [hs]; exact hr) (Nat.le_refl _) ?_ (by simp [Phase.ids]) (by simp [Phase.ready]) (by simp [Phase.writer])
    rw [hs]; intro v hv; exact hvis v (List.mem_filter.1 hv).1
  · exact keep rows (by rw [hs]; exact hr) (Nat.le_refl _) (by rw [hs]; exact hvis) (by simp [Phase.ids]) (by simp [Phase.ready]) (fun _ => Or.inr hw)
  · obtain ⟨e1, _, _, rows', hr', hn, hle, _, _, _⟩ := resize_rows h1 hr
    refine keep rows' (by rw [hs]; exact hr') hle ?_ (by simp [Phase.ids]) ?_ (fun _ => Or.inl rfl)
    · rw [hs]; intro v hv; change v ∈ s1.visible at hv; rw [e1] at hv; exact Nat.lt_of_lt_of_le (hvis v hv) hle
    · intro v hv; simp [Phase.ready] at hv; omega
  · obtain ⟨e1, _, _, _, _, hr', hn⟩ := put_rows h1 hr
    refine keep (rows.set slot row) (by rw [hs]; exact hr') (Nat.le_of_eq (List.length_set ..).symm) ?_ (by simp [Phase.ids]) ?_ (by simp [Phase.writer])
    · rw [hs, List.length_set]; intro v hv; change v ∈ s1.visible at hv; rw [e1] at hv; exact hvis v hv
    · intro v hv; simp [Phase.ready] at hv; rw [List.length_set]; omega
  · refine keep rows (by rw [hs]; exact hr) (Nat.le_refl _) ?_ (by simp [Phase.ids]) (by simp [Phase.ready]) (by simp [Phase.writer])
    rw [hs]
    intro v hv
    rcases List.mem_cons.1 hv with rfl | hv
    · exact hpp.2 v rfl
    · exact hvis v hv
  · exact keep rows (by rw [hs]; exact hr) (Nat.le_refl _) (by rw [hs]; exact hvis) hvis (by simp [Phase.ready]) (by simp [Phase.writer])
  · exact keep rows (by rw [hs]; exact hr) (Nat.le_refl _) (by rw [hs]; exact hvis) hpp.1 (by simp [Phase.ready]) (by simp [Phase.writer])
  · exact keep rows (by rw [hs]; exact hr) (Nat.le_refl _) (by rw [hs]; exact hvis) hpp.1 (by simp [Phase.ready]) (by simp [Phase.writer])
  · exact keep rows (by rw [hs]; exact hr) (Nat.le_refl _) (by rw [hs]; exact hvis) hpp.1 (by simp [Phase.ready]) (by simp [Phase.writer])
  · exact keep rows (by rw [hs]; exact hr) (Nat.le_refl _) (by rw [hs]; exact hvis) (by simp [Phase.ids]) (by simp [Phase.ready]) (by simp [Phase.writer])

/-- Readers and the writer exclude each other; an address that was loaded is that of the current buffer. -/
structure Excl {ρ : Type} (s : State ρ) : Prop where
  excl : ∀ (t u : Nat) (p q : Phase ρ), s.thr[t]? = some p → s.thr[u]? = some q → p.writer = true → q.reader = true → False
  base : ∀ (t : Nat) (base : Nat) (ids : List Nat), s.thr[t]? = some (.got base ids) → base = s.cur

theorem Excl.init {ρ : Type} (rows : List ρ) (cap threads : Nat) : Excl (State.init rows cap threads) := by
  have hidle : ∀ (t : Nat) (p : Phase ρ), (State.init rows cap threads).thr[t]? = some p → p = .idle := by
    intro t p h
    unfold State.init at h
    simp only at h
    rw [List.getElem?_replicate] at h
    split at h
    · injection h with h; exact h.symm
    · simp at h
  refine ⟨?_, ?_⟩
  · intro t u p q hp hq hw
    rw [hidle t p hp] at hw; simp [Phase.writer] at hw
  · intro t b ids h; have := hidle t _ h; simp at this

theorem Excl.step {ρ : Type} {zero : ρ} {s s' : State ρ} {t : Nat} {a : Act ρ} (I : Excl s) (h : s.step true zero t a = some s') :
    Excl s' ∧ ∀ (u : Nat) (q : Phase ρ), s.thr[u]? = some q → q.reader = true → s'.heap = s.heap ∧ s'.cur = s.cur := by
  obtain ⟨p, p', hp, hthr, hc⟩ := step_cases h
  have keep : (p'.writer = true → p.writer = true ∨ s.thr.any Phase.reader = false) → (p'.reader = true → p.reader = true ∨ s.thr.any Phase.writer = false) →
      (∀ b ids, p' = .got b ids → b = s'.cur) → (p.writer = true ∨ s'.cur = s.cur) → Excl s' := by
    intro hw hrd hb hcur
    refine ⟨?_, ?_⟩
    · intro u w q x hq hx hqw hxr
      rw [hthr] at hq hx
      rcases set_phase hq with ⟨e1, rfl⟩ | ⟨e1, hq0⟩
      · rcases set_phase hx with ⟨e2, rfl⟩ | ⟨e2, hx⟩
        · cases x <;> simp [Phase.writer, Phase.reader] at hqw hxr
        · rcases hw hqw with hw | hw
          · exact I.excl t w p x hp hx hw hxr
          · rw [any_false hw w x hx] at hxr; simp at hxr
      · rcases set_phase hx with ⟨e2, rfl⟩ | ⟨e2, hx⟩
        · rcases hrd hxr with hw | hw
          · exact I.excl u t q p hq0 hp hqw hw
          · rw [any_false hw u q hq0] at hqw; simp at hqw
        · exact I.excl u w q x hq0 hx hqw hxr
    · intro u b ids hu
      rw [hthr] at hu
      rcases set_phase hu with ⟨_, e⟩ | ⟨_, hu⟩
      · exact hb b ids e.symm
      · have hbu := I.base u b ids hu
        rcases hcur with hw | hcur
        · exact (I.excl t u p _ hp hu hw rfl).elim
        · rw [hbu, hcur]
  rcases hc with ⟨row, slot, rest, rfl, rfl, rfl, hf, hs⟩ | ⟨row, rfl, rfl, hf, rfl, hs⟩ | ⟨slot, rfl, rfl, rfl, hv, hs⟩ | ⟨slot, row, rfl, rfl, rfl, hw, hl, hs⟩ |
    ⟨slot, row, newCap, s1, rfl, rfl, rfl, h1, hs⟩ | ⟨slot, row, s1, rfl, rfl, rfl, h1, hs⟩ | ⟨slot, rfl, rfl, rfl, hs⟩ | ⟨rfl, rfl, rfl, hs⟩ |
    ⟨ids, rfl, rfl, rfl, hl, hs⟩ | ⟨ids, rfl, rfl, rfl, hs⟩ | ⟨base, ids, slot, rfl, rfl, hm, rfl, hs⟩ | ⟨ids, rfl, rfl, rfl, hs⟩
  · exact ⟨keep (by simp [Phase.writer]) (by simp [Phase.reader]) (by simp) (Or.inr (by rw [hs])), fun _ _ _ _ => by rw [hs]; exact ⟨rfl, rfl⟩⟩
  · exact ⟨keep (by simp [Phase.writer]) (by simp [Phase.reader]) (by simp) (Or.inr (by rw [hs])), fun _ _ _ _ => by rw [hs]; exact ⟨rfl, rfl⟩⟩
  · exact ⟨keep (by simp [Phase.writer]) (by simp [Phase.reader]) (by simp) (Or.inr (by rw [hs])), fun _ _ _ _ => by rw [hs]; exact ⟨rfl, rfl⟩⟩
  · exact ⟨keep (fun _ => Or.inr (hl rfl)) (by simp [Phase.reader]) (by simp) (Or.inr (by rw [hs])), fun _ _ _ _ => by rw [hs]; exact ⟨rfl, rfl⟩⟩
  · exact ⟨keep (fun _ => Or.inl rfl) (by simp [Phase.reader]) (by simp) (Or.inl rfl), fun u q hq hqr => (I.excl t u _ q hp hq rfl hqr).elim⟩
  · exact ⟨keep (by simp [Phase.writer]) (by simp [Phase.reader]) (by simp) (Or.inl rfl), fun u q hq hqr => (I.excl t u _ q hp hq rfl hqr).elim⟩
  · exact ⟨keep (by simp [Phase.writer]) (by simp [Phase.reader]) (by simp) (Or.inr (by rw [hs])), fun _ _ _ _ => by rw [hs]; exact ⟨rfl, rfl⟩⟩
  · exact ⟨keep (by simp [Phase.writer]) (by simp [Phase.reader]) (by simp) (Or.inr (by rw [hs])), fun _ _ _ _ => by rw [hs]; exact ⟨rfl, rfl⟩⟩
  · exact ⟨keep (by simp [Phase.writer]) (fun _ => Or.inr (hl rfl)) (by simp) (Or.inr (by rw [hs])), fun _ _ _ _ => by rw [hs]; exact ⟨rfl, rfl⟩⟩
  · refine ⟨keep (by simp [Phase.writer]) (fun _ => Or.inl rfl) ?_ (Or.inr (by rw [hs])), fun _ _ _ _ => by rw [hs]; exact ⟨rfl, rfl⟩⟩
    intro b ids e
    injection e with e1 e2
    rw [← e1, hs]
  · exact ⟨keep (by simp [Phase.writer]) (fun _ => Or.inl rfl) (by simp) (Or.inr (by rw [hs])), fun _ _ _ _ => by rw [hs]; exact ⟨rfl, rfl⟩⟩
  · exact ⟨keep (by simp [Phase.writer]) (by simp [Phase.reader]) (by simp) (Or.inr (by rw [hs])), fun _ _ _ _ => by rw [hs]; exact ⟨rfl, rfl⟩⟩

/-- No removals and enough capacity: the buffer stays, and slots are written only before they become visible. -/
structure Dark {ρ : Type} (s : State ρ) : Prop where
  free : s.free = []
  vis : ∀ v, v ∈ s.visible → v < s.fresh
  slot : ∀ (t : Nat) (p : Phase ρ) (v : Nat), s.thr[t]? = some p → p.slot = some v → v < s.fresh ∧ v ∉ s.visible
  diff : ∀ (t u : Nat) (p q : Phase ρ) (v : Nat), s.thr[t]? = some p → s.thr[u]? = some q → p.slot = some v → q.slot = some v → t = u
  ids : ∀ (t : Nat) (p : Phase ρ) (v : Nat), s.thr[t]? = some p → v ∈ p.ids → v ∈ s.visible
  base : ∀ (t : Nat) (base : Nat) (ids : List Nat), s.thr[t]? = some (.got base ids) → base = s.cur

theorem Dark.init {ρ : Type} (rows : List ρ) (cap threads : Nat) : Dark (State.init rows cap threads) := by
  have hidle : ∀ (t : Nat) (p : Phase ρ), (State.init rows cap threads).thr[t]? = some p → p = .idle := by
    intro t p h
    unfold State.init at h
    simp only at h
    rw [List.getElem?_replicate] at h
    split at h
    · injection h with h; exact h.symm
    · simp at h
  refine ⟨rfl, ?_, ?_, ?_, ?_, ?_⟩
  · intro v hv; exact List.mem_range.1 hv
  · intro t p v h hs; rw [hidle t p h] at hs; simp [Phase.slot] at hs
  · intro t u p q v h _ hs; rw [hidle t p h] at hs; simp [Phase.slot] at hs
  · intro t p v h hs; rw [hidle t p h] at hs; simp [Phase.ids] at hs
  · intro t b ids h; have := hidle t _ h; simp at this

theorem Dark.step {ρ : Type} {zero : ρ} {s s' : State ρ} {t : Nat} {a : Act ρ} {locked : Bool} (I : Dark s) (Z : Sized s) (h : s.step locked zero t a = some s')
    (hnr : ∀ slot, a ≠ .remove slot) (hcap : s'.fresh ≤ s.cap) :
    Dark s' ∧ s'.cap = s.cap ∧ s.fresh ≤ s'.fresh ∧ (∀ v, v ∈ s.visible → v ∈ s'.visible) ∧ s'.cur = s.cur ∧
      ∀ v, v ∈ s.visible → s'.look s'.cur v = s.look s.cur v := by
  obtain ⟨p, p', hp, hthr, hc⟩ := step_cases h
  obtain ⟨rows, hr, hvis, hph⟩ := Z.rows
  have keep : s'.free = [] → s.fresh ≤ s'.fresh → s'.visible = s.visible → s'.cur = s.cur → (∀ v, p'.slot = some v → v < s'.fresh ∧ v ∉ s.visible) →
      (∀ v, p'.slot = some v → p.slot = some v ∨ s.fresh ≤ v) → (∀ v, v ∈ p'.ids → v ∈ s.visible) → (∀ b ids, p' = .got b ids → b = s.cur) → Dark s' := by
    intro hf hfr hv hcur hsl hold hids hb
    refine ⟨hf, ?_, ?_, ?_, ?_, ?_⟩
    · intro v hvv; rw [hv] at hvv; exact Nat.lt_of_lt_of_le (I.vis v hvv) hfr
    · intro u q v hq hqs
      rw [hthr] at hq
      rw [hv]
      rcases set_phase hq with ⟨_, rfl⟩ | ⟨_, hq⟩
      · exact hsl v hqs
      · have := I.slot u q v hq hqs
        exact ⟨Nat.lt_of_lt_of_le this.1 hfr, this.2⟩
    · intro u w q x v hq hx hqs hxs
      rw [hthr] at hq hx
      rcases set_phase hq with ⟨e1, rfl⟩ | ⟨e1, hq0⟩
      · rcases set_phase hx with ⟨e2, rfl⟩ | ⟨e2, hx⟩
        · rw [e1, e2]
        · rcases hold v hqs with h1 | h1
          · rw [e1]; exact I.diff t w p x v hp hx h1 hxs
          · have := (I.slot w x v hx hxs).1; omega
      · rcases set_phase hx with ⟨e2, rfl⟩ | ⟨e2, hx⟩
        · rcases hold v hxs with h1 | h1
          · rw [e2]; exact I.diff u t q p v hq0 hp hqs h1
          · have := (I.slot u q v hq0 hqs).1; omega
        · exact I.diff u w q x v hq0 hx hqs hxs
    · intro u q v hq hqi
      rw [hthr] at hq
      rw [hv]
      rcases set_phase hq with ⟨_, rfl⟩ | ⟨_, hq⟩
      · exact hids v hqi
      · exact I.ids u q v hq hqi
    · intro u b ids hu
      rw [hthr] at hu
      rw [hcur]
      rcases set_phase hu with ⟨_, e⟩ | ⟨_, hu⟩
      · exact hb b ids e.symm
      · exact I.base u b ids hu
  rcases hc with ⟨row, slot, rest, rfl, rfl, rfl, hf, hs⟩ | ⟨row, rfl, rfl, hf, rfl, hs⟩ | ⟨slot, rfl, rfl, rfl, hv, hs⟩ | ⟨slot, row, rfl, rfl, rfl, hw, hl, hs⟩ |
    ⟨slot, row, newCap, s1, rfl, rfl, rfl, h1, hs⟩ | ⟨slot, row, s1, rfl, rfl, rfl, h1, hs⟩ | ⟨slot, rfl, rfl, rfl, hs⟩ | ⟨rfl, rfl, rfl, hs⟩ |
    ⟨ids, rfl, rfl, rfl, hl, hs⟩ | ⟨ids, rfl, rfl, rfl, hs⟩ | ⟨base, ids, slot, rfl, rfl, hm, rfl, hs⟩ | ⟨ids, rfl, rfl, rfl, hs⟩
  · rw [I.free] at hf; simp at hf
  · refine ⟨keep (by rw [hs]; exact I.free) (by rw [hs]; exact Nat.le_succ _) (by rw [hs]) (by rw [hs]) ?_ ?_ (by simp [Phase.ids]) (by simp), by rw [hs],
      by rw [hs]; exact Nat.le_succ _, by rw [hs]; exact fun v hv => hv, by rw [hs], by rw [hs]; exact fun v _ => rfl⟩
    · intro v hv
      simp [Phase.slot] at hv
      subst hv
      refine ⟨by rw [hs]; exact Nat.lt_succ_self _, ?_⟩
      intro hm
      exact Nat.lt_irrefl _ (I.vis _ hm)
    · intro v hv
      simp [Phase.slot] at hv
      exact Or.inr (by omega)
  · exact absurd rfl (hnr slot)
  · exact ⟨keep (by rw [hs]; exact I.free) (by rw [hs]; exact Nat.le_refl _) (by rw [hs]) (by rw [hs]) (fun v hv => by rw [hs]; exact I.slot t _ v hp hv) (fun v hv => Or.inl hv) (by simp [Phase.ids])
      (by simp), by rw [hs], by rw [hs]; exact Nat.le_refl _, by rw [hs]; exact fun v hv => hv, by rw [hs], by rw [hs]; exact fun v _ => rfl⟩
  · obtain ⟨e1, e2, e3, rows', hr', hn, hle, hsame, hin, _⟩ := resize_rows h1 hr
    have hfr := (I.slot t _ slot hp rfl).1
    have hfe : s'.fresh = s.fresh := by rw [hs]; exact e3
    obtain ⟨hcur, hcp⟩ := hin (by omega)
    refine ⟨keep (by rw [hs]; exact e2.trans I.free) (by omega) (by rw [hs]; exact e1) (by rw [hs]; exact hcur) (fun v hv => by rw [hfe]; exact I.slot t _ v hp hv)
      (fun v hv => Or.inl hv) (by simp [Phase.ids]) (by simp), by rw [hs]; exact hcp, by omega, by rw [hs]; intro v hv; change v ∈ s1.visible; rw [e1]; exact hv,
      by rw [hs]; exact hcur, ?_⟩
    intro v hv
    rw [hs]
    change State.look { s1 with thr := _ } s1.cur v = _
    unfold State.look
    change (match s1.heap[s1.cur]? with
      | some (some rows) => rows[v]?
      | _ => none) = _
    rw [hr', hr]
    exact hsame v (hvis v hv)
  · obtain ⟨e1, e2, e3, e4, e5, hr', hn⟩ := put_rows h1 hr
    have hfe : s'.fresh = s.fresh := by rw [hs]; exact e3
    refine ⟨keep (by rw [hs]; exact e2.trans I.free) (by omega) (by rw [hs]; exact e1) (by rw [hs]; exact e4) (fun v hv => by rw [hfe]; exact I.slot t _ v hp hv)
      (fun v hv => Or.inl hv) (by simp [Phase.ids]) (by simp), by rw [hs]; exact e5, by omega, by rw [hs]; intro v hv; change v ∈ s1.visible; rw [e1]; exact hv,
      by rw [hs]; exact e4, ?_⟩
    intro v hv
    rw [hs]
    unfold State.look
    change (match s1.heap[s1.cur]? with
      | some (some rows) => rows[v]?
      | _ => none) = _
    rw [hr', hr]
    simp only
    rw [List.getElem?_set_ne]
    intro e
    exact (I.slot t _ slot hp rfl).2 (e ▸ hv)
  · have hsl := I.slot t _ slot hp rfl
    have hothers : ∀ (u : Nat) (q : Phase ρ), u ≠ t → s.thr[u]? = some q → q.slot ≠ some slot := by
      intro u q hut hq hqs
      exact hut (I.diff u t q _ slot hq hp hqs rfl)
    refine ⟨⟨by rw [hs]; exact I.free, ?_, ?_, ?_, ?_, ?_⟩, by rw [hs], by rw [hs]; exact Nat.le_refl _, by rw [hs]; exact fun v hv => List.mem_cons_of_mem _ hv, by rw [hs],
      by rw [hs]; exact fun v _ => rfl⟩
    · rw [hs]
      intro v hv
      rcases List.mem_cons.1 hv with rfl | hv
      · exact hsl.1
      · exact I.vis v hv
    · intro u q v hq hqs
      rw [hthr] at hq
      rcases set_phase hq with ⟨_, rfl⟩ | ⟨hut, hq⟩
      · simp [Phase.slot] at hqs
      · have := I.slot u q v hq hqs
        rw [hs]
        refine ⟨this.1, ?_⟩
        intro hm
        rcases List.mem_cons.1 hm with rfl | hm
        · exact hothers u q hut hq hqs
        · exact this.2 hm
    · intro u w q x v hq hx hqs hxs
      rw [hthr] at hq hx
      rcases set_phase hq with ⟨_, rfl⟩ | ⟨_, hq⟩
      · simp [Phase.slot] at hqs
      · rcases set_phase hx with ⟨_, rfl⟩ | ⟨_, hx⟩
        · simp [Phase.slot] at hxs
        · exact I.diff u w q x v hq hx hqs hxs
    · intro u q v hq hqi
      rw [hthr] at hq
      rcases set_phase hq with ⟨_, rfl⟩ | ⟨_, hq⟩
      · simp [Phase.ids] at hqi
      · rw [hs]; exact List.mem_cons_of_mem _ (I.ids u q v hq hqi)
    · intro u b ids hu
      rw [hthr] at hu
      rcases set_phase hu with ⟨_, e⟩ | ⟨_, hu⟩
      · simp at e
      · rw [hs]; exact I.base u b ids hu
  · exact ⟨keep (by rw [hs]; exact I.free) (by rw [hs]; exact Nat.le_refl _) (by rw [hs]) (by rw [hs]) (by simp [Phase.slot]) (by simp [Phase.slot]) (fun v hv => hv)
      (by simp), by rw [hs], by rw [hs]; exact Nat.le_refl _, by rw [hs]; exact fun v hv => hv, by rw [hs], by rw [hs]; exact fun v _ => rfl⟩
  · exact ⟨keep (by rw [hs]; exact I.free) (by rw [hs]; exact Nat.le_refl _) (by rw [hs]) (by rw [hs]) (by simp [Phase.slot]) (by simp [Phase.slot]) (fun v hv => I.ids t _ v hp hv)
      (by simp), by rw [hs], by rw [hs]; exact Nat.le_refl _, by rw [hs]; exact fun v hv => hv, by rw [hs], by rw [hs]; exact fun v _ => rfl⟩
  · refine ⟨keep (by rw [hs]; exact I.free) (by rw [hs]; exact Nat.le_refl _) (by rw [hs]) (by rw [hs]) (by simp [Phase.slot]) (by simp [Phase.slot]) (fun v hv => I.ids t _ v hp hv)
      ?_, by rw [hs], by rw [hs]; exact Nat.le_refl _, by rw [hs]; exact fun v hv => hv, by rw [hs], by rw [hs]; exact fun v _ => rfl⟩
    intro b ids e
    injection e with e1 e2
    exact e1.symm
  · exact ⟨keep (by rw [hs]; exact I.free) (by rw [hs]; exact Nat.le_refl _) (by rw [hs]) (by rw [hs]) (by simp [Phase.slot]) (by simp [Phase.slot]) (fun v hv => I.ids t _ v hp hv)
      (by simp), by rw [hs], by rw [hs]; exact Nat.le_refl _, by rw [hs]; exact fun v hv => hv, by rw [hs], by rw [hs]; exact fun v _ => rfl⟩
  · exact ⟨keep (by rw [hs]; exact I.free) (by rw [hs]; exact Nat.le_refl _) (by rw [hs]) (by rw [hs]) (by simp [Phase.slot]) (by simp [Phase.slot]) (by simp [Phase.ids])
      (by simp), by rw [hs], by rw [hs]; exact Nat.le_refl _, by rw [hs]; exact fun v hv => hv, by rw [hs], by rw [hs]; exact fun v _ => rfl⟩

end Alaya.PQShare
