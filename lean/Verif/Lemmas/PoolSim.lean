import Verif.Lemmas.GreedySearch

/- The contents of the queue's array beyond `size` never matter. -/
namespace Alaya.Pools

structure Sim (q q' : NPQ) : Prop where
  size : q.size = q'.size
  cur : q.cur = q'.cur
  cap : q.cap = q'.cap
  ent : q.entries = q'.entries
  len : q.cap + 1 ≤ q.data.length
  len' : q.cap + 1 ≤ q'.data.length
  le : q.size ≤ q.cap

theorem bsearch_congr {α : Type} {data data' : List α} {gt stop : α → Bool} {size : Nat}
    (h : ∀ i : Nat, i < size → data[i]? = data'[i]?) : ∀ (f l r : Nat), r ≤ size →
    bsearch data gt stop f l r = bsearch data' gt stop f l r := by
  intro f
  induction f with
  | zero => intro l r _; rfl
  | succ f ih =>
    intro l r hr
    unfold bsearch
    by_cases hlr : l < r
    · rw [if_pos hlr, if_pos hlr, h _ (by omega), ih l ((l + r) / 2) (by omega), ih ((l + r) / 2 + 1) r hr]
    · rw [if_neg hlr, if_neg hlr]

theorem bsearch_le {α : Type} {data : List α} {gt stop : α → Bool} : ∀ (f l r lo : Nat), l ≤ r →
    bsearch data gt stop f l r = some (some lo) → lo ≤ r := by
  intro f
  induction f with
  | zero => intro l r lo h e; cases e; exact h
  | succ f ih =>
    intro l r lo h e
    unfold bsearch at e
    split at e
    · split at e
      · cases e
      · split at e
        · have := ih _ _ _ (by omega) e; omega
        · split at e
          · cases e
          · exact ih _ _ _ (by omega) e
    · cases e; exact h

theorem skip_congr {α : Type} {data data' : List α} {done : α → Bool} {size : Nat}
    (h : ∀ i : Nat, i < size → data[i]? = data'[i]?) : ∀ (f cur : Nat),
    skip data done size f cur = skip data' done size f cur := by
  intro f
  induction f with
  | zero => intro cur; rfl
  | succ f ih =>
    intro cur
    unfold skip
    by_cases hc : cur < size
    · rw [if_pos hc, if_pos hc, h _ hc, ih (cur + 1)]
    · rw [if_neg hc, if_neg hc]

theorem Sim.get {q q' : NPQ} (h : Sim q q') (i : Nat) (hi : i < q.size) : q.data[i]? = q'.data[i]? := by
  have a : q.entries[i]? = q.data[i]? := by unfold NPQ.entries; rw [List.getElem?_take, if_pos hi]
  have b : q'.entries[i]? = q'.data[i]? := by unfold NPQ.entries; rw [List.getElem?_take, if_pos (by rw [← h.size]; exact hi)]
  rw [← a, ← b, h.ent]

/-- Two outcomes of an operation that agree up to the unused part of the array. -/
def SimRes {β : Type} : Option (NPQ × β) → Option (NPQ × β) → Prop
  | none, none => True
  | some (q, r), some (q', r') => Sim q q' ∧ r = r'
  | _, _ => False

theorem Sim.place {q q' : NPQ} (h : Sim q q') (hc : 0 < q.cap) (n : Nbr) : SimRes (q.place n) (q'.place n) := by
  have hg := h.get
  unfold NPQ.place
  rw [← h.size, ← h.cap, ← h.cur, bsearch_congr (data := q.data) (data' := q'.data) hg q.size 0 q.size (Nat.le_refl _)]
  cases hb : bsearch q'.data (fun e => n.lt e) (fun e => e.id == n.id) q.size 0 q.size with
  | none => trivial
  | some o =>
    cases o with
    | none => exact ⟨h, rfl⟩
    | some lo =>
      simp only
      have hlo := bsearch_le _ _ _ _ (Nat.zero_le _) hb
      have hle := h.le
      have hl1 := h.len
      have hl2 := h.len'
      have hent : q.data.take q.size = q'.data.take q.size := by
        have := h.ent
        unfold NPQ.entries at this
        rw [← h.size] at this
        exact this
      have hev : (if q.size = q.cap then q.data[q.cap - 1]? else some ⟨0, 0, false⟩) =
          (if q.size = q.cap then q'.data[q.cap - 1]? else some ⟨0, 0, false⟩) := by
        by_cases hf : q.size = q.cap
        · rw [if_pos hf, if_pos hf]
          exact hg _ (by omega)
        · rw [if_neg hf, if_neg hf]
      rw [hev]
      have hsz : (if q.size < q.cap then q.size + 1 else q.size) ≤ q.size + 1 := by split <;> omega
      have hsz2 : (if q.size < q.cap then q.size + 1 else q.size) ≤ q.cap := by split <;> omega
      by_cases hlc : lo < q.cap
      · rw [if_pos hlc, if_pos hlc]
        obtain ⟨d1, a1, a2, a3⟩ := insertAt_spec (data := q.data) (lo := lo) (size := q.size) ⟨n.id, n.dist, false⟩ hlo (by omega)
        obtain ⟨d2, b1, b2, b3⟩ := insertAt_spec (data := q'.data) (lo := lo) (size := q.size) ⟨n.id, n.dist, false⟩ hlo (by omega)
        rw [a1, b1]
        cases (if q.size = q.cap then q'.data[q.cap - 1]? else some ⟨0, 0, false⟩) with
        | none => trivial
        | some ev =>
          refine ⟨⟨rfl, rfl, rfl, ?_, by simp only; omega, by simp only; omega, hsz2⟩, rfl⟩
          show d1.take _ = d2.take _
          rw [a3 _ hsz, b3 _ hsz, hent]
      · rw [if_neg hlc, if_neg hlc, if_pos (show lo < q.data.length by omega), if_pos (show lo < q'.data.length by omega)]
        cases (if q.size = q.cap then q'.data[q.cap - 1]? else some ⟨0, 0, false⟩) with
        | none => trivial
        | some ev =>
          refine ⟨⟨rfl, rfl, rfl, ?_, by simp only [List.length_set]; omega, by simp only [List.length_set]; omega, hsz2⟩, rfl⟩
          show List.take _ (q.data.set lo _) = List.take _ (q'.data.set lo _)
          have : (if q.size < q.cap then q.size + 1 else q.size) = q.size := by rw [if_neg (by omega)]
          rw [this, List.take_set, List.take_set, hent]

theorem Sim.insert {q q' : NPQ} (h : Sim q q') (n : Nbr) : SimRes (q.insert n) (q'.insert n) := by
  unfold NPQ.insert
  rw [← h.size, ← h.cap]
  by_cases hc : q.cap = 0
  · rw [if_pos hc, if_pos hc]; exact ⟨h, rfl⟩
  · rw [if_neg hc, if_neg hc]
    by_cases hf : q.size = q.cap
    · rw [if_pos hf, if_pos hf, h.get (q.size - 1) (by omega)]
      cases q'.data[q.size - 1]? with
      | none => trivial
      | some last =>
        simp only
        by_cases hl : last.lt n = true
        · rw [if_pos hl, if_pos hl]; exact ⟨h, rfl⟩
        · rw [if_neg hl, if_neg hl]; exact h.place (by omega) n
    · rw [if_neg hf, if_neg hf]; exact h.place (by omega) n

theorem Sim.closest {q q' : NPQ} (h : Sim q q') (hu : q.hasUnexpanded = true) : SimRes q.closest q'.closest := by
  have hcs : q.cur < q.size := by simpa [NPQ.hasUnexpanded] using hu
  unfold NPQ.closest
  have hent : q.data.take q.size = q'.data.take q.size := by
    have := h.ent
    unfold NPQ.entries at this
    rw [← h.size] at this
    exact this
  rw [← h.size, ← h.cap, ← h.cur, h.get q.cur hcs]
  cases q'.data[q.cur]? with
  | none => trivial
  | some e =>
    simp only
    have hg2 : ∀ i : Nat, i < q.size → (q.data.set q.cur { e with expanded := true })[i]? =
        (q'.data.set q.cur { e with expanded := true })[i]? := by
      intro i hi
      rw [List.getElem?_set, List.getElem?_set, h.get i hi]
      have := h.len; have := h.len'; have := h.le
      by_cases hi : q.cur = i
      · rw [if_pos hi, if_pos hi, if_pos (by omega), if_pos (by omega)]
      · rw [if_neg hi, if_neg hi]
    rw [skip_congr hg2]
    cases skip (q'.data.set q.cur { e with expanded := true }) (fun x => x.expanded) q.size (q.size - q.cur) q.cur with
    | none => trivial
    | some c =>
      have := h.len; have := h.len'; have := h.le
      refine ⟨⟨rfl, rfl, rfl, ?_, by simpa using h.len, by simpa using h.len', h.le⟩, rfl⟩
      show List.take _ _ = List.take _ _
      simp only
      rw [List.take_set, List.take_set, hent]

structure SSim (s s' : Scratch) : Prop where
  vis : s.visited = s'.visited
  tou : s.touched = s'.touched
  pool : Sim s.pool s'.pool

def SSimO : Option Scratch → Option Scratch → Prop
  | none, none => True
  | some s, some s' => SSim s s'
  | _, _ => False

theorem SSim.visit {s s' : Scratch} (h : SSim s s') (dist : Nat → Int) (m : Nat) : SSimO (s.visit dist m) (s'.visit dist m) := by
  unfold Scratch.visit
  rw [h.vis, h.tou]
  cases setAt s'.visited m true with
  | none => trivial
  | some vs =>
    simp only
    have := h.pool.insert ⟨m, dist m, false⟩
    cases ha : s.pool.insert ⟨m, dist m, false⟩ with
    | none =>
      rw [ha] at this
      cases hb : s'.pool.insert ⟨m, dist m, false⟩ with
      | none => trivial
      | some p => rw [hb] at this; exact this.elim
    | some p =>
      rw [ha] at this
      cases hb : s'.pool.insert ⟨m, dist m, false⟩ with
      | none => rw [hb] at this; exact this.elim
      | some p' => rw [hb] at this; exact ⟨rfl, rfl, this.1⟩

theorem SSim.visitAll (dist : Nat → Int) (ms : List Nat) : ∀ {s s' : Scratch}, SSim s s' →
    SSimO (s.visitAll dist ms) (s'.visitAll dist ms) := by
  induction ms with
  | nil => intro s s' h; exact h
  | cons m ms ih =>
    intro s s' h
    unfold Scratch.visitAll
    rw [h.vis]
    cases s'.visited[m]? with
    | none => trivial
    | some b =>
      cases b with
      | true => exact ih h
      | false =>
        simp only
        have := h.visit dist m
        cases ha : s.visit dist m with
        | none =>
          rw [ha] at this
          cases hb : s'.visit dist m with
          | none => trivial
          | some p => rw [hb] at this; exact this.elim
        | some p =>
          rw [ha] at this
          cases hb : s'.visit dist m with
          | none => rw [hb] at this; exact this.elim
          | some p' => rw [hb] at this; exact ih this

theorem SSim.loop (g : Graph) (dist : Nat → Int) (fuel : Nat) : ∀ {s s' : Scratch}, SSim s s' →
    SSimO (Scratch.loop g dist fuel s) (Scratch.loop g dist fuel s') := by
  have hu : ∀ {s s' : Scratch}, SSim s s' → s.pool.hasUnexpanded = s'.pool.hasUnexpanded := by
    intro s s' h
    unfold NPQ.hasUnexpanded
    rw [h.pool.cur, h.pool.size]
  induction fuel with
  | zero =>
    intro s s' h
    unfold Scratch.loop
    rw [hu h]
    split
    · trivial
    · exact h
  | succ fuel ih =>
    intro s s' h
    unfold Scratch.loop
    rw [← hu h]
    cases hh : s.pool.hasUnexpanded with
    | false => exact h
    | true =>
      rw [if_pos rfl, if_pos rfl]
      have hcl := h.pool.closest hh
      cases ha : s.pool.closest with
      | none =>
        rw [ha] at hcl
        cases hb : s'.pool.closest with
        | none => trivial
        | some p => rw [hb] at hcl; exact hcl.elim
      | some p =>
        rw [ha] at hcl
        cases hb : s'.pool.closest with
        | none => rw [hb] at hcl; exact hcl.elim
        | some p' =>
          rw [hb] at hcl
          obtain ⟨p1, n⟩ := p
          obtain ⟨p1', n'⟩ := p'
          obtain ⟨hsim, hn⟩ := hcl
          have hn : n = n' := hn
          subst hn
          simp only
          cases g[n.id]? with
          | none => trivial
          | some nbrs =>
            simp only
            have hv := SSim.visitAll dist nbrs (s := { s with pool := p1 }) (s' := { s' with pool := p1' }) ⟨h.vis, h.tou, hsim⟩
            cases hc : Scratch.visitAll { s with pool := p1 } dist nbrs with
            | none =>
              rw [hc] at hv
              cases hd : Scratch.visitAll { s' with pool := p1' } dist nbrs with
              | none => trivial
              | some x => rw [hd] at hv; exact hv.elim
            | some y =>
              rw [hc] at hv
              cases hd : Scratch.visitAll { s' with pool := p1' } dist nbrs with
              | none => rw [hd] at hv; exact hv.elim
              | some x => rw [hd] at hv; exact ih hv

theorem Sim.reset (q q' : NPQ) (cap : Nat) : Sim (q.reset cap) (q'.reset cap) := by
  refine ⟨rfl, rfl, rfl, by simp [NPQ.entries, NPQ.reset], ?_, ?_, by simp [NPQ.reset]⟩
  · have := (QInv.reset q cap).dlen; exact this
  · have := (QInv.reset q' cap).dlen; exact this

end Alaya.Pools
