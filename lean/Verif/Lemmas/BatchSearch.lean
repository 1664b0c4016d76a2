import Verif.Model.BatchSearch

namespace Alaya.Batch
variable {V : Type}

/-- Writes stay inside the row. -/
def Confined (c : Cfg V) : Prop := ∀ i ws, c.writes i = some ws → ∀ w ∈ ws, w.2.1 < c.k

/-- Row equality. -/
def RowEq (c : Cfg V) (i : Nat) (m m' : Mem V) : Prop := ∀ b j, j < c.k → m b (i * c.k + j) = m' b (i * c.k + j)

theorem addr_ne {k i j i' j' : Nat} (hj : j < k) (hj' : j' < k) (h : i ≠ i') : i * k + j ≠ i' * k + j' := by
  intro e
  rcases Nat.lt_or_gt_of_ne h with h' | h'
  · have := Nat.mul_le_mul_right k (show i + 1 ≤ i' by omega)
    rw [Nat.succ_mul] at this; omega
  · have := Nat.mul_le_mul_right k (show i' + 1 ≤ i by omega)
    rw [Nat.succ_mul] at this; omega

theorem applyAt_row (c : Cfg V) (i : Nat) : ∀ (ws : List (Write V)) (m m' : Mem V), RowEq c i m m' →
    RowEq c i (applyAt (i * c.k) ws m) (applyAt (i * c.k) ws m') := by
  intro ws
  induction ws with
  | nil => intro m m' h; exact h
  | cons w ws ih =>
    intro m m' h
    apply ih
    intro b j hj
    unfold store
    split
    · rfl
    · exact h b j hj

theorem applyAt_other (c : Cfg V) (i i' : Nat) (hne : i ≠ i') : ∀ (ws : List (Write V)) (m : Mem V), (∀ w ∈ ws, w.2.1 < c.k) →
    RowEq c i' (applyAt (i * c.k) ws m) m := by
  intro ws
  induction ws with
  | nil => intro m _ b j _; rfl
  | cons w ws ih =>
    intro m hw b j hj
    show applyAt (i * c.k) ws (store m w.1 (i * c.k + w.2.1) w.2.2) b (i' * c.k + j) = _
    rw [ih _ (fun x hx => hw x (by simp [hx])) b j hj]
    unfold store
    rw [if_neg]
    intro hh
    exact addr_ne hj (hw w (by simp)) (Ne.symm hne) hh.2

theorem applyAt_outside (c : Cfg V) (i : Nat) (hi : i < c.n) : ∀ (ws : List (Write V)) (m : Mem V), (∀ w ∈ ws, w.2.1 < c.k) →
    ∀ b a, c.n * c.k ≤ a → applyAt (i * c.k) ws m b a = m b a := by
  intro ws
  induction ws with
  | nil => intro m _ b a _; rfl
  | cons w ws ih =>
    intro m hw b a ha
    show applyAt (i * c.k) ws (store m w.1 (i * c.k + w.2.1) w.2.2) b a = _
    rw [ih _ (fun x hx => hw x (by simp [hx])) b a ha]
    unfold store
    rw [if_neg]
    intro hh
    have h1 := hw w (by simp)
    have h2 := Nat.mul_le_mul_right c.k (show i + 1 ≤ c.n by omega)
    rw [Nat.succ_mul] at h2
    omega

/-- The row a sequential search of query `i` leaves. -/
def finalRow (c : Cfg V) (m0 : Mem V) (i : Nat) : Mem V :=
  match c.writes i with
  | some ws => applyAt (i * c.k) ws m0
  | none => m0

/-- Worker `w` holds query `i`, with `l` left to write. -/
def Holds (c : Cfg V) (w : W V) (i : Nat) (l : List (Write V)) : Prop :=
  (w = .run i ∧ c.writes i = some l) ∨ w = .wr i l

def busy (w : W V) (i : Nat) : Prop := w = .run i ∨ ∃ l, w = .wr i l

def isDone : W V → Bool
  | .done => true
  | _ => false

/-- Invariant for any reachable state. -/
structure Inv (c : Cfg V) (m0 : Mem V) (s : St V) : Prop where
  /-- the counter never wraps -/
  bound : s.next ≤ c.n + s.ws.countP isDone
  logged : s.log = List.range (min s.next c.n)
  /-- a query that is being worked on -/
  inRange : ∀ (t : Nat) (w : W V) (i : Nat), s.ws[t]? = some w → busy w i → i < s.next ∧ i < c.n
  uniq : ∀ (t t' : Nat) (w w' : W V) (i : Nat), s.ws[t]? = some w → s.ws[t']? = some w' → busy w i → busy w' i → t = t'
  runRow : ∀ (t : Nat) (i : Nat), s.ws[t]? = some (.run i) → RowEq c i s.mem m0
  wrRow : ∀ (t : Nat) (i : Nat) (l : List (Write V)), s.ws[t]? = some (.wr i l) →
    (∀ w ∈ l, w.2.1 < c.k) ∧ RowEq c i (applyAt (i * c.k) l s.mem) (finalRow c m0 i) ∧ c.writes i ≠ none
  /-- rows nobody works on are whole -/
  idle : ∀ i, i < c.n → (∀ (t : Nat) (w : W V), s.ws[t]? = some w → ¬ busy w i) →
    if i < s.next then RowEq c i s.mem (finalRow c m0 i) ∧ (c.writes i = none → s.firstErr ≠ none ∨ s.terminated = true)
    else RowEq c i s.mem m0
  outside : ∀ b a, c.n * c.k ≤ a → s.mem b a = m0 b a
  err : ∀ e, s.firstErr = some e → e < c.n ∧ c.writes e = none
  abort : s.aborted = true ↔ s.firstErr ≠ none
  /-- a worker stops only at the end of the queries or after an error -/
  stop : (∃ w ∈ s.ws, isDone w = true) → c.n ≤ s.next ∨ s.firstErr ≠ none
  term : s.terminated = true → c.capture = false ∧ ∃ i, i < c.n ∧ c.writes i = none

theorem Inv.start (c : Cfg V) (workers : Nat) (m0 : Mem V) : Inv c m0 (start workers m0) := by
  have hw : ∀ (t : Nat) (w : W V), (List.replicate workers (W.head : W V))[t]? = some w → w = .head := by
    intro t w h
    exact (List.eq_of_mem_replicate (List.mem_of_getElem? h))
  constructor
  · simp [Batch.start]
  · simp [Batch.start]
  · intro t w i h hb
    have := hw t w h; subst this
    rcases hb with hb | ⟨l, hb⟩ <;> cases hb
  · intro t t' w w' i h _ hb _
    have := hw t w h; subst this
    rcases hb with hb | ⟨l, hb⟩ <;> cases hb
  · intro t i h; cases hw t _ h
  · intro t i l h; cases hw t _ h
  · intro i _ _
    show if i < 0 then _ else _
    rw [if_neg (by omega)]
    intro b j _; rfl
  · intro b a _; rfl
  · intro e h; cases h
  · simp [Batch.start]
  · rintro ⟨w, hm, hd⟩
    have := List.eq_of_mem_replicate hm
    subst this; cases hd
  · intro h; cases h

theorem getElem?_set_cases {α : Type} {l : List α} {t : Nat} {x : α} {t' : Nat} {y : α} (h : (l.set t x)[t']? = some y) :
    (t' = t ∧ y = x) ∨ (t' ≠ t ∧ l[t']? = some y) := by
  rw [List.getElem?_set] at h
  split at h
  · rename_i e
    split at h
    · left; exact ⟨e.symm, (Option.some.inj h).symm⟩
    · cases h
  · rename_i e
    right; exact ⟨fun h' => e h'.symm, h⟩

theorem countP_set {α : Type} (p : α → Bool) : ∀ (l : List α) (t : Nat) (x y : α), l[t]? = some y →
    (l.set t x).countP p + (if p y then 1 else 0) = l.countP p + (if p x then 1 else 0) := by
  intro l
  induction l with
  | nil => intro t x y h; simp at h
  | cons a l ih =>
    intro t x y h
    cases t with
    | zero =>
      simp at h; subst h
      simp only [List.set_cons_zero, List.countP_cons]
      omega
    | succ t =>
      simp only [List.set_cons_succ, List.countP_cons]
      have := ih t x y (by simpa using h)
      omega

theorem countP_lt {α : Type} (p : α → Bool) {l : List α} {t : Nat} {y : α} (h : l[t]? = some y) (hp : p y = false) :
    l.countP p < l.length := by
  have h1 := List.countP_le_length (p := p) (l := l)
  have : l.countP p ≠ l.length := by
    intro e
    have := List.countP_eq_length.mp e y (List.mem_of_getElem? h)
    rw [hp] at this; cases this
  omega

theorem mem_set_done {l : List (W V)} {t : Nat} {x : W V} (hx : isDone x = false)
    (h : ∃ w ∈ l.set t x, isDone w = true) : ∃ w ∈ l, isDone w = true := by
  obtain ⟨w, hw, hd⟩ := h
  rcases List.mem_or_eq_of_mem_set hw with h' | h'
  · exact ⟨w, h', hd⟩
  · subst h'; rw [hx] at hd; cases hd

/-- Moving worker `t` between two states that hold the same query (or none) keeps everything that does not mention memory. -/
theorem Inv.step (c : Cfg V) (m0 : Mem V) (hc : Confined c) {s : St V} (h : Inv c m0 s) (hM : c.n + s.ws.length < c.M)
    (t : Nat) : Inv c m0 (step c t s) ∧ (Batch.step c t s).ws.length = s.ws.length := by
  unfold Batch.step
  by_cases hterm : s.terminated = true
  · rw [if_pos hterm]; exact ⟨h, rfl⟩
  rw [if_neg hterm]
  cases hwt : s.ws[t]? with
  | none => exact ⟨h, rfl⟩
  | some w =>
    cases w with
    | done => exact ⟨h, rfl⟩
    | head =>
      refine ⟨?_, by simp⟩
      have hnb : ∀ i, ¬ busy (V := V) (if s.aborted then .done else .fetch) i := by
        intro i hb
        unfold busy at hb
        split at hb <;> rcases hb with hb | ⟨l, hb⟩ <;> cases hb
      constructor
      · have := countP_set isDone s.ws t (if s.aborted then .done else .fetch) .head hwt
        have hb := h.bound
        simp only [isDone, Bool.false_eq_true, if_false] at this
        show s.next ≤ c.n + (s.ws.set t _).countP isDone
        omega
      · exact h.logged
      · intro t' w i hg hb
        rcases getElem?_set_cases hg with ⟨_, rfl⟩ | ⟨_, hg'⟩
        · exact absurd hb (hnb i)
        · exact h.inRange t' w i hg' hb
      · intro t1 t2 w1 w2 i h1 h2 b1 b2
        rcases getElem?_set_cases h1 with ⟨_, rfl⟩ | ⟨_, h1'⟩
        · exact absurd b1 (hnb i)
        · rcases getElem?_set_cases h2 with ⟨_, rfl⟩ | ⟨_, h2'⟩
          · exact absurd b2 (hnb i)
          · exact h.uniq t1 t2 w1 w2 i h1' h2' b1 b2
      · intro t' i hg
        rcases getElem?_set_cases hg with ⟨_, e⟩ | ⟨_, hg'⟩
        · split at e <;> cases e
        · exact h.runRow t' i hg'
      · intro t' i l hg
        rcases getElem?_set_cases hg with ⟨_, e⟩ | ⟨_, hg'⟩
        · split at e <;> cases e
        · exact h.wrRow t' i l hg'
      · intro i hi hn
        apply h.idle i hi
        intro t' w hg hb
        by_cases e : t' = t
        · subst e; rw [hwt] at hg; cases hg
          rcases hb with hb | ⟨l, hb⟩ <;> cases hb
        · exact hn t' w (by show (s.ws.set t _)[t']? = _; rw [List.getElem?_set_ne (Ne.symm e)]; exact hg) hb
      · exact h.outside
      · exact h.err
      · exact h.abort
      · intro hex
        by_cases ha : s.aborted = true
        · exact Or.inr (h.abort.mp ha)
        · apply h.stop
          apply mem_set_done (x := (if s.aborted then W.done else W.fetch)) (by rw [if_neg ha]; rfl) hex
      · exact h.term
    | fetch =>
      have hlt := countP_lt isDone hwt rfl
      have hb := h.bound
      have hmod : (s.next + 1) % c.M = s.next + 1 := Nat.mod_eq_of_lt (by omega)
      simp only
      rw [hmod]
      by_cases hn : s.next < c.n
      · rw [if_pos hn]
        refine ⟨?_, by simp⟩
        have hcp := countP_set isDone s.ws t (.run s.next) .fetch hwt
        simp only [isDone, Bool.false_eq_true, if_false] at hcp
        have hfree : ∀ (t' : Nat) (w : W V), s.ws[t']? = some w → ¬ busy w s.next := by
          intro t' w hg hbz
          have := (h.inRange t' w _ hg hbz).1
          omega
        have hidle := h.idle s.next hn hfree
        rw [if_neg (by omega)] at hidle
        constructor
        · show s.next + 1 ≤ c.n + (s.ws.set t _).countP isDone
          omega
        · show s.log ++ [s.next] = List.range (min (s.next + 1) c.n)
          rw [h.logged, show min s.next c.n = s.next by omega, show min (s.next + 1) c.n = s.next + 1 by omega, List.range_succ]
        · intro t' w i hg hbz
          rcases getElem?_set_cases hg with ⟨_, rfl⟩ | ⟨_, hg'⟩
          · rcases hbz with e | ⟨l, e⟩
            · cases e; exact ⟨Nat.lt_succ_self _, hn⟩
            · cases e
          · have := h.inRange t' w i hg' hbz
            exact ⟨Nat.lt_succ_of_lt this.1, this.2⟩
        · intro t1 t2 w1 w2 i h1 h2 b1 b2
          rcases getElem?_set_cases h1 with ⟨e1, rfl⟩ | ⟨e1, h1'⟩
          · have hi : i = s.next := by
              rcases b1 with e | ⟨l, e⟩ <;> cases e; rfl
            subst hi
            rcases getElem?_set_cases h2 with ⟨e2, _⟩ | ⟨_, h2'⟩
            · rw [e1, e2]
            · exact absurd b2 (hfree t2 w2 h2')
          · rcases getElem?_set_cases h2 with ⟨e2, rfl⟩ | ⟨_, h2'⟩
            · have hi : i = s.next := by
                rcases b2 with e | ⟨l, e⟩ <;> cases e; rfl
              subst hi
              exact absurd b1 (hfree t1 w1 h1')
            · exact h.uniq t1 t2 w1 w2 i h1' h2' b1 b2
        · intro t' i hg
          rcases getElem?_set_cases hg with ⟨_, e⟩ | ⟨_, hg'⟩
          · cases e; exact hidle
          · exact h.runRow t' i hg'
        · intro t' i l hg
          rcases getElem?_set_cases hg with ⟨_, e⟩ | ⟨_, hg'⟩
          · cases e
          · exact h.wrRow t' i l hg'
        · intro i hi hnb
          have hne : i ≠ s.next := by
            intro e
            refine hnb t (.run s.next) ?_ (Or.inl (by rw [e]))
            show (s.ws.set t (.run s.next))[t]? = _
            rw [List.getElem?_set_self (List.getElem?_eq_some_iff.mp hwt).1]
          have := h.idle i hi (by
            intro t' w hg hbz
            by_cases e : t' = t
            · subst e; rw [hwt] at hg; cases hg
              rcases hbz with hbz | ⟨l, hbz⟩ <;> cases hbz
            · exact hnb t' w (by show (s.ws.set t _)[t']? = _; rw [List.getElem?_set_ne (Ne.symm e)]; exact hg) hbz)
          by_cases hlt' : i < s.next
          · rw [if_pos hlt'] at this
            show if i < s.next + 1 then _ else _
            rw [if_pos (by omega)]; exact this
          · rw [if_neg hlt'] at this
            show if i < s.next + 1 then _ else _
            rw [if_neg (by omega)]; exact this
        · exact h.outside
        · exact h.err
        · exact h.abort
        · intro hex
          rcases h.stop (mem_set_done (x := W.run s.next) rfl hex) with h' | h'
          · left; show c.n ≤ s.next + 1; omega
          · exact Or.inr h'
        · exact h.term
      · rw [if_neg hn]
        refine ⟨?_, by simp⟩
        have hcp := countP_set isDone s.ws t .done .fetch hwt
        simp only [isDone, Bool.false_eq_true, if_false, if_true] at hcp
        have hnb : ∀ i, ¬ busy (V := V) .done i := by
          intro i hbz; rcases hbz with hbz | ⟨l, hbz⟩ <;> cases hbz
        constructor
        · show s.next + 1 ≤ c.n + (s.ws.set t _).countP isDone
          omega
        · show s.log = List.range (min (s.next + 1) c.n)
          rw [h.logged]; congr 1; omega
        · intro t' w i hg hbz
          rcases getElem?_set_cases hg with ⟨_, rfl⟩ | ⟨_, hg'⟩
          · exact absurd hbz (hnb i)
          · have := h.inRange t' w i hg' hbz
            exact ⟨Nat.lt_succ_of_lt this.1, this.2⟩
        · intro t1 t2 w1 w2 i h1 h2 b1 b2
          rcases getElem?_set_cases h1 with ⟨_, rfl⟩ | ⟨_, h1'⟩
          · exact absurd b1 (hnb i)
          · rcases getElem?_set_cases h2 with ⟨_, rfl⟩ | ⟨_, h2'⟩
            · exact absurd b2 (hnb i)
            · exact h.uniq t1 t2 w1 w2 i h1' h2' b1 b2
        · intro t' i hg
          rcases getElem?_set_cases hg with ⟨_, e⟩ | ⟨_, hg'⟩
          · cases e
          · exact h.runRow t' i hg'
        · intro t' i l hg
          rcases getElem?_set_cases hg with ⟨_, e⟩ | ⟨_, hg'⟩
          · cases e
          · exact h.wrRow t' i l hg'
        · intro i hi hnb'
          have := h.idle i hi (by
            intro t' w hg hbz
            by_cases e : t' = t
            · subst e; rw [hwt] at hg; cases hg
              rcases hbz with hbz | ⟨l, hbz⟩ <;> cases hbz
            · exact hnb' t' w (by show (s.ws.set t _)[t']? = _; rw [List.getElem?_set_ne (Ne.symm e)]; exact hg) hbz)
          rw [if_pos (by omega)] at this
          show if i < s.next + 1 then _ else _
          rw [if_pos (by omega)]; exact this
        · exact h.outside
        · exact h.err
        · exact h.abort
        · intro _; left; show c.n ≤ s.next + 1; omega
        · exact h.term
    | run i0 =>
      simp only
      have hi0 := h.inRange t _ i0 hwt (Or.inl rfl)
      cases hwr : c.writes i0 with
      | some l0 =>
        simp only
        refine ⟨?_, by simp⟩
        have hcp := countP_set isDone s.ws t (.wr i0 l0) (.run i0) hwt
        simp only [isDone, Bool.false_eq_true, if_false] at hcp
        constructor
        · show s.next ≤ c.n + (s.ws.set t _).countP isDone
          have := h.bound; omega
        · exact h.logged
        · intro t' w i hg hbz
          rcases getElem?_set_cases hg with ⟨_, rfl⟩ | ⟨_, hg'⟩
          · rcases hbz with e | ⟨l, e⟩ <;> cases e; exact hi0
          · exact h.inRange t' w i hg' hbz
        · intro t1 t2 w1 w2 i h1 h2 b1 b2
          have conv : ∀ (t' : Nat) (w : W V), (s.ws.set t (.wr i0 l0))[t']? = some w → busy w i →
              ∃ w', s.ws[t']? = some w' ∧ busy w' i := by
            intro t' w hg hbz
            rcases getElem?_set_cases hg with ⟨e, rfl⟩ | ⟨_, hg'⟩
            · subst e
              refine ⟨_, hwt, ?_⟩
              rcases hbz with e | ⟨l, e⟩ <;> cases e; exact Or.inl rfl
            · exact ⟨w, hg', hbz⟩
          obtain ⟨w1', g1, b1'⟩ := conv t1 w1 h1 b1
          obtain ⟨w2', g2, b2'⟩ := conv t2 w2 h2 b2
          exact h.uniq t1 t2 w1' w2' i g1 g2 b1' b2'
        · intro t' i hg
          rcases getElem?_set_cases hg with ⟨_, e⟩ | ⟨_, hg'⟩
          · cases e
          · exact h.runRow t' i hg'
        · intro t' i l hg
          rcases getElem?_set_cases hg with ⟨_, e⟩ | ⟨_, hg'⟩
          · cases e
            refine ⟨hc i0 l0 hwr, ?_, by rw [hwr]; simp⟩
            unfold finalRow
            rw [hwr]
            exact applyAt_row c i0 l0 _ _ (h.runRow t i0 hwt)
          · exact h.wrRow t' i l hg'
        · intro i hi hnb
          apply h.idle i hi
          intro t' w hg hbz
          by_cases e : t' = t
          · subst e; rw [hwt] at hg; cases hg
            refine hnb t' (.wr i0 l0) ?_ ?_
            · show (s.ws.set t' _)[t']? = _
              rw [List.getElem?_set_self (List.getElem?_eq_some_iff.mp hwt).1]
            · rcases hbz with hbz | ⟨l, hbz⟩ <;> cases hbz
              exact Or.inr ⟨_, rfl⟩
          · exact hnb t' w (by show (s.ws.set t _)[t']? = _; rw [List.getElem?_set_ne (Ne.symm e)]; exact hg) hbz
        · exact h.outside
        · exact h.err
        · exact h.abort
        · intro hex
          exact h.stop (mem_set_done (x := W.wr i0 l0) rfl hex)
        · exact h.term
      | none =>
        simp only
        by_cases hcap : c.capture = true
        · rw [if_pos hcap]
          refine ⟨?_, by simp⟩
          have hcp := countP_set isDone s.ws t .done (.run i0) hwt
          simp only [isDone, Bool.false_eq_true, if_false, if_true] at hcp
          have hnb : ∀ i, ¬ busy (V := V) .done i := by
            intro i hbz; rcases hbz with hbz | ⟨l, hbz⟩ <;> cases hbz
          have hferr : (match s.firstErr with | none => some i0 | some e => some e) ≠ none := by
            cases s.firstErr <;> simp
          constructor
          · show s.next ≤ c.n + (s.ws.set t _).countP isDone
            have := h.bound; omega
          · exact h.logged
          · intro t' w i hg hbz
            rcases getElem?_set_cases hg with ⟨_, rfl⟩ | ⟨_, hg'⟩
            · exact absurd hbz (hnb i)
            · exact h.inRange t' w i hg' hbz
          · intro t1 t2 w1 w2 i h1 h2 b1 b2
            rcases getElem?_set_cases h1 with ⟨_, rfl⟩ | ⟨_, h1'⟩
            · exact absurd b1 (hnb i)
            · rcases getElem?_set_cases h2 with ⟨_, rfl⟩ | ⟨_, h2'⟩
              · exact absurd b2 (hnb i)
              · exact h.uniq t1 t2 w1 w2 i h1' h2' b1 b2
          · intro t' i hg
            rcases getElem?_set_cases hg with ⟨_, e⟩ | ⟨_, hg'⟩
            · cases e
            · exact h.runRow t' i hg'
          · intro t' i l hg
            rcases getElem?_set_cases hg with ⟨_, e⟩ | ⟨_, hg'⟩
            · cases e
            · exact h.wrRow t' i l hg'
          · intro i hi hnb'
            by_cases hii : i = i0
            · subst hii
              show if i < s.next then _ else _
              rw [if_pos hi0.1]
              refine ⟨?_, fun _ => Or.inl hferr⟩
              unfold finalRow
              rw [hwr]
              exact h.runRow t i hwt
            · have := h.idle i hi (by
                intro t' w hg hbz
                by_cases e : t' = t
                · subst e; rw [hwt] at hg; cases hg
                  rcases hbz with hbz | ⟨l, hbz⟩ <;> cases hbz
                  exact hii rfl
                · exact hnb' t' w (by show (s.ws.set t _)[t']? = _; rw [List.getElem?_set_ne (Ne.symm e)]; exact hg) hbz)
              show if i < s.next then _ else _
              by_cases hlt : i < s.next
              · rw [if_pos hlt] at this ⊢
                exact ⟨this.1, fun _ => Or.inl hferr⟩
              · rw [if_neg hlt] at this ⊢
                exact this
          · exact h.outside
          · intro e he
            have he : (match s.firstErr with | none => some i0 | some e => some e) = some e := he
            cases hf : s.firstErr with
            | none => rw [hf] at he; cases he; exact ⟨hi0.2, hwr⟩
            | some e' => rw [hf] at he; cases he; exact h.err _ hf
          · show true = true ↔ _
            simp only [true_iff]
            exact hferr
          · intro _; exact Or.inr hferr
          · exact h.term
        · rw [if_neg hcap]
          refine ⟨?_, rfl⟩
          constructor
          · exact h.bound
          · exact h.logged
          · exact h.inRange
          · exact h.uniq
          · exact h.runRow
          · exact h.wrRow
          · intro i hi hnb
            have := h.idle i hi hnb
            by_cases hlt : i < s.next
            · rw [if_pos hlt] at this ⊢
              exact ⟨this.1, fun _ => Or.inr rfl⟩
            · rw [if_neg hlt] at this ⊢
              exact this
          · exact h.outside
          · exact h.err
          · exact h.abort
          · exact h.stop
          · intro _
            exact ⟨by simpa using hcap, i0, hi0.2, hwr⟩
    | wr i0 l0 =>
      have hi0 := h.inRange t _ i0 hwt (Or.inr ⟨_, rfl⟩)
      obtain ⟨wc, wrow, wne⟩ := h.wrRow t i0 l0 hwt
      cases l0 with
      | nil =>
        simp only
        refine ⟨?_, by simp⟩
        have hcp := countP_set isDone s.ws t .head (.wr i0 []) hwt
        simp only [isDone, Bool.false_eq_true, if_false] at hcp
        have hnb : ∀ i, ¬ busy (V := V) .head i := by
          intro i hbz; rcases hbz with hbz | ⟨l, hbz⟩ <;> cases hbz
        constructor
        · show s.next ≤ c.n + (s.ws.set t _).countP isDone
          have := h.bound; omega
        · exact h.logged
        · intro t' w i hg hbz
          rcases getElem?_set_cases hg with ⟨_, rfl⟩ | ⟨_, hg'⟩
          · exact absurd hbz (hnb i)
          · exact h.inRange t' w i hg' hbz
        · intro t1 t2 w1 w2 i h1 h2 b1 b2
          rcases getElem?_set_cases h1 with ⟨_, rfl⟩ | ⟨_, h1'⟩
          · exact absurd b1 (hnb i)
          · rcases getElem?_set_cases h2 with ⟨_, rfl⟩ | ⟨_, h2'⟩
            · exact absurd b2 (hnb i)
            · exact h.uniq t1 t2 w1 w2 i h1' h2' b1 b2
        · intro t' i hg
          rcases getElem?_set_cases hg with ⟨_, e⟩ | ⟨_, hg'⟩
          · cases e
          · exact h.runRow t' i hg'
        · intro t' i l hg
          rcases getElem?_set_cases hg with ⟨_, e⟩ | ⟨_, hg'⟩
          · cases e
          · exact h.wrRow t' i l hg'
        · intro i hi hnb'
          by_cases hii : i = i0
          · subst hii
            show if i < s.next then _ else _
            rw [if_pos hi0.1]
            exact ⟨wrow, fun hh => absurd hh wne⟩
          · exact h.idle i hi (by
              intro t' w hg hbz
              by_cases e : t' = t
              · subst e; rw [hwt] at hg; cases hg
                rcases hbz with hbz | ⟨l, hbz⟩ <;> cases hbz
                exact hii rfl
              · exact hnb' t' w (by show (s.ws.set t _)[t']? = _; rw [List.getElem?_set_ne (Ne.symm e)]; exact hg) hbz)
        · exact h.outside
        · exact h.err
        · exact h.abort
        · intro hex
          exact h.stop (mem_set_done (x := W.head) rfl hex)
        · exact h.term
      | cons w0 l0 =>
        simp only
        refine ⟨?_, by simp⟩
        have hcp := countP_set isDone s.ws t (.wr i0 l0) (.wr i0 (w0 :: l0)) hwt
        simp only [isDone, Bool.false_eq_true, if_false] at hcp
        have hw0 := wc w0 (by simp)
        have hother : ∀ i, i ≠ i0 → RowEq c i (store s.mem w0.1 (i0 * c.k + w0.2.1) w0.2.2) s.mem := by
          intro i hne b j hj
          unfold store
          rw [if_neg]
          intro hh
          exact addr_ne hj hw0 hne hh.2
        constructor
        · show s.next ≤ c.n + (s.ws.set t _).countP isDone
          have := h.bound; omega
        · exact h.logged
        · intro t' w i hg hbz
          rcases getElem?_set_cases hg with ⟨_, rfl⟩ | ⟨_, hg'⟩
          · rcases hbz with e | ⟨l, e⟩ <;> cases e; exact hi0
          · exact h.inRange t' w i hg' hbz
        · intro t1 t2 w1 w2 i h1 h2 b1 b2
          have conv : ∀ (t' : Nat) (w : W V), (s.ws.set t (.wr i0 l0))[t']? = some w → busy w i →
              ∃ w', s.ws[t']? = some w' ∧ busy w' i := by
            intro t' w hg hbz
            rcases getElem?_set_cases hg with ⟨e, rfl⟩ | ⟨_, hg'⟩
            · subst e
              refine ⟨_, hwt, ?_⟩
              rcases hbz with e | ⟨l, e⟩ <;> cases e; exact Or.inr ⟨_, rfl⟩
            · exact ⟨w, hg', hbz⟩
          obtain ⟨w1', g1, b1'⟩ := conv t1 w1 h1 b1
          obtain ⟨w2', g2, b2'⟩ := conv t2 w2 h2 b2
          exact h.uniq t1 t2 w1' w2' i g1 g2 b1' b2'
        · intro t' i hg
          rcases getElem?_set_cases hg with ⟨_, e⟩ | ⟨hne, hg'⟩
          · cases e
          · have hii : i ≠ i0 := by
              intro e; subst e
              exact hne (h.uniq t' t _ _ i hg' hwt (Or.inl rfl) (Or.inr ⟨_, rfl⟩))
            intro b j hj
            exact (hother i hii b j hj).trans (h.runRow t' i hg' b j hj)
        · intro t' i l hg
          rcases getElem?_set_cases hg with ⟨_, e⟩ | ⟨hne, hg'⟩
          · cases e
            exact ⟨fun x hx => wc x (by simp [hx]), wrow, wne⟩
          · have hii : i ≠ i0 := by
              intro e; subst e
              exact hne (h.uniq t' t _ _ i hg' hwt (Or.inr ⟨_, rfl⟩) (Or.inr ⟨_, rfl⟩))
            obtain ⟨a1, a2, a3⟩ := h.wrRow t' i l hg'
            refine ⟨a1, ?_, a3⟩
            intro b j hj
            exact (applyAt_row c i l _ _ (hother i hii) b j hj).trans (a2 b j hj)
        · intro i hi hnb'
          have hii : i ≠ i0 := by
            intro e; subst e
            refine hnb' t (.wr i l0) ?_ (Or.inr ⟨_, rfl⟩)
            show (s.ws.set t _)[t]? = _
            rw [List.getElem?_set_self (List.getElem?_eq_some_iff.mp hwt).1]
          have := h.idle i hi (by
              intro t' w hg hbz
              by_cases e : t' = t
              · subst e; rw [hwt] at hg; cases hg
                rcases hbz with hbz | ⟨l, hbz⟩ <;> cases hbz
                exact hii rfl
              · exact hnb' t' w (by show (s.ws.set t _)[t']? = _; rw [List.getElem?_set_ne (Ne.symm e)]; exact hg) hbz)
          show if i < s.next then _ else _
          by_cases hlt : i < s.next
          · rw [if_pos hlt] at this ⊢
            exact ⟨fun b j hj => (hother i hii b j hj).trans (this.1 b j hj), this.2⟩
          · rw [if_neg hlt] at this ⊢
            exact fun b j hj => (hother i hii b j hj).trans (this b j hj)
        · intro b a ha
          show store s.mem w0.1 (i0 * c.k + w0.2.1) w0.2.2 b a = m0 b a
          unfold store
          rw [if_neg]
          · exact h.outside b a ha
          · intro hh
            have h2 := Nat.mul_le_mul_right c.k (show i0 + 1 ≤ c.n by omega)
            rw [Nat.succ_mul] at h2
            omega
        · exact h.err
        · exact h.abort
        · intro hex
          exact h.stop (mem_set_done (x := W.wr i0 l0) rfl hex)
        · exact h.term

theorem Inv.run (c : Cfg V) (m0 : Mem V) (hc : Confined c) : ∀ (sched : List Nat) (s : St V), Inv c m0 s → c.n + s.ws.length < c.M →
    Inv c m0 (runSched c sched s) ∧ (runSched c sched s).ws.length = s.ws.length := by
  intro sched
  induction sched with
  | nil => intro s h _; exact ⟨h, rfl⟩
  | cons t ts ih =>
    intro s h hM
    obtain ⟨h1, l1⟩ := h.step c m0 hc hM t
    obtain ⟨h2, l2⟩ := ih _ h1 (by rw [l1]; exact hM)
    exact ⟨h2, by unfold runSched; rw [l2, l1]⟩

end Alaya.Batch
