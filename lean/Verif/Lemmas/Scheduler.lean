import Verif.Model.Scheduler
import Mathlib.Logic.Function.Iterate
import Mathlib.Tactic.SplitIfs

/-! Every coroutine is in the queue, in exactly one slot, or finished. -/
namespace Alaya.Sched

/-! ### Sums over lists -/

def tot {α : Type} (f : α → Nat) : List α → Nat
  | [] => 0
  | x :: xs => f x + tot f xs

theorem tot_set {α : Type} (f : α → Nat) (l : List α) : ∀ (i : Nat) (x y : α), l[i]? = some x → tot f (l.set i y) + f x = tot f l + f y := by
  induction l with
  | nil => intro i x y h; simp at h
  | cons a as ih =>
    intro i x y h
    cases i with
    | zero => simp at h; subst h; simp [tot]; omega
    | succ j => simp at h; have := ih j x y h; simp [tot]; omega

theorem tot_ge {α : Type} (f : α → Nat) (l : List α) : ∀ (i : Nat) (x : α), l[i]? = some x → f x ≤ tot f l := by
  induction l with
  | nil => intro i x h; simp at h
  | cons a as ih =>
    intro i x h
    cases i with
    | zero => simp at h; subst h; simp [tot]
    | succ j => simp at h; have := ih j x h; simp [tot]; omega

theorem tot_two {α : Type} (f : α → Nat) (l : List α) : ∀ (i j : Nat) (x y : α), i ≠ j → l[i]? = some x → l[j]? = some y →
    f x + f y ≤ tot f l := by
  induction l with
  | nil => intro i j x y _ h; simp at h
  | cons a as ih =>
    intro i j x y hne hx hy
    cases i with
    | zero =>
      cases j with
      | zero => exact absurd rfl hne
      | succ j => simp at hx hy; subst hx; have := tot_ge f as j y hy; simp [tot]; omega
    | succ i =>
      cases j with
      | zero => simp at hx hy; subst hy; have := tot_ge f as i x hx; simp [tot]; omega
      | succ j => simp at hx hy; have := ih i j x y (by omega) hx hy; simp [tot]; omega

theorem tot_zero {α : Type} (f : α → Nat) (l : List α) : tot f l = 0 ↔ ∀ x ∈ l, f x = 0 := by
  induction l with
  | nil => simp [tot]
  | cons a as ih => simp [tot, ih]

theorem tot_pos {α : Type} {f : α → Nat} {l : List α} (h : 0 < tot f l) : ∃ x ∈ l, 0 < f x := by
  by_contra hc
  have : tot f l = 0 := (tot_zero f l).2 (fun x hx => by
    by_contra h0
    exact hc ⟨x, hx, by omega⟩)
  omega

theorem tot_erase {α : Type} (f : α → Nat) (l : List α) : ∀ (i : Nat) (x : α), l[i]? = some x → tot f (l.eraseIdx i) + f x = tot f l := by
  induction l with
  | nil => intro i x h; simp at h
  | cons a as ih =>
    intro i x h
    cases i with
    | zero => simp at h; subst h; simp [tot]; omega
    | succ j => simp at h; have := ih j x h; simp [tot]; omega

/-! ### Where the handles are -/

/-- How often worker `k` holds `t`. -/
def Wk.holds (t : Nat) (k : Wk) : Nat := tot (fun x => if x = some t then 1 else 0) k.slots
def Wk.occupied (k : Wk) : Nat := tot (fun x => if x = none then 0 else 1) k.slots

/-- How often the handle of `t` is somewhere. -/
def St.has {S : Type} (s : St S) (t : Nat) : Nat := tot (fun x => if x = t then 1 else 0) s.queue + tot (Wk.holds t) s.ws

structure Inv {S : Type} (c : Coro S) (ff : Bool) (n : Nat) (init : Nat → S) (s : St S) : Prop where
  slotsLen : ∀ (w : Nat) (k : Wk), s.ws[w]? = some k → k.slots.length = perWorker
  runOk : ∀ (w : Nat) (k : Wk), s.ws[w]? = some k → ∀ i, k.pc = .run i ∨ k.pc = .fin i → ∃ t, k.slots[i]? = some (some t)
  one : ∀ t, s.has t ≤ 1
  range : ∀ t, n ≤ t → s.has t = 0
  queued : ∀ t ∈ s.queue, c.done (s.coro t) = false
  held : ∀ (w : Nat) (k : Wk), s.ws[w]? = some k → ∀ i t, k.slots[i]? = some (some t) → (c.done (s.coro t) = true ↔ k.pc = .fin i)
  gone : ∀ t, t < n → s.has t = 0 → c.done (s.coro t) = true
  total : s.total = n
  size : s.queue.length + tot Wk.occupied s.ws + s.finish = n
  cmp : ∀ (w : Nat) (k : Wk), s.ws[w]? = some k → ∀ v, k.pc = .cmp v → if ff then v ≤ s.finish else v = n
  exit : ∀ (w : Nat) (k : Wk), s.ws[w]? = some k → k.pc = .exited → s.finish = n
  prog : ∀ t, s.coro t = c.resume^[s.cnt t] (init t) ∧ ∀ j, j < s.cnt t → c.done (c.resume^[j] (init t)) = false
  bad : s.bad = false

theorem holds_pos {k : Wk} {i t : Nat} (h : k.slots[i]? = some (some t)) : 1 ≤ k.holds t := by
  have := tot_ge (fun x => if x = some t then 1 else 0) k.slots i (some t) h
  simpa [Wk.holds] using this

theorem Inv.unique {S : Type} {c : Coro S} {ff : Bool} {n : Nat} {init : Nat → S} {s : St S} (h : Inv c ff n init s) {w w' : Nat}
    {k k' : Wk} {i i' t : Nat} (hk : s.ws[w]? = some k) (hk' : s.ws[w']? = some k') (hi : k.slots[i]? = some (some t))
    (hi' : k'.slots[i']? = some (some t)) : w = w' ∧ i = i' := by
  have h1 := h.one t
  simp only [St.has] at h1
  by_cases hw : w = w'
  · subst hw
    rw [hk] at hk'; cases hk'
    refine ⟨rfl, ?_⟩
    by_contra hne
    have h2 := tot_two (fun x => if x = some t then 1 else 0) k.slots i i' _ _ hne hi hi'
    have h3 := tot_ge (Wk.holds t) s.ws w k hk
    simp at h2
    have h4 : k.holds t = tot (fun x => if x = some t then 1 else 0) k.slots := rfl
    omega
  · have h2 := tot_two (Wk.holds t) s.ws w w' k k' hw hk hk'
    have := holds_pos hi
    have := holds_pos hi'
    omega

theorem Inv.notQueued {S : Type} {c : Coro S} {ff : Bool} {n : Nat} {init : Nat → S} {s : St S} (h : Inv c ff n init s) {w : Nat}
    {k : Wk} {i t : Nat} (hk : s.ws[w]? = some k) (hi : k.slots[i]? = some (some t)) : t ∉ s.queue := by
  intro hq
  obtain ⟨j, hj⟩ := List.mem_iff_getElem?.1 hq
  have h1 := h.one t
  have h2 := tot_ge (fun x => if x = t then 1 else 0) s.queue j t hj
  have h3 := tot_ge (Wk.holds t) s.ws w k hk
  have := holds_pos hi
  simp only [St.has] at h1
  simp at h2
  omega

theorem Inv.heldLt {S : Type} {c : Coro S} {ff : Bool} {n : Nat} {init : Nat → S} {s : St S} (h : Inv c ff n init s) {w : Nat}
    {k : Wk} {i t : Nat} (hk : s.ws[w]? = some k) (hi : k.slots[i]? = some (some t)) : t < n := by
  by_contra hc
  have h1 := h.range t (by omega)
  have h3 := tot_ge (Wk.holds t) s.ws w k hk
  have := holds_pos hi
  simp only [St.has] at h1
  omega

theorem Inv.queueLt {S : Type} {c : Coro S} {ff : Bool} {n : Nat} {init : Nat → S} {s : St S} (h : Inv c ff n init s) {t : Nat}
    (hq : t ∈ s.queue) : t < n := by
  by_contra hc
  have h1 := h.range t (by omega)
  obtain ⟨j, hj⟩ := List.mem_iff_getElem?.1 hq
  have h2 := tot_ge (fun x => if x = t then 1 else 0) s.queue j t hj
  simp only [St.has] at h1
  simp at h2
  omega

theorem set_get {α : Type} {l : List α} {w : Nat} {k : α} (hk : l[w]? = some k) {w' : Nat} {x y : α} (h : (l.set w y)[w']? = some x) :
    (w' = w ∧ x = y) ∨ (w' ≠ w ∧ l[w']? = some x) := by
  by_cases hw : w' = w
  · subst hw
    have hlt : w' < l.length := (List.getElem?_eq_some_iff.1 hk).1
    rw [List.getElem?_set_self hlt] at h
    exact .inl ⟨rfl, (Option.some.inj h).symm⟩
  · rw [List.getElem?_set_ne (Ne.symm hw)] at h
    exact .inr ⟨hw, h⟩

/-- A step that changes only the position of a worker. -/
theorem Inv.move {S : Type} {c : Coro S} {ff : Bool} {n : Nat} {init : Nat → S} {s : St S} (h : Inv c ff n init s) {w : Nat}
    {k k' : Wk} (hk : s.ws[w]? = some k) (hs : k'.slots = k.slots)
    (hrun : ∀ i, k'.pc = .run i ∨ k'.pc = .fin i → ∃ t, k.slots[i]? = some (some t))
    (hfin : ∀ i, k'.pc ≠ .fin i) (hfin' : ∀ i, k.pc ≠ .fin i)
    (hcmp : ∀ v, k'.pc = .cmp v → if ff then v ≤ s.finish else v = n) (hexit : k'.pc = .exited → s.finish = n) :
    Inv c ff n init (s.put w k') := by
  have hholds : ∀ t, tot (Wk.holds t) (s.ws.set w k') = tot (Wk.holds t) s.ws := by
    intro t
    have := tot_set (Wk.holds t) s.ws w k k' hk
    simp only [Wk.holds, hs] at this ⊢
    omega
  have hocc : tot Wk.occupied (s.ws.set w k') = tot Wk.occupied s.ws := by
    have := tot_set Wk.occupied s.ws w k k' hk
    simp only [Wk.occupied, hs] at this ⊢
    omega
  have hhas : ∀ t, (s.put w k').has t = s.has t := fun t => by simp only [St.has, St.put, hholds]
  constructor
  · intro w' x hx
    rcases set_get hk hx with ⟨_, rfl⟩ | ⟨_, hx⟩
    · rw [hs]; exact h.slotsLen w k hk
    · exact h.slotsLen w' x hx
  · intro w' x hx i hi
    rcases set_get hk hx with ⟨_, rfl⟩ | ⟨_, hx⟩
    · rw [hs]; exact hrun i hi
    · exact h.runOk w' x hx i hi
  · intro t; rw [hhas]; exact h.one t
  · intro t ht; rw [hhas]; exact h.range t ht
  · exact h.queued
  · intro w' x hx i t hi
    rcases set_get hk hx with ⟨_, rfl⟩ | ⟨_, hx⟩
    · rw [hs] at hi
      rw [show (s.put w x).coro = s.coro from rfl, h.held w k hk i t hi]
      simp [hfin, hfin']
    · exact h.held w' x hx i t hi
  · intro t ht h0; rw [hhas] at h0; exact h.gone t ht h0
  · exact h.total
  · simp only [St.put, hocc]; exact h.size
  · intro w' x hx v hv
    rcases set_get hk hx with ⟨_, rfl⟩ | ⟨_, hx⟩
    · exact hcmp v hv
    · exact h.cmp w' x hx v hv
  · intro w' x hx he
    rcases set_get hk hx with ⟨_, rfl⟩ | ⟨_, hx⟩
    · exact hexit he
    · exact h.exit w' x hx he
  · exact h.prog
  · exact h.bad

theorem Inv.finishLe {S : Type} {c : Coro S} {ff : Bool} {n : Nat} {init : Nat → S} {s : St S} (h : Inv c ff n init s) : s.finish ≤ n := by
  have := h.size; omega

theorem Inv.work {S : Type} {c : Coro S} {ff : Bool} {n : Nat} {init : Nat → S} {s : St S} (h : Inv c ff n init s) {w : Nat}
    {k : Wk} (hk : s.ws[w]? = some k) (pick : Option Nat) : Inv c ff n init (s.work c ff w k pick) := by
  have hl := h.slotsLen w k hk
  unfold St.work
  cases hpc : k.pc with
  | exited => exact h
  | top =>
    have hb : k.nav % perWorker < k.slots.length := by rw [hl]; exact Nat.mod_lt _ (by decide)
    obtain ⟨o, ho⟩ : ∃ o, k.slots[k.nav % perWorker]? = some o := ⟨_, List.getElem?_eq_getElem hb⟩
    have hmove : Inv c ff n init (s.put w (k.next .load)) :=
      h.move hk rfl (by intro i hi; simp [Wk.next] at hi) (by intro i; simp [Wk.next]) (by intro i; simp [hpc])
        (by intro v hv; simp [Wk.next] at hv) (by intro hv; simp [Wk.next] at hv)
    simp only [ho]
    cases o with
    | some t =>
      exact h.move hk rfl (by intro i hi; simp [Wk.next] at hi; exact ⟨t, by rw [← hi]; exact ho⟩) (by intro i; simp [Wk.next])
        (by intro i; simp [hpc]) (by intro v hv; simp [Wk.next] at hv) (by intro hv; simp [Wk.next] at hv)
    | none =>
      cases pick with
      | none => exact hmove
      | some j =>
        simp only
        cases hj : s.queue[j]? with
        | none => exact hmove
        | some t =>
          simp only
          -- the popped handle moves from the queue into the slot
          have hset := tot_set (fun x => if x = some t then 1 else 0) k.slots (k.nav % perWorker) none (some t) ho
          have hholds : ∀ t', tot (Wk.holds t') (s.ws.set w { k.next (.run (k.nav % perWorker)) with slots := k.slots.set (k.nav % perWorker) (some t) })
              = tot (Wk.holds t') s.ws + (if t = t' then 1 else 0) := by
            intro t'
            have h1 := tot_set (Wk.holds t') s.ws w k { k.next (.run (k.nav % perWorker)) with slots := k.slots.set (k.nav % perWorker) (some t) } hk
            have h2 := tot_set (fun x => if x = some t' then 1 else 0) k.slots (k.nav % perWorker) none (some t) ho
            simp only [Wk.holds] at h1 ⊢
            simp at h2
            omega
          have hocc : tot Wk.occupied (s.ws.set w { k.next (.run (k.nav % perWorker)) with slots := k.slots.set (k.nav % perWorker) (some t) })
              = tot Wk.occupied s.ws + 1 := by
            have h1 := tot_set Wk.occupied s.ws w k { k.next (.run (k.nav % perWorker)) with slots := k.slots.set (k.nav % perWorker) (some t) } hk
            have h2 := tot_set (fun x : Option Nat => if x = none then 0 else 1) k.slots (k.nav % perWorker) none (some t) ho
            simp only [Wk.occupied] at h1 ⊢
            simp at h2
            omega
          have hjl : j < s.queue.length := (List.getElem?_eq_some_iff.1 hj).1
          have hqt : t ∈ s.queue := List.mem_of_getElem? hj
          have hhas : ∀ t', tot (fun x => if x = t' then 1 else 0) (s.queue.eraseIdx j) + (tot (Wk.holds t') s.ws + (if t = t' then 1 else 0)) = s.has t' := by
            intro t'
            have := tot_erase (fun x => if x = t' then 1 else 0) s.queue j t hj
            simp only [St.has]
            omega
          constructor
          · intro w' x hx
            rcases set_get hk hx with ⟨_, rfl⟩ | ⟨_, hx⟩
            · simp [hl]
            · exact h.slotsLen w' x hx
          · intro w' x hx i hi
            rcases set_get hk hx with ⟨_, rfl⟩ | ⟨_, hx⟩
            · simp [Wk.next] at hi
              subst hi
              exact ⟨t, by simp [hb]⟩
            · exact h.runOk w' x hx i hi
          · intro t'; simp only [St.has, St.put, hholds, hhas]; exact h.one t'
          · intro t' ht'; simp only [St.has, St.put, hholds, hhas]; exact h.range t' ht'
          · intro t' ht'; exact h.queued t' (List.mem_of_mem_eraseIdx ht')
          · intro w' x hx i t' hi
            rcases set_get hk hx with ⟨_, rfl⟩ | ⟨_, hx⟩
            · simp only [Wk.next] at hi ⊢
              constructor
              · intro hd
                exfalso
                by_cases hi2 : i = k.nav % perWorker
                · subst hi2
                  rw [List.getElem?_set_self hb] at hi
                  cases hi
                  have hd' : c.done (s.coro t) = true := hd
                  rw [h.queued t hqt] at hd'; cases hd'
                · rw [List.getElem?_set_ne (Ne.symm hi2)] at hi
                  have := (h.held w k hk i t' hi).1 hd
                  rw [hpc] at this; cases this
              · intro hd; cases hd
            · exact h.held w' x hx i t' hi
          · intro t' ht' h0; simp only [St.has, St.put, hholds, hhas] at h0; exact h.gone t' ht' h0
          · exact h.total
          · simp only [St.put, hocc, List.length_eraseIdx, if_pos hjl]
            have := h.size; omega
          · intro w' x hx v hv
            rcases set_get hk hx with ⟨_, rfl⟩ | ⟨_, hx⟩
            · simp [Wk.next] at hv
            · exact h.cmp w' x hx v hv
          · intro w' x hx he
            rcases set_get hk hx with ⟨_, rfl⟩ | ⟨_, hx⟩
            · simp [Wk.next] at he
            · exact h.exit w' x hx he
          · exact h.prog
          · exact h.bad
  | load =>
    refine h.move hk rfl (by intro i hi; simp at hi) (by intro i; simp) (by intro i; simp [hpc]) ?_ (by intro hv; simp at hv)
    intro v hv
    simp only [Pc.cmp.injEq] at hv
    subst hv
    cases ff with
    | true => simp
    | false => simp [h.total]
  | cmp v =>
    have hv := h.cmp w k hk v hpc
    refine h.move hk rfl (by intro i hi; simp only at hi; split_ifs at hi <;> simp at hi) (by intro i; simp only; split_ifs <;> simp)
      (by intro i; simp [hpc]) (by intro v' hv'; simp only at hv'; split_ifs at hv') ?_
    intro he
    have hle := h.finishLe
    cases ff with
    | true =>
      simp only [if_true, h.total] at he hv
      by_cases hvn : v = n
      · omega
      · rw [if_neg hvn] at he; cases he
    | false =>
      simp only [Bool.false_eq_true, if_false] at he hv
      by_cases hvn : v = s.finish
      · omega
      · rw [if_neg hvn] at he; cases he
  | run i =>
    obtain ⟨t, ht⟩ := h.runOk w k hk i (.inl hpc)
    have hnd : c.done (s.coro t) = false := by
      cases hd : c.done (s.coro t) with
      | false => rfl
      | true => have := (h.held w k hk i t ht).1 hd; rw [hpc] at this; cases this
    simp only [ht]
    have hholds : ∀ (pc : Pc) t', tot (Wk.holds t') (s.ws.set w { k with pc := pc }) = tot (Wk.holds t') s.ws := by
      intro pc t'
      have := tot_set (Wk.holds t') s.ws w k { k with pc := pc } hk
      simp only [Wk.holds] at this ⊢
      omega
    have hocc : ∀ (pc : Pc), tot Wk.occupied (s.ws.set w { k with pc := pc }) = tot Wk.occupied s.ws := by
      intro pc
      have := tot_set Wk.occupied s.ws w k { k with pc := pc } hk
      simp only [Wk.occupied] at this ⊢
      omega
    have hhas : ∀ (pc : Pc) t', tot (fun x => if x = t' then 1 else 0) s.queue + tot (Wk.holds t') (s.ws.set w { k with pc := pc }) = s.has t' := by
      intro pc t'; rw [hholds]; rfl
    constructor
    · intro w' x hx
      rcases set_get hk hx with ⟨_, rfl⟩ | ⟨_, hx⟩
      · exact hl
      · exact h.slotsLen w' x hx
    · intro w' x hx i' hi'
      rcases set_get hk hx with ⟨_, rfl⟩ | ⟨_, hx⟩
      · simp only at hi' ⊢
        split_ifs at hi' with hd
        · simp at hi'; subst hi'; exact ⟨t, ht⟩
        · simp at hi'
      · exact h.runOk w' x hx i' hi'
    · intro t'; simp only [St.has, St.put, hhas]; exact h.one t'
    · intro t' ht'; simp only [St.has, St.put, hhas]; exact h.range t' ht'
    · intro t' ht'
      have hne : t' ≠ t := fun he => h.notQueued hk ht (he ▸ ht')
      simp only [if_neg hne]
      exact h.queued t' ht'
    · intro w' x hx i' t' hi'
      rcases set_get hk hx with ⟨_, rfl⟩ | ⟨hw, hx⟩
      · simp only at hi' ⊢
        by_cases hte : t' = t
        · subst hte
          obtain ⟨_, rfl⟩ := h.unique hk hk hi' ht
          rw [if_pos rfl]
          cases hd : c.done (c.resume (s.coro t')) <;> simp
        · rw [if_neg hte]
          have hne : i' ≠ i := by rintro rfl; rw [hi'] at ht; simp at ht; exact hte ht
          rw [h.held w k hk i' t' hi', hpc]
          constructor
          · intro hd; cases hd
          · intro hd; split_ifs at hd; cases hd; exact absurd rfl hne
      · have hte : t' ≠ t := fun he => hw (h.unique hx hk (he ▸ hi') ht).1
        simp only [if_neg hte]
        exact h.held w' x hx i' t' hi'
    · intro t' ht' h0
      simp only [St.has, St.put, hhas] at h0
      have hne : t' ≠ t := by
        intro he
        have h3 := tot_ge (Wk.holds t) s.ws w k hk
        have := holds_pos ht
        rw [he] at h0
        have h5 : s.has t = tot (fun x => if x = t then 1 else 0) s.queue + tot (Wk.holds t) s.ws := rfl
        omega
      simp only [if_neg hne]
      exact h.gone t' ht' h0
    · exact h.total
    · simp only [St.put, hocc]; exact h.size
    · intro w' x hx v hv
      rcases set_get hk hx with ⟨_, rfl⟩ | ⟨_, hx⟩
      · simp only at hv; split_ifs at hv
      · exact h.cmp w' x hx v hv
    · intro w' x hx he
      rcases set_get hk hx with ⟨_, rfl⟩ | ⟨_, hx⟩
      · simp only at he; split_ifs at he
      · exact h.exit w' x hx he
    · intro t'
      by_cases hte : t' = t
      · subst hte
        obtain ⟨h1, h2⟩ := h.prog t'
        simp only [if_pos]
        refine ⟨by rw [Function.iterate_succ_apply', ← h1], ?_⟩
        intro j hj
        by_cases hj2 : j = s.cnt t'
        · subst hj2; rw [← h1]; exact hnd
        · exact h2 j (by omega)
      · simp only [if_neg hte]; exact h.prog t'
    · simp only [h.bad, hnd, Bool.or_self]
  | fin i =>
    obtain ⟨t, ht⟩ := h.runOk w k hk i (.inr hpc)
    have hd := (h.held w k hk i t ht).2 hpc
    have hil : i < k.slots.length := (List.getElem?_eq_some_iff.1 ht).1
    simp only
    have hholds : ∀ t', tot (Wk.holds t') (s.ws.set w { k with slots := k.slots.set i none, pc := .top }) + (if t = t' then 1 else 0)
        = tot (Wk.holds t') s.ws := by
      intro t'
      have h1 := tot_set (Wk.holds t') s.ws w k { k with slots := k.slots.set i none, pc := .top } hk
      have h2 := tot_set (fun x => if x = some t' then 1 else 0) k.slots i (some t) none ht
      simp only [Wk.holds] at h1 ⊢
      simp at h2
      omega
    have hocc : tot Wk.occupied (s.ws.set w { k with slots := k.slots.set i none, pc := .top }) + 1 = tot Wk.occupied s.ws := by
      have h1 := tot_set Wk.occupied s.ws w k { k with slots := k.slots.set i none, pc := .top } hk
      have h2 := tot_set (fun x : Option Nat => if x = none then 0 else 1) k.slots i (some t) none ht
      simp only [Wk.occupied] at h1 ⊢
      simp at h2
      omega
    have hsz := h.size
    have hlt : s.finish < n := by omega
    constructor
    · intro w' x hx
      rcases set_get hk hx with ⟨_, rfl⟩ | ⟨_, hx⟩
      · simp [hl]
      · exact h.slotsLen w' x hx
    · intro w' x hx i' hi'
      rcases set_get hk hx with ⟨_, rfl⟩ | ⟨_, hx⟩
      · simp at hi'
      · exact h.runOk w' x hx i' hi'
    · intro t'
      have := hholds t'
      have := h.one t'
      simp only [St.has, St.put] at this ⊢
      omega
    · intro t' ht'
      have := hholds t'
      have := h.range t' ht'
      simp only [St.has, St.put] at this ⊢
      omega
    · exact h.queued
    · intro w' x hx i' t' hi'
      rcases set_get hk hx with ⟨_, rfl⟩ | ⟨hw, hx⟩
      · simp only at hi' ⊢
        have hne : i' ≠ i := by rintro rfl; rw [List.getElem?_set_self hil] at hi'; simp at hi'
        rw [List.getElem?_set_ne (Ne.symm hne)] at hi'
        rw [show (s.put w { k with slots := k.slots.set i none, pc := .top }).coro = s.coro from rfl, h.held w k hk i' t' hi', hpc]
        constructor
        · intro he; cases he; exact absurd rfl hne
        · intro he; cases he
      · exact h.held w' x hx i' t' hi'
    · intro t' ht' h0
      by_cases hte : t = t'
      · subst hte; exact hd
      · have := hholds t'
        rw [if_neg hte] at this
        refine h.gone t' ht' ?_
        simp only [St.has, St.put] at h0 ⊢
        omega
    · exact h.total
    · simp only [St.put]; omega
    · intro w' x hx v hv
      rcases set_get hk hx with ⟨_, rfl⟩ | ⟨_, hx⟩
      · simp at hv
      · have := h.cmp w' x hx v hv
        cases ff with
        | true => simp only [if_true] at this ⊢; omega
        | false => simpa using this
    · intro w' x hx he
      rcases set_get hk hx with ⟨_, rfl⟩ | ⟨_, hx⟩
      · simp at he
      · have := h.exit w' x hx he; omega
    · exact h.prog
    · exact h.bad

end Alaya.Sched
