import Verif.Lemmas.Scheduler

/-! Progress: under a fair schedule every coroutine is finished and every worker returns. -/
namespace Alaya.Sched

theorem tot_const_zero {α : Type} (f : α → Nat) (m : Nat) (x : α) (h : f x = 0) : tot f (List.replicate m x) = 0 := by
  rw [tot_zero]; intro y hy; rw [(List.mem_replicate.1 hy).2]; exact h

theorem tot_count_range (n t : Nat) : tot (fun x => if x = t then 1 else 0) (List.range n) = if t < n then 1 else 0 := by
  have key : ∀ l : List Nat, tot (fun x => if x = t then 1 else 0) l = l.count t := by
    intro l
    induction l with
    | nil => rfl
    | cons a as ih => simp [tot, ih, List.count_cons]; omega
  rw [key]
  by_cases h : t < n
  · rw [if_pos h]
    exact List.nodup_range.count.trans (if_pos (List.mem_range.2 h))
  · rw [if_neg h]
    exact List.count_eq_zero.2 (by simpa using h)

theorem Inv.start {S : Type} (c : Coro S) (ff : Bool) (n workers : Nat) (init : Nat → S) (h0 : ∀ t, t < n → c.done (init t) = false) :
    Inv c ff n init (start n workers init) := by
  have hrep : ∀ (w : Nat) (k : Wk), (List.replicate workers (⟨List.replicate perWorker none, 0, .top⟩ : Wk))[w]? = some k →
      k = ⟨List.replicate perWorker none, 0, .top⟩ := fun w k hk => (List.mem_replicate.1 (List.mem_of_getElem? hk)).2
  have hnone : ∀ i t : Nat, (List.replicate perWorker (none : Option Nat))[i]? ≠ some (some t) := by
    intro i t hc
    have := (List.mem_replicate.1 (List.mem_of_getElem? hc)).2
    cases this
  have hhas : ∀ t, (Sched.start n workers init).has t = if t < n then 1 else 0 := by
    intro t
    simp only [St.has, Sched.start, tot_count_range]
    rw [tot_const_zero]
    · omega
    · simp only [Wk.holds]; rw [tot_const_zero]; simp
  constructor
  · intro w k hk; rw [hrep w k hk]; simp
  · intro w k hk i hi; rw [hrep w k hk] at hi; simp at hi
  · intro t; rw [hhas]; split_ifs <;> omega
  · intro t ht; rw [hhas, if_neg (by omega)]
  · intro t ht; exact h0 t (List.mem_range.1 ht)
  · intro w k hk i t hi; rw [hrep w k hk] at hi; exact absurd hi (hnone i t)
  · intro t ht h; rw [hhas, if_pos ht] at h; omega
  · rfl
  · simp only [Sched.start, List.length_range]
    rw [tot_const_zero]
    · omega
    · simp only [Wk.occupied]; rw [tot_const_zero]; simp
  · intro w k hk v hv; rw [hrep w k hk] at hv; simp at hv
  · intro w k hk hv; rw [hrep w k hk] at hv; simp at hv
  · intro t; exact ⟨rfl, fun j hj => absurd hj (by simp [Sched.start])⟩
  · rfl

def Act.isWork : Act → Bool
  | .work _ _ => true
  | _ => false

theorem Inv.step {S : Type} {c : Coro S} {ff : Bool} {n : Nat} {init : Nat → S} {s : St S} (h : Inv c ff n init s) {a : Act}
    (ha : a.isWork = true) : Inv c ff n init (step c ff s a) := by
  cases a with
  | work w pick =>
    simp only [Sched.step]
    cases hk : s.ws[w]? with
    | none => exact h
    | some k => exact h.work hk pick
  | count => cases ha
  | push t => cases ha

theorem Inv.run {S : Type} {c : Coro S} {ff : Bool} {n : Nat} {init : Nat → S} (as : List Act) : ∀ {s : St S}, Inv c ff n init s →
    (∀ a ∈ as, a.isWork = true) → Inv c ff n init (run c ff s as) := by
  induction as with
  | nil => intro s h _; exact h
  | cons a as ih => intro s h ha; exact ih (h.step (ha a (by simp))) (fun a' h' => ha a' (by simp [h']))

theorem Inv.after {S : Type} {c : Coro S} {ff : Bool} {n : Nat} {init : Nat → S} {s : St S} (h : Inv c ff n init s) {f : Nat → Act}
    (hf : ∀ j, (f j).isWork = true) : ∀ j, Inv c ff n init (after c ff s f j)
  | 0 => h
  | j + 1 => (h.after hf j).step (hf j)

/-! ### What is left to do -/

def isFin : Pc → Nat
  | .fin _ => 1
  | _ => 0

theorem isFin_top : isFin .top = 0 := rfl
theorem isFin_run (i : Nat) : isFin (.run i) = 0 := rfl
theorem isFin_fin (i : Nat) : isFin (.fin i) = 1 := rfl

def St.left {S : Type} (need : Nat → Nat) (n : Nat) (s : St S) : Nat :=
  2 * tot (fun t => need t - s.cnt t) (List.range n) + s.queue.length + tot (fun k => isFin k.pc) s.ws

/-- `need t` resumes finish coroutine `t`. -/
def Needs {S : Type} (c : Coro S) (init : Nat → S) (n : Nat) (need : Nat → Nat) : Prop :=
  ∀ t, t < n → c.done (c.resume^[need t] (init t)) = true ∧ ∀ j, j < need t → c.done (c.resume^[j] (init t)) = false

theorem tot_congr {α : Type} {f g : α → Nat} {l : List α} (h : ∀ x ∈ l, f x = g x) : tot f l = tot g l := by
  induction l with
  | nil => rfl
  | cons a as ih => simp only [tot]; rw [h a (by simp), ih (fun x hx => h x (by simp [hx]))]

theorem tot_less {l : List Nat} (hn : l.Nodup) {f g : Nat → Nat} {t : Nat} (ht : t ∈ l) (hlt : f t + 1 = g t) (ho : ∀ x, x ≠ t → f x = g x) :
    tot f l + 1 = tot g l := by
  induction l with
  | nil => simp at ht
  | cons a as ih =>
    obtain ⟨ha, hn'⟩ := List.nodup_cons.1 hn
    simp only [tot]
    by_cases hat : a = t
    · subst hat
      rw [tot_congr (f := f) (g := g) (l := as) (fun x hx => ho x (fun he => ha (he ▸ hx)))]
      omega
    · have := ih hn' (by simpa [Ne.symm hat] using ht)
      rw [ho a hat]; omega

theorem Inv.cntLe {S : Type} {c : Coro S} {ff : Bool} {n : Nat} {init : Nat → S} {s : St S} (h : Inv c ff n init s) {need : Nat → Nat}
    (hneed : Needs c init n need) {t : Nat} (ht : t < n) : s.cnt t ≤ need t := by
  by_contra hc
  have := (h.prog t).2 (need t) (by omega)
  rw [(hneed t ht).1] at this; cases this

theorem Inv.cntLt {S : Type} {c : Coro S} {ff : Bool} {n : Nat} {init : Nat → S} {s : St S} (h : Inv c ff n init s) {need : Nat → Nat}
    (hneed : Needs c init n need) {t : Nat} (ht : t < n) (hd : c.done (s.coro t) = false) : s.cnt t < need t := by
  have h1 := h.cntLe hneed ht
  by_contra hc
  have h2 : s.cnt t = need t := by omega
  have h3 := (h.prog t).1
  rw [h2] at h3
  rw [h3, (hneed t ht).1] at hd; cases hd

/-- A step either gets work done or only moves the worker. -/
theorem Inv.work_left {S : Type} {c : Coro S} {ff : Bool} {n : Nat} {init : Nat → S} {s : St S} (h : Inv c ff n init s)
    {need : Nat → Nat} (hneed : Needs c init n need) {w : Nat} {k : Wk} (hk : s.ws[w]? = some k) (pick : Option Nat) :
    (s.work c ff w k pick).left need n < s.left need n ∨
      ∃ k', s.work c ff w k pick = s.put w k' ∧ k'.slots = k.slots ∧ isFin k'.pc = isFin k.pc ∧
        ((k.pc = .exited ∧ k' = k) ∨
         (k.pc = .top ∧ k'.nav % perWorker = (k.nav + 1) % perWorker ∧
           ((∃ t, k.slots[k.nav % perWorker]? = some (some t) ∧ ∃ i, k'.pc = .run i) ∨
            (k.slots[k.nav % perWorker]? = some none ∧ k'.pc = .load ∧ ∀ i t, pick = some i → s.queue[i]? ≠ some t))) ∨
         (k.pc = .load ∧ k'.nav = k.nav ∧ k'.pc = .cmp (if ff then s.finish else s.total)) ∨
         (∃ v, k.pc = .cmp v ∧ k'.nav = k.nav ∧
           k'.pc = if v = (if ff then s.total else s.finish) then .exited else .top)) := by
  have hl := h.slotsLen w k hk
  have hfinset : ∀ k' : Wk, tot (fun k => isFin k.pc) (s.ws.set w k') + isFin k.pc = tot (fun k => isFin k.pc) s.ws + isFin k'.pc :=
    fun k' => tot_set (fun k => isFin k.pc) s.ws w k k' hk
  unfold St.work
  cases hpc : k.pc with
  | exited =>
    refine .inr ⟨k, ?_, rfl, by rw [hpc], .inl ⟨rfl, rfl⟩⟩
    have : s.ws.set w k = s.ws := by
      apply List.ext_getElem?
      intro i
      by_cases hi : i = w
      · subst hi; rw [List.getElem?_set_self ((List.getElem?_eq_some_iff.1 hk).1), hk]
      · rw [List.getElem?_set_ne (Ne.symm hi)]
    simp only [St.put, this]
  | top =>
    have hb : k.nav % perWorker < k.slots.length := by rw [hl]; exact Nat.mod_lt _ (by decide)
    obtain ⟨o, ho⟩ : ∃ o, k.slots[k.nav % perWorker]? = some o := ⟨_, List.getElem?_eq_getElem hb⟩
    have hnav : ((k.nav + 1) % 4294967296) % perWorker = (k.nav + 1) % perWorker := by simp only [perWorker]; omega
    simp only [ho]
    cases o with
    | some t =>
      exact .inr ⟨_, rfl, rfl, by simp [Wk.next, isFin], .inr (.inl ⟨by trivial, hnav, .inl ⟨t, by trivial, _, rfl⟩⟩)⟩
    | none =>
      cases pick with
      | none =>
        exact .inr ⟨_, rfl, rfl, by simp [Wk.next, isFin], .inr (.inl ⟨by trivial, hnav,   .inr ⟨by trivial, rfl, by simp⟩⟩)⟩
      | some j =>
        simp only
        cases hj : s.queue[j]? with
        | none =>
          exact .inr ⟨_, rfl, rfl, by simp [Wk.next, isFin], .inr (.inl ⟨by trivial, hnav,   .inr ⟨by trivial, rfl, by
            intro i t hi; cases hi; rw [hj]; simp⟩⟩)⟩
        | some t =>
          left
          have hjl : j < s.queue.length := (List.getElem?_eq_some_iff.1 hj).1
          have h1 := hfinset { k.next (.run (k.nav % perWorker)) with slots := k.slots.set (k.nav % perWorker) (some t) }
          simp only [Wk.next, hpc, isFin_top, isFin_run] at h1
          simp only [St.left, St.put, Wk.next, List.length_eraseIdx, if_pos hjl]
          omega
  | load => exact .inr ⟨_, rfl, rfl, by simp [isFin], .inr (.inr (.inl ⟨rfl, rfl, rfl⟩))⟩
  | cmp v =>
    exact .inr ⟨_, rfl, rfl, by simp only [isFin]; split <;> simp_all <;> split_ifs at * , .inr (.inr (.inr ⟨v, rfl, rfl, rfl⟩))⟩
  | run i =>
    left
    obtain ⟨t, ht⟩ := h.runOk w k hk i (.inl hpc)
    have htn := h.heldLt hk ht
    have hnd : c.done (s.coro t) = false := by
      cases hd : c.done (s.coro t) with
      | false => rfl
      | true => have := (h.held w k hk i t ht).1 hd; rw [hpc] at this; cases this
    have hlt := h.cntLt hneed htn hnd
    simp only [ht]
    have h1 := hfinset { k with pc := if c.done (c.resume (s.coro t)) then .fin i else .top }
    have h2 : isFin (if c.done (c.resume (s.coro t)) then .fin i else .top) ≤ 1 := by split_ifs <;> simp [isFin]
    have h3 := tot_less (l := List.range n) List.nodup_range (f := fun t' => need t' - (if t' = t then s.cnt t + 1 else s.cnt t'))
      (g := fun t' => need t' - s.cnt t') (List.mem_range.2 htn) (by simp; omega) (fun x hx => by simp [hx])
    simp only [hpc, isFin_run, isFin_fin, isFin_top] at h1
    simp only [St.left, St.put]
    omega
  | fin i =>
    left
    have h1 := hfinset { k with slots := k.slots.set i none, pc := .top }
    simp only [hpc, isFin_run, isFin_fin, isFin_top] at h1
    simp only [St.left, St.put]
    omega

theorem left_put {S : Type} {s : St S} {need : Nat → Nat} {n w : Nat} {k k' : Wk} (hk : s.ws[w]? = some k) (hf : isFin k'.pc = isFin k.pc) :
    (s.put w k').left need n = s.left need n := by
  have := tot_set (fun k => isFin k.pc) s.ws w k k' hk
  simp only [St.left, St.put]
  omega

/-- Worker `k` will get work done within `r` of its own moves. -/
def Useful {S : Type} (s : St S) (k : Wk) (r : Nat) : Prop :=
  (∃ i, k.pc = .run i ∨ k.pc = .fin i) ∨
  (s.queue ≠ [] ∧ ((k.pc = .top ∧ 1 ≤ r) ∨ ((∃ v, k.pc = .cmp v) ∧ 2 ≤ r) ∨ (k.pc = .load ∧ 3 ≤ r))) ∨
  (∃ e t, k.slots[(k.nav + e) % perWorker]? = some (some t) ∧
    ((k.pc = .top ∧ 3 * e + 1 ≤ r) ∨ ((∃ v, k.pc = .cmp v) ∧ 3 * e + 2 ≤ r) ∨ (k.pc = .load ∧ 3 * e + 3 ≤ r)))

theorem Inv.open_of_slot {S : Type} {c : Coro S} {ff : Bool} {n : Nat} {init : Nat → S} {s : St S} (h : Inv c ff n init s) {w : Nat}
    {k : Wk} {i t : Nat} (hk : s.ws[w]? = some k) (hi : k.slots[i]? = some (some t)) : s.finish < n := by
  have h1 := tot_ge Wk.occupied s.ws w k hk
  have h2 := tot_ge (fun x : Option Nat => if x = none then 0 else 1) k.slots i (some t) hi
  have h3 := h.size
  have h4 : k.occupied = tot (fun x : Option Nat => if x = none then 0 else 1) k.slots := rfl
  simp at h2
  omega

theorem Inv.open_of_queue {S : Type} {c : Coro S} {ff : Bool} {n : Nat} {init : Nat → S} {s : St S} (h : Inv c ff n init s)
    (hq : s.queue ≠ []) : s.finish < n := by
  have h3 := h.size
  have := List.length_pos_iff.2 hq
  omega

/-- The pop of this action succeeds if there is something in the queue. -/
def honest {S : Type} (s : St S) (pick : Option Nat) : Prop := s.queue ≠ [] → ∃ i t, pick = some i ∧ s.queue[i]? = some t

theorem Useful.self {S : Type} {c : Coro S} {ff : Bool} {n : Nat} {init : Nat → S} {s : St S} (h : Inv c ff n init s)
    {need : Nat → Nat} (hneed : Needs c init n need) {w : Nat} {k : Wk} (hk : s.ws[w]? = some k) {pick : Option Nat} (hh : honest s pick)
    {r : Nat} (hu : Useful s k r) :
    (s.work c ff w k pick).left need n < s.left need n ∨
      ∃ k' r', r' < r ∧ s.work c ff w k pick = s.put w k' ∧ Useful (s.put w k') k' r' ∧ (s.put w k').left need n = s.left need n := by
  rcases h.work_left hneed hk pick with hlt | ⟨k', he, hs, hf, hc⟩
  · exact .inl hlt
  right
  have hleft := left_put (need := need) (n := n) hk hf
  have hopen : s.queue ≠ [] ∨ (∃ e t, k.slots[(k.nav + e) % perWorker]? = some (some t)) → s.finish < n := by
    rintro (hq | ⟨e, t, ht⟩)
    · exact h.open_of_queue hq
    · exact h.open_of_slot hk ht
  -- positions `run` and `fin` always get work done
  have hnot : ¬ ∃ i, k.pc = .run i ∨ k.pc = .fin i := by
    rintro ⟨i, hi | hi⟩ <;> rcases hc with ⟨h1, _⟩ | ⟨h1, _⟩ | ⟨h1, _⟩ | ⟨v, h1, _⟩ <;> rw [hi] at h1 <;> cases h1
  rcases hu with hu | ⟨hq, hu⟩ | ⟨e, t, ht, hu⟩
  · exact absurd hu hnot
  · have hfin := hopen (.inl hq)
    rcases hc with ⟨h1, _⟩ | ⟨h1, _, hc⟩ | ⟨h1, _, hc⟩ | ⟨v, h1, _, hc⟩
    · rcases hu with ⟨hu, _⟩ | ⟨⟨v, hu⟩, _⟩ | ⟨hu, _⟩ <;> rw [h1] at hu <;> cases hu
    · have hr : 1 ≤ r := by
        rcases hu with ⟨_, hu⟩ | ⟨⟨v, hu⟩, _⟩ | ⟨hu, _⟩
        · exact hu
        · rw [h1] at hu; cases hu
        · rw [h1] at hu; cases hu
      rcases hc with ⟨t, _, i, hi⟩ | ⟨_, _, hc⟩
      · exact ⟨k', 0, by omega, he, .inl ⟨i, .inl hi⟩, hleft⟩
      · obtain ⟨i, t, hp, hqi⟩ := hh hq
        exact absurd hqi (hc i t hp)
    · have hr : 3 ≤ r := by
        rcases hu with ⟨hu, _⟩ | ⟨⟨v, hu⟩, _⟩ | ⟨_, hu⟩
        · rw [h1] at hu; cases hu
        · rw [h1] at hu; cases hu
        · exact hu
      exact ⟨k', 2, by omega, he, .inr (.inl ⟨hq, .inr (.inl ⟨⟨_, hc⟩, by omega⟩)⟩), hleft⟩
    · have hr : 2 ≤ r := by
        rcases hu with ⟨hu, _⟩ | ⟨_, hu⟩ | ⟨hu, _⟩
        · rw [h1] at hu; cases hu
        · exact hu
        · rw [h1] at hu; cases hu
      have hv : ¬ v = (if ff then s.total else s.finish) := by
        have hcmp := h.cmp w k hk v h1
        cases ff with
        | true => simp only [if_true, h.total] at hcmp ⊢; omega
        | false => simp only [Bool.false_eq_true, if_false] at hcmp ⊢; omega
      rw [if_neg hv] at hc
      exact ⟨k', 1, by omega, he, .inr (.inl ⟨hq, .inl ⟨hc, by omega⟩⟩), hleft⟩
  · have hfin := hopen (.inr ⟨e, t, ht⟩)
    rcases hc with ⟨h1, _⟩ | ⟨h1, hnav, hc⟩ | ⟨h1, hnav, hc⟩ | ⟨v, h1, hnav, hc⟩
    · rcases hu with ⟨hu, _⟩ | ⟨⟨v, hu⟩, _⟩ | ⟨hu, _⟩ <;> rw [h1] at hu <;> cases hu
    · have hr : 3 * e + 1 ≤ r := by
        rcases hu with ⟨_, hu⟩ | ⟨⟨v, hu⟩, _⟩ | ⟨hu, _⟩
        · exact hu
        · rw [h1] at hu; cases hu
        · rw [h1] at hu; cases hu
      rcases hc with ⟨t, _, i, hi⟩ | ⟨hnone, hc, _⟩
      · exact ⟨k', 0, by omega, he, .inl ⟨i, .inl hi⟩, hleft⟩
      · cases e with
        | zero => rw [Nat.add_zero, hnone] at ht; cases ht
        | succ e =>
          refine ⟨k', 3 * e + 3, by omega, he, .inr (.inr ⟨e, t, ?_, .inr (.inr ⟨hc, Nat.le_refl _⟩)⟩), hleft⟩
          rw [hs, show (k'.nav + e) % perWorker = (k.nav + (e + 1)) % perWorker by simp only [perWorker] at hnav ⊢; omega]
          exact ht
    · have hr : 3 * e + 3 ≤ r := by
        rcases hu with ⟨hu, _⟩ | ⟨⟨v, hu⟩, _⟩ | ⟨_, hu⟩
        · rw [h1] at hu; cases hu
        · rw [h1] at hu; cases hu
        · exact hu
      exact ⟨k', 3 * e + 2, by omega, he,
        .inr (.inr ⟨e, t, by rw [hs, hnav]; exact ht, .inr (.inl ⟨⟨_, hc⟩, Nat.le_refl _⟩)⟩), hleft⟩
    · have hr : 3 * e + 2 ≤ r := by
        rcases hu with ⟨hu, _⟩ | ⟨_, hu⟩ | ⟨hu, _⟩
        · rw [h1] at hu; cases hu
        · exact hu
        · rw [h1] at hu; cases hu
      have hv : ¬ v = (if ff then s.total else s.finish) := by
        have hcmp := h.cmp w k hk v h1
        cases ff with
        | true => simp only [if_true, h.total] at hcmp ⊢; omega
        | false => simp only [Bool.false_eq_true, if_false] at hcmp ⊢; omega
      rw [if_neg hv] at hc
      exact ⟨k', 3 * e + 1, by omega, he,
        .inr (.inr ⟨e, t, by rw [hs, hnav]; exact ht, .inl ⟨hc, Nat.le_refl _⟩⟩), hleft⟩

theorem Inv.someUseful {S : Type} {c : Coro S} {ff : Bool} {n : Nat} {init : Nat → S} {s : St S} (h : Inv c ff n init s)
    (hw : s.ws ≠ []) (hopen : s.finish < n) : ∃ (w : Nat) (k : Wk) (r : Nat), s.ws[w]? = some k ∧ Useful s k r := by
  by_cases hq : s.queue = []
  · have hpos : 0 < tot Wk.occupied s.ws := by have := h.size; simp only [hq, List.length_nil] at this; omega
    obtain ⟨k, hkm, hkp⟩ := tot_pos hpos
    obtain ⟨w, hk⟩ := List.mem_iff_getElem?.1 hkm
    obtain ⟨x, hx, hxp⟩ := tot_pos (f := fun x : Option Nat => if x = none then 0 else 1) (l := k.slots) hkp
    cases x with
    | none => simp at hxp
    | some t =>
      obtain ⟨i, hi⟩ := List.mem_iff_getElem?.1 hx
      have hil : i < perWorker := by rw [← h.slotsLen w k hk]; exact (List.getElem?_eq_some_iff.1 hi).1
      have he : k.slots[(k.nav + (i + perWorker - k.nav % perWorker)) % perWorker]? = some (some t) := by
        rw [show (k.nav + (i + perWorker - k.nav % perWorker)) % perWorker = i by simp only [perWorker] at hil ⊢; omega]
        exact hi
      refine ⟨w, k, 3 * (i + perWorker - k.nav % perWorker) + 3, hk, ?_⟩
      cases hpc : k.pc with
      | exited => have := h.exit w k hk hpc; omega
      | run j => exact .inl ⟨j, .inl hpc⟩
      | fin j => exact .inl ⟨j, .inr hpc⟩
      | top => exact .inr (.inr ⟨_, t, he, .inl ⟨hpc, by omega⟩⟩)
      | cmp v => exact .inr (.inr ⟨_, t, he, .inr (.inl ⟨⟨v, hpc⟩, by omega⟩)⟩)
      | load => exact .inr (.inr ⟨_, t, he, .inr (.inr ⟨hpc, by omega⟩)⟩)
  · cases hws : s.ws with
    | nil => exact absurd hws hw
    | cons k ks =>
      have hk : s.ws[0]? = some k := by rw [hws]; rfl
      refine ⟨0, k, 3, by simp, ?_⟩
      cases hpc : k.pc with
      | exited => have := h.exit 0 k hk hpc; omega
      | run j => exact .inl ⟨j, .inl hpc⟩
      | fin j => exact .inl ⟨j, .inr hpc⟩
      | top => exact .inr (.inl ⟨hq, .inl ⟨hpc, by omega⟩⟩)
      | cmp v => exact .inr (.inl ⟨hq, .inr (.inl ⟨⟨v, hpc⟩, by omega⟩)⟩)
      | load => exact .inr (.inl ⟨hq, .inr (.inr ⟨hpc, by omega⟩)⟩)

/-- Every action is a move of a worker, every worker moves again and again, and pops do not fail while there are entries. -/
structure Fair {S : Type} (c : Coro S) (ff : Bool) (s : St S) (f : Nat → Act) : Prop where
  work : ∀ j, (f j).isWork = true
  fair : ∀ w, w < s.ws.length → ∀ j, ∃ m pick, f (j + m) = .work w pick
  pops : ∀ j w pick, f j = .work w pick → honest (after c ff s f j) pick

theorem after_ws {S : Type} (c : Coro S) (ff : Bool) (s : St S) (f : Nat → Act) : ∀ j, (after c ff s f j).ws.length = s.ws.length
  | 0 => rfl
  | j + 1 => by
    have ih := after_ws c ff s f j
    simp only [after]
    cases f j with
    | work w pick =>
      simp only [step]
      cases hk : (after c ff s f j).ws[w]? with
      | none => exact ih
      | some k =>
        simp only [St.work]
        split <;> (try split) <;> (try split) <;> (try split) <;> simp [St.put, ih]
    | count => exact ih
    | push t => exact ih

section
variable {S : Type} {c : Coro S} {ff : Bool} {n : Nat} {init : Nat → S} {s : St S} {f : Nat → Act} {need : Nat → Nat}

/-- If a worker is useful, work gets done. -/
theorem progress (h : Inv c ff n init s) (hf : Fair c ff s f) (hneed : Needs c init n need) {w : Nat} : ∀ (r m j : Nat) (k : Wk),
    (∃ pick, f (j + m) = .work w pick) → (after c ff s f j).ws[w]? = some k → Useful (after c ff s f j) k r →
    ∃ j', (after c ff s f j').left need n < (after c ff s f j).left need n := by
  intro r
  induction r using Nat.strongRecOn with
  | ind r ihr =>
  intro m
  induction m with
  | zero =>
    rintro j k ⟨pick, hp⟩ hk hu
    have hI := h.after hf.work j
    have hstep : after c ff s f (j + 1) = (after c ff s f j).work c ff w k pick := by
      simp only [after]
      rw [show f j = .work w pick from hp]
      simp only [step, hk]
    rcases hu.self hI hneed hk (hf.pops j w pick hp) with hlt | ⟨k', r', hr', he, hu', hle⟩
    · exact ⟨j + 1, by rw [hstep]; exact hlt⟩
    · rw [he] at hstep
      have hwl : w < (after c ff s f j).ws.length := (List.getElem?_eq_some_iff.1 hk).1
      have hk' : (after c ff s f (j + 1)).ws[w]? = some k' := by rw [hstep]; simp [St.put, hwl]
      rw [after_ws] at hwl
      obtain ⟨m', pick', hp'⟩ := hf.fair w hwl (j + 1)
      obtain ⟨j', hj'⟩ := ihr r' hr' m' (j + 1) k' ⟨pick', hp'⟩ hk' (by rw [hstep]; exact hu')
      exact ⟨j', by rw [hstep] at hj'; rw [hle] at hj'; exact hj'⟩
  | succ m ihm =>
    rintro j k ⟨pick, hp⟩ hk hu
    have hI := h.after hf.work j
    cases hfj : f j with
    | count => have := hf.work j; rw [hfj] at this; cases this
    | push t => have := hf.work j; rw [hfj] at this; cases this
    | work w2 pick2 =>
      by_cases hw2 : w2 = w
      · subst hw2
        have hstep : after c ff s f (j + 1) = (after c ff s f j).work c ff w2 k pick2 := by
          simp only [after, hfj, step, hk]
        rcases hu.self hI hneed hk (hf.pops j w2 pick2 hfj) with hlt | ⟨k', r', hr', he, hu', hle⟩
        · exact ⟨j + 1, by rw [hstep]; exact hlt⟩
        · rw [he] at hstep
          have hwl : w2 < (after c ff s f j).ws.length := (List.getElem?_eq_some_iff.1 hk).1
          have hk' : (after c ff s f (j + 1)).ws[w2]? = some k' := by rw [hstep]; simp [St.put, hwl]
          obtain ⟨j', hj'⟩ := ihr r' hr' m (j + 1) k' ⟨pick, by rw [← hp]; congr 1; omega⟩ hk' (by rw [hstep]; exact hu')
          exact ⟨j', by rw [hstep] at hj'; rw [hle] at hj'; exact hj'⟩
      · cases hk2 : (after c ff s f j).ws[w2]? with
        | none =>
          have hstep : after c ff s f (j + 1) = after c ff s f j := by simp only [after, hfj, step, hk2]
          obtain ⟨j', hj'⟩ := ihm (j + 1) k ⟨pick, by rw [← hp]; congr 1; omega⟩ (by rw [hstep]; exact hk) (by rw [hstep]; exact hu)
          exact ⟨j', by rw [hstep] at hj'; exact hj'⟩
        | some k2 =>
          have hstep : after c ff s f (j + 1) = (after c ff s f j).work c ff w2 k2 pick2 := by simp only [after, hfj, step, hk2]
          rcases hI.work_left hneed hk2 pick2 with hlt | ⟨k', he, _, hfi, _⟩
          · exact ⟨j + 1, by rw [hstep]; exact hlt⟩
          · rw [he] at hstep
            have hle := left_put (need := need) (n := n) hk2 hfi
            obtain ⟨j', hj'⟩ := ihm (j + 1) k ⟨pick, by rw [← hp]; congr 1; omega⟩
              (by rw [hstep]; simp only [St.put]; rw [List.getElem?_set_ne hw2]; exact hk)
              (by rw [hstep]; exact hu)
            exact ⟨j', by rw [hstep] at hj'; rw [hle] at hj'; exact hj'⟩

theorem allFinished (h : Inv c ff n init s) (hf : Fair c ff s f) (hneed : Needs c init n need) (hw : s.ws ≠ []) : ∀ (m j : Nat),
    (after c ff s f j).left need n = m → ∃ j', j ≤ j' ∧ (after c ff s f j').finish = n := by
  intro m
  induction m using Nat.strongRecOn with
  | ind m ih =>
  intro j hm
  have hI := h.after hf.work j
  by_cases hopen : (after c ff s f j).finish < n
  · have hne : (after c ff s f j).ws ≠ [] := by
      intro he
      have := after_ws c ff s f j
      rw [he] at this
      exact hw (List.length_eq_zero_iff.1 this.symm)
    obtain ⟨w, k, r, hk, hu⟩ := hI.someUseful hne hopen
    have hwl : w < s.ws.length := by rw [← after_ws c ff s f j]; exact (List.getElem?_eq_some_iff.1 hk).1
    obtain ⟨m', pick', hp'⟩ := hf.fair w hwl j
    obtain ⟨j', hj'⟩ := progress h hf hneed r m' j k ⟨pick', hp'⟩ hk hu
    -- `left` never grows, so the better state is a later one
    have hmono : ∀ a d, (after c ff s f (a + d)).left need n ≤ (after c ff s f a).left need n := by
      intro a d
      induction d with
      | zero => exact Nat.le_refl _
      | succ d ihd =>
        refine Nat.le_trans ?_ ihd
        have hId := h.after hf.work (a + d)
        rw [← Nat.add_assoc]
        cases hfa : f (a + d) with
        | count => have := hf.work (a + d); rw [hfa] at this; cases this
        | push t => have := hf.work (a + d); rw [hfa] at this; cases this
        | work w2 pick2 =>
          cases hk2 : (after c ff s f (a + d)).ws[w2]? with
          | none => simp only [after, hfa, step, hk2]; exact Nat.le_refl _
          | some k2 =>
            simp only [after, hfa, step, hk2]
            rcases hId.work_left hneed hk2 pick2 with hlt | ⟨k', he, _, hfi, _⟩
            · exact Nat.le_of_lt hlt
            · rw [he, left_put (need := need) (n := n) hk2 hfi]
              exact Nat.le_refl _
    have hjj : j ≤ j' := by
      by_contra hc
      have := hmono j' (j - j')
      rw [show j' + (j - j') = j by omega] at this
      omega
    obtain ⟨j'', h1, h2⟩ := ih _ (by omega) j' rfl
    exact ⟨j'', by omega, h2⟩
  · exact ⟨j, Nat.le_refl _, by have := hI.finishLe; omega⟩

/-! ### The workers return -/

def exitRank (n : Nat) : Pc → Nat
  | .exited => 0
  | .cmp v => if v = n then 1 else 4
  | .load => 2
  | .top => 3
  | .run _ => 0
  | .fin _ => 0

theorem Inv.quiet (h : Inv c ff n init s) (hfin : s.finish = n) : s.queue = [] ∧ ∀ (w : Nat) (k : Wk), s.ws[w]? = some k →
    ∀ i t : Nat, k.slots[i]? ≠ some (some t) := by
  refine ⟨?_, ?_⟩
  · by_contra hq
    have := h.open_of_queue hq
    omega
  · intro w k hk i t hi
    have := h.open_of_slot hk hi
    omega

theorem exit_step (h : Inv c ff n init s) (hfin : s.finish = n) {w : Nat} {k : Wk} (hk : s.ws[w]? = some k) (pick : Option Nat) :
    ∃ k', s.work c ff w k pick = s.put w k' ∧ (k.pc = .exited → k' = k) ∧ (k.pc ≠ .exited → exitRank n k'.pc < exitRank n k.pc) := by
  obtain ⟨hq, hs⟩ := h.quiet hfin
  have hl := h.slotsLen w k hk
  unfold St.work
  cases hpc : k.pc with
  | exited =>
    refine ⟨k, ?_, fun _ => rfl, fun hne => absurd rfl hne⟩
    have : s.ws.set w k = s.ws := by
      apply List.ext_getElem?
      intro i
      by_cases hi : i = w
      · subst hi; rw [List.getElem?_set_self ((List.getElem?_eq_some_iff.1 hk).1), hk]
      · rw [List.getElem?_set_ne (Ne.symm hi)]
    simp only [St.put, this]
  | top =>
    have hb : k.nav % perWorker < k.slots.length := by rw [hl]; exact Nat.mod_lt _ (by decide)
    obtain ⟨o, ho⟩ : ∃ o, k.slots[k.nav % perWorker]? = some o := ⟨_, List.getElem?_eq_getElem hb⟩
    cases o with
    | some t => exact absurd ho (hs w k hk _ t)
    | none =>
      simp only [ho]
      cases pick with
      | none => exact ⟨_, rfl, by simp, by simp [Wk.next, exitRank]⟩
      | some j => simp only [hq, List.getElem?_nil]; exact ⟨_, rfl, by simp, by simp [Wk.next, exitRank]⟩
  | load =>
    refine ⟨_, rfl, by simp, fun _ => ?_⟩
    have : (if ff then s.finish else s.total) = n := by cases ff <;> simp [hfin, h.total]
    simp only [this, exitRank, if_pos]
    omega
  | cmp v =>
    refine ⟨_, rfl, by simp, fun _ => ?_⟩
    have : (if ff then s.total else s.finish) = n := by cases ff <;> simp [hfin, h.total]
    simp only [this, exitRank]
    by_cases hv : v = n
    · simp only [if_pos hv]; omega
    · simp only [if_neg hv]; omega
  | run i => obtain ⟨t, ht⟩ := h.runOk w k hk i (.inl hpc); exact absurd ht (hs w k hk i t)
  | fin i => obtain ⟨t, ht⟩ := h.runOk w k hk i (.inr hpc); exact absurd ht (hs w k hk i t)

theorem rank_put {w : Nat} {k k' : Wk} (hk : s.ws[w]? = some k) : tot (fun k => exitRank n k.pc) (s.put w k').ws + exitRank n k.pc =
    tot (fun k => exitRank n k.pc) s.ws + exitRank n k'.pc := tot_set (fun k => exitRank n k.pc) s.ws w k k' hk

theorem exit_progress (h : Inv c ff n init s) (hf : Fair c ff s f) {w : Nat} : ∀ (m j : Nat) (k : Wk),
    (∃ pick, f (j + m) = .work w pick) → (after c ff s f j).finish = n → (after c ff s f j).ws[w]? = some k → k.pc ≠ .exited →
    ∃ j', (after c ff s f j').finish = n ∧
      tot (fun k => exitRank n k.pc) (after c ff s f j').ws < tot (fun k => exitRank n k.pc) (after c ff s f j).ws := by
  intro m
  induction m with
  | zero =>
    rintro j k ⟨pick, hp⟩ hfin hk hne
    have hI := h.after hf.work j
    obtain ⟨k', he, _, hlt⟩ := exit_step hI hfin hk pick
    have hstep : after c ff s f (j + 1) = (after c ff s f j).put w k' := by
      simp only [after]
      rw [show f j = .work w pick from hp]
      simp only [step, hk, he]
    have := rank_put (n := n) (k' := k') hk
    have := hlt hne
    exact ⟨j + 1, by rw [hstep]; exact hfin, by rw [hstep]; omega⟩
  | succ m ih =>
    rintro j k ⟨pick, hp⟩ hfin hk hne
    have hI := h.after hf.work j
    cases hfj : f j with
    | count => have := hf.work j; rw [hfj] at this; cases this
    | push t => have := hf.work j; rw [hfj] at this; cases this
    | work w2 pick2 =>
      cases hk2 : (after c ff s f j).ws[w2]? with
      | none =>
        have hstep : after c ff s f (j + 1) = after c ff s f j := by simp only [after, hfj, step, hk2]
        obtain ⟨j', h1, h2⟩ := ih (j + 1) k ⟨pick, by rw [← hp]; congr 1; omega⟩ (by rw [hstep]; exact hfin) (by rw [hstep]; exact hk) hne
        exact ⟨j', h1, by rw [hstep] at h2; exact h2⟩
      | some k2 =>
        obtain ⟨k', he, hex, hlt⟩ := exit_step hI hfin hk2 pick2
        have hstep : after c ff s f (j + 1) = (after c ff s f j).put w2 k' := by simp only [after, hfj, step, hk2, he]
        have hrank := rank_put (n := n) (k' := k') hk2
        by_cases hx : k2.pc = .exited
        · have hk' := hex hx
          subst hk'
          have hwne : w2 ≠ w := by rintro rfl; rw [hk2] at hk; cases hk; exact hne hx
          obtain ⟨j', h1, h2⟩ := ih (j + 1) k ⟨pick, by rw [← hp]; congr 1; omega⟩ (by rw [hstep]; exact hfin)
            (by rw [hstep]; simp only [St.put]; rw [List.getElem?_set_ne hwne]; exact hk) hne
          exact ⟨j', h1, by rw [hstep] at h2; omega⟩
        · have := hlt hx
          exact ⟨j + 1, by rw [hstep]; exact hfin, by rw [hstep]; omega⟩

theorem allExit (h : Inv c ff n init s) (hf : Fair c ff s f) : ∀ (m j : Nat), (after c ff s f j).finish = n →
    tot (fun k => exitRank n k.pc) (after c ff s f j).ws = m → ∃ j', (after c ff s f j').joined := by
  intro m
  induction m using Nat.strongRecOn with
  | ind m ih =>
  intro j hfin hm
  by_cases hj : (after c ff s f j).joined
  · exact ⟨j, hj⟩
  · have : ∃ k ∈ (after c ff s f j).ws, k.pc ≠ .exited := by
      by_contra hc
      exact hj (fun k hk => by
        by_contra hne
        exact hc ⟨k, hk, hne⟩)
    obtain ⟨k, hkm, hne⟩ := this
    obtain ⟨w, hk⟩ := List.mem_iff_getElem?.1 hkm
    have hwl : w < s.ws.length := by rw [← after_ws c ff s f j]; exact (List.getElem?_eq_some_iff.1 hk).1
    obtain ⟨m', pick', hp'⟩ := hf.fair w hwl j
    obtain ⟨j', h1, h2⟩ := exit_progress h hf m' j k ⟨pick', hp'⟩ hfin hk hne
    exact ih _ (by omega) j' h1 rfl

end

end Alaya.Sched
