import Verif.Model.ThreadPool
import Verif.Lemmas.Scheduler

namespace Alaya.Pool
open Alaya.Sched (tot tot_set tot_ge tot_zero tot_pos)

/-- The tasks a list of calls enqueues. -/
def tasks : List Cmd → List Nat
  | [] => []
  | .enqueue t :: c => t :: tasks c
  | _ :: c => tasks c

/-- Every wait is for the number of tasks enqueued since the last reset, and the counter is only reset when a wait has just returned or
nothing has been enqueued.  `m` tasks have been enqueued since the last reset. -/
def Counted : Nat → Bool → List Cmd → Prop
  | m, _, [] => m < 2 ^ 32
  | m, _, .enqueue _ :: c => Counted (m + 1) false c
  | m, _, .wait n :: c => n = m ∧ Counted m true c
  | m, b, .reset :: c => m < 2 ^ 32 ∧ b = true ∧ Counted 0 true c

theorem Counted.lt {c : List Cmd} : ∀ {m : Nat} {b : Bool}, Counted m b c → m < 2 ^ 32 := by
  induction c with
  | nil => intro m b h; exact h
  | cons x c ih =>
    intro m b h
    cases x with
    | enqueue t => exact Nat.lt_of_succ_lt (ih h)
    | wait n => exact ih h.2
    | reset => exact h.1

def Cl.rest : Cl → List Cmd
  | .at c => c
  | .notify c => c
  | .sleep n c => .wait n :: c
  | _ => []

def Wk.busy : Wk → Nat
  | .run _ => 1
  | .fin => 1
  | _ => 0

def Wk.runs (t : Nat) : Wk → Nat
  | .run u => if u = t then 1 else 0
  | _ => 0

def Wk.awake : Wk → Prop
  | .lock => True
  | .run _ => True
  | .fin => True
  | _ => False

def Cl.stopped : Cl → Bool
  | .notifyAll => true
  | .join => true
  | .done => true
  | _ => false

structure Inv (all : List Nat) (s : St) : Prop where
  count : ∃ m b, Counted m b s.cl.rest ∧ s.completed + s.queue.length + tot Wk.busy s.ws = m ∧
    (b = true → s.queue = [] ∧ tot Wk.busy s.ws = 0)
  fifo : s.sent = s.started ++ s.queue
  once : ∀ t, s.started.count t = s.ended.count t + tot (Wk.runs t) s.ws
  all : s.sent ++ tasks s.cl.rest = all
  awake : s.ws ≠ [] → s.queue ≠ [] → (∃ (w : Nat) (k : Wk), s.ws[w]? = some k ∧ k.awake) ∨ ∃ c, s.cl = .notify c
  asleep : ∀ n c, s.cl = .sleep n c → s.completed ≠ n
  stop : s.stop = s.cl.stopped
  gone : ∀ (w : Nat), s.ws[w]? = some .gone → s.stop = true ∧ s.queue = []
  woken : s.cl = .join ∨ s.cl = .done → ∀ (w : Nat), s.ws[w]? ≠ some .sleep
  done : s.cl = .done → ∀ k ∈ s.ws, k = .gone
  returned : ∀ p ∈ s.returned, p.2.Perm p.1

theorem tot_set_of {α : Type} (f : α → Nat) {l : List α} {i : Nat} {x y : α} (h : l[i]? = some x) :
    tot f (l.set i y) + f x = tot f l + f y := tot_set f l i x y h

theorem tot_replicate {α : Type} (f : α → Nat) (x : α) (n : Nat) : tot f (List.replicate n x) = n * f x := by
  induction n with
  | zero => simp [tot]
  | succ n ih => simp only [List.replicate_succ, tot, ih, Nat.succ_mul]; omega

theorem tot_map {α β : Type} (f : β → Nat) (g : α → β) (l : List α) : tot f (l.map g) = tot (fun x => f (g x)) l := by
  induction l with
  | nil => rfl
  | cons a l ih => simp only [List.map_cons, tot, ih]

theorem tot_congr {α : Type} {f g : α → Nat} {l : List α} (h : ∀ x ∈ l, f x = g x) : tot f l = tot g l := by
  induction l with
  | nil => rfl
  | cons a l ih => simp only [tot]; rw [h a List.mem_cons_self, ih (fun x hx => h x (List.mem_cons_of_mem _ hx))]

theorem Inv.start (threads : Nat) (cs : List Cmd) (h : Counted 0 true cs) : Inv (tasks cs) (start threads cs) where
  count := ⟨0, true, h, by simp [Pool.start, tot_replicate, Wk.busy], fun _ => by simp [Pool.start, tot_replicate, Wk.busy]⟩
  fifo := rfl
  once := by intro t; simp [Pool.start, tot_replicate, Wk.runs]
  all := rfl
  awake := by intro _ h; exact absurd rfl h
  asleep := by intro n c h; cases h
  stop := rfl
  gone := by intro w h; simp [Pool.start, List.getElem?_replicate] at h
  woken := by intro h; rcases h with h | h <;> cases h
  done := by intro h; cases h
  returned := by intro p hp; cases hp

/-- Replacing the state of one worker. -/
theorem get_set {ws : List Wk} {w v : Nat} {k k' : Wk} (h : ws[w]? = some k) (hv : (ws.set w k')[v]? = some x) :
    (v = w ∧ x = k') ∨ (v ≠ w ∧ ws[v]? = some x) := by
  by_cases e : v = w
  · subst e
    rw [List.getElem?_set_self ((List.getElem?_eq_some_iff.1 h).1)] at hv
    cases hv
    exact .inl ⟨rfl, rfl⟩
  · rw [List.getElem?_set_ne (Ne.symm e)] at hv
    exact .inr ⟨e, hv⟩

theorem set_get {ws : List Wk} {w : Nat} {k k' : Wk} (h : ws[w]? = some k) : (ws.set w k')[w]? = some k' :=
  List.getElem?_set_self ((List.getElem?_eq_some_iff.1 h).1)

theorem set_ne {ws : List Wk} {w : Nat} {k' : Wk} (h : ws.set w k' ≠ []) : ws ≠ [] := by
  intro e; rw [e] at h; exact h rfl

theorem woken_rest (c : Cl) : c.woken.rest = c.rest := by cases c <;> rfl

theorem woken_stopped (c : Cl) : c.woken.stopped = c.stopped := by cases c <;> rfl

theorem woken_done {c : Cl} : c.woken = .done ↔ c = .done := by cases c <;> simp [Cl.woken]

theorem woken_join {c : Cl} : c.woken = .join ↔ c = .join := by cases c <;> simp [Cl.woken]

theorem woken_notify {c : Cl} {r : List Cmd} : c.woken = .notify r ↔ c = .notify r := by cases c <;> simp [Cl.woken]

theorem woken_not_sleep {c : Cl} {n : Nat} {r : List Cmd} : c.woken ≠ .sleep n r := by cases c <;> simp [Cl.woken]

variable {all : List Nat} {s : St}

/-- Changing one worker between `lock` and `sleep`. -/
theorem Inv.idle (h : Inv all s) {w : Nat} {k k' : Wk} (hk : s.ws[w]? = some k) (hb : k.busy = 0) (hb' : k'.busy = 0)
    (hr : ∀ t, k.runs t = 0) (hr' : ∀ t, k'.runs t = 0) (hg : k ≠ .gone) (haw : k'.awake ∨ s.queue = [])
    (hg' : k' = .gone → s.stop = true ∧ s.queue = []) (hs' : k' = .sleep → s.stop = false) : Inv all { s with ws := s.ws.set w k' } where
  count := by
    obtain ⟨m, b, h1, h2, h3⟩ := h.count
    have := tot_set_of Wk.busy (y := k') hk
    refine ⟨m, b, h1, by simp only; omega, fun e => ⟨(h3 e).1, ?_⟩⟩
    have := (h3 e).2
    simp only; omega
  fifo := h.fifo
  once := by
    intro t
    have h1 := h.once t
    have := tot_set_of (Wk.runs t) (y := k') hk
    rw [hr t, hr' t] at this
    simp only; omega
  all := h.all
  awake := by
    intro hn hq
    rcases haw with haw | haw
    · exact .inl ⟨w, k', set_get hk, haw⟩
    · exact absurd haw hq
  asleep := h.asleep
  stop := h.stop
  gone := by
    intro v hv
    rcases get_set hk hv with ⟨_, e⟩ | ⟨_, e⟩
    · exact hg' e.symm
    · exact h.gone v e
  woken := by
    intro hc v hv
    rcases get_set hk hv with ⟨_, e⟩ | ⟨_, e⟩
    · have h1 := hs' e.symm
      have h2 := h.stop
      simp only at hc
      rcases hc with hc | hc <;> rw [hc, h1] at h2 <;> cases h2
    · exact h.woken hc v e
  done := by
    intro hc x hx
    exact absurd (h.done hc k (List.mem_of_getElem? hk)) hg
  returned := h.returned

theorem Inv.client_woken (h : Inv all s) : Inv all { s with cl := s.cl.woken } where
  count := by simp only [woken_rest]; exact h.count
  fifo := h.fifo
  once := h.once
  all := by simp only [woken_rest]; exact h.all
  awake := by
    intro hn hq
    rcases h.awake hn hq with h | ⟨c, h⟩
    · exact .inl h
    · exact .inr ⟨c, woken_notify.2 h⟩
  asleep := by intro n c hc; exact absurd hc woken_not_sleep
  stop := by simp only [woken_stopped]; exact h.stop
  gone := h.gone
  woken := by
    intro hc
    rw [woken_join, woken_done] at hc
    exact h.woken hc
  done := by intro hc; exact h.done (woken_done.1 hc)
  returned := h.returned

theorem Inv.not_done (h : Inv all s) {w : Nat} {k : Wk} (hk : s.ws[w]? = some k) (hg : k ≠ .gone) : s.cl ≠ .done :=
  fun e => hg (h.done e k (List.mem_of_getElem? hk))

theorem Inv.no_gone (h : Inv all s) (hq : s.queue ≠ []) {w : Nat} : s.ws[w]? ≠ some .gone := fun e => hq (h.gone w e).2

theorem Inv.work (h : Inv all s) (w : Nat) : Inv all (s.work w) := by
  unfold St.work
  cases hk : s.ws[w]? with
  | none => exact h
  | some k =>
    cases k with
    | gone => exact h
    | sleep => exact h
    | lock =>
      simp only
      cases hq : s.queue with
      | nil =>
        simp only
        cases hs : s.stop with
        | true =>
          have := h.idle (k' := .gone) hk rfl rfl (fun _ => rfl) (fun _ => rfl) (by simp) (.inr hq) (fun _ => ⟨hs, hq⟩) (by simp)
          rw [hq, hs] at this
          exact this
        | false =>
          have := h.idle (k' := .sleep) hk rfl rfl (fun _ => rfl) (fun _ => rfl) (by simp) (.inr hq) (by simp) (fun _ => hs)
          rw [hq, hs] at this
          exact this
      | cons t q =>
        simp only
        obtain ⟨m, b, h1, h2, h3⟩ := h.count
        have hne : s.queue ≠ [] := by rw [hq]; simp
        have hb := tot_set_of Wk.busy (y := .run t) hk
        simp only [Wk.busy] at hb
        have hb1 : b = false := by
          cases b with
          | false => rfl
          | true => exact absurd (h3 rfl).1 hne
        subst hb1
        rw [hq] at h2
        simp only [List.length_cons] at h2
        refine ⟨⟨m, false, h1, by simp only; omega, by simp⟩, ?_, ?_, h.all, ?_, h.asleep, h.stop, ?_, ?_, ?_, h.returned⟩
        · simp only; rw [h.fifo, hq]; simp
        · intro u
          have h4 := h.once u
          have h5 := tot_set_of (Wk.runs u) (y := .run t) hk
          simp only [Wk.runs] at h5
          simp only [List.count_append, List.count_singleton]
          by_cases e : t = u
          · subst e
            simp only [beq_self_eq_true, if_true] at h5 ⊢; omega
          · simp only [beq_iff_eq, e, if_false] at h5 ⊢; omega
        · intro _ _
          exact .inl ⟨w, _, set_get hk, trivial⟩
        · intro v hv
          rcases get_set hk hv with ⟨_, e⟩ | ⟨_, e⟩
          · cases e
          · exact absurd e (h.no_gone hne)
        · intro hc v hv
          rcases get_set hk hv with ⟨_, e⟩ | ⟨_, e⟩
          · cases e
          · exact h.woken hc v e
        · intro hc
          exact absurd hc (h.not_done hk (by simp))
    | run t =>
      simp only
      obtain ⟨m, b, h1, h2, h3⟩ := h.count
      have hb := tot_set_of Wk.busy (y := .fin) hk
      simp only [Wk.busy] at hb
      refine ⟨⟨m, b, h1, by simp only; omega, fun e => ⟨(h3 e).1, by have := (h3 e).2; simp only; omega⟩⟩, h.fifo, ?_, h.all, ?_,
        h.asleep, h.stop, ?_, ?_, ?_, h.returned⟩
      · intro u
        have h4 := h.once u
        have h5 := tot_set_of (Wk.runs u) (y := .fin) hk
        simp only [Wk.runs] at h5
        simp only [List.count_append, List.count_singleton]
        by_cases e : t = u
        · subst e
          simp only [beq_self_eq_true, if_true] at h5 ⊢; omega
        · simp only [beq_iff_eq, e, if_false] at h5 ⊢; omega
      · intro _ _
        exact .inl ⟨w, _, set_get hk, trivial⟩
      · intro v hv
        rcases get_set hk hv with ⟨_, e⟩ | ⟨_, e⟩
        · cases e
        · exact h.gone v e
      · intro hc v hv
        rcases get_set hk hv with ⟨_, e⟩ | ⟨_, e⟩
        · cases e
        · exact h.woken hc v e
      · intro hc
        exact absurd hc (h.not_done hk (by simp))
    | fin =>
      simp only
      obtain ⟨m, b, h1, h2, h3⟩ := h.count
      have hlt := h1.lt
      have hb := tot_set_of Wk.busy (y := .lock) hk
      simp only [Wk.busy] at hb
      have hb1 : b = false := by
        cases b with
        | false => rfl
        | true => have := (h3 rfl).2; have := tot_ge Wk.busy s.ws w .fin hk; simp only [Wk.busy] at this; omega
      subst hb1
      have hmod : (s.completed + 1) % 2 ^ 32 = s.completed + 1 := Nat.mod_eq_of_lt (by omega)
      refine ⟨⟨m, false, by simp only [woken_rest]; exact h1, by simp only; omega, by simp⟩, h.fifo, ?_,
        by simp only [woken_rest]; exact h.all, ?_, ?_, by simp only [woken_stopped]; exact h.stop, ?_, ?_, ?_, h.returned⟩
      · intro u
        have h4 := h.once u
        have h5 := tot_set_of (Wk.runs u) (y := .lock) hk
        simp only [Wk.runs] at h5
        simp only; omega
      · intro _ _
        exact .inl ⟨w, _, set_get hk, trivial⟩
      · intro n c hc
        exact absurd hc woken_not_sleep
      · intro v hv
        rcases get_set hk hv with ⟨_, e⟩ | ⟨_, e⟩
        · cases e
        · exact h.gone v e
      · intro hc v hv
        rw [woken_join, woken_done] at hc
        rcases get_set hk hv with ⟨_, e⟩ | ⟨_, e⟩
        · cases e
        · exact h.woken hc v e
      · intro hc
        exact absurd (woken_done.1 hc) (h.not_done hk (by simp))

/-- Waking workers keeps everything but the sleepers. -/
structure Woken (ws ws' : List Wk) : Prop where
  len : ws'.length = ws.length
  same : ∀ (w : Nat) (k : Wk), ws[w]? = some k → ws'[w]? = some k ∨ (k = .sleep ∧ ws'[w]? = some .lock)

theorem Woken.tot {ws ws' : List Wk} (h : Woken ws ws') {f : Wk → Nat} (hf : f .sleep = f .lock) : tot f ws' = tot f ws := by
  induction ws generalizing ws' with
  | nil =>
    have := h.len
    cases ws' with
    | nil => rfl
    | cons _ _ => simp at this
  | cons a ws ih =>
    have hl := h.len
    cases ws' with
    | nil => simp at hl
    | cons b ws' =>
      have h0 := h.same 0 a rfl
      simp only [Sched.tot]
      rw [ih ⟨by simpa using hl, fun w k hk => by simpa using h.same (w + 1) k (by simpa using hk)⟩]
      rcases h0 with h0 | ⟨e, h0⟩
      · simp at h0; rw [h0]
      · simp at h0; rw [h0, e, hf]

theorem Woken.back {ws ws' : List Wk} (h : Woken ws ws') {w : Nat} {k : Wk} (hk : ws'[w]? = some k) :
    ws[w]? = some k ∨ (k = .lock ∧ ws[w]? = some .sleep) := by
  have hw : w < ws.length := by rw [← h.len]; exact (List.getElem?_eq_some_iff.1 hk).1
  have he : ws[w]? = some ws[w] := List.getElem?_eq_getElem hw
  rcases h.same w _ he with h1 | ⟨e, h1⟩
  · rw [hk] at h1
    cases h1
    exact .inl he
  · rw [hk] at h1
    cases h1
    rw [e] at he
    exact .inr ⟨rfl, he⟩

theorem wake_set {ws : List Wk} {w : Nat} (h : ws[w]? = some .sleep) : Woken ws (ws.set w .lock) := by
  refine ⟨by simp, fun v k hk => ?_⟩
  by_cases e : v = w
  · subst e
    rw [h] at hk
    cases hk
    exact .inr ⟨rfl, set_get h⟩
  · rw [List.getElem?_set_ne (Ne.symm e)]
    exact .inl hk

theorem Woken.refl (ws : List Wk) : Woken ws ws := ⟨rfl, fun _ _ h => .inl h⟩

theorem wakeOne_spec (pick : Nat) (ws : List Wk) : Woken ws (wakeOne pick ws) ∧
    ((∃ (w : Nat), (wakeOne pick ws)[w]? = some Wk.lock) ∨ ∀ (w : Nat), ws[w]? ≠ some .sleep) := by
  unfold wakeOne
  split
  · rename_i h
    exact ⟨wake_set h, .inl ⟨pick, set_get h⟩⟩
  · split
    · rename_i i hi
      obtain ⟨hlt, hp, _⟩ := List.findIdx?_eq_some_iff_getElem.1 hi
      have : ws[i]? = some .sleep := by
        rw [List.getElem?_eq_getElem hlt]
        simp only [beq_iff_eq] at hp
        rw [hp]
      exact ⟨wake_set this, .inl ⟨i, set_get this⟩⟩
    · rename_i hi
      refine ⟨Woken.refl ws, .inr (fun w hw => ?_)⟩
      rw [List.findIdx?_eq_none_iff] at hi
      have := hi _ (List.mem_of_getElem? hw)
      simp at this

theorem wakeAll_woken (ws : List Wk) : Woken ws (wakeAll ws) := by
  refine ⟨by simp [wakeAll], fun w k hk => ?_⟩
  simp only [wakeAll, List.getElem?_map, hk, Option.map_some]
  by_cases e : k = .sleep
  · rw [if_pos e]; exact .inr ⟨e, rfl⟩
  · rw [if_neg e]; exact .inl rfl

theorem wakeAll_none (ws : List Wk) (w : Nat) : (wakeAll ws)[w]? ≠ some .sleep := by
  simp only [wakeAll, List.getElem?_map]
  cases ws[w]? with
  | none => simp
  | some k =>
    simp only [Option.map_some]
    split <;> simp_all

theorem count_eq_perm {l l' : List Nat} (h : ∀ t, l.count t = l'.count t) : l.Perm l' := List.perm_iff_count.2 h

theorem Inv.client (h : Inv all s) (pick : Nat) : Inv all (s.client pick) := by
  unfold St.client
  have hstop := h.stop
  have hcount := h.count
  have hall := h.all
  split
  · -- enqueue
    rename_i t rest hc
    rw [hc] at hstop hcount hall
    obtain ⟨m, b, h1, h2, h3⟩ := hcount
    simp only [Cl.rest, Counted] at h1
    simp only [Cl.stopped] at hstop
    refine ⟨⟨m + 1, false, h1, by simp only [List.length_append, List.length_singleton]; omega, by simp⟩, ?_, h.once, ?_, ?_, ?_, hstop,
      ?_, ?_, ?_, h.returned⟩
    · simp only; rw [h.fifo, List.append_assoc]
    · rw [← hall]; simp [Cl.rest, tasks]
    · intro _ _; exact .inr ⟨rest, rfl⟩
    · intro n c e; cases e
    · intro w hw
      have := (h.gone w hw).1
      rw [hstop] at this; cases this
    · intro e; rcases e with e | e <;> cases e
    · intro e; cases e
  · -- wait
    rename_i n rest hc
    rw [hc] at hstop hcount hall
    obtain ⟨m, b, h1, h2, h3⟩ := hcount
    simp only [Cl.rest, Counted] at h1
    simp only [Cl.stopped] at hstop
    obtain ⟨e1, h1⟩ := h1
    split
    · rename_i hn
      have hq : s.queue = [] := by
        rw [← List.length_eq_zero_iff]; omega
      have hz : tot Wk.busy s.ws = 0 := by omega
      refine ⟨⟨m, true, h1, h2, fun _ => ⟨hq, hz⟩⟩, h.fifo, h.once, ?_, ?_, ?_, hstop, h.gone, ?_, ?_, ?_⟩
      · rw [← hall]; simp [Cl.rest, tasks]
      · intro _ hne; exact absurd hq hne
      · intro n c e; cases e
      · intro e; rcases e with e | e <;> cases e
      · intro e; cases e
      · intro p hp
        simp only [List.mem_append, List.mem_singleton] at hp
        rcases hp with hp | hp
        · exact h.returned p hp
        · subst hp
          refine count_eq_perm (fun t => ?_)
          have h4 := h.once t
          have h5 : tot (Wk.runs t) s.ws = 0 := by
            rw [tot_zero] at hz ⊢
            intro k hk
            have := hz k hk
            cases k <;> simp_all [Wk.busy, Wk.runs]
          have h6 := h.fifo
          rw [hq, List.append_nil] at h6
          simp only; rw [h6]; omega
    · rename_i hn
      refine ⟨⟨m, b, ⟨e1, h1⟩, h2, h3⟩, h.fifo, h.once, ?_, ?_, ?_, hstop, h.gone, ?_, ?_, h.returned⟩
      · exact hall
      · intro h7 h8
        rcases h.awake h7 h8 with h9 | ⟨c, h9⟩
        · exact .inl h9
        · rw [hc] at h9; cases h9
      · intro n' c e
        cases e
        exact hn
      · intro e; rcases e with e | e <;> cases e
      · intro e; cases e
  · -- reset
    rename_i rest hc
    rw [hc] at hstop hcount hall
    obtain ⟨m, b, h1, h2, h3⟩ := hcount
    simp only [Cl.rest, Counted] at h1
    simp only [Cl.stopped] at hstop
    obtain ⟨_, e1, h1⟩ := h1
    obtain ⟨hq, hz⟩ := h3 e1
    refine ⟨⟨0, true, h1, by simp [hq, hz], fun _ => ⟨hq, hz⟩⟩, h.fifo, h.once, ?_, ?_, ?_, hstop, h.gone, ?_, ?_, h.returned⟩
    · rw [← hall]; simp [Cl.rest, tasks]
    · intro _ hne; exact absurd hq hne
    · intro n c e; cases e
    · intro e; rcases e with e | e <;> cases e
    · intro e; cases e
  · -- the destructor
    rename_i hc
    rw [hc] at hstop hcount hall
    refine ⟨hcount, h.fifo, h.once, hall, ?_, ?_, rfl, ?_, ?_, ?_, h.returned⟩
    · intro h7 h8
      rcases h.awake h7 h8 with h9 | ⟨c, h9⟩
      · exact .inl h9
      · rw [hc] at h9; cases h9
    · intro n c e; cases e
    · intro w hw; exact ⟨rfl, (h.gone w hw).2⟩
    · intro e; rcases e with e | e <;> cases e
    · intro e; cases e
  · -- notify_one
    rename_i rest hc
    rw [hc] at hstop hcount hall
    obtain ⟨hw, hone⟩ := wakeOne_spec pick s.ws
    obtain ⟨m, b, h1, h2, h3⟩ := hcount
    simp only [Cl.stopped] at hstop
    refine ⟨⟨m, b, h1, by simp only; rw [hw.tot rfl]; exact h2, fun e => ⟨(h3 e).1, by simp only; rw [hw.tot rfl]; exact (h3 e).2⟩⟩,
      h.fifo, ?_, hall, ?_, ?_, hstop, ?_, ?_, ?_, h.returned⟩
    · intro t
      simp only
      rw [hw.tot rfl]; exact h.once t
    · intro hne _
      left
      rcases hone with ⟨w, hw'⟩ | hone
      · exact ⟨w, _, hw', trivial⟩
      · simp only at hne ⊢
        cases hws : wakeOne pick s.ws with
        | nil => exact absurd hws hne
        | cons k ks =>
          refine ⟨0, k, rfl, ?_⟩
          have h0 : (wakeOne pick s.ws)[0]? = some k := by rw [hws]; rfl
          rcases hw.back h0 with h0 | ⟨e, _⟩
          · cases k with
            | lock => trivial
            | run t => trivial
            | fin => trivial
            | sleep => exact absurd h0 (hone 0)
            | gone => have := (h.gone 0 h0).1; rw [hstop] at this; cases this
          · rw [e]; trivial
    · intro n c e; cases e
    · intro w hw'
      rcases hw.back hw' with h0 | ⟨e, _⟩
      · exact h.gone w h0
      · cases e
    · intro e; rcases e with e | e <;> cases e
    · intro e; cases e
  · exact h
  · -- notify_all
    rename_i hc
    rw [hc] at hstop hcount hall
    have hw := wakeAll_woken s.ws
    obtain ⟨m, b, h1, h2, h3⟩ := hcount
    simp only [Cl.stopped] at hstop
    refine ⟨⟨m, b, h1, by simp only; rw [hw.tot rfl]; exact h2, fun e => ⟨(h3 e).1, by simp only; rw [hw.tot rfl]; exact (h3 e).2⟩⟩,
      h.fifo, ?_, hall, ?_, ?_, hstop, ?_, ?_, ?_, h.returned⟩
    · intro t
      simp only
      rw [hw.tot rfl]; exact h.once t
    · intro hne hq
      left
      have hne' : s.ws ≠ [] := by
        intro e
        exact hne (List.length_eq_zero_iff.1 (by simp only; rw [hw.len, e]; rfl))
      rcases h.awake hne' hq with ⟨w, k, hk, ha⟩ | ⟨c, h9⟩
      · rcases hw.same w k hk with h8 | ⟨e, h8⟩
        · exact ⟨w, k, h8, ha⟩
        · rw [e] at ha; exact ha.elim
      · rw [hc] at h9; cases h9
    · intro n c e; cases e
    · intro w hw'
      rcases hw.back hw' with h0 | ⟨e, _⟩
      · exact h.gone w h0
      · cases e
    · intro _ w; exact wakeAll_none s.ws w
    · intro e; cases e
  · -- join
    rename_i hc
    rw [hc] at hstop hcount hall
    split
    · rename_i hg
      have hgone : ∀ k ∈ s.ws, k = .gone := by
        intro k hk
        rw [List.all_eq_true] at hg
        simpa using hg k hk
      refine ⟨hcount, h.fifo, h.once, hall, ?_, ?_, hstop, h.gone, ?_, fun _ => hgone, h.returned⟩
      · intro h7 h8
        rcases h.awake h7 h8 with h9 | ⟨c, h9⟩
        · exact .inl h9
        · rw [hc] at h9; cases h9
      · intro n c e; cases e
      · intro _; exact h.woken (.inl hc)
    · exact h
  · exact h

theorem Inv.step (h : Inv all s) (a : Act) : Inv all (step s a) := by
  cases a with
  | work w => exact h.work w
  | client pick => exact h.client pick
  | spurious w =>
    simp only [Pool.step]
    split
    · rename_i hk
      exact h.idle hk rfl rfl (fun _ => rfl) (fun _ => rfl) (by simp) (.inl trivial) (by simp) (by simp)
    · exact h
  | spuriousClient => exact h.client_woken

theorem Inv.run (as : List Act) : ∀ {s : St}, Inv all s → Inv all (run s as) := by
  induction as with
  | nil => intro s h; exact h
  | cons a as ih => intro s h; exact ih (h.step a)

theorem Inv.after (h : Inv all s) (f : Nat → Act) : ∀ n, Inv all (after s f n)
  | 0 => h
  | n + 1 => (Inv.after h f n).step (f n)

end Alaya.Pool
