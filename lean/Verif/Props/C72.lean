import Verif.Lemmas.ThreadPoolLive

/-! C72: the thread pool of the builders runs every task exactly once, and a wait that counts correctly ends, and ends in time. -/
namespace Alaya.Pool
open Alaya.Sched (tot tot_zero)

/-- What had to be finished at each wait of a program. -/
def marks : List Nat → List Cmd → List (List Nat)
  | _, [] => []
  | acc, .enqueue t :: c => marks (acc ++ [t]) c
  | acc, .wait _ :: c => acc :: marks acc c
  | acc, .reset :: c => marks acc c

theorem marks_step (s : St) (a : Act) :
    (step s a).returned.map Prod.fst ++ marks (step s a).sent (step s a).cl.rest = s.returned.map Prod.fst ++ marks s.sent s.cl.rest := by
  cases a with
  | work w =>
    simp only [Pool.step, St.work]
    split
    · split <;> rfl
    · rfl
    · simp only [woken_rest]
    · rfl
  | client pick =>
    simp only [Pool.step, St.client]
    split <;> try split
    all_goals simp_all [Cl.rest, marks]
  | spurious w =>
    simp only [Pool.step]
    split <;> rfl
  | spuriousClient => simp only [Pool.step, woken_rest]

theorem marks_run (as : List Act) : ∀ s : St,
    (run s as).returned.map Prod.fst ++ marks (run s as).sent (run s as).cl.rest = s.returned.map Prod.fst ++ marks s.sent s.cl.rest := by
  induction as with
  | nil => intro s; rfl
  | cons a as ih => intro s; exact (ih (step s a)).trans (marks_step s a)

/-- At every moment of every schedule: tasks are taken in the order in which they were enqueued, each at most once, every task taken is
running or has ended, and every wait that has returned did so when exactly the tasks enqueued before it in the program had ended. -/
theorem C72_safe (threads : Nat) (cs : List Cmd) (hc : Counted 0 true cs) (as : List Act) :
    let s := run (start threads cs) as
    (∃ later, s.started ++ s.queue ++ later = tasks cs) ∧
    (∀ t, s.started.count t = s.ended.count t + tot (Wk.runs t) s.ws) ∧
    (∃ later, s.returned.map Prod.fst ++ later = marks [] cs) ∧
    ∀ p ∈ s.returned, p.2.Perm p.1 := by
  intro s
  have h : Inv (tasks cs) s := Inv.run as (Inv.start threads cs hc)
  refine ⟨⟨tasks s.cl.rest, by rw [← h.fifo]; exact h.all⟩, h.once, ⟨marks s.sent s.cl.rest, ?_⟩, h.returned⟩
  exact marks_run as (start threads cs)

/-- When the destructor has returned, every task of the program has been executed exactly once, all waits have returned, and all threads
have ended. -/
theorem C72_destroyed (threads : Nat) (cs : List Cmd) (hc : Counted 0 true cs) (hw : 0 < threads) (as : List Act) :
    let s := run (start threads cs) as
    s.cl = .done → s.started = tasks cs ∧ s.ended.Perm (tasks cs) ∧ s.returned.map Prod.fst = marks [] cs ∧ ∀ k ∈ s.ws, k = .gone := by
  intro s hd
  have h : Inv (tasks cs) s := Inv.run as (Inv.start threads cs hc)
  have hgone := h.done hd
  have hlen : s.ws.length = threads := by
    have key : ∀ (as : List Act) (s : St), (run s as).ws.length = s.ws.length := by
      intro as
      induction as with
      | nil => intro s; rfl
      | cons a as ih => intro s; exact (ih (step s a)).trans (step_len s a)
    rw [key]; simp [start]
  have hq : s.queue = [] := by
    cases hws : s.ws with
    | nil => rw [hws] at hlen; simp at hlen; omega
    | cons k ks =>
      have h0 : s.ws[0]? = some .gone := by rw [hws, ← hgone k (by rw [hws]; simp)]; rfl
      exact (h.gone 0 h0).2
  have hall := h.all
  have hf := h.fifo
  rw [hd] at hall
  simp only [Cl.rest, tasks, List.append_nil] at hall
  rw [hq, List.append_nil, hall] at hf
  refine ⟨hf.symm, ?_, ?_, hgone⟩
  · rw [hf]
    refine List.perm_iff_count.2 (fun t => ?_)
    rw [h.once t]
    have : tot (Wk.runs t) s.ws = 0 := by
      rw [tot_zero]
      intro k hk
      rw [hgone k hk]
      rfl
    omega
  · have := marks_run as (start threads cs)
    rw [show run (start threads cs) as = s from rfl, hd] at this
    simpa [Cl.rest, marks, start] using this

/-- Under every fair schedule, with at least one thread, a program that counts correctly gets to the end of the destructor: no wake-up is
lost, whoever `notify_one` wakes and whatever wakes up spuriously. -/
theorem C72_terminates (threads : Nat) (cs : List Cmd) (hc : Counted 0 true cs) (hw : 0 < threads) (f : Nat → Act) (hf : Fair threads f) :
    ∃ i, (after (start threads cs) f i).cl = .done := by
  have hl : (start threads cs).ws.length = threads := by simp [start]
  refine finishes (Inv.start threads cs hc) ?_ (by rw [hl]; exact hf) _ 0 rfl
  intro e
  rw [e] at hl
  simp at hl; omega

theorem Counted.enqueues (ts : List Nat) : ∀ {m : Nat} {b : Bool} {c : List Cmd}, ts ≠ [] → Counted (m + ts.length) false c →
    Counted m b (ts.map .enqueue ++ c) := by
  induction ts with
  | nil => intro m b c h; exact absurd rfl h
  | cons t ts ih =>
    intro m b c _ h
    simp only [List.map_cons, List.cons_append, Counted]
    by_cases e : ts = []
    · subst e; simpa using h
    · exact ih e (by simpa [Nat.add_assoc, Nat.add_comm 1] using h)

/-- The phases of the builders count correctly. -/
theorem C72_phases (ps : List (List Nat)) (h : ∀ p ∈ ps, p.length < 2 ^ 32) : Counted 0 true (ps.flatMap phase) := by
  induction ps with
  | nil => simp [Counted]
  | cons p ps ih =>
    have hp := h p (by simp)
    have h2 := ih (fun q hq => h q (by simp [hq]))
    simp only [List.flatMap_cons, phase, List.append_assoc]
    by_cases e : p = []
    · subst e
      simpa [Counted] using h2
    · refine Counted.enqueues p e ?_
      simp only [Nat.zero_add, List.cons_append, List.nil_append, Counted]
      exact ⟨trivial, hp, trivial, h2⟩

/-- So does the HNSW builder, for up to 2^32 - 1 vectors. -/
theorem C72_hnsw (n : Nat) (h1 : 0 < n) (h2 : n < 2 ^ 32) : Counted 0 true (hnswBuild n) := by
  have hlast : Counted 0 true ((List.range' n n).map .enqueue ++ [.wait n]) := by
    refine Counted.enqueues _ (by simp; omega) ?_
    simp only [Counted, List.length_range', Nat.zero_add]
    exact ⟨trivial, h2⟩
  simp only [hnswBuild, List.append_assoc, List.cons_append, List.nil_append]
  by_cases e : n = 1
  · subst e
    simp [Counted]
  · refine Counted.enqueues _ (by simp; omega) ?_
    simp only [Counted, List.length_range', Nat.zero_add]
    exact ⟨trivial, by omega, trivial, by omega, trivial, hlast⟩

theorem C72_hnsw_build (n threads : Nat) (h1 : 0 < n) (h2 : n < 2 ^ 32) (hw : 0 < threads) (f : Nat → Act) (hf : Fair threads f) :
    ∃ i, (after (start threads (hnswBuild n)) f i).cl = .done :=
  C72_terminates threads _ (C72_hnsw n h1 h2) hw f hf

/-- A batch whose tasks do not throw is left when all its tasks have ended and none is running. -/
theorem C72_batch (threads : Nat) (ts : List Nat) (hn : ts.Nodup) (hlen : ts.length < 2 ^ 32) (as : List Act) :
    let s := run (start threads (ts.map .enqueue)) as
    leaves (fun _ => false) s ts = true → ∀ t ∈ ts, t ∈ s.ended ∧ ∀ (w : Nat), s.ws[w]? ≠ some (.run t) := by
  intro s hl
  have htasks : ∀ ts : List Nat, tasks (ts.map .enqueue) = ts := by
    intro ts
    induction ts with
    | nil => rfl
    | cons t ts ih => simp [tasks, ih]
  have hc : Counted 0 true (ts.map .enqueue) := by
    by_cases e : ts = []
    · subst e; simp [Counted]
    · have := Counted.enqueues ts (m := 0) (b := true) (c := []) e (by simpa [Counted] using hlen)
      simpa using this
  have h : Inv (tasks (ts.map .enqueue)) s := Inv.run as (Inv.start threads _ hc)
  have hall := h.all
  rw [htasks] at hall
  have hend : ∀ us : List Nat, leaves (fun _ => false) s us = true → ∀ t ∈ us, t ∈ s.ended := by
    intro us
    induction us with
    | nil => intro _ t ht; simp at ht
    | cons u us ih =>
      intro h t ht
      simp only [leaves, Bool.false_or, Bool.and_eq_true] at h
      rcases List.mem_cons.1 ht with rfl | ht
      · simpa using h.1
      · exact ih h.2 t ht
  intro t ht
  have h1 := hend ts hl t ht
  refine ⟨h1, fun w hw => ?_⟩
  have h2 := h.once t
  have h3 := Sched.tot_ge (Wk.runs t) s.ws w _ hw
  simp only [Wk.runs, if_true] at h3
  have h4 : 0 < s.ended.count t := List.count_pos_iff.2 h1
  have h5 : s.started.count t ≤ ts.count t := by
    rw [← hall, h.fifo]
    simp only [List.count_append]; omega
  have h6 : ts.count t ≤ 1 := by rw [hn.count]; split <;> omega
  omega

/-! ### What goes wrong otherwise -/

/-- A state out of which no schedule leads to the end. -/
def Hangs (s : St) : Prop := ∀ as, (run s as).cl ≠ .done

theorem hangs_of (P : St → Prop) (hstep : ∀ s a, P s → P (step s a)) (hd : ∀ s, P s → s.cl ≠ .done) {s : St} (h : P s) : Hangs s := by
  intro as
  induction as generalizing s with
  | nil => exact hd s h
  | cons a as ih => exact ih (hstep s a h)

/-- A wait for a count the 32-bit counter never has (2^32 tasks or more, or `0 - 1`) never returns. -/
theorem C72_big_count_refuted (threads n : Nat) (before after : List Cmd) (hn : 2 ^ 32 ≤ n) : Hangs (start threads (before ++ .wait n :: after)) := by
  refine hangs_of (fun s => s.completed < 2 ^ 32 ∧ .wait n ∈ s.cl.rest) ?_ ?_ ?_
  · intro s a ⟨h1, h2⟩
    cases a with
    | work w =>
      simp only [Pool.step, St.work]
      split
      · split <;> exact ⟨h1, h2⟩
      · exact ⟨h1, h2⟩
      · exact ⟨Nat.mod_lt _ (by decide), by simp only [woken_rest]; exact h2⟩
      · exact ⟨h1, h2⟩
    | client pick =>
      simp only [Pool.step, St.client]
      split
      · rename_i hc; rw [hc] at h2; exact ⟨h1, by simpa [Cl.rest] using h2⟩
      · rename_i m rest hc
        rw [hc] at h2
        split
        · rename_i hm
          refine ⟨h1, ?_⟩
          simp only [Cl.rest, List.mem_cons, Cmd.wait.injEq] at h2
          rcases h2 with h2 | h2
          · omega
          · exact h2
        · exact ⟨h1, h2⟩
      · rename_i hc; rw [hc] at h2; exact ⟨by simp, by simpa [Cl.rest] using h2⟩
      · rename_i hc; rw [hc] at h2; simp [Cl.rest] at h2
      · rename_i hc; rw [hc] at h2; exact ⟨h1, h2⟩
      · exact ⟨h1, h2⟩
      · rename_i hc; rw [hc] at h2; simp [Cl.rest] at h2
      · rename_i hc; rw [hc] at h2; simp [Cl.rest] at h2
      · exact ⟨h1, h2⟩
    | spurious w =>
      simp only [Pool.step]
      split <;> exact ⟨h1, h2⟩
    | spuriousClient => simp only [Pool.step, woken_rest]; exact ⟨h1, h2⟩
  · intro s ⟨_, h2⟩ hd
    rw [hd] at h2
    simp [Cl.rest] at h2
  · exact ⟨by simp [start], by simp [start, Cl.rest]⟩

/-- Without threads a wait for one task never returns. -/
theorem C72_no_threads_refuted (t : Nat) : Hangs (start 0 [.enqueue t, .wait 1]) := by
  refine hangs_of (fun s => s.ws = [] ∧ s.completed = 0 ∧ .wait 1 ∈ s.cl.rest) ?_ ?_ ?_
  · intro s a ⟨h0, h1, h2⟩
    cases a with
    | work w => simp only [Pool.step, St.work, h0]; exact ⟨h0, h1, h2⟩
    | client pick =>
      simp only [Pool.step, St.client]
      split
      · rename_i hc; rw [hc] at h2; exact ⟨h0, h1, by simpa [Cl.rest] using h2⟩
      · rename_i m rest hc
        rw [hc] at h2
        split
        · rename_i hm
          refine ⟨h0, h1, ?_⟩
          simp only [Cl.rest, List.mem_cons, Cmd.wait.injEq] at h2
          rcases h2 with h2 | h2
          · omega
          · exact h2
        · exact ⟨h0, h1, h2⟩
      · rename_i hc; rw [hc] at h2; exact ⟨h0, rfl, by simpa [Cl.rest] using h2⟩
      · rename_i hc; rw [hc] at h2; simp [Cl.rest] at h2
      · rename_i hc; rw [hc] at h2; exact ⟨by simp [h0, wakeOne], h1, h2⟩
      · exact ⟨h0, h1, h2⟩
      · rename_i hc; rw [hc] at h2; simp [Cl.rest] at h2
      · rename_i hc; rw [hc] at h2; simp [Cl.rest] at h2
      · exact ⟨h0, h1, h2⟩
    | spurious w => simp only [Pool.step, h0]; exact ⟨h0, h1, h2⟩
    | spuriousClient => simp only [Pool.step, woken_rest]; exact ⟨h0, h1, h2⟩
  · intro s ⟨_, _, h2⟩ hd
    rw [hd] at h2
    simp [Cl.rest] at h2
  · exact ⟨rfl, rfl, by simp [start, Cl.rest]⟩

/-- A wait that counts fewer tasks than were enqueued hangs when the other tasks are quicker. -/
theorem C72_low_count_refuted : ∃ as, Hangs (run (start 1 [.enqueue 0, .enqueue 1, .wait 1]) as) := by
  refine ⟨[.client 0, .client 0, .client 0, .client 0, .work 0, .work 0, .work 0, .work 0, .work 0, .work 0], ?_⟩
  refine hangs_of (fun s => s.queue = [] ∧ s.completed = 2 ∧ (s.ws = [.lock] ∨ s.ws = [.sleep]) ∧ s.stop = false ∧
    (s.cl = .at [.wait 1] ∨ s.cl = .sleep 1 [])) ?_ ?_ ?_
  · rintro ⟨q, st, co, ws, cl, _, _, _, _⟩ a ⟨h1, h2, h3, h4, h5⟩
    simp only at h1 h2 h3 h4 h5
    subst h1 h2 h4
    cases a with
    | work w =>
      cases w with
      | zero => rcases h3 with rfl | rfl <;> rcases h5 with rfl | rfl <;> simp [Pool.step, St.work]
      | succ w => rcases h3 with rfl | rfl <;> rcases h5 with rfl | rfl <;> simp [Pool.step, St.work]
    | client pick => rcases h3 with rfl | rfl <;> rcases h5 with rfl | rfl <;> simp [Pool.step, St.client]
    | spurious w =>
      cases w with
      | zero => rcases h3 with rfl | rfl <;> rcases h5 with rfl | rfl <;> simp [Pool.step]
      | succ w => rcases h3 with rfl | rfl <;> rcases h5 with rfl | rfl <;> simp [Pool.step]
    | spuriousClient => rcases h3 with rfl | rfl <;> rcases h5 with rfl | rfl <;> simp [Pool.step, Cl.woken]
  · intro s h hd
    rcases h.2.2.2.2 with h | h <;> rw [hd] at h <;> cases h
  · decide +kernel

/-- Without the reset between two phases the second wait returns while its task is still in the queue. -/
theorem C72_no_reset_refuted : ∃ as, let s := run (start 1 [.enqueue 0, .wait 1, .enqueue 1, .wait 1]) as
    ([0, 1], [0]) ∈ s.returned :=
  ⟨[.client 0, .client 0, .work 0, .work 0, .work 0, .client 0, .client 0, .client 0, .client 0], by decide +kernel⟩

/-- The batch search over the shared pool is left at the first exception, while another task still writes to the results of the batch. -/
theorem C72_batch_throw_refuted : ∃ as, let s := run (start 2 [.enqueue 0, .enqueue 1]) as
    leaves (fun t => t == 0) s [0, 1] = true ∧ s.ws[1]? = some (.run 1) :=
  ⟨[.client 0, .client 0, .client 0, .client 0, .work 0, .work 1, .work 0], by decide +kernel⟩

/-! ### The hypotheses can be met -/

/-- Round robin over the client and the workers. -/
def robin (workers : Nat) (j : Nat) : Act :=
  if j % (workers + 1) = workers then .client 0 else .work (j % (workers + 1))

theorem robin_fair (workers : Nat) : Fair workers (robin workers) := by
  constructor
  · intro w hw j
    refine ⟨(workers + 1) * j + w, ?_, ?_⟩
    · have : j ≤ (workers + 1) * j := Nat.le_mul_of_pos_left j (by omega)
      omega
    · have : ((workers + 1) * j + w) % (workers + 1) = w := by
        rw [Nat.mul_add_mod]; exact Nat.mod_eq_of_lt (by omega)
      simp only [robin, this]
      rw [if_neg (by omega)]
  · intro j
    refine ⟨(workers + 1) * j + workers, 0, ?_, ?_⟩
    · have : j ≤ (workers + 1) * j := Nat.le_mul_of_pos_left j (by omega)
      omega
    · have : ((workers + 1) * j + workers) % (workers + 1) = workers := by
        rw [Nat.mul_add_mod]; exact Nat.mod_eq_of_lt (by omega)
      simp only [robin, this, if_true]

/-- Building over three vectors with two threads in a round robin. -/
example : ∃ i, (after (start 2 (hnswBuild 3)) (robin 2) i).cl = .done := C72_hnsw_build 3 2 (by decide) (by decide) (by decide) _ (robin_fair 2)

example : (after (start 2 (hnswBuild 3)) (robin 2) 60).cl = .done ∧
    (after (start 2 (hnswBuild 3)) (robin 2) 60).ended = [1, 2, 3, 4, 5] := by decide +kernel

end Alaya.Pool
