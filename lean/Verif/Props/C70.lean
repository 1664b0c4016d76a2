import Verif.Lemmas.SchedulerLive
import Verif.Lemmas.SearchCoro
import Verif.Props.C67

/-! C70: the parallel batch search over an in-memory index equals single searches. -/
namespace Alaya.Sched
open Alaya.Pools Alaya.MemSearch Alaya.MemSearch.Spec

/-- At every moment of every schedule: no finished handle is resumed, no slot outside of the arrays is used, no two workers resume the
same coroutine, and a worker that has returned has left nothing undone. -/
theorem C70_safe {S : Type} (c : Coro S) (ff : Bool) (n workers : Nat) (init : Nat → S) (h0 : ∀ t, t < n → c.done (init t) = false)
    (as : List Act) (ha : ∀ a ∈ as, a.isWork = true) :
    let s := run c ff (start n workers init) as
    s.bad = false ∧
    (∀ (w w' : Nat) (k k' : Wk) (t : Nat), s.ws[w]? = some k → s.ws[w']? = some k' → k.resuming = some t → k'.resuming = some t → w = w') ∧
    (∀ k ∈ s.ws, k.pc = .exited → ∀ t, t < n → c.done (s.coro t) = true) := by
  intro s
  have h : Inv c ff n init s := (Inv.start c ff n workers init h0).run as ha
  have hres : ∀ (k : Wk) (t : Nat), k.resuming = some t → ∃ i : Nat, k.slots[i]? = some (some t) := by
    intro k t hk
    unfold Wk.resuming at hk
    split at hk
    · rename_i i _
      refine ⟨i, ?_⟩
      cases hs : k.slots[i]? with
      | none => rw [hs] at hk; cases hk
      | some o => rw [hs] at hk; cases o with
        | none => cases hk
        | some t' => cases hk; rfl
    · cases hk
  refine ⟨h.bad, ?_, ?_⟩
  · intro w w' k k' t hk hk' hr hr'
    obtain ⟨i, hi⟩ := hres k t hr
    obtain ⟨i', hi'⟩ := hres k' t hr'
    exact (h.unique hk hk' hi hi').1
  · intro k hk he t ht
    obtain ⟨w, hw⟩ := List.mem_iff_getElem?.1 hk
    obtain ⟨hq, hs⟩ := h.quiet (h.exit w k hw he)
    apply h.gone t ht
    simp only [St.has, hq, tot]
    have : tot (Wk.holds t) s.ws = 0 := by
      rw [tot_zero]
      intro k2 hk2
      obtain ⟨w2, hw2⟩ := List.mem_iff_getElem?.1 hk2
      simp only [Wk.holds]
      rw [tot_zero]
      intro x hx
      obtain ⟨i, hi⟩ := List.mem_iff_getElem?.1 hx
      rw [if_neg]
      rintro rfl
      exact hs w2 k2 hw2 i t hi
    omega

/-- When `join` has returned every coroutine has been resumed exactly as often as it takes to finish it, by nobody else. -/
theorem C70_all_done {S : Type} (c : Coro S) (ff : Bool) (n workers : Nat) (init : Nat → S) (h0 : ∀ t, t < n → c.done (init t) = false)
    (as : List Act) (ha : ∀ a ∈ as, a.isWork = true) (hw : 0 < workers) :
    let s := run c ff (start n workers init) as
    s.joined → ∀ t, t < n → c.done (s.coro t) = true ∧ s.coro t = c.resume^[s.cnt t] (init t) ∧
      ∀ j, j < s.cnt t → c.done (c.resume^[j] (init t)) = false := by
  intro s hj t ht
  have h : Inv c ff n init s := (Inv.start c ff n workers init h0).run as ha
  have hlen : s.ws.length = workers := by
    have key : ∀ (as : List Act) (s0 : St S), (run c ff s0 as).ws.length = s0.ws.length := by
      intro as
      induction as with
      | nil => intro s0; rfl
      | cons a as ih =>
        intro s0
        simp only [run]
        rw [ih]
        exact after_ws c ff s0 (fun _ => a) 1
    show (run c ff (start n workers init) as).ws.length = workers
    rw [key]; simp [start]
  cases hws : s.ws with
  | nil => rw [hws] at hlen; simp at hlen; omega
  | cons k ks =>
    have hk : k ∈ s.ws := by rw [hws]; simp
    exact ⟨(C70_safe c ff n workers init h0 as ha).2.2 k hk (hj k hk) t ht, h.prog t⟩

/-- Under every fair schedule `join` returns. -/
theorem C70_returns {S : Type} (c : Coro S) (ff : Bool) (n workers : Nat) (init : Nat → S) (h0 : ∀ t, t < n → c.done (init t) = false)
    (hend : ∀ t, t < n → ∃ N, c.done (c.resume^[N] (init t)) = true) (hw : 0 < workers) (f : Nat → Act)
    (hf : Fair c ff (start n workers init) f) : ∃ j, (after c ff (start n workers init) f j).joined := by
  have hI := Inv.start c ff n workers init h0
  have hex : ∃ need, Needs c init n need := by
    have : ∀ t, ∃ N, t < n → c.done (c.resume^[N] (init t)) = true ∧ ∀ j, j < N → c.done (c.resume^[j] (init t)) = false := by
      intro t
      by_cases ht : t < n
      · have hx := hend t ht
        obtain ⟨N, hN⟩ := hx
        induction N using Nat.strongRecOn with
        | ind N ih =>
          by_cases hm : ∃ j, j < N ∧ c.done (c.resume^[j] (init t)) = true
          · obtain ⟨j, hj, hd⟩ := hm; exact ih j hj hd
          · refine ⟨N, fun _ => ⟨hN, fun j hj => ?_⟩⟩
            cases hd : c.done (c.resume^[j] (init t)) with
            | false => rfl
            | true => exact absurd ⟨j, hj, hd⟩ hm
      · exact ⟨0, fun h => absurd h ht⟩
    exact ⟨fun t => (this t).choose, fun t ht => (this t).choose_spec ht⟩
  obtain ⟨need, hneed⟩ := hex
  have hne : (start n workers init).ws ≠ [] := by simp [start]; omega
  obtain ⟨j, _, hj⟩ := allFinished hI hf hneed hne _ 0 rfl
  exact allExit hI hf _ j hj rfl

/-- The batch search: with at least one thread and `topk ≤ ef`, whenever `join` has returned, row `i` of the result is what a single
search for query `i` returns, whatever the schedule; and under every fair schedule `join` does return. -/
theorem C70_batch_search (g : MGraph) (n : Nat) (hg : GraphOk g n) (dist : Nat → Nat → Int) (topk ef : Nat) (hef : 0 < ef)
    (hk : topk ≤ ef) (m workers : Nat) (hw : 0 < workers) (ff : Bool) (extra : Nat) :
    let c := coroutines g n dist topk ef (n + 1 + extra)
    ∃ outs : Nat → List (Nat × Option Int),
      (∀ i, solo g n (dist i) topk ef (n + 1 + extra) = some (some (outs i))) ∧
      (∀ as, (∀ a ∈ as, a.isWork = true) → (run c ff (batch m workers) as).joined →
        rows topk m (run c ff (batch m workers) as) = (List.range m).map outs) ∧
      (∀ f, Fair c ff (batch m workers) f → ∃ j, (after c ff (batch m workers) f j).joined) := by
  intro c
  have hsolo : ∀ i, ∃ out, solo g n (dist i) topk ef (n + 1 + extra) = some (some out) := by
    intro i
    obtain ⟨_, out, _, he, _⟩ := C67_search_sound g n hg (dist i) topk ef hef hk
    exact ⟨out, he extra⟩
  refine ⟨fun i => (hsolo i).choose, fun i => (hsolo i).choose_spec, ?_, ?_⟩
  · intro as ha hj
    unfold rows
    apply List.map_congr_left
    intro i hi
    obtain ⟨hd, hc, _⟩ := C70_all_done c ff m workers (fun i => (i, Q.fresh)) (fun t _ => rfl) as ha hw hj i (List.mem_range.1 hi)
    have hc' : (run c ff (batch m workers) as).coro i = c.resume^[(run c ff (batch m workers) as).cnt i] (i, Q.fresh) := hc
    obtain ⟨N, hN⟩ := solo_iter (hsolo i).choose_spec
    -- both iterates have come to an end, so they are equal
    have hret : ∀ a : Nat, ((resume g n (dist i) topk ef (n + 1 + extra))^[a] Q.fresh).done = true →
        (resume g n (dist i) topk ef (n + 1 + extra))^[a] Q.fresh = .ret (hsolo i).choose := by
      intro a ha
      have h1 := ret_iter (g := g) (n := n) (dist := dist i) (topk := topk) (ef := ef) (fuel := n + 1 + extra) _ ha N
      rw [← Function.iterate_add_apply, Nat.add_comm N a, Function.iterate_add_apply, hN, ret_iter _ rfl] at h1
      exact h1.symm
    have hd' : ((resume g n (dist i) topk ef (n + 1 + extra))^[(run c ff (batch m workers) as).cnt i] Q.fresh).done = true := by
      have : c.done ((run c ff (batch m workers) as).coro i) = true := hd
      rw [hc', coroutines_iter] at this
      exact this
    rw [hc', coroutines_iter]
    simp only
    rw [hret _ hd']
    rfl
  · intro f hf
    refine C70_returns c ff m workers (fun i => (i, Q.fresh)) (fun t _ => rfl) ?_ hw f hf
    intro t _
    obtain ⟨N, hN⟩ := solo_iter (hsolo t).choose_spec
    exact ⟨N, by rw [coroutines_iter]; simp only [c, coroutines, hN, Q.done]⟩

/-- Round robin with pops from the front is fair. -/
theorem roundRobin_fair {S : Type} (c : Coro S) (ff : Bool) (s : St S) :
    Fair c ff s (fun j => .work (j % s.ws.length) (some 0)) := by
  refine ⟨fun _ => rfl, ?_, ?_⟩
  · intro w hw j
    refine ⟨s.ws.length * j + w - j, some 0, ?_⟩
    have h1 : j ≤ s.ws.length * j := Nat.le_mul_of_pos_left j (by omega)
    rw [show j + (s.ws.length * j + w - j) = w + s.ws.length * j by omega, Nat.add_mul_mod_self_left, Nat.mod_eq_of_lt hw]
  · intro j w pick hp hq
    cases hp
    cases hqe : (after c ff s (fun j => .work (j % s.ws.length) (some 0)) j).queue with
    | nil => exact absurd hqe hq
    | cons a as => exact ⟨0, a, rfl, by simp⟩

/-! ### Where it goes wrong -/

/-- With `ef < topk` a single search throws; the batch search returns a row of zeros for every query and no error. -/
theorem C70_small_ef_refuted (g : MGraph) (n : Nat) (dist : Nat → Nat → Int) (topk ef fuel : Nat) (h : ef < topk) (m workers : Nat)
    (hw : 0 < workers) (ff : Bool) (as : List Act) (ha : ∀ a ∈ as, a.isWork = true) :
    let c := coroutines g n dist topk ef fuel
    (∀ i, solo g n (dist i) topk ef fuel = some none) ∧
    ((run c ff (batch m workers) as).joined →
      rows topk m (run c ff (batch m workers) as) = (List.range m).map (fun _ => List.replicate topk (0, some 0))) := by
  intro c
  refine ⟨fun i => by unfold solo; rw [if_pos h], ?_⟩
  intro hj
  unfold rows
  apply List.map_congr_left
  intro i hi
  obtain ⟨hd, hc, _⟩ := C70_all_done c ff m workers (fun i => (i, Q.fresh)) (fun t _ => rfl) as ha hw hj i (List.mem_range.1 hi)
  have hc' : (run c ff (batch m workers) as).coro i = c.resume^[(run c ff (batch m workers) as).cnt i] (i, Q.fresh) := hc
  have hd' : c.done ((run c ff (batch m workers) as).coro i) = true := hd
  rw [hc', coroutines_iter] at hd'
  rw [hc', coroutines_iter]
  cases hn : (run c ff (batch m workers) as).cnt i with
  | zero => rw [hn] at hd'; cases hd'
  | succ N =>
    rw [Function.iterate_succ_apply]
    simp only [resume, if_pos h]
    rw [ret_iter _ rfl]
    rfl

/-- With no threads the batch search returns zeros at once (the C++ API and `Index.batch_query` do not refuse `num_threads = 0`). -/
theorem C70_no_threads_refuted (g : MGraph) (n : Nat) (dist : Nat → Nat → Int) (topk ef fuel m : Nat) (ff : Bool) :
    (run (coroutines g n dist topk ef fuel) ff (batch m 0) []).joined ∧
    rows topk m (run (coroutines g n dist topk ef fuel) ff (batch m 0) []) = (List.range m).map (fun _ => List.replicate topk (0, some 0)) :=
  ⟨fun k hk => by simp [run, batch, start] at hk, rfl⟩

/-- A countdown as coroutine. -/
def countdown : Coro Nat := ⟨fun x => x - 1, fun x => x == 0⟩

/-- Workers that are started before something is scheduled return at once; a coroutine scheduled after that is never resumed, and
`join` returns nevertheless. -/
theorem C70_begin_first_refuted : ∃ as : List Act,
    let s := run countdown true (start 0 2 (fun _ => 1)) as
    Act.count ∈ as ∧ Act.push 0 ∈ as ∧ s.joined ∧ s.queue = [0] ∧ s.total = 1 ∧ s.coro 0 = 1 ∧
      ∀ as', (∀ a ∈ as', a.isWork = true) → (run countdown true s as').coro 0 = 1 := by
  refine ⟨[.work 0 none, .work 1 none, .work 0 none, .work 1 none, .work 0 none, .work 1 none, .count, .push 0], ?_⟩
  intro s
  have hj : s.ws = [⟨[none, none, none, none], 1, .exited⟩, ⟨[none, none, none, none], 1, .exited⟩] := by decide +kernel
  have stuck : ∀ (as' : List Act) (s : St Nat), s.ws = [⟨[none, none, none, none], 1, .exited⟩, ⟨[none, none, none, none], 1, .exited⟩] →
      (∀ a ∈ as', a.isWork = true) → run countdown true s as' = s := by
    intro as'
    induction as' with
    | nil => intro s _ _; rfl
    | cons a as' ih =>
      intro s hs ha
      have hstep : step countdown true s a = s := by
        cases a with
        | work w pick =>
          simp only [step, hs]
          match w with
          | 0 => rfl
          | 1 => rfl
          | w + 2 => rfl
        | count => have := ha .count (by simp); cases this
        | push t => have := ha (.push t) (by simp); cases this
      simp only [run, hstep]
      exact ih s hs (fun a' h' => ha a' (by simp [h']))
  refine ⟨by decide, by decide, ?_, by decide +kernel, by decide +kernel, by decide +kernel, ?_⟩
  · intro k hk
    rw [hj] at hk
    simp at hk
    rw [hk]
  · intro as' ha
    rw [stuck as' s hj ha]
    decide +kernel

/-- `co_await scheduler.schedule()` pushes the handle while the worker still keeps it in its slot: two workers come to resume the same
coroutine. -/
theorem C70_await_schedule_refuted : ∃ as : List Act,
    let s := run countdown true (start 1 2 (fun _ => 3)) as
    as.count (.push 0) = 1 ∧ s.ws[0]?.bind Wk.resuming = some 0 ∧ s.ws[1]?.bind Wk.resuming = some 0 := by
  refine ⟨[.work 0 (some 0), .work 0 none, .push 0, .work 1 (some 0), .work 0 none, .work 0 none, .work 0 none, .work 0 none, .work 0 none,
    .work 0 none, .work 0 none, .work 0 none, .work 0 none, .work 0 none], ?_⟩
  decide +kernel

/-! ### Concrete cases -/

/-- Five queries on two workers over a graph with upper layers: the hypotheses hold and a fair schedule exists. -/
example : ∃ f, Fair (coroutines exGraph 4 (fun i v => (v : Int) * 3 - i) 2 3 5) true (batch 5 2) f := ⟨_, roundRobin_fair _ _ _⟩
example : GraphOk exGraph 4 := exGraph_ok

def exDist (i v : Nat) : Int := (3 * (v : Int) - 4 * i) * (3 * (v : Int) - 4 * i)

set_option maxRecDepth 20000 in
example : let s := run (coroutines exGraph 4 exDist 2 3 5) false (batch 3 2) ((List.range 300).map (fun j => .work (j % 2) (some 0)))
    (s.ws.all (fun k => k.pc == .exited)) = true ∧
    rows 2 3 s = [[(0, some 0), (1, some 9)], [(1, some 1), (2, some 4)], [(3, some 1), (2, some 4)]] := by
  decide +kernel

end Alaya.Sched
