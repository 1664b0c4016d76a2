import Verif.Model.Scheduler
import Mathlib.Logic.Function.Iterate

/-! The search coroutine, resumed until it is done, returns what the plain function returns. -/
namespace Alaya.Sched
open Alaya.Pools Alaya.MemSearch

theorem scan_iter {g : MGraph} {n : Nat} {dist : Nat → Int} {topk ef fuel : Nat} (row : List Nat) : ∀ {s s' : MemSearch.St},
    MemSearch.St.scan n dist row s = some s' → ∃ N, (resume g n dist topk ef fuel)^[N] (scanOn g n topk row s) = head g topk s' := by
  induction row with
  | nil => intro s s' h; cases h; exact ⟨0, rfl⟩
  | cons v vs ih =>
    intro s s' h
    unfold MemSearch.St.scan at h
    unfold scanOn
    by_cases hv : v = noId
    · rw [if_pos hv] at h ⊢; cases h; exact ⟨0, rfl⟩
    · rw [if_neg hv] at h ⊢
      unfold MemSearch.St.visit at h
      by_cases hb : v < bits n
      · rw [if_pos hb] at h ⊢
        by_cases hs : v ∈ s.seen
        · rw [if_pos hs] at h ⊢; exact ih h
        · rw [if_neg hs] at h ⊢
          cases hp : s.pool.insert v (dist v) with
          | none => rw [hp] at h; cases h
          | some r =>
            obtain ⟨p, b⟩ := r
            rw [hp] at h
            obtain ⟨N, hN⟩ := ih h
            refine ⟨N + 1, ?_⟩
            rw [Function.iterate_succ_apply]
            simp only [resume, hp]
            exact hN
      · rw [if_neg hb] at h; cases h

theorem loop_iter {g : MGraph} {n : Nat} {dist : Nat → Int} {topk ef fuel : Nat} (f : Nat) : ∀ {s s' : MemSearch.St},
    loop g n dist f s = some s' → ∃ N, (resume g n dist topk ef fuel)^[N] (head g topk s) =
      .ret (padded topk (s'.pool.entries.take (min s'.pool.size topk))) := by
  induction f with
  | zero =>
    intro s s' h
    unfold loop at h
    cases hn : s.pool.hasNext with
    | true => rw [hn] at h; cases h
    | false => rw [hn] at h; cases h; exact ⟨0, by simp [head, hn]⟩
  | succ f ih =>
    intro s s' h
    unfold loop at h
    cases hn : s.pool.hasNext with
    | false => rw [hn] at h; cases h; exact ⟨0, by simp [head, hn]⟩
    | true =>
      rw [hn, if_pos rfl] at h
      cases hp : s.pool.pop with
      | none => rw [hp] at h; cases h
      | some r =>
        obtain ⟨p, x⟩ := r
        rw [hp] at h
        simp only at h
        cases hr : g.rows[x.1]? with
        | none => rw [hr] at h; cases h
        | some row =>
          rw [hr] at h
          simp only at h
          cases hs : MemSearch.St.scan n dist row ⟨p, s.seen⟩ with
          | none => rw [hs] at h; cases h
          | some s1 =>
            rw [hs] at h
            simp only at h
            obtain ⟨N1, h1⟩ := scan_iter (g := g) (topk := topk) (ef := ef) (fuel := fuel) row hs
            obtain ⟨N2, h2⟩ := ih h
            refine ⟨N2 + (N1 + 1), ?_⟩
            have hh : head g topk s = .row ⟨p, s.seen⟩ row := by simp [head, hn, hp, hr]
            rw [Function.iterate_add_apply, Function.iterate_succ_apply, hh]
            simp only [resume]
            rw [h1, h2]

theorem solo_iter {g : MGraph} {n : Nat} {dist : Nat → Int} {topk ef fuel : Nat} {out : List (Nat × Option Int)}
    (h : solo g n dist topk ef fuel = some (some out)) : ∃ N, (resume g n dist topk ef fuel)^[N] .fresh = .ret out := by
  unfold solo at h
  by_cases hk : ef < topk
  · rw [if_pos hk] at h; cases h
  · rw [if_neg hk] at h
    unfold walk at h
    cases hs : g.start n dist fuel ⟨LinearPool.new ef, []⟩ with
    | none => rw [hs] at h; cases h
    | some s =>
      rw [hs] at h
      simp only at h
      cases hl : loop g n dist fuel s with
      | none => rw [hl] at h; cases h
      | some s' =>
        rw [hl] at h
        cases h
        obtain ⟨N, hN⟩ := loop_iter (topk := topk) (ef := ef) (fuel := fuel) fuel hl
        refine ⟨N + 1, ?_⟩
        rw [Function.iterate_succ_apply]
        simp only [resume, if_neg hk, hs]
        exact hN

theorem coroutines_iter (g : MGraph) (n : Nat) (dist : Nat → Nat → Int) (topk ef fuel : Nat) (i : Nat) (q : Q) (N : Nat) :
    (coroutines g n dist topk ef fuel).resume^[N] (i, q) = (i, (resume g n (dist i) topk ef fuel)^[N] q) := by
  induction N generalizing q with
  | zero => rfl
  | succ N ih => rw [Function.iterate_succ_apply, Function.iterate_succ_apply]; exact ih _

theorem ret_iter {g : MGraph} {n : Nat} {dist : Nat → Int} {topk ef fuel : Nat} (q : Q) (hq : q.done = true) (N : Nat) :
    (resume g n dist topk ef fuel)^[N] q = q := by
  induction N with
  | zero => rfl
  | succ N ih =>
    rw [Function.iterate_succ_apply]
    have : resume g n dist topk ef fuel q = q := by cases q <;> simp_all [Q.done, resume]
    rw [this, ih]

end Alaya.Sched
