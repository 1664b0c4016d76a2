import Verif.Props.C106

/-! C106, limits. -/

namespace Alaya.VPool
open Alaya.RSearch

/-- `n` searches of one thread, one after the other, each ended by an exception. -/
def failing : Nat → List (Nat × Act)
  | 0 => []
  | n + 1 => [(0, .acquire), (0, .clear), (0, .fail)] ++ failing n

/-- A search that ends with an exception loses its set: after `n + 1` of them `n + 1` sets exist, no thread has one and the pool is
empty. -/
theorem C106_lost_refuted (n m : Nat) : ∃ s, run (init 1 m) (failing (n + 1)) = some s ∧ s.heap.length = n + 1 ∧ s.pool = [] ∧
    ∀ i, s.pcs i = .idle := by
  have gen : ∀ k (s : Pool), s.pool = [] → (∀ i, s.pcs i = .idle) → ∃ s', run s (failing k) = some s' ∧
      s'.heap.length = s.heap.length + k ∧ s'.pool = [] ∧ ∀ i, s'.pcs i = .idle := by
    intro k
    induction k with
    | zero => intro s h1 h2; exact ⟨s, rfl, rfl, h1, h2⟩
    | succ k ih =>
      intro s h1 h2
      obtain ⟨s', e, e1, e2, e3⟩ := ih ⟨[], (s.heap ++ [HSet.new s.numel]).set s.heap.length (wipe (HSet.new s.numel)), s.numel,
        fun _ => .idle⟩ rfl (fun _ => rfl)
      refine ⟨s', ?_, by simp at e1; omega, e2, e3⟩
      rw [← e]
      have hu : ∀ c, Function.update (Function.update s.pcs 0 c) 0 Pc.idle = fun _ => .idle := by
        intro c; funext i
        by_cases h : i = 0
        · subst h; simp
        · simp [Function.update_of_ne h, h2]
      simp [failing, run, step, h1, h2, hu]
  obtain ⟨s', e, e1, e2, e3⟩ := gen n ⟨[], [wipe (HSet.new (m / 10))], m / 10, fun _ => .idle⟩ rfl (fun _ => rfl)
  refine ⟨s', ?_, by simp at e1; omega, e2, e3⟩
  rw [← e]
  have hu : ∀ c, Function.update (Function.update (fun _ : Nat => Pc.idle) 0 c) 0 Pc.idle = fun _ => .idle := by
    intro c; funext i
    by_cases h : i = 0
    · subst h; simp
    · simp [Function.update_of_ne h]
  simp [failing, run, step, init, hu, List.replicate_succ]

/-- The id `0xFFFFFFFF` is seen as visited in a set just acquired. -/
theorem C106_marker_refuted : ((run (init 1 1000) [(0, .acquire), (0, .clear)]).bind (fun s => ask s 0 4294967295)) = some true := by
  decide +kernel

end Alaya.VPool
