import Verif.Props.C107

/-! C107, limits. -/

namespace Alaya.SPool

/-- Thread 0 looks `k` times, each time while a search of thread 1 runs. -/
def overtaken : Nat → List (Nat × Act)
  | 0 => []
  | k + 1 => [(1, .call), (1, .pop), (0, .pop), (1, .finish)] ++ overtaken k

/-- Searches are not served in turn: a search that asked first can look any number of times in vain while as many later searches of
another thread run and end. -/
theorem C107_turn_refuted (k : Nat) : ∃ s, run (start 1) ((0, .call) :: overtaken k) = some s ∧ s.pcs 0 = .asking := by
  have gen : ∀ k (s : St), s.queue = [0] → s.pcs 0 = .asking → s.pcs 1 = .idle → ∃ s', run s (overtaken k) = some s' ∧
      s'.pcs 0 = .asking := by
    intro k
    induction k with
    | zero => intro s _ h _; exact ⟨s, rfl, h⟩
    | succ k ih =>
      intro s h1 h2 h3
      obtain ⟨s', e, e1⟩ := ih ⟨[0], Function.update (Function.update (Function.update s.pcs 1 .asking) 1 (.busy 0)) 1 .idle⟩ rfl
        (by simpa using h2) (by simp)
      exact ⟨s', by rw [← e]; simp [overtaken, run, step, h1, h2, h3], e1⟩
  obtain ⟨s', e, e1⟩ := gen k ⟨[0], Function.update (fun _ => .idle) 0 .asking⟩ rfl (by simp) (by simp)
  exact ⟨s', by rw [← e]; rfl, e1⟩

end Alaya.SPool
