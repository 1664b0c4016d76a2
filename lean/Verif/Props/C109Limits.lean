import Verif.Props.C109

/-! C109, limits. -/

namespace Alaya.UBatch

/-- Two batches of two requests; the first submission fails, the second takes all that is offered up to two entries. -/
def twice : Ring × Nat × Nat :=
  let (r, n) := submitBatch 4 [0, 1] [none] ⟨[], [], fun _ => 0, 4⟩
  let (r', n') := submitBatch 4 [2, 3] [some 2] r
  (r', n, n')

/-- Requests reported as not submitted stay prepared and are sent by the next batch, which counts them as its own: it returns 2, but the kernel has
requests 0 and 1, whose caller was told that they were not submitted, and neither 2 nor 3, which look as if they were under way. -/
theorem C109_leftover_refuted : twice.2 = (0, 2) ∧ twice.1.flight = [0, 1] ∧ twice.1.sq = [2, 3] ∧ twice.1.res 0 = notSubmitted ∧
    twice.1.res 2 = 0 ∧ twice.1.res 3 = 0 := by decide +kernel

/-- When such requests fill the ring no later batch submits anything, whatever the kernel answers: the loop gives up before it calls it. -/
theorem C109_full_refuted (depth : Nat) (reqs : List Nat) (as : List (Option Nat)) (r : Ring) (h : r.sq.length = r.entries) :
    (submitBatch depth reqs as r).2 = 0 ∧ (submitBatch depth reqs as r).1.flight = r.flight := by
  unfold submitBatch
  cases reqs with
  | nil => simp [batchLoop, mark]
  | cons q t =>
    simp only [List.length_cons, batchLoop]
    have : prepare (mark r (q :: t)) ((q :: t).take (min depth (t.length + 1))) = (mark r (q :: t), 0) := by
      generalize (q :: t).take (min depth (t.length + 1)) = c
      cases c <;> simp [prepare, mark, h]
    rw [this]
    simp [mark]

end Alaya.UBatch
