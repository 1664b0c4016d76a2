import Verif.Props.C110

/-! C110, limits. -/

namespace Alaya.UAsync

/-- The submission of read 0 fails; read 1 is accepted and the kernel takes all that is prepared; both complete. -/
def failed : List Op := [.act (.read none), .act (.read (some 2)), .act (.kernel 0 4096), .act (.kernel 1 4096), .check []]

/-- A read that was refused because the submission failed stays prepared, with a context that was freed; the next read sends it too.  Its callback is
then run through the freed context, and the counter falls below 0: as a `size_t` it wraps around, and `drain_pending`, also when the thread ends, waits
for completions that do not come. -/
theorem C110_failed_refuted : (run 4 failed).accepted = [1] ∧ (run 4 failed).ran = [(0, 4096), (1, 4096)] ∧ (run 4 failed).stray = true ∧
    (run 4 failed).count = -1 := by decide +kernel

/-- When a wait fails, `drain_pending` returns although accepted reads are under way; the ring is closed and their callbacks do not run. -/
theorem C110_wait_refuted : (run 4 [.act (.read (some 1)), .drain [none]]).ran = [] ∧
    (run 4 [.act (.read (some 1)), .drain [none]]).accepted = [0] ∧ (run 4 [.act (.read (some 1)), .drain [none]]).live = [0] := by
  decide +kernel

end Alaya.UAsync
