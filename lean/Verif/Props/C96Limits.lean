import Verif.Props.C96

/-! C96, what does not hold. -/
namespace Alaya.UringReactor
open Alaya Alaya.Spec

/-- Claimed: `in_flight_` is at every moment the number of reads the kernel has and of completions not yet taken. -/
def CountClaim : Prop := ∀ (R : Ring) (es : List Ev) (s : State), 0 < R.depth → R.depth ≤ R.cap → State.run R es .init = .ok s →
  s.inFlight = s.kernel.length + s.cq.length

/-- **C96, refuted part.** The read is counted only after the kernel has it: another thread takes its completion before, and the
counter is below zero (2⁶⁴ − 1). -/
theorem C96_in_flight_refuted : ¬ CountClaim := by
  intro h
  have := h exR [.start [10] [0], .lock 0, .prep 0, .prep 0, .submit 0 (.took 1), .complete 0 10, .take] _ (by decide) (by decide) rfl
  exact absurd this (by decide +kernel)

/-- Claimed: while the kernel only asks for repetition, no wave ends with an exception. -/
def TransientClaim : Prop := ∀ (R : Ring) (es : List Ev) (s : State) (w : Nat) (v : Wave), 0 < R.depth → R.depth ≤ R.cap →
  State.run R es .init = .ok s → (∀ e ∈ es, hardFail e = false) → s.waves[w]? = some v → v.phase ≠ .over none

def busyEs : List Ev :=
  [.start [10] [0], .lock 0, .prep 0, .prep 0] ++ List.replicate 1024 (.submit 0 .again) ++
    [.deduct 0, .poll 0, .start [5] [0], .lock 1, .deduct 1, .poll 1]

set_option maxRecDepth 100000 in
theorem busy_run : State.run exR busyEs .init = .ok (stateOf (State.run exR busyEs .init)) ∧
    (stateOf (State.run exR busyEs .init)).waves = [⟨[10], [0], 0, 0, 0, .over none⟩, ⟨[5], [0], 0, 0, 0, .over none⟩] := by
  decide +kernel

/-- **C96, refuted part.** 1024 times `EAGAIN` in one submission: this wave and every later one end with an exception, although the
kernel may long be ready again. -/
theorem C96_transient_refuted : ¬ TransientClaim := by
  intro h
  refine h exR busyEs _ 1 ⟨[5], [0], 0, 0, 0, .over none⟩ (by decide) (by decide) busy_run.1 ?_ (by rw [busy_run.2]; rfl) rfl
  intro e he
  unfold busyEs at he
  simp only [List.mem_append, List.mem_cons, List.not_mem_nil, or_false, List.mem_replicate] at he
  rcases he with ((rfl | rfl | rfl | rfl) | ⟨-, rfl⟩) | rfl | rfl | rfl | rfl | rfl | rfl <;> rfl

/-- Claimed: after an exception the requests whose result is their size have been read. -/
def ResultClaim : Prop := ∀ (R : Ring) (es : List Ev) (s : State) (w i : Nat) (v : Wave) (n : Nat), 0 < R.depth → R.depth ≤ R.cap →
  State.run R es .init = .ok s → s.waves[w]? = some v → Ended v → v.sizes[i]? = some n → v.res[i]? = some (n : Int) → Delivered R es ⟨w, i⟩ n

/-- **C96, refuted part.** Requests used a second time keep the old result when their read was never submitted. -/
theorem C96_stale_refuted : ¬ ResultClaim := by
  intro h
  have hr : State.run exR [.start [10, 20] [10, 20], .lock 0, .prep 0, .prep 0, .prep 0, .submit 0 .hard, .deduct 0, .poll 0] .init =
      .ok (stateOf (State.run exR [.start [10, 20] [10, 20], .lock 0, .prep 0, .prep 0, .prep 0, .submit 0 .hard, .deduct 0, .poll 0] .init)) := by
    decide +kernel
  have := h exR _ _ 0 1 ⟨[10, 20], [10, 20], 0, 0, 0, .over none⟩ 20 (by decide) (by decide) hr (by decide +kernel) ⟨_, rfl⟩ rfl rfl
  obtain ⟨es1, p, es2, m, h1, -⟩ := this
  have hm : Ev.complete p (20 : Nat) ∈ es1 ++ .complete p (20 : Nat) :: es2 := by simp
  rw [← h1] at hm
  simp at hm

end Alaya.UringReactor
