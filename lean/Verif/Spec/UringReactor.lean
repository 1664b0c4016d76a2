import Verif.Model.UringReactor

/-! What users of the shared ring rely on. -/
namespace Alaya.Spec
open Alaya.UringReactor

/-- In the execution `es` the kernel has ended the read `t` with the result `r`. -/
def Delivered (R : Ring) (es : List Ev) (t : Tok) (r : Int) : Prop :=
  ∃ es1 p es2 m, es = es1 ++ .complete p r :: es2 ∧ State.run R es1 .init = .ok m ∧ m.kernel[p]? = some t

/-- In the execution `es` the kernel has been given the read `t`. -/
def Taken (R : Ring) (es : List Ev) (t : Tok) : Prop := ∃ es1 es2 m, es = es1 ++ es2 ∧ State.run R es1 .init = .ok m ∧ t ∈ m.kernel

/-- The number of reads that did not bring what was asked for. -/
def failed (sizes : List Nat) (res : List Int) : Nat := ((sizes.zip res).filter (fun p => p.2 ≠ (p.1 : Int))).length

/-- An action that brings something forward: no new wave, no interrupted call. -/
def forward : Ev → Bool
  | .start _ _ => false
  | .submit _ .eintr => false
  | _ => true

/-- Failed calls of `io_uring_submit` that are to be repeated. -/
def transient : Ev → Bool
  | .submit _ .again => true
  | _ => false

def hardFail : Ev → Bool
  | .submit _ .hard => true
  | _ => false

/-- The reads of a wave that the ring still has to do with. -/
def Busy (s : State) (w : Nat) : Prop :=
  (∃ t ∈ s.kernel, t.w = w) ∨ (∃ p ∈ s.cq, p.1.w = w) ∨ ∃ t r k, s.reap = some (t, r, k) ∧ t.w = w

def Ended (v : Wave) : Prop := ∃ r, v.phase = .over r

end Alaya.Spec
