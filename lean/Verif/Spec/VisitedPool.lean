import Verif.Model.VisitedPool

/-! Specification for C106: what a search has marked, from the history alone. -/

namespace Alaya.VPool

/-- Effect of a step of some thread on the marks of thread `i`. -/
def markStep (i : Nat) (m : List Nat) : Nat × Act → List Nat
  | (j, .set id) => if j = i then m ++ [id] else m
  | (j, .acquire) => if j = i then [] else m
  | _ => m

/-- The ids thread `i` has marked since it last began to acquire a set. -/
def marks (hist : List (Nat × Act)) (i : Nat) : List Nat := hist.foldl (markStep i) []

/-- All ids marked are those of vectors: below `0xFFFFFFFF`. -/
def Real (hist : List (Nat × Act)) : Prop := ∀ i id, (i, Act.set id) ∈ hist → id < 4294967295

/-- The set a thread has. -/
def Pc.holds : Pc → Option Nat
  | .idle => none
  | .taken p => some p
  | .busy p => some p

/-- The histories in which every search gives its set back. -/
def NoFail (hist : List (Nat × Act)) : Prop := ∀ i, (i, Act.fail) ∉ hist

end Alaya.VPool
