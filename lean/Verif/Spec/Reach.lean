/-! Reachability in a directed graph given by adjacency lists. -/
namespace Alaya.Spec

inductive Reach (g : List (List Nat)) (s : Nat) : Nat → Prop where
  | start : Reach g s s
  | step {u m : Nat} {nbrs : List Nat} : Reach g s u → g[u]? = some nbrs → m ∈ nbrs → Reach g s m

end Alaya.Spec
