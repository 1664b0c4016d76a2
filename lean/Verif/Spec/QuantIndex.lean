import Verif.Spec.GraphUpdate
import Verif.Lemmas.TopK

/-! What a search over rows with a removed mark should return. -/
namespace Alaya.QuantIndex.Spec
open Alaya.TopK

/-- Row `i` with the distance a caller is told: the true one, or `fmax` if the row has been removed or does not exist. -/
def score {V : Type} (d : V → V → Int) (fmax : Int) (c : List (V × Bool)) (q : V) (i : Nat) : Hit :=
  match c[i]? with
  | some (v, true) => ⟨i, d q v⟩
  | _ => ⟨i, fmax⟩

/-- Row `i` is in use and has not been removed. -/
def isLive {V : Type} (c : List (V × Bool)) (i : Nat) : Bool :=
  match c[i]? with
  | some (_, b) => b
  | none => false

/-- The ids of the rows that have not been removed. -/
def liveIds {V : Type} (c : List (V × Bool)) : List Nat := (List.range c.length).filter (isLive c)

/-- How many rows have been removed. -/
def goneCount {V : Type} (c : List (V × Bool)) : Nat := ((List.range c.length).filter (fun i => !isLive c i)).length

end Alaya.QuantIndex.Spec
