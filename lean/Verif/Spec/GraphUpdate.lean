import Verif.Model.GraphUpdate
/-! What insertions and removals do to the rows of an index: a list of vectors with a flag. -/
namespace Alaya.GraphUpdate.Spec

/-- Contents after a history and the ids returned by the insertions: a new row gets the next number while there is room, a removal
clears the flag, nothing else changes. -/
def contents {V : Type} (cap : Nat) : List (Op V) → List (V × Bool) → List (V × Bool) × List (Option Nat)
  | [], c => (c, [])
  | .insert q _ :: ops, c =>
    if c.length < cap then
      let r := contents cap ops (c ++ [(q, true)])
      (r.1, some c.length :: r.2)
    else
      let r := contents cap ops c
      (r.1, none :: r.2)
  | .remove id :: ops, c => contents cap ops (c.modify id (fun x => (x.1, false)))

/-- The calls are made as documented: a sufficient `ef`, ids that have been handed out, and no removal from an index that has never
held more than one vector. -/
def proper {V : Type} (cap maxNbrs : Nat) : List (Op V) → Nat → Prop
  | [], _ => True
  | .insert _ ef :: ops, n => maxNbrs ≤ ef ∧ proper cap maxNbrs ops (if n < cap then n + 1 else n)
  | .remove id :: ops, n => id < n ∧ 2 ≤ n ∧ proper cap maxNbrs ops n

end Alaya.GraphUpdate.Spec
