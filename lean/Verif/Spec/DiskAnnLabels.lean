import Verif.Model.DiskAnnLabels

/-
What the label calls of an updatable index should do, told as a relation on the list of live (label, slot) pairs.  It uses
only the names of the calls, of their results and of the reserved label.
-/
namespace Alaya.DiskAnn.Spec
open Alaya.DiskAnn

/-- The labels of the live pairs. -/
def labels (live : List (Nat × Nat)) : List Nat := live.map (·.1)

/-- The slots of the live pairs. -/
def slots (live : List (Nat × Nat)) : List Nat := live.map (·.2)

/-- A label that can be inserted. -/
def Free (live : List (Nat × Nat)) (l : Nat) : Prop := l ≠ noLabel ∧ l ∉ labels live

/-- A call the index must refuse. -/
def Refused (live : List (Nat × Nat)) : Op → Prop
  | .insert l _ => ¬ Free live l
  | .batchInsert ls _ => ¬ (ls.Nodup ∧ ∀ l ∈ ls, Free live l)
  | .remove id _ => id ∉ slots live
  | .removeByLabel l _ => l ∉ labels live
  | .batchRemove ids _ => ¬ (ids.Nodup ∧ ∀ id ∈ ids, id ∈ slots live)
  | .batchRemoveByLabels ls _ => ¬ (ls.Nodup ∧ ∀ l ∈ ls, l ∈ labels live)

/-- Task `i` of a batch ran to its end. -/
def Ran (evs : List BEv) (i : Nat) : Prop := ∃ a b c, evs = a ++ .alloc i :: b ++ .publish i :: c

/-- No task, and no step of a call, was ended by an exception. -/
def Clean : Op → Prop
  | .insert _ f => f = .none
  | .batchInsert ls evs => ∀ i, i < ls.length → Ran evs i
  | .remove _ ok => ok = true
  | .removeByLabel _ ok => ok = true
  | .batchRemove _ ok => ok = true
  | .batchRemoveByLabels _ ok => ok = true

/-- The effect of a call that is not refused, with its result. -/
def Effect (live : List (Nat × Nat)) : Op → Res → List (Nat × Nat) → Prop
  | .insert l f, r, live' =>
    (r = if f = .none then .ok else .failed) ∧
    (if f = .search ∨ f = .write then live' = live else ∃ x, x ∉ slots live ∧ live' = (l, x) :: live)
  | .batchInsert ls evs, r, live' => r = .ok ∧ ∃ new, live' = new ++ live ∧ (slots live').Nodup ∧ (labels new).Nodup ∧
      (∀ i l, ls[i]? = some l → (l ∈ labels new ↔ Ran evs i)) ∧ ∀ l ∈ labels new, l ∈ ls
  | .remove id ok, r, live' => if ok then r = .ok ∧ live' = live.filter (fun p => p.2 ≠ id) else r = .failed ∧ live' = live
  | .removeByLabel l ok, r, live' =>
    if ok then r = .ok ∧ live' = live.filter (fun p => p.1 ≠ l) else r = .failed ∧ live' = live
  | .batchRemove ids ok, r, live' =>
    if ok then r = .ok ∧ live' = live.filter (fun p => p.2 ∉ ids) else r = .failed ∧ live' = live
  | .batchRemoveByLabels ls ok, r, live' =>
    if ok then r = .ok ∧ live' = live.filter (fun p => p.1 ∉ ls) else r = .failed ∧ live' = live

/-- One call. -/
inductive Step (live : List (Nat × Nat)) (o : Op) : Res → List (Nat × Nat) → Prop where
  | refused : Refused live o → Step live o .rejected live
  | done {r live'} : ¬ Refused live o → Effect live o r live' → Step live o r live'

/-- A history of calls with their results. -/
inductive Trace : List (Nat × Nat) → List Op → List Res → List (Nat × Nat) → Prop where
  | nil {live} : Trace live [] [] live
  | cons {live o r mid os rs live'} : Step live o r mid → Trace mid os rs live' → Trace live (o :: os) (r :: rs) live'

/-- Upper bound of the slots a call takes. -/
def cost : Op → Nat
  | .insert _ _ => 1
  | .batchInsert _ evs => evs.length
  | _ => 0

/-- Upper bound of the slots a history takes. -/
def totalCost : List Op → Nat
  | [] => 0
  | o :: os => cost o + totalCost os

end Alaya.DiskAnn.Spec
