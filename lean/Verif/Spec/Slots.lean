import Verif.Model.SeqStorage

/-! What a user expects of a slot store: a growing list of slots, each with a validity flag and a content. -/
namespace Alaya.Spec
open Seq

/-- (valid, content) of the slots handed out so far. -/
abbrev Slots := List (Bool × Bytes)

/-- Effect and returned id (`none` = refused) of a call; `blank` is the content of a slot that was only reserved. -/
def Slots.step (cap : Nat) (blank : Bytes) (l : Slots) : Op → Slots × Option Nat
  | .insert d => if l.length < cap then (l ++ [(true, d)], some l.length) else (l, none)
  | .reserve => if l.length < cap then (l ++ [(true, blank)], some l.length) else (l, none)
  | .remove id =>
    match l[id]? with
    | some (true, c) => (l.set id (false, c), some id)
    | _ => (l, none)
  | .update id d =>
    match l[id]? with
    | some (true, _) => (l.set id (true, d), some id)
    | _ => (l, none)

def Slots.run (cap : Nat) (blank : Bytes) (l : Slots) : List Op → Slots × List (Option Nat)
  | [] => (l, [])
  | op :: ops =>
    let p := l.step cap blank op
    let q := Slots.run cap blank p.1 ops
    (q.1, p.2 :: q.2)

end Alaya.Spec
