import Verif.Model.Locks

/-!
# What locks promise
-/

namespace Alaya.Locks

/-- No two different threads are at `p` and `q` at the same time. -/
def Apart {α : Type} (threads : List α) (p q : α → Prop) : Prop :=
  ∀ (i j : Nat) (a b : α), threads[i]? = some a → threads[j]? = some b → p a → q b → i = j

/-- Nobody is at `p`. -/
def Nobody {α : Type} (threads : List α) (p : α → Prop) : Prop := ∀ a ∈ threads, ¬ p a

end Alaya.Locks
