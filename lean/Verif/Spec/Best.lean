/-! `c` holds the `cap` best of the offered candidates, sorted. -/
namespace Alaya.Spec

/-- Every offered candidate is either in `c` or left out; `c` is sorted, as large as possible, and nothing left out is
better than anything in `c`. -/
def Best {α : Type} (le : α → α → Prop) (cap : Nat) (c offered : List α) : Prop :=
  c.Pairwise le ∧ c.length = min cap offered.length ∧
    ∃ rest, offered.Perm (c ++ rest) ∧ ∀ r ∈ rest, ∀ e ∈ c, le e r

end Alaya.Spec
