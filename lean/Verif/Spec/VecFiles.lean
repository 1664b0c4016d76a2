import Verif.Model.VecFiles

/-!
# What files of vectors hold
-/

namespace Alaya.VecFiles

/-- Rows of `d` numbers. -/
def Rows (d : Nat) (rows : List Bytes) : Prop := ∀ r ∈ rows, r.length = 4 * d

/-- A `.fvecs` or `.ivecs` file of these rows: each behind its number of numbers. -/
def vecs : List Bytes → Bytes
  | [] => []
  | r :: t => leBytes 4 (r.length / 4) ++ r ++ vecs t

/-- A `.fbin` or `.ibin` file of these rows: their number, their dimension, the rows. -/
def bin (d : Nat) (rows : List Bytes) : Bytes := leBytes 4 rows.length ++ leBytes 4 d ++ rows.flatten

end Alaya.VecFiles
