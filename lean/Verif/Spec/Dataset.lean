import Verif.Spec.VecFiles
import Verif.Spec.Recall

/-!
# What a loaded dataset holds
-/

namespace Alaya.Dataset

open Alaya.VecFiles Alaya.Recall

/-- How many of `n` rows are wanted when at most `limit` are asked for (0: all). -/
def wanted (limit n : Nat) : Nat := if limit = 0 then n else min limit n

/-- The ids of the `k` nearest of `items` for every query, in order of distance. -/
def TrueRows {D : Type} [LinearOrder D] (dist : Bytes → Bytes → D) (queries items : List Bytes) (k : Nat) (rows : List (List Nat)) : Prop :=
  rows.length = queries.length ∧
    ∀ (i : Nat) r q, rows[i]? = some r → queries[i]? = some q →
      Nearest (fun j => dist q (items[j]?.getD [])) (· < items.length) k r ∧ Ascending (fun j => dist q (items[j]?.getD [])) r

end Alaya.Dataset
