/-! What a layered graph for searching must satisfy, in terms of the arrays a search reads. -/
namespace Alaya.Hnsw.Spec

/-- A row or block with `r` slots: distinct ids below `n` other than `i`, then 4294967295 up to the end. -/
structure Slots (n r i : Nat) (row ids : List Nat) : Prop where
  eq : row = ids ++ List.replicate (r - ids.length) 4294967295
  fits : ids.length ≤ r
  nodup : ids.Nodup
  self : i ∉ ids
  node : ∀ v ∈ ids, v < n

/-- Base layer `rows`, height of every node `levels`, upper layers `lists` (one block of `r` slots per level), entry point `ep`. -/
structure Layered (n r ep : Nat) (rows : List (List Nat)) (levels : List Nat) (lists : List (List Nat)) : Prop where
  base : ∀ i, i < n → ∃ row ids, rows[i]? = some row ∧ Slots n r i row ids ∧ (2 ≤ n → ids ≠ [])
  upper : ∀ i, i < n → ∃ lv l, levels[i]? = some lv ∧ lists[i]? = some l ∧ l.length = lv * r ∧
    ∀ k, 1 ≤ k → k ≤ lv → ∃ ids, Slots n r i ((l.drop ((k - 1) * r)).take r) ids ∧ ids.length ≤ r / 2 ∧
      ∀ v ∈ ids, ∃ lv', levels[v]? = some lv' ∧ k ≤ lv'
  entry : ep < n ∧ ∃ lv, levels[ep]? = some lv ∧ ∀ i lv', i < n → levels[i]? = some lv' → lv' ≤ lv

end Alaya.Hnsw.Spec
