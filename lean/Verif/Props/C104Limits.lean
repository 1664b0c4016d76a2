import Verif.Props.C104

/-!
# C104: files that do not fit together
-/

namespace Alaya.Dataset

open Alaya.VecFiles Alaya.Recall

/-- The number of queries is that of the true rows: with more true rows than queries it is wrong and reading the queries goes
beyond the array. -/
theorem C104_query_num_refuted :
    ¬ ∀ maxQuery a b g ds, load isort gap false id 0 maxQuery ⟨some a, some b, some g⟩ = some ds → ds.queries.length = ds.queryNum * ds.dim * 4 := by
  intro h
  have := h 0 (vecs [one 10, one 20]) (vecs [one 30]) (vecs [one 1, one 0, one 0]) ⟨one 10 ++ one 20, one 30, one 1 ++ one 0 ++ one 0, 2, 3, 1, 1⟩
    (by decide +kernel)
  revert this
  decide +kernel

/-- … and with a limit queries of zeros are added. -/
theorem C104_zero_queries_refuted :
    load isort gap false id 0 2 ⟨some (vecs [one 10, one 20]), some (vecs [one 30]), some (vecs [one 1, one 0, one 0])⟩ =
      some ⟨one 10 ++ one 20, one 30 ++ one 0, one 1 ++ one 0, 2, 2, 1, 1⟩ := by decide +kernel

/-- With fewer items kept than true ids per query the recomputation reads outside its candidates. -/
theorem C104_few_refuted :
    load isort gap false id 1 0 ⟨some (vecs [one 10, one 20]), some (vecs [one 30]), some (vecs [one 1 ++ one 0])⟩ = none := by decide +kernel

/-- Files of an interrupted extraction that end between two rows are taken for the dataset: true ids then name items that are not
there. -/
theorem C104_interrupted_refuted :
    ¬ ∀ a b g ds, load isort gap true (fun _ => ⟨some (vecs [one 10, one 20, one 31]), some (vecs [one 30]), some (vecs [one 2])⟩) 0 0 ⟨some a, some b, some g⟩ = some ds →
      ds.gtDim = 1 → leNat (ds.gt.take 4) < ds.dataNum := by
  intro h
  have := h (vecs [one 10, one 20]) (vecs [one 30]) (vecs [one 2]) ⟨one 10 ++ one 20, one 30, one 2, 2, 1, 1, 1⟩ (by decide +kernel) rfl
  revert this
  decide +kernel

/-- A limit that is not reached keeps the true ids of the file, even if they are of another metric than the recomputed ones: the
same dataset with one item less has other true ids. -/
theorem C104_metric_refuted :
    load isort gap false id 3 0 ⟨some (vecs [one 10, one 20, one 31]), some (vecs [one 11]), some (vecs [one 1])⟩ =
      some ⟨one 10 ++ one 20 ++ one 31, one 11, one 1, 3, 1, 1, 1⟩ ∧
    load isort gap false id 2 0 ⟨some (vecs [one 10, one 20, one 31]), some (vecs [one 11]), some (vecs [one 1])⟩ =
      some ⟨one 10 ++ one 20, one 11, one 0, 2, 1, 1, 1⟩ := by decide +kernel

end Alaya.Dataset
