import Verif.Props.C102

/-!
# C102: what goes wrong with damaged files and the other readers
-/

namespace Alaya.VecFiles

/-- Python: a row cut short by the end of the file is returned as a shorter vector, and a single byte as a vector without
numbers. -/
theorem C102_short_refuted :
    ¬ ∀ f rows, pyVecs f = some rows → ∃ tail : Bytes, f = vecs rows ++ tail := by
  intro h
  obtain ⟨tail, ht⟩ := h (leBytes 4 2 ++ [1, 0, 0, 0]) [[1, 0, 0, 0]] (by decide +kernel)
  have := congrArg List.head? ht
  have e1 : (leBytes 4 2 ++ [1, 0, 0, 0]).head? = some 2 := by decide +kernel
  have e2 : (vecs [[1, 0, 0, 0]] ++ tail).head? = some 1 := by
    rw [show vecs [[1, 0, 0, 0]] = 1 :: [0, 0, 0, 1, 0, 0, 0] by decide +kernel]; rfl
  rw [e1, e2] at this
  revert this
  decide +kernel

theorem C102_one_byte_refuted : pyVecs [0] = some [[]] ∧ pyVecs [7] = some [[]] := by decide +kernel

/-- C++ `load_fvecs`: rows of different dimensions are accepted; the dimension is that of the last one. -/
theorem C102_mixed_refuted :
    ¬ ∀ f dim out, cppFvecs f dim = some out → out.data.length = out.num * out.dim * 4 := by
  intro h
  have := h (vecs [rowA, [5, 0, 0, 0]]) 0 ⟨rowA ++ [5, 0, 0, 0], 2, 1⟩ (by decide +kernel)
  revert this
  decide +kernel

/-- C++ `load_fvecs`: one byte behind the last row changes the dimension. -/
theorem C102_trailing_refuted : cppFvecs (vecs [rowA, rowB] ++ [9]) 0 = some ⟨rowA ++ rowB, 2, 9⟩ := by decide +kernel

/-- C++ `load_fvecs`: a file of four bytes that announces 2³⁰ numbers is read as a vector of 2³⁰ zeros. -/
theorem C102_huge_refuted (dim : Nat) : cppFvecs (leBytes 4 1073741824) dim = some ⟨List.replicate 4294967296 0, 1, 1073741824⟩ := by
  have e1 : leNat ((leBytes 4 1073741824).take 4) = 1073741824 := by decide
  have e2 : ((leBytes 4 1073741824).drop 4) = [] := by decide
  have e3 : (leBytes 4 1073741824).length = 4 := leBytes_length _ _
  unfold cppFvecs
  rw [e3]
  unfold cppLoop
  rw [e3, if_neg (by decide)]
  simp only [e1, e2, List.take_nil, List.length_nil, List.nil_append]
  rw [if_neg (by decide), if_neg (by decide), if_pos (by decide)]
  simp only [Option.map_some, List.flatten_cons, List.flatten_nil, List.append_nil, List.length_cons, List.length_nil]

/-- C++ `load_ivecs`: a shorter row overwrites part of the row before it. -/
theorem C102_overwrite_refuted :
    cppIvecs (leBytes 4 2 ++ rowA ++ leBytes 4 1 ++ [5, 0, 0, 0] ++ leBytes 4 0) = some ⟨[1, 0, 0, 0, 5, 0, 0, 0, 0, 0, 0, 0, 0, 0, 0, 0], 2, 1⟩ := by
  decide +kernel

/-- C++ `load_ivecs`: rows that are longer than the first are written outside the array (or end in an exception). -/
theorem C102_outside_refuted : cppIvecs (leBytes 4 1 ++ [5, 0, 0, 0] ++ leBytes 4 2 ++ rowA ++ leBytes 4 0) = none := by decide +kernel

/-- What `save_ivecs` writes no reader of `.ivecs` reads back. -/
theorem C102_save_refuted :
    cppIvecs (cppSaveIvecs 2 [rowA, rowB]) ≠ some ⟨rowA ++ rowB, 2, 2⟩ ∧ pyVecs (cppSaveIvecs 2 [rowA, rowB]) ≠ some [rowA, rowB] ∧
      benchVecs (cppSaveIvecs 2 [rowA, rowB]) ≠ some [rowA, rowB] := by decide +kernel

/-- `load_vecs` and `load_gt` return no numbers, whatever the file. -/
theorem C102_reserve_refuted (d : Nat) (rows : List Bytes) (hn : rows.length < 4294967296) (hd : d < 4294967296) :
    cppHeaded (bin d rows) = ⟨[], rows.length, d⟩ := by
  obtain ⟨e1, e2, _⟩ := bin_fields rows.length d hn hd rows.flatten
  unfold cppHeaded bin
  rw [e1, e2]

/-- `read_ibin` raises where `read_fbin` returns the rows there are. -/
theorem C102_chunk_refuted :
    readIbin (writeBin 2 [rowA, rowB]) 1 (some 5) = none ∧ readFbin (writeBin 2 [rowA, rowB]) 1 (some 5) = some [rowB] := by
  decide +kernel

/-- The empty file: Python returns no vectors, the benchmark readers raise, C++ `load_fvecs` leaves the dimension as it was. -/
theorem C102_empty_refuted (dim : Nat) (h : dim < 4294967296) :
    pyVecs [] = some [] ∧ benchVecs [] = none ∧ cppFvecs [] dim = some ⟨[], 0, dim⟩ ∧ cppIvecs [] = none := by
  refine ⟨rfl, rfl, ?_, rfl⟩
  unfold cppFvecs cppLoop
  rw [if_pos (by decide)]
  simp only [Option.map_some, List.nil_append, List.length_nil, List.drop_zero, leNat_leBytes_of_lt (w := 4) h]
  rfl

end Alaya.VecFiles
