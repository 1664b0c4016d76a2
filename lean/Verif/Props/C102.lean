import Verif.Lemmas.VecFiles

/-!
# C102: files of vectors

Model: Model/VecFiles.lean.  Spec: Spec/VecFiles.lean.  What fails is in C102Limits.lean.
-/

namespace Alaya.VecFiles

/-- All readers return exactly the rows of a well-formed file. -/
theorem C102_read (d : Nat) (rows : List Bytes) (h : Rows d rows) (hne : rows ≠ []) (h0 : 0 < d) (hd : d < 1073741824)
    (hn : rows.length * d < 4294967296) (dim : Nat) :
    pyVecs (vecs rows) = some rows ∧ benchVecs (vecs rows) = some rows ∧
      cppFvecs (vecs rows) dim = some ⟨rows.flatten, rows.length, d⟩ ∧ cppIvecs (vecs rows) = some ⟨rows.flatten, rows.length, d⟩ := by
  have hfit : Fits 4294967296 rows := fun r hr => ⟨d, by rw [h r hr, Nat.mul_comm], by omega⟩
  have hge := vecs_length_ge rows
  have hpos := List.length_pos_iff.mpr hne
  have hlen : rows.length < 4294967296 := Nat.lt_of_le_of_lt (Nat.le_mul_of_pos_right _ h0) hn
  refine ⟨?_, ?_, ?_, ?_⟩
  · unfold pyVecs
    rw [pyLoop_vecs rows hfit _ (by omega)]
    simp only
    rw [if_pos]
    rw [List.all_eq_true]
    intro r hr
    obtain ⟨a, t, rfl⟩ := List.exists_cons_of_ne_nil hne
    simp [h r hr, h a List.mem_cons_self]
  · have := bench_complete (d := d) (by omega) h hne [] (by simp)
    rwa [List.append_nil] at this
  · unfold cppFvecs
    have := cppLoop_vecs rows (fun r hr => ⟨d, by rw [h r hr, Nat.mul_comm], hd, h0⟩) [] (by simp) ((vecs rows).length + 1) (by omega) dim
    rw [List.append_nil] at this
    rw [this]
    simp only [Option.map_some, Option.some.injEq, Loaded.mk.injEq, List.nil_append, List.length_nil, List.drop_zero]
    refine ⟨trivial, Nat.mod_eq_of_lt hlen, ?_⟩
    rw [List.getLast?_eq_some_getLast hne]
    simp only [Option.map_some, Option.getD_some]
    rw [h _ (List.getLast_mem hne), Nat.mul_div_cancel_left _ (by omega)]
    exact leNat_leBytes_of_lt (by omega)
  · unfold cppIvecs
    have hl := vecs_length h
    have h2 : leNat ((vecs rows).take 4) = d := by
      obtain ⟨r, t, rfl⟩ := List.exists_cons_of_ne_nil hne
      have hr := h r List.mem_cons_self
      exact (record (d := d) (by omega) r (vecs t) (by omega)).2.1
    rw [if_neg (by omega)]
    simp only [h2]
    have hnum : (vecs rows).length / (4 + d * 4) = rows.length := by
      rw [hl, show 4 + d * 4 = 4 * (d + 1) by omega]; exact Nat.mul_div_cancel _ (by omega)
    rw [hnum, Nat.mod_eq_of_lt hlen, Nat.mod_eq_of_lt hn]
    have := ivLoop_vecs (d := d) (by omega) [] rows (by intro r hr; cases hr) h [] (by simpa using hn) d (fun _ => rfl)
    simp only [List.append_nil, List.flatten_nil, List.nil_append, List.length_nil] at this
    rw [this]; rfl

/-- The readers of the benchmarks return rows exactly for files of at least one row, all of the same dimension, with at most
three bytes behind them. -/
theorem C102_bench (f : Bytes) (rows : List Bytes) :
    benchVecs f = some rows ↔
      ∃ d tail, f = vecs rows ++ tail ∧ tail.length < 4 ∧ rows ≠ [] ∧ Rows d rows ∧ d < 2147483648 := by
  constructor
  · exact bench_sound
  · rintro ⟨d, tail, rfl, ht, hne, h, hd⟩
    exact bench_complete hd h hne tail ht

/-- When `load_fvecs` (C++) returns, the file is a sequence of whole rows and at most three bytes, and those rows are what
it returns, unless a row announces 2³⁰ numbers or more. -/
theorem C102_fvecs_sound (f : Bytes) (dim : Nat) (out : Loaded) (h : cppFvecs f dim = some out)
    (hbig : ∀ pre tail, f = vecs pre ++ tail → 4 ≤ tail.length → leNat (tail.take 4) < 1073741824) :
    ∃ rows tail, f = vecs rows ++ tail ∧ tail.length < 4 ∧ out.data = rows.flatten ∧ out.num = rows.length % 4294967296 := by
  unfold cppFvecs at h
  obtain ⟨⟨rows, dm⟩, h1, rfl⟩ := Option.map_eq_some_iff.mp h
  rcases cppLoop_sound _ _ _ _ _ h1 with ⟨tail, h2, h3⟩ | ⟨pre, tail, h2, h3, h4⟩
  · exact ⟨rows, tail, h2, h3, rfl, rfl⟩
  · have := hbig pre tail h2 h3
    omega

theorem bin_fields (n d : Nat) (hn : n < 4294967296) (hd : d < 4294967296) (rest : Bytes) :
    leNat ((leBytes 4 n ++ leBytes 4 d ++ rest).take 4) = n ∧ leNat (((leBytes 4 n ++ leBytes 4 d ++ rest).drop 4).take 4) = d ∧
      (leBytes 4 n ++ leBytes 4 d ++ rest).drop 8 = rest := by
  have h1 : (leBytes 4 n ++ (leBytes 4 d ++ rest)).drop 4 = leBytes 4 d ++ rest := List.drop_left' (leBytes_length _ _)
  rw [List.append_assoc, List.take_left' (leBytes_length _ _), h1, List.take_left' (leBytes_length _ _), leNat_leBytes_of_lt (by omega),
    leNat_leBytes_of_lt (by omega), show 8 = 4 + 4 from rfl, ← List.drop_drop, h1]
  exact ⟨rfl, rfl, List.drop_left' (leBytes_length _ _)⟩

/-- The benchmark reader of `.fbin` / `.ibin` returns rows exactly for files with the header and all announced rows;
whatever follows is ignored. -/
theorem C102_bin (f : Bytes) (rows : List Bytes) :
    benchBin f = some rows ↔ ∃ d tail, f = bin d rows ++ tail ∧ Rows d rows ∧ d < 4294967296 ∧ rows.length < 4294967296 := by
  constructor
  · intro h
    unfold benchBin at h
    split at h
    · cases h
    · next h8 =>
      simp only at h
      split at h
      · cases h
      · next hb =>
        have hrows := (Option.some.inj h).symm
        have l1 : (f.take 4).length = 4 := by rw [List.length_take]; omega
        have l2 : ((f.drop 4).take 4).length = 4 := by rw [List.length_take, List.length_drop]; omega
        have b1 := leBytes_leNat (f.take 4)
        have b2 := leBytes_leNat ((f.drop 4).take 4)
        have n1 := leNat_lt (f.take 4)
        have n2 := leNat_lt ((f.drop 4).take 4)
        rw [l1] at b1 n1
        rw [l2] at b2 n2
        have e8 : (f.drop 4).drop 4 = f.drop 8 := by rw [List.drop_drop]
        generalize leNat (f.take 4) = n at *
        generalize leNat ((f.drop 4).take 4) = d at *
        have hlen : rows.length = n := by rw [hrows]; simp [cut]
        have hle : n * (d * 4) ≤ (f.drop 8).length := by
          have : n * (d * 4) = n * d * 4 := by rw [Nat.mul_assoc]
          omega
        refine ⟨d, (f.drop 8).drop (n * (d * 4)), ?_, ?_, by omega, by omega⟩
        · have hfl : rows.flatten = (f.drop 8).take (n * (d * 4)) := by rw [hrows]; exact pieces_flatten (d * 4) n (f.drop 8)
          rw [bin, hlen, b1, b2, hfl, List.append_assoc, List.append_assoc, List.take_append_drop, ← e8, List.take_append_drop,
            List.take_append_drop]
        · intro r hr
          rw [hrows] at hr
          obtain ⟨i, hi, rfl⟩ := List.mem_map.mp hr
          have := Nat.mul_le_mul_right (d * 4) (List.mem_range.mp hi)
          rw [Nat.succ_mul] at this
          rw [List.length_take, List.length_drop]; omega
  · rintro ⟨d, tail, rfl, h, hd, hn⟩
    unfold benchBin
    obtain ⟨e1, e2, e3⟩ := bin_fields rows.length d hn hd (rows.flatten ++ tail)
    have hb : bin d rows ++ tail = leBytes 4 rows.length ++ leBytes 4 d ++ (rows.flatten ++ tail) := by simp [bin]
    rw [hb, if_neg (by simp only [List.length_append, leBytes_length]; omega)]
    simp only [e1, e2, e3]
    have hfl := flatten_length h
    have hrow : ∀ r ∈ rows, r.length = d * 4 := fun r hr => by rw [h r hr, Nat.mul_comm]
    rw [if_neg]
    · congr 1
      exact pieces (d * 4) rows hrow tail
    · rw [List.length_append, hfl, show rows.length * (4 * d) = rows.length * d * 4 by rw [Nat.mul_comm 4 d, Nat.mul_assoc]]
      omega

/-- What `write_fbin` has written `read_fbin` reads: the rows from `start` on, as many as asked for and there are. -/
theorem C102_fbin (d : Nat) (rows : List Bytes) (h : Rows d rows) (hd : d < 2147483648) (hn : rows.length < 2147483648)
    (start : Nat) (hs : start ≤ rows.length) (chunk : Option Nat) :
    readFbin (writeBin d rows) start chunk = some ((rows.drop start).take (chunk.getD rows.length)) ∧
      (∀ c, chunk.getD (rows.length - start) = c → start + c ≤ rows.length →
        readIbin (writeBin d rows) start chunk = some ((rows.drop start).take c)) := by
  obtain ⟨e1, e2, e3⟩ := bin_fields rows.length d (by omega) (by omega) rows.flatten
  have hw : writeBin d rows = leBytes 4 rows.length ++ leBytes 4 d ++ rows.flatten := rfl
  have hrow : ∀ r ∈ rows, r.length = d * 4 := fun r hr => by rw [h r hr, Nat.mul_comm]
  have hdrop : rows.flatten.drop (start * (d * 4)) = (rows.drop start).flatten := by
    have : rows.flatten = (rows.take start).flatten ++ (rows.drop start).flatten := by
      rw [← List.flatten_append, List.take_append_drop]
    rw [this]
    apply List.drop_left'
    rw [flatten_length (w := d * 4) (fun x hx => hrow x (List.mem_of_mem_take hx)), List.length_take, Nat.min_eq_left hs]
  have hcut : ∀ c, start + c ≤ rows.length → ¬ (rows.drop start).flatten.length / 4 < c * d ∧
      cut c d (rows.drop start).flatten = (rows.drop start).take c := by
    intro c hc
    have hl : (rows.drop start).flatten.length = (rows.length - start) * (d * 4) := by
      rw [flatten_length (w := d * 4) (fun x hx => hrow x (List.mem_of_mem_drop hx)), List.length_drop]
    constructor
    · rw [hl, ← Nat.mul_assoc, Nat.mul_div_cancel _ (by omega), Nat.not_lt]
      exact Nat.mul_le_mul_right d (by omega)
    · have hp := pieces (d * 4) ((rows.drop start).take c) (fun x hx => hrow x (List.mem_of_mem_drop (List.mem_of_mem_take hx)))
        ((rows.drop start).drop c).flatten
      rw [← List.flatten_append, List.take_append_drop, List.length_take, List.length_drop, Nat.min_eq_left (by omega)] at hp
      exact hp
  constructor
  · unfold readFbin
    rw [hw, if_neg (by simp only [List.length_append, leBytes_length]; omega)]
    simp only [e1, e2]
    rw [← List.drop_drop, e3, Nat.mul_assoc, hdrop]
    cases chunk with
    | none =>
      obtain ⟨h1, h2⟩ := hcut (rows.length - start) (by omega)
      simp only [Option.getD_none]
      rw [if_neg h1, h2, List.take_of_length_le (by rw [List.length_drop]; omega), List.take_of_length_le (by rw [List.length_drop]; omega)]
    | some c =>
      obtain ⟨h1, h2⟩ := hcut (min c (rows.length - start)) (by omega)
      simp only [Option.getD_some]
      rw [if_neg h1, h2]
      congr 1
      rw [List.take_eq_take_iff, List.length_drop]; omega
  · intro c hc hle
    unfold readIbin
    rw [hw, if_neg (by simp only [List.length_append, leBytes_length]; omega)]
    simp only [e1, e2]
    rw [e3, Nat.mul_assoc, Nat.mul_comm 4 d, hdrop]
    obtain ⟨h1, h2⟩ := hcut c hle
    cases chunk with
    | none =>
      simp only [Option.getD_none] at hc
      simp only [hc]
      rw [if_neg h1, h2]
    | some c' =>
      simp only [Option.getD_some] at hc
      subst hc
      simp only
      rw [if_neg h1, h2]

/-! Concrete cases. -/

def rowA : Bytes := [1, 0, 0, 0, 2, 0, 0, 0]
def rowB : Bytes := [3, 0, 0, 0, 4, 0, 0, 0]

theorem C102_example_rows : Rows 2 [rowA, rowB] := by
  intro r hr
  simp only [List.mem_cons, List.not_mem_nil, or_false] at hr
  rcases hr with rfl | rfl <;> rfl

theorem C102_example_read : pyVecs (vecs [rowA, rowB]) = some [rowA, rowB] ∧ benchVecs (vecs [rowA, rowB] ++ [9]) = some [rowA, rowB] ∧
    cppFvecs (vecs [rowA, rowB]) 0 = some ⟨rowA ++ rowB, 2, 2⟩ ∧ cppIvecs (vecs [rowA, rowB]) = some ⟨rowA ++ rowB, 2, 2⟩ ∧
    readFbin (writeBin 2 [rowA, rowB]) 1 (some 5) = some [rowB] ∧ readIbin (writeBin 2 [rowA, rowB]) 1 (some 1) = some [rowB] := by
  decide +kernel

end Alaya.VecFiles
