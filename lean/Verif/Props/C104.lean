import Verif.Props.C101
import Verif.Props.C102
import Verif.Model.Dataset
import Verif.Spec.Dataset

/-!
# C104: a test dataset is loaded as its files say

Model: Model/Dataset.lean.  Spec: Spec/Dataset.lean.  What fails is in C104Limits.lean.
-/

namespace Alaya.Dataset

open Alaya.VecFiles Alaya.Recall

theorem resize_rows {d : Nat} {rows : List Bytes} (h : Rows d rows) {m : Nat} (hm : m ≤ rows.length) :
    resize rows.flatten (m * d) = (rows.take m).flatten := by
  have hrow : ∀ r ∈ rows, r.length = 4 * d := h
  have hl : ((rows.take m).flatten).length = m * (4 * d) := by
    rw [flatten_length (w := 4 * d) (fun x hx => hrow x (List.mem_of_mem_take hx)), List.length_take, Nat.min_eq_left hm]
  have hall : rows.flatten.length = rows.length * (4 * d) := flatten_length hrow
  have he : m * d * 4 = m * (4 * d) := by rw [Nat.mul_assoc, Nat.mul_comm d 4]
  unfold resize
  rw [he]
  have hle := Nat.mul_le_mul_right (4 * d) hm
  rw [show m * (4 * d) - rows.flatten.length = 0 by omega, List.replicate_zero, List.append_nil]
  have : rows.flatten = (rows.take m).flatten ++ (rows.drop m).flatten := by rw [← List.flatten_append, List.take_append_drop]
  rw [this]
  exact List.take_left' hl

theorem rowAt_flatten {d : Nat} {rows : List Bytes} (h : Rows d rows) {i : Nat} {r : Bytes} (hi : rows[i]? = some r) :
    rowAt d rows.flatten i = r := by
  have hp := pieces (d * 4) rows (fun r hr => by rw [h r hr, Nat.mul_comm]) []
  rw [List.append_nil] at hp
  have hlt := (List.getElem?_eq_some_iff.mp hi).1
  have := congrArg (fun l => l[i]?) hp
  simp only [List.getElem?_map, List.getElem?_range hlt, Option.map_some, hi, Option.some.injEq] at this
  exact this

theorem rows_take {d : Nat} {rows : List Bytes} (h : Rows d rows) (m : Nat) : Rows d (rows.take m) :=
  fun r hr => h r (List.mem_of_mem_take hr)

/-- If the three files are there, nothing is downloaded. -/
theorem C104_no_download {D : Type} (sort : List D → List Nat) (dist : Bytes → Bytes → D) (url : Bool) (download download' : Disk → Disk)
    (maxData maxQuery : Nat) (a b g : Bytes) :
    load sort dist url download maxData maxQuery ⟨some a, some b, some g⟩ = load sort dist true download' maxData maxQuery ⟨some a, some b, some g⟩ := by
  rfl

/-- Items and queries of different dimensions are refused, whatever the true rows and the limits. -/
theorem C104_dimensions {D : Type} (sort : List D → List Nat) (dist : Bytes → Bytes → D) (url : Bool) (download : Disk → Disk)
    (maxData maxQuery d d' : Nat) (items queries : List Bytes) (g : Bytes) (hi : Rows d items) (hq : Rows d' queries) (hi0 : items ≠ [])
    (hq0 : queries ≠ []) (hd0 : 0 < d) (hd : d < 1073741824) (hd0' : 0 < d') (hd' : d' < 1073741824)
    (hin : items.length * d < 4294967296) (hqn : queries.length * d' < 4294967296) (hne : d ≠ d') :
    load sort dist url download maxData maxQuery ⟨some (vecs items), some (vecs queries), some g⟩ = none := by
  have ra := (C102_read d items hi hi0 hd0 hd hin 0).2.2.1
  have rb := (C102_read d' queries hq hq0 hd0' hd' hqn 0).2.2.1
  simp [load, present, ra, rb, finish, hne]

example : Rows 1 [[0, 0, 128, 63]] ∧ Rows 2 [[0, 0, 128, 63, 0, 0, 0, 64]] := by unfold Rows; decide

/-- Well-formed files with as many true rows as queries: the first rows as wanted, and as true rows those of the file or, if
items are left out, the exact ones among those kept. -/
theorem C104_load {D : Type} [LinearOrder D] {sort : List D → List Nat} (h : Argsort sort) (dist : Bytes → Bytes → D) (url : Bool)
    (download : Disk → Disk) (maxData maxQuery d k : Nat) (items queries truth : List Bytes)
    (hi : Rows d items) (hq : Rows d queries) (ht : Rows k truth) (hi0 : items ≠ []) (hq0 : queries ≠ []) (hlen : truth.length = queries.length)
    (hd0 : 0 < d) (hd : d < 1073741824) (hk0 : 0 < k) (hkb : k < 1073741824)
    (hin : items.length * d < 4294967296) (hqn : queries.length * d < 4294967296) (htn : truth.length * k < 4294967296)
    (hk : wanted maxData items.length < items.length → k ≤ wanted maxData items.length) :
    ∃ ds, load sort dist url download maxData maxQuery ⟨some (vecs items), some (vecs queries), some (vecs truth)⟩ = some ds ∧
      ds.data = (items.take (wanted maxData items.length)).flatten ∧ ds.dataNum = wanted maxData items.length ∧
      ds.queries = (queries.take (wanted maxQuery queries.length)).flatten ∧ ds.queryNum = wanted maxQuery queries.length ∧
      ds.dim = d ∧ ds.gtDim = k ∧
      (wanted maxData items.length = items.length → ds.gt = (truth.take (wanted maxQuery queries.length)).flatten) ∧
      (wanted maxData items.length < items.length → ∃ rows, ds.gt = rows.flatten.flatMap (leBytes 4) ∧
        TrueRows dist (queries.take (wanted maxQuery queries.length)) (items.take (wanted maxData items.length)) k rows) := by
  have ht0 : truth ≠ [] := by
    rintro rfl
    exact hq0 (List.length_eq_zero_iff.mp hlen.symm)
  have ra := (C102_read d items hi hi0 hd0 hd hin 0).2.2.1
  have rb := (C102_read d queries hq hq0 hd0 hd hqn 0).2.2.1
  have rg := (C102_read k truth ht ht0 hk0 hkb htn 0).2.2.2
  have hload : load sort dist url download maxData maxQuery ⟨some (vecs items), some (vecs queries), some (vecs truth)⟩ =
      finish sort dist maxData maxQuery ⟨items.flatten, items.length, d⟩ ⟨queries.flatten, queries.length, d⟩ ⟨truth.flatten, truth.length, k⟩ := by
    simp [load, present, ra, rb, rg]
  rw [hload]
  have hwi : wanted maxData items.length ≤ items.length := by unfold wanted; split <;> omega
  have hwq : wanted maxQuery queries.length ≤ queries.length := by unfold wanted; split <;> omega
  -- the arrays
  have eD : (if decide (0 < maxData ∧ maxData < items.length) = true then maxData else items.length) = wanted maxData items.length := by
    unfold wanted
    by_cases hc : 0 < maxData ∧ maxData < items.length
    · simp only [hc, and_self, decide_true, if_true]; split <;> omega
    · simp only [hc, decide_false, Bool.false_eq_true, if_false]; split <;> omega
  have eQ : (if decide (0 < maxQuery ∧ maxQuery < truth.length) = true then maxQuery else truth.length) = wanted maxQuery queries.length := by
    unfold wanted
    rw [hlen]
    by_cases hc : 0 < maxQuery ∧ maxQuery < queries.length
    · simp only [hc, and_self, decide_true, if_true]; split <;> omega
    · simp only [hc, decide_false, Bool.false_eq_true, if_false]; split <;> omega
  have mD : (wanted maxData items.length * d) % 4294967296 = wanted maxData items.length * d :=
    Nat.mod_eq_of_lt (Nat.lt_of_le_of_lt (Nat.mul_le_mul_right d hwi) hin)
  have mQ : (wanted maxQuery queries.length * d) % 4294967296 = wanted maxQuery queries.length * d :=
    Nat.mod_eq_of_lt (Nat.lt_of_le_of_lt (Nat.mul_le_mul_right d hwq) hqn)
  have mG : (wanted maxQuery queries.length * k) % 4294967296 = wanted maxQuery queries.length * k :=
    Nat.mod_eq_of_lt (Nat.lt_of_le_of_lt (Nat.mul_le_mul_right k hwq) (hlen ▸ htn))
  have aD : (if decide (0 < maxData ∧ maxData < items.length) = true then resize items.flatten ((wanted maxData items.length * d) % 4294967296) else items.flatten) =
      (items.take (wanted maxData items.length)).flatten := by
    rw [mD, resize_rows hi hwi]
    by_cases hc : 0 < maxData ∧ maxData < items.length
    · simp only [hc, and_self, decide_true, if_true]
    · simp only [hc, decide_false, Bool.false_eq_true, if_false] at eD ⊢
      rw [← eD, List.take_length]
  have aQ : (if decide (0 < maxQuery ∧ maxQuery < truth.length) = true then resize queries.flatten ((wanted maxQuery queries.length * d) % 4294967296) else queries.flatten) =
      (queries.take (wanted maxQuery queries.length)).flatten := by
    rw [mQ, resize_rows hq hwq]
    by_cases hc : 0 < maxQuery ∧ maxQuery < truth.length
    · simp only [hc, and_self, decide_true, if_true]
    · simp only [hc, decide_false, Bool.false_eq_true, if_false] at eQ ⊢
      rw [← eQ, hlen, List.take_length]
  have aG : (if decide (0 < maxQuery ∧ maxQuery < truth.length) = true then some (resize truth.flatten ((wanted maxQuery queries.length * k) % 4294967296)) else some truth.flatten) =
      some (truth.take (wanted maxQuery queries.length)).flatten := by
    rw [mG, resize_rows ht (hlen ▸ hwq)]
    by_cases hc : 0 < maxQuery ∧ maxQuery < truth.length
    · simp only [hc, and_self, decide_true, if_true]
    · simp only [hc, decide_false, Bool.false_eq_true, if_false] at eQ ⊢
      rw [← eQ, List.take_length]
  unfold finish
  simp only [ne_eq, not_true, if_false, eD, eQ, aD, aQ, aG]
  by_cases hc : 0 < maxData ∧ maxData < items.length
  · have hw : wanted maxData items.length = maxData := by unfold wanted; rw [if_neg (by omega)]; omega
    have hwlt : wanted maxData items.length < items.length := by omega
    have hk' := hk hwlt
    generalize wanted maxData items.length = n at *
    generalize hm : wanted maxQuery queries.length = m at *
    have hm0 : 0 < m := by
      have := List.length_pos_iff.mpr hq0
      rw [← hm]; unfold wanted; split <;> omega
    simp only [hc, and_self, decide_true, if_true]
    have l1 : ((queries.take m).flatten).length / 4 = m * d := by
      rw [flatten_length (w := 4 * d) (rows_take hq m), List.length_take, Nat.min_eq_left hwq, Nat.mul_comm 4 d, ← Nat.mul_assoc,
        Nat.mul_div_cancel _ (by omega)]
    have l2 : ((items.take n).flatten).length / 4 = n * d := by
      rw [flatten_length (w := 4 * d) (rows_take hi n), List.length_take, Nat.min_eq_left hwi, Nat.mul_comm 4 d, ← Nat.mul_assoc,
        Nat.mul_div_cancel _ (by omega)]
    rw [l1, l2]
    obtain ⟨rows, hr, hrl, hrn⟩ := C101_exact_cpp h
      (fun i j => dist (rowAt d (queries.take m).flatten i) (rowAt d (items.take n).flatten j)) m n d k (fun _ => false) hm0 (by omega) hd0
      (by simpa using hk')
    rw [hr]
    refine ⟨_, rfl, rfl, rfl, rfl, rfl, rfl, rfl, fun hfalse => by omega, fun _ => ⟨rows, rfl, ?_⟩⟩
    have lq : (queries.take m).length = m := by rw [List.length_take]; omega
    have li : (items.take n).length = n := by rw [List.length_take]; omega
    refine ⟨by rw [hrl, lq], ?_⟩
    intro i r q hir hiq
    obtain ⟨⟨n1, n2, n3, n4⟩, asc⟩ := hrn i r hir
    have eq : ∀ j, j < n → dist (rowAt d (queries.take m).flatten i) (rowAt d (items.take n).flatten j) = dist q ((items.take n)[j]?.getD []) := by
      intro j hj
      have hj' : (items.take n)[j]? = some (items.take n)[j] := List.getElem?_eq_getElem (by omega)
      rw [rowAt_flatten (rows_take hq m) hiq, rowAt_flatten (rows_take hi n) hj', hj']
      rfl
    have hmem : ∀ x ∈ r, x < n := fun x hx => (n3 x hx).1
    constructor
    · refine ⟨n1, n2, fun x hx => by rw [li]; exact hmem x hx, ?_⟩
      intro x hx y hy hny
      rw [li] at hy
      have := n4 x hx y ⟨hy, rfl⟩ hny
      rwa [eq x (hmem x hx), eq y hy] at this
    · refine List.Pairwise.imp_of_mem ?_ asc
      intro x y hx hy hxy
      simp only at hxy
      rwa [eq x (hmem x hx), eq y (hmem y hy)] at hxy
  · simp only [hc, decide_false, Bool.false_eq_true, if_false]
    have : wanted maxData items.length = items.length := by
      unfold wanted; split <;> omega
    refine ⟨_, rfl, rfl, rfl, rfl, rfl, rfl, rfl, fun _ => rfl, fun hlt => by omega⟩

/-! A concrete case: three items of one number, two queries, one true id each; the first two items and one query are kept. -/

def one (n : Nat) : Bytes := leBytes 4 n

def gap (a b : Bytes) : Nat := (leNat a - leNat b) + (leNat b - leNat a)

theorem C104_example :
    load isort gap false id 2 1 ⟨some (vecs [one 10, one 20, one 31]), some (vecs [one 30, one 11]), some (vecs [one 2, one 0])⟩ =
      some ⟨one 10 ++ one 20, one 30, one 1, 2, 1, 1, 1⟩ ∧
    load isort gap false id 0 1 ⟨some (vecs [one 10, one 20, one 31]), some (vecs [one 30, one 11]), some (vecs [one 2, one 0])⟩ =
      some ⟨one 10 ++ one 20 ++ one 31, one 30, one 2, 3, 1, 1, 1⟩ := by decide +kernel

end Alaya.Dataset
