import Verif.Model.DiskFlat
import Verif.Lemmas.TopK
import Verif.Lemmas.Bytes

namespace Alaya.DiskFlat
open Alaya.TopK Alaya.Spec

/-- A fixed-width array in a file. -/
theorem slice_flatMap (w : Nat) : ∀ (xs : List Nat) (i : Nat), i < xs.length →
    ((xs.flatMap (leBytes w)).drop (w * i)).take w = leBytes w (xs.getD i 0) := by
  intro xs
  induction xs with
  | nil => intro i h; simp at h
  | cons x xs ih =>
    intro i h
    cases i with
    | zero =>
      rw [List.flatMap_cons, Nat.mul_zero, List.drop_zero]
      rw [List.take_append_of_le_length (by simp)]
      rw [List.take_of_length_le (by simp)]
      rfl
    | succ i =>
      rw [List.flatMap_cons]
      have e : w * (i + 1) = (leBytes w x).length + w * i := by rw [leBytes_length, Nat.mul_succ]; omega
      rw [e, List.drop_append, List.drop_eq_nil_of_le (by omega), List.nil_append]
      rw [show (leBytes w x).length + w * i - (leBytes w x).length = w * i by omega]
      rw [ih i (by simpa using h)]
      rfl

theorem flatMap_length (w : Nat) (xs : List Nat) : (xs.flatMap (leBytes w)).length = xs.length * w := by
  induction xs with
  | nil => simp
  | cons x xs ih => rw [List.flatMap_cons, List.length_append, ih, leBytes_length, List.length_cons, Nat.succ_mul]; omega

theorem readAt_eq {f : Bytes} {off w : Nat} (h : off + w ≤ f.length) :
    readAt f off w = some (leNat ((f.drop off).take w)) := by
  unfold readAt
  rw [if_pos h]

theorem readRow_eq (f : Bytes) : ∀ (n off : Nat), off + n * 4 ≤ f.length →
    readRow f off n = some ((List.range n).map (fun c => leNat ((f.drop (off + c * 4)).take 4))) := by
  intro n
  induction n with
  | zero => intro off _; rfl
  | succ n ih =>
    intro off h
    unfold readRow
    rw [readAt_eq (by omega), ih (off + 4) (by omega)]
    simp only
    rw [List.range_succ_eq_map, List.map_cons, List.map_map]
    simp only [Nat.zero_mul, Nat.add_zero]
    congr 2
    apply List.map_congr_left
    intro c _
    simp only [Function.comp]
    rw [show off + 4 + c * 4 = off + (c + 1) * 4 by omega]

/-- The row `i` of a segment, read off its files: label bytes [8i, 8i+8), component c at bytes [(i·dim+c)·4, +4). -/
def fileRow (s : Segment) (i : Nat) : Nat × List Nat :=
  (leNat ((s.ids.drop (8 * i)).take 8),
    (List.range s.dim).map (fun c => leNat ((s.vectors.drop (i * s.dim * 4 + c * 4)).take 4)))

theorem scan_eq (s : Segment) (d : List Nat → Int) (h1 : s.ids.length = s.count * 8)
    (h2 : s.vectors.length = s.count * s.dim * 4) : ∀ (n i : Nat), i + n = s.count →
    scan s d i n = some ((List.range n).map (fun j => ⟨(fileRow s (i + j)).1, d (fileRow s (i + j)).2⟩)) := by
  intro n
  induction n with
  | zero => intro i _; rfl
  | succ n ih =>
    intro i h
    unfold scan
    have hb : i * s.dim * 4 + s.dim * 4 ≤ s.vectors.length := by
      rw [h2, ← Nat.add_mul, ← Nat.succ_mul]
      exact Nat.mul_le_mul_right 4 (Nat.mul_le_mul_right _ (by omega))
    rw [readAt_eq (by omega), readRow_eq _ _ _ hb, ih (i + 1) (by omega)]
    simp only
    rw [List.range_succ_eq_map, List.map_cons, List.map_map]
    congr 2
    apply List.map_congr_left
    intro j _
    simp only [Function.comp]
    rw [show i + 1 + j = i + (j + 1) by omega]

end Alaya.DiskFlat
