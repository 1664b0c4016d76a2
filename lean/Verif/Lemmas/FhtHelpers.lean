import Verif.Lemmas.Fht
import Verif.Model.Rotator

/-
Each of the twelve assembly helpers is the generic transform.
-/
namespace Alaya.Fht
set_option linter.unusedSectionVars false

variable {α : Type} [Zero α] [Add α] [Sub α]

theorem win_adj {B N1 N2 n : Nat} (h1 : 2 ^ n ∣ N1) (h2 : 2 ^ n ∣ N2) (f : Nat → α) :
    win (B + N1) N2 (passes 0 n) (win B N1 (passes 0 n) f) = win B (N1 + N2) (passes 0 n) f := by
  funext t
  unfold win
  by_cases ht : B + N1 ≤ t ∧ t < B + N1 + N2
  · rw [if_pos ht, if_pos (by omega)]
    obtain ⟨u, rfl⟩ := Nat.exists_eq_add_of_le ht.1
    rw [Nat.add_sub_cancel_left, show B + N1 + u - B = N1 + u by omega,
      ← passes_shift (fun u => f (B + u)) n (by rw [Nat.zero_add]; exact h1) u]
    refine passes_congr (N := N2) ?_ n (by rw [Nat.zero_add]; exact h2) u (by omega)
    intro x _
    rw [if_neg (by omega), Nat.add_assoc]
  · rw [if_neg ht]
    by_cases h3 : B ≤ t ∧ t < B + N1
    · rw [if_pos h3, if_pos (by omega)]
    · rw [if_neg h3, if_neg (by omega)]

variable [Law α]

theorem h6_avx2_tab {L ptr : Nat} (hL : ptr + 64 ≤ L) (f : Nat → α) :
    exec h6_avx2 ptr (tab L f) = some (tab L (win ptr 64 (passes 0 6) f)) := by
  have s1 := whole_tab (base := 0) (M := 2) does_x32 (by decide) (by decide) (by decide) hL f
  have s2 := (radix_tab (v := 2) (c := 5) (r := 1) (M := 1) does_x2 (by decide) hL (win ptr 64 (passes 0 5) f)).trans
    (congrArg (fun g => some (tab L g)) (win_win (B := ptr) (N := 64) (c := 5) (n := 1) (by decide) f))
  exact (congrArg (· >>= _) s1).trans ((congrArg (· >>= _) s2))

theorem h7_avx2_tab {L ptr : Nat} (hL : ptr + 128 ≤ L) (f : Nat → α) :
    exec h7_avx2 ptr (tab L f) = some (tab L (win ptr 128 (passes 0 7) f)) := by
  have s1 := whole_tab (base := 0) (M := 4) does_x32 (by decide) (by decide) (by decide) hL f
  have s2 := (radix_tab (v := 2) (c := 5) (r := 2) (M := 1) does_x4 (by decide) hL (win ptr 128 (passes 0 5) f)).trans
    (congrArg (fun g => some (tab L g)) (win_win (B := ptr) (N := 128) (c := 5) (n := 2) (by decide) f))
  exact (congrArg (· >>= _) s1).trans ((congrArg (· >>= _) s2))

theorem h8_avx2_tab {L ptr : Nat} (hL : ptr + 256 ≤ L) (f : Nat → α) :
    exec h8_avx2 ptr (tab L f) = some (tab L (win ptr 256 (passes 0 8) f)) := by
  have s1 := whole_tab (base := 0) (M := 8) does_x32 (by decide) (by decide) (by decide) hL f
  have s2 := (radix_tab (v := 2) (c := 5) (r := 3) (M := 1) does_x8 (by decide) hL (win ptr 256 (passes 0 5) f)).trans
    (congrArg (fun g => some (tab L g)) (win_win (B := ptr) (N := 256) (c := 5) (n := 3) (by decide) f))
  exact (congrArg (· >>= _) s1).trans ((congrArg (· >>= _) s2))

theorem h9_avx2_tab {L ptr : Nat} (hL : ptr + 512 ≤ L) (f : Nat → α) :
    exec h9_avx2 ptr (tab L f) = some (tab L (win ptr 512 (passes 0 9) f)) := by
  have s1 := whole_tab (base := 0) (M := 16) does_x32 (by decide) (by decide) (by decide) hL f
  have s2 := (radix_tab (v := 2) (c := 5) (r := 3) (M := 2) does_x8 (by decide) hL (win ptr 512 (passes 0 5) f)).trans
    (congrArg (fun g => some (tab L g)) (win_win (B := ptr) (N := 512) (c := 5) (n := 3) (by decide) f))
  have s3 := (radix_tab (v := 2) (c := 8) (r := 1) (M := 1) does_x2 (by decide) hL (win ptr 512 (passes 0 8) f)).trans
    (congrArg (fun g => some (tab L g)) (win_win (B := ptr) (N := 512) (c := 8) (n := 1) (by decide) f))
  exact (congrArg (· >>= _) s1).trans ((congrArg (· >>= _) s2).trans ((congrArg (· >>= _) s3)))

theorem h10_avx2_tab {L ptr : Nat} (hL : ptr + 1024 ≤ L) (f : Nat → α) :
    exec h10_avx2 ptr (tab L f) = some (tab L (win ptr 1024 (passes 0 10) f)) := by
  have s1 := whole_tab (base := 0) (M := 32) does_x32 (by decide) (by decide) (by decide) hL f
  have s2 := (radix_tab (v := 2) (c := 5) (r := 3) (M := 4) does_x8 (by decide) hL (win ptr 1024 (passes 0 5) f)).trans
    (congrArg (fun g => some (tab L g)) (win_win (B := ptr) (N := 1024) (c := 5) (n := 3) (by decide) f))
  have s3 := (radix_tab (v := 2) (c := 8) (r := 2) (M := 1) does_x4 (by decide) hL (win ptr 1024 (passes 0 8) f)).trans
    (congrArg (fun g => some (tab L g)) (win_win (B := ptr) (N := 1024) (c := 8) (n := 2) (by decide) f))
  exact (congrArg (· >>= _) s1).trans ((congrArg (· >>= _) s2).trans ((congrArg (· >>= _) s3)))

theorem h11_avx2_tab {L ptr : Nat} (hL : ptr + 2048 ≤ L) (f : Nat → α) :
    exec h11_avx2 ptr (tab L f) = some (tab L (win ptr 2048 (passes 0 11) f)) := by
  have s1 := whole_tab (base := 0) (M := 64) does_x32 (by decide) (by decide) (by decide) hL f
  have s2 := (radix_tab (v := 2) (c := 5) (r := 3) (M := 8) does_x8 (by decide) hL (win ptr 2048 (passes 0 5) f)).trans
    (congrArg (fun g => some (tab L g)) (win_win (B := ptr) (N := 2048) (c := 5) (n := 3) (by decide) f))
  have s3 := (radix_tab (v := 2) (c := 8) (r := 3) (M := 1) does_x8 (by decide) hL (win ptr 2048 (passes 0 8) f)).trans
    (congrArg (fun g => some (tab L g)) (win_win (B := ptr) (N := 2048) (c := 8) (n := 3) (by decide) f))
  exact (congrArg (· >>= _) s1).trans ((congrArg (· >>= _) s2).trans ((congrArg (· >>= _) s3)))

theorem h6_avx512_tab {L ptr : Nat} (hL : ptr + 64 ≤ L) (f : Nat → α) :
    exec h6_avx512 ptr (tab L f) = some (tab L (win ptr 64 (passes 0 6) f)) := by
  have s1 := whole_tab (base := 0) (M := 1) does_y64 (by decide) (by decide) (by decide) hL f
  exact (congrArg (· >>= _) s1)

theorem h7_avx512_tab {L ptr : Nat} (hL : ptr + 128 ≤ L) (f : Nat → α) :
    exec h7_avx512 ptr (tab L f) = some (tab L (win ptr 128 (passes 0 7) f)) := by
  have s1 := whole_tab (base := 0) (M := 2) does_y64 (by decide) (by decide) (by decide) hL f
  have s2 := (radix_tab (v := 3) (c := 6) (r := 1) (M := 1) does_y2 (by decide) hL (win ptr 128 (passes 0 6) f)).trans
    (congrArg (fun g => some (tab L g)) (win_win (B := ptr) (N := 128) (c := 6) (n := 1) (by decide) f))
  exact (congrArg (· >>= _) s1).trans ((congrArg (· >>= _) s2))

theorem h8_avx512_tab {L ptr : Nat} (hL : ptr + 256 ≤ L) (f : Nat → α) :
    exec h8_avx512 ptr (tab L f) = some (tab L (win ptr 256 (passes 0 8) f)) := by
  have s1 := whole_tab (ptr := ptr) (L := L) (base := 0) (M := 1) does_y64 (by decide) (by decide) (by decide) (by omega) f
  have s2 := (whole_tab (ptr := ptr) (L := L) (base := 64) (M := 1) does_y64 (by decide) (by decide) (by decide) (by omega)
    (win ptr 64 (passes 0 6) f)).trans (congrArg (fun g => some (tab L g)) (win_adj (B := ptr) (N1 := 64) (N2 := 64) (by decide) (by decide) f))
  have s3 := (whole_tab (ptr := ptr) (L := L) (base := 128) (M := 1) does_y64 (by decide) (by decide) (by decide) (by omega)
    (win ptr 128 (passes 0 6) f)).trans (congrArg (fun g => some (tab L g)) (win_adj (B := ptr) (N1 := 128) (N2 := 64) (by decide) (by decide) f))
  have s4 := (whole_tab (ptr := ptr) (L := L) (base := 192) (M := 1) does_y64 (by decide) (by decide) (by decide) (by omega)
    (win ptr 192 (passes 0 6) f)).trans (congrArg (fun g => some (tab L g)) (win_adj (B := ptr) (N1 := 192) (N2 := 64) (by decide) (by decide) f))
  have s5 := (radix_tab (v := 3) (c := 6) (r := 2) (M := 1) does_y4 (by decide) hL (win ptr 256 (passes 0 6) f)).trans
    (congrArg (fun g => some (tab L g)) (win_win (B := ptr) (N := 256) (c := 6) (n := 2) (by decide) f))
  exact (congrArg (· >>= _) s1).trans ((congrArg (· >>= _) s2).trans ((congrArg (· >>= _) s3).trans ((congrArg (· >>= _) s4).trans
    (congrArg (· >>= _) s5))))

theorem h9_avx512_tab {L ptr : Nat} (hL : ptr + 512 ≤ L) (f : Nat → α) :
    exec h9_avx512 ptr (tab L f) = some (tab L (win ptr 512 (passes 0 9) f)) := by
  have s1 := whole_tab (base := 0) (M := 8) does_y64 (by decide) (by decide) (by decide) hL f
  have s2 := (radix_tab (v := 3) (c := 6) (r := 3) (M := 1) does_y8 (by decide) hL (win ptr 512 (passes 0 6) f)).trans
    (congrArg (fun g => some (tab L g)) (win_win (B := ptr) (N := 512) (c := 6) (n := 3) (by decide) f))
  exact (congrArg (· >>= _) s1).trans ((congrArg (· >>= _) s2))

theorem h10_avx512_tab {L ptr : Nat} (hL : ptr + 1024 ≤ L) (f : Nat → α) :
    exec h10_avx512 ptr (tab L f) = some (tab L (win ptr 1024 (passes 0 10) f)) := by
  have s1 := whole_tab (base := 0) (M := 16) does_y64 (by decide) (by decide) (by decide) hL f
  have s2 := (radix_tab (v := 3) (c := 6) (r := 3) (M := 2) does_y8 (by decide) hL (win ptr 1024 (passes 0 6) f)).trans
    (congrArg (fun g => some (tab L g)) (win_win (B := ptr) (N := 1024) (c := 6) (n := 3) (by decide) f))
  have s3 := (radix_tab (v := 3) (c := 9) (r := 1) (M := 1) does_y2 (by decide) hL (win ptr 1024 (passes 0 9) f)).trans
    (congrArg (fun g => some (tab L g)) (win_win (B := ptr) (N := 1024) (c := 9) (n := 1) (by decide) f))
  exact (congrArg (· >>= _) s1).trans ((congrArg (· >>= _) s2).trans ((congrArg (· >>= _) s3)))

theorem h11_avx512_tab {L ptr : Nat} (hL : ptr + 2048 ≤ L) (f : Nat → α) :
    exec h11_avx512 ptr (tab L f) = some (tab L (win ptr 2048 (passes 0 11) f)) := by
  have s1 := whole_tab (base := 0) (M := 32) does_y64 (by decide) (by decide) (by decide) hL f
  have s2 := (radix_tab (v := 3) (c := 6) (r := 3) (M := 4) does_y8 (by decide) hL (win ptr 2048 (passes 0 6) f)).trans
    (congrArg (fun g => some (tab L g)) (win_win (B := ptr) (N := 2048) (c := 6) (n := 3) (by decide) f))
  have s3 := (radix_tab (v := 3) (c := 9) (r := 2) (M := 1) does_y4 (by decide) hL (win ptr 2048 (passes 0 9) f)).trans
    (congrArg (fun g => some (tab L g)) (win_win (B := ptr) (N := 2048) (c := 9) (n := 2) (by decide) f))
  exact (congrArg (· >>= _) s1).trans ((congrArg (· >>= _) s2).trans ((congrArg (· >>= _) s3)))

/-- All variants of the transform do the same. -/
theorem helper_tab {L ptr m : Nat} (lv : Level) (h6 : 6 ≤ m) (h11 : m ≤ 11) (hL : ptr + 2 ^ m ≤ L) (f : Nat → α) :
    helper lv m ptr (tab L f) = some (tab L (win ptr (2 ^ m) (passes 0 m) f)) := by
  have hm : m = 6 ∨ m = 7 ∨ m = 8 ∨ m = 9 ∨ m = 10 ∨ m = 11 := by omega
  cases lv with
  | generic =>
    have : helper .generic m ptr (tab L f) = fwht m ptr (tab L f) := by
      rcases hm with rfl | rfl | rfl | rfl | rfl | rfl <;> rfl
    rw [this]
    exact fwht_tab hL f
  | avx2 =>
    rcases hm with rfl | rfl | rfl | rfl | rfl | rfl
    · exact h6_avx2_tab hL f
    · exact h7_avx2_tab hL f
    · exact h8_avx2_tab hL f
    · exact h9_avx2_tab hL f
    · exact h10_avx2_tab hL f
    · exact h11_avx2_tab hL f
  | avx512 =>
    rcases hm with rfl | rfl | rfl | rfl | rfl | rfl
    · exact h6_avx512_tab hL f
    · exact h7_avx512_tab hL f
    · exact h8_avx512_tab hL f
    · exact h9_avx512_tab hL f
    · exact h10_avx512_tab hL f
    · exact h11_avx512_tab hL f

end Alaya.Fht
