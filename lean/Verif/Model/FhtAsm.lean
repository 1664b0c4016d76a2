import Verif.Model.Fht

/-
The assembly blocks of /repo/include/simd/fht.ipp, one constructor per instruction in the order of the source (AT&T operand order).
Blocks with the same text occur several times in the file; each is listed once with all places.
-/
namespace Alaya.Fht
open Instr

/-- 32 consecutive floats in `xmm` registers. fht.ipp:53-252, 318-517, 601-800, 928-1127, 1286-1485, 1662-1861 -/
def x32 : List Instr :=
  [.load 0 0, .load 1 1, .load 2 2, .load 3 3, .load 4 4, .load 5 5, .load 6 6, .load 7 7, .mov 0 8, .shuf 160 8 8, .shuf 245 0 0,
   .zero 9, .sub 0 9 9, .addsub 9 8 8, .mov 8 0, .mov 1 8, .shuf 160 8 8, .shuf 245 1 1, .zero 9, .sub 1 9 9, .addsub 9 8 8, .mov 8 1,
   .mov 2 8, .shuf 160 8 8, .shuf 245 2 2, .zero 9, .sub 2 9 9, .addsub 9 8 8, .mov 8 2, .mov 3 8, .shuf 160 8 8, .shuf 245 3 3,
   .zero 9, .sub 3 9 9, .addsub 9 8 8, .mov 8 3, .mov 4 8, .shuf 160 8 8, .shuf 245 4 4, .zero 9, .sub 4 9 9, .addsub 9 8 8, .mov 8 4,
   .mov 5 8, .shuf 160 8 8, .shuf 245 5 5, .zero 9, .sub 5 9 9, .addsub 9 8 8, .mov 8 5, .mov 6 8, .shuf 160 8 8, .shuf 245 6 6,
   .zero 9, .sub 6 9 9, .addsub 9 8 8, .mov 8 6, .mov 7 8, .shuf 160 8 8, .shuf 245 7 7, .zero 9, .sub 7 9 9, .addsub 9 8 8, .mov 8 7,
   .mov 0 8, .shuf 68 8 8, .zero 9, .mov 0 10, .shuf 14 9 10, .mov 0 11, .shuf 224 11 9, .add 8 10 10, .sub 9 10 10, .mov 10 0,
   .mov 1 8, .shuf 68 8 8, .zero 9, .mov 1 10, .shuf 14 9 10, .mov 1 11, .shuf 224 11 9, .add 8 10 10, .sub 9 10 10, .mov 10 1,
   .mov 2 8, .shuf 68 8 8, .zero 9, .mov 2 10, .shuf 14 9 10, .mov 2 11, .shuf 224 11 9, .add 8 10 10, .sub 9 10 10, .mov 10 2,
   .mov 3 8, .shuf 68 8 8, .zero 9, .mov 3 10, .shuf 14 9 10, .mov 3 11, .shuf 224 11 9, .add 8 10 10, .sub 9 10 10, .mov 10 3,
   .mov 4 8, .shuf 68 8 8, .zero 9, .mov 4 10, .shuf 14 9 10, .mov 4 11, .shuf 224 11 9, .add 8 10 10, .sub 9 10 10, .mov 10 4,
   .mov 5 8, .shuf 68 8 8, .zero 9, .mov 5 10, .shuf 14 9 10, .mov 5 11, .shuf 224 11 9, .add 8 10 10, .sub 9 10 10, .mov 10 5,
   .mov 6 8, .shuf 68 8 8, .zero 9, .mov 6 10, .shuf 14 9 10, .mov 6 11, .shuf 224 11 9, .add 8 10 10, .sub 9 10 10, .mov 10 6,
   .mov 7 8, .shuf 68 8 8, .zero 9, .mov 7 10, .shuf 14 9 10, .mov 7 11, .shuf 224 11 9, .add 8 10 10, .sub 9 10 10, .mov 10 7,
   .mov 0 8, .mov 0 9, .add 1 8 8, .sub 1 9 9, .mov 2 10, .mov 2 11, .add 3 10 10, .sub 3 11 11, .mov 4 12, .mov 4 13, .add 5 12 12,
   .sub 5 13 13, .mov 6 14, .mov 6 15, .add 7 14 14, .sub 7 15 15, .mov 8 0, .mov 8 2, .add 10 0 0, .sub 10 2 2, .mov 9 1, .mov 9 3,
   .add 11 1 1, .sub 11 3 3, .mov 12 4, .mov 12 6, .add 14 4 4, .sub 14 6 6, .mov 13 5, .mov 13 7, .add 15 5 5, .sub 15 7 7, .mov 0 8,
   .mov 0 12, .add 4 8 8, .sub 4 12 12, .mov 1 9, .mov 1 13, .add 5 9 9, .sub 5 13 13, .mov 2 10, .mov 2 14, .add 6 10 10,
   .sub 6 14 14, .mov 3 11, .mov 3 15, .add 7 11 11, .sub 7 15 15, .store 8 0, .store 9 1, .store 10 2, .store 11 3, .store 12 4,
   .store 13 5, .store 14 6, .store 15 7]

/-- Two groups of four floats. fht.ipp:282-289, 1250-1257 -/
def x2 : List Instr :=
  [.load 0 0, .load 1 1, .mov 0 8, .mov 0 9, .add 1 8 8, .sub 1 9 9, .store 8 0, .store 9 1]

/-- Four groups of four floats. fht.ipp:547-570, 1608-1631 -/
def x4 : List Instr :=
  [.load 0 0, .load 1 1, .load 2 2, .load 3 3, .mov 0 8, .mov 0 9, .add 1 8 8, .sub 1 9 9, .mov 2 10, .mov 2 11, .add 3 10 10,
   .sub 3 11 11, .mov 8 0, .mov 8 2, .add 10 0 0, .sub 10 2 2, .mov 9 1, .mov 9 3, .add 11 1 1, .sub 11 3 3, .store 0 0, .store 1 1,
   .store 2 2, .store 3 3]

/-- Eight groups of four floats. fht.ipp:830-893, 1157-1220, 1515-1578, 1891-1954, 1984-2047 -/
def x8 : List Instr :=
  [.load 0 0, .load 1 1, .load 2 2, .load 3 3, .load 4 4, .load 5 5, .load 6 6, .load 7 7, .mov 0 8, .mov 0 9, .add 1 8 8, .sub 1 9 9,
   .mov 2 10, .mov 2 11, .add 3 10 10, .sub 3 11 11, .mov 4 12, .mov 4 13, .add 5 12 12, .sub 5 13 13, .mov 6 14, .mov 6 15,
   .add 7 14 14, .sub 7 15 15, .mov 8 0, .mov 8 2, .add 10 0 0, .sub 10 2 2, .mov 9 1, .mov 9 3, .add 11 1 1, .sub 11 3 3, .mov 12 4,
   .mov 12 6, .add 14 4 4, .sub 14 6 6, .mov 13 5, .mov 13 7, .add 15 5 5, .sub 15 7 7, .mov 0 8, .mov 0 12, .add 4 8 8, .sub 4 12 12,
   .mov 1 9, .mov 1 13, .add 5 9 9, .sub 5 13 13, .mov 2 10, .mov 2 14, .add 6 10 10, .sub 6 14 14, .mov 3 11, .mov 3 15,
   .add 7 11 11, .sub 7 15 15, .store 8 0, .store 9 1, .store 10 2, .store 11 3, .store 12 4, .store 13 5, .store 14 6, .store 15 7]

/-- 64 consecutive floats in `ymm` registers. fht.ipp:2082-2249, 2284-2451, 2516-2683, 2772-2939, 3043-3210, 3343-3510 -/
def y64 : List Instr :=
  [.load 0 0, .load 1 1, .load 2 2, .load 3 3, .load 4 4, .load 5 5, .load 6 6, .load 7 7, .permil 160 0 8, .permil 245 0 9, .zero 10,
   .sub 9 10 11, .addsub 11 8 0, .permil 160 1 8, .permil 245 1 9, .zero 10, .sub 9 10 11, .addsub 11 8 1, .permil 160 2 8,
   .permil 245 2 9, .zero 10, .sub 9 10 11, .addsub 11 8 2, .permil 160 3 8, .permil 245 3 9, .zero 10, .sub 9 10 11, .addsub 11 8 3,
   .permil 160 4 8, .permil 245 4 9, .zero 10, .sub 9 10 11, .addsub 11 8 4, .permil 160 5 8, .permil 245 5 9, .zero 10, .sub 9 10 11,
   .addsub 11 8 5, .permil 160 6 8, .permil 245 6 9, .zero 10, .sub 9 10 11, .addsub 11 8 6, .permil 160 7 8, .permil 245 7 9,
   .zero 10, .sub 9 10 11, .addsub 11 8 7, .permil 68 0 8, .permil 238 0 9, .zero 10, .sub 9 10 11, .blend 204 11 9 12, .add 8 12 0,
   .permil 68 1 8, .permil 238 1 9, .zero 10, .sub 9 10 11, .blend 204 11 9 12, .add 8 12 1, .permil 68 2 8, .permil 238 2 9,
   .zero 10, .sub 9 10 11, .blend 204 11 9 12, .add 8 12 2, .permil 68 3 8, .permil 238 3 9, .zero 10, .sub 9 10 11,
   .blend 204 11 9 12, .add 8 12 3, .permil 68 4 8, .permil 238 4 9, .zero 10, .sub 9 10 11, .blend 204 11 9 12, .add 8 12 4,
   .permil 68 5 8, .permil 238 5 9, .zero 10, .sub 9 10 11, .blend 204 11 9 12, .add 8 12 5, .permil 68 6 8, .permil 238 6 9,
   .zero 10, .sub 9 10 11, .blend 204 11 9 12, .add 8 12 6, .permil 68 7 8, .permil 238 7 9, .zero 10, .sub 9 10 11,
   .blend 204 11 9 12, .add 8 12 7, .zero 8, .sub 0 8 9, .perm2 0 0 0 10, .perm2 49 9 0 11, .add 10 11 0, .zero 8, .sub 1 8 9,
   .perm2 0 1 1 10, .perm2 49 9 1 11, .add 10 11 1, .zero 8, .sub 2 8 9, .perm2 0 2 2 10, .perm2 49 9 2 11, .add 10 11 2, .zero 8,
   .sub 3 8 9, .perm2 0 3 3 10, .perm2 49 9 3 11, .add 10 11 3, .zero 8, .sub 4 8 9, .perm2 0 4 4 10, .perm2 49 9 4 11, .add 10 11 4,
   .zero 8, .sub 5 8 9, .perm2 0 5 5 10, .perm2 49 9 5 11, .add 10 11 5, .zero 8, .sub 6 8 9, .perm2 0 6 6 10, .perm2 49 9 6 11,
   .add 10 11 6, .zero 8, .sub 7 8 9, .perm2 0 7 7 10, .perm2 49 9 7 11, .add 10 11 7, .add 1 0 8, .sub 1 0 9, .add 3 2 10,
   .sub 3 2 11, .add 5 4 12, .sub 5 4 13, .add 7 6 14, .sub 7 6 15, .add 10 8 0, .sub 10 8 2, .add 11 9 1, .sub 11 9 3, .add 14 12 4,
   .sub 14 12 6, .add 15 13 5, .sub 15 13 7, .add 4 0 8, .sub 4 0 12, .add 5 1 9, .sub 5 1 13, .add 6 2 10, .sub 6 2 14, .add 7 3 11,
   .sub 7 3 15, .store 8 0, .store 9 1, .store 10 2, .store 11 3, .store 12 4, .store 13 5, .store 14 6, .store 15 7]

/-- Two groups of eight floats. fht.ipp:2481-2486, 3309-3314 -/
def y2 : List Instr :=
  [.load 0 0, .load 1 1, .add 1 0 8, .sub 1 0 9, .store 8 0, .store 9 1]

/-- Four groups of eight floats. fht.ipp:2720-2735, 3609-3624 -/
def y4 : List Instr :=
  [.load 0 0, .load 1 1, .load 2 2, .load 3 3, .add 1 0 8, .sub 1 0 9, .add 3 2 10, .sub 3 2 11, .add 10 8 0, .sub 10 8 2,
   .add 11 9 1, .sub 11 9 3, .store 0 0, .store 1 1, .store 2 2, .store 3 3]

/-- Eight groups of eight floats. fht.ipp:2969-3008, 3240-3279, 3540-3579 -/
def y8 : List Instr :=
  [.load 0 0, .load 1 1, .load 2 2, .load 3 3, .load 4 4, .load 5 5, .load 6 6, .load 7 7, .add 1 0 8, .sub 1 0 9, .add 3 2 10,
   .sub 3 2 11, .add 5 4 12, .sub 5 4 13, .add 7 6 14, .sub 7 6 15, .add 10 8 0, .sub 10 8 2, .add 11 9 1, .sub 11 9 3, .add 14 12 4,
   .sub 14 12 6, .add 15 13 5, .sub 15 13 7, .add 4 0 8, .sub 4 0 12, .add 5 1 9, .sub 5 1 13, .add 6 2 10, .sub 6 2 14, .add 7 3 11,
   .sub 7 3 15, .store 8 0, .store 9 1, .store 10 2, .store 11 3, .store 12 4, .store 13 5, .store 14 6, .store 15 7]

/-! The twelve functions: the loops around the blocks, in order. -/

/-- `helper_float_6_avx2`. fht.ipp:50-310 -/
def h6_avx2 : List Stage :=
  [⟨0, 64, 32, 4, 4, 4, x32, [0, 4, 8, 12, 16, 20, 24, 28]⟩,
   ⟨0, 64, 64, 32, 4, 4, x2, [0, 32]⟩]

/-- `helper_float_7_avx2`. fht.ipp:315-593 -/
def h7_avx2 : List Stage :=
  [⟨0, 128, 32, 4, 4, 4, x32, [0, 4, 8, 12, 16, 20, 24, 28]⟩,
   ⟨0, 128, 128, 32, 4, 4, x4, [0, 32, 64, 96]⟩]

/-- `helper_float_8_avx2`. fht.ipp:598-920 -/
def h8_avx2 : List Stage :=
  [⟨0, 256, 32, 4, 4, 4, x32, [0, 4, 8, 12, 16, 20, 24, 28]⟩,
   ⟨0, 256, 256, 32, 4, 4, x8, [0, 32, 64, 96, 128, 160, 192, 224]⟩]

/-- `helper_float_9_avx2`. fht.ipp:925-1278 -/
def h9_avx2 : List Stage :=
  [⟨0, 512, 32, 4, 4, 4, x32, [0, 4, 8, 12, 16, 20, 24, 28]⟩,
   ⟨0, 512, 256, 32, 4, 4, x8, [0, 32, 64, 96, 128, 160, 192, 224]⟩,
   ⟨0, 512, 512, 256, 4, 4, x2, [0, 256]⟩]

/-- `helper_float_10_avx2`. fht.ipp:1283-1654 -/
def h10_avx2 : List Stage :=
  [⟨0, 1024, 32, 4, 4, 4, x32, [0, 4, 8, 12, 16, 20, 24, 28]⟩,
   ⟨0, 1024, 256, 32, 4, 4, x8, [0, 32, 64, 96, 128, 160, 192, 224]⟩,
   ⟨0, 1024, 1024, 256, 4, 4, x4, [0, 256, 512, 768]⟩]

/-- `helper_float_11_avx2`. fht.ipp:1659-2074 -/
def h11_avx2 : List Stage :=
  [⟨0, 2048, 32, 4, 4, 4, x32, [0, 4, 8, 12, 16, 20, 24, 28]⟩,
   ⟨0, 2048, 256, 32, 4, 4, x8, [0, 32, 64, 96, 128, 160, 192, 224]⟩,
   ⟨0, 2048, 2048, 256, 4, 4, x8, [0, 256, 512, 768, 1024, 1280, 1536, 1792]⟩]

/-- `helper_float_6_avx512`. fht.ipp:2079-2276 -/
def h6_avx512 : List Stage :=
  [⟨0, 64, 64, 8, 8, 8, y64, [0, 8, 16, 24, 32, 40, 48, 56]⟩]

/-- `helper_float_7_avx512`. fht.ipp:2281-2507 -/
def h7_avx512 : List Stage :=
  [⟨0, 128, 64, 8, 8, 8, y64, [0, 8, 16, 24, 32, 40, 48, 56]⟩,
   ⟨0, 128, 128, 64, 8, 8, y2, [0, 64]⟩]

/-- `helper_float_8_avx512`. fht.ipp:2513-2758 -/
def h8_avx512 : List Stage :=
  [⟨0, 64, 64, 8, 8, 8, y64, [0, 8, 16, 24, 32, 40, 48, 56]⟩,
   ⟨64, 64, 64, 8, 8, 8, y64, [0, 8, 16, 24, 32, 40, 48, 56]⟩,
   ⟨128, 64, 64, 8, 8, 8, y64, [0, 8, 16, 24, 32, 40, 48, 56]⟩,
   ⟨192, 64, 64, 8, 8, 8, y64, [0, 8, 16, 24, 32, 40, 48, 56]⟩,
   ⟨0, 256, 256, 64, 8, 8, y4, [0, 64, 128, 192]⟩]

/-- `helper_float_9_avx512`. fht.ipp:2769-3035 -/
def h9_avx512 : List Stage :=
  [⟨0, 512, 64, 8, 8, 8, y64, [0, 8, 16, 24, 32, 40, 48, 56]⟩,
   ⟨0, 512, 512, 64, 8, 8, y8, [0, 64, 128, 192, 256, 320, 384, 448]⟩]

/-- `helper_float_10_avx512`. fht.ipp:3040-3335 -/
def h10_avx512 : List Stage :=
  [⟨0, 1024, 64, 8, 8, 8, y64, [0, 8, 16, 24, 32, 40, 48, 56]⟩,
   ⟨0, 1024, 512, 64, 8, 8, y8, [0, 64, 128, 192, 256, 320, 384, 448]⟩,
   ⟨0, 1024, 1024, 512, 8, 8, y2, [0, 512]⟩]

/-- `helper_float_11_avx512`. fht.ipp:3340-3647 -/
def h11_avx512 : List Stage :=
  [⟨0, 2048, 64, 8, 8, 8, y64, [0, 8, 16, 24, 32, 40, 48, 56]⟩,
   ⟨0, 2048, 512, 64, 8, 8, y8, [0, 64, 128, 192, 256, 320, 384, 448]⟩,
   ⟨0, 2048, 2048, 512, 8, 8, y4, [0, 512, 1024, 1536]⟩]

end Alaya.Fht
