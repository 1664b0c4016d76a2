import Mathlib.Data.Nat.Notation
import Mathlib.Algebra.Notation.Defs

/-
The fast Hadamard transform of /repo/include/simd/fht.ipp.

Memory is the list of the floats of an array and a pointer is a position in it; an access behind the end gives `none`.  The values are of any
type with 0, + and -; `Law` has the equations that are used, which hold for reals as well as for rounded numbers (see Props/C76).
A vector register is the list of its lanes, `none` until it has been written.  Every block of assembly first reads all its memory operands and
then writes all of them, and the operands do not overlap; so a block is: read the operands, run the instructions, write the operands.
-/
namespace Alaya.Fht

variable {α : Type} [Zero α] [Add α] [Sub α]

/-- The instructions of the blocks, operands in the order of the source (AT&T: the destination last). -/
inductive Instr
  /-- `movups (%m), r`, `vmovups (%m), r` -/
  | load (m r : Nat)
  /-- `movups r, (%m)`, `vmovups r, (%m)` -/
  | store (r m : Nat)
  /-- `movaps s, d` -/
  | mov (s d : Nat)
  /-- `xorps d, d`, `vxorps d, d, d` -/
  | zero (d : Nat)
  /-- `addps b, a` is `add b a a`; `vaddps b, a, d` -/
  | add (b a d : Nat)
  /-- `subps b, a` is `sub b a a`; `vsubps b, a, d`: `d = a - b` -/
  | sub (b a d : Nat)
  /-- `addsubps b, a`; `vaddsubps b, a, d`: even lanes `a - b`, odd lanes `a + b` -/
  | addsub (b a d : Nat)
  /-- `shufps $imm, s, d`: two lanes of `d`, then two lanes of `s` -/
  | shuf (imm s d : Nat)
  /-- `vpermilps $imm, s, d`: the same choice in both halves -/
  | permil (imm s d : Nat)
  /-- `vblendps $imm, b, a, d`: lane `i` of `b` where bit `i` of `imm` is set -/
  | blend (imm b a d : Nat)
  /-- `vperm2f128 $imm, b, a, d`: halves -/
  | perm2 (imm b a d : Nat)
  deriving Repr, DecidableEq

/-- Registers and memory operands. -/
structure Cpu (α : Type) where
  regs : List (Option (List α))
  mem : List (List α)
  deriving DecidableEq

/-- A register that has been written. -/
def Cpu.reg (c : Cpu α) (r : Nat) : Option (List α) := c.regs.getD r none

/-- Write a register. -/
def Cpu.set (c : Cpu α) (r : Nat) (v : List α) : Cpu α := { c with regs := c.regs.set r (some v) }

/-- Even lanes `a - b`, odd lanes `a + b`. -/
def addsub : List α → List α → List α
  | a0 :: a1 :: a, b0 :: b1 :: b => (a0 - b0) :: (a1 + b1) :: addsub a b
  | _, _ => []

/-- Two bits of an immediate operand. -/
def sel (imm i : Nat) : Nat := imm / 4 ^ i % 4

/-- Half of a register pair: 0, 1 the halves of `a`, 2, 3 the halves of `b`. -/
def half (a b : List α) (s : Nat) : List α :=
  match s with
  | 0 => a.take 4
  | 1 => a.drop 4
  | 2 => b.take 4
  | _ => b.drop 4

/-- One instruction on registers of `w` lanes. -/
def Instr.step (w : Nat) (c : Cpu α) : Instr → Option (Cpu α)
  | .load m r => do
    let v ← c.mem[m]?
    some (c.set r v)
  | .store r m => do
    let v ← c.reg r
    if m < c.mem.length then some { c with mem := c.mem.set m v } else none
  | .mov s d => do
    let v ← c.reg s
    some (c.set d v)
  | .zero d => some (c.set d (List.replicate w 0))
  | .add b a d => do
    let vb ← c.reg b
    let va ← c.reg a
    some (c.set d (List.zipWith (· + ·) va vb))
  | .sub b a d => do
    let vb ← c.reg b
    let va ← c.reg a
    some (c.set d (List.zipWith (· - ·) va vb))
  | .addsub b a d => do
    let vb ← c.reg b
    let va ← c.reg a
    some (c.set d (Fht.addsub va vb))
  | .shuf imm s d => do
    let vs ← c.reg s
    let vd ← c.reg d
    some (c.set d [vd.getD (sel imm 0) 0, vd.getD (sel imm 1) 0, vs.getD (sel imm 2) 0, vs.getD (sel imm 3) 0])
  | .permil imm s d => do
    let v ← c.reg s
    some (c.set d ((List.range 4).map (fun i => v.getD (sel imm i) 0) ++ (List.range 4).map (fun i => v.getD (4 + sel imm i) 0)))
  | .blend imm b a d => do
    let vb ← c.reg b
    let va ← c.reg a
    some (c.set d ((List.range 8).map (fun i => if imm.testBit i then vb.getD i 0 else va.getD i 0)))
  | .perm2 imm b a d => do
    let vb ← c.reg b
    let va ← c.reg a
    some (c.set d (half va vb (imm % 4) ++ half va vb (imm / 16 % 4)))

/-- The instructions one after the other. -/
def run (w : Nat) : List Instr → Cpu α → Option (Cpu α)
  | [], c => some c
  | i :: is, c => do
    let c' ← i.step w c
    run w is c'

/-- The values `0, step, 2·step, …` below `bound` of a loop counter. -/
def steps (bound step : Nat) : List Nat := (List.range ((bound + step - 1) / step)).map (fun i => step * i)

/-- A memory operand: `w` floats. -/
def fetch (w : Nat) (buf : List α) (p : Nat) : Option (List α) := if p + w ≤ buf.length then some ((buf.drop p).take w) else none

/-- Write a list at a position. -/
def splice (buf : List α) (p : Nat) (v : List α) : List α := buf.take p ++ v ++ buf.drop (p + v.length)

/-- A loop nest around one block: for `j < bound` in steps of `jstep`, for `k < kbound` in steps of `kstep`, the operands at
    `base + j + k + off`. -/
structure Stage where
  base : Nat
  bound : Nat
  jstep : Nat
  kbound : Nat
  kstep : Nat
  w : Nat
  prog : List Instr
  offs : List Nat

/-- One execution of the block with `buf + p` as `buf + j + k`. -/
def block (w : Nat) (prog : List Instr) (offs : List Nat) (buf : List α) (p : Nat) : Option (List α) := do
  let m ← offs.mapM (fun o => fetch w buf (p + o))
  let c ← run w prog ⟨List.replicate 16 none, m⟩
  some ((offs.zip c.mem).foldl (fun b ov => splice b (p + ov.1) ov.2) buf)

/-- The two loops. fht.ipp:50-53 and the like -/
def Stage.exec (s : Stage) (ptr : Nat) (buf : List α) : Option (List α) :=
  (steps s.bound s.jstep).foldlM (fun b j =>
    (steps s.kbound s.kstep).foldlM (fun b k => block s.w s.prog s.offs b (ptr + s.base + j + k)) b) buf

/-- A helper: its stages one after the other. -/
def exec (ss : List Stage) (ptr : Nat) (buf : List α) : Option (List α) := ss.foldlM (fun b s => s.exec ptr b) buf

/-- `u = buf[a]; v = buf[b]; buf[a] = u + v; buf[b] = u - v`. fht.ipp:35-38; rotator.hpp:277-280 -/
def butterfly (buf : List α) (a b : Nat) : Option (List α) := do
  let u ← buf[a]?
  let v ← buf[b]?
  some ((buf.set a (u + v)).set b (u - v))

/-- `fwht_generic_template<log_n>`. fht.ipp:27-42 -/
def fwht (logn : Nat) (ptr : Nat) (buf : List α) : Option (List α) :=
  (List.range logn).foldlM (fun b i =>
    (steps (2 ^ logn) (2 ^ (i + 1))).foldlM (fun b j =>
      (List.range (2 ^ i)).foldlM (fun b k => butterfly b (ptr + (j + k)) (ptr + (j + k + 2 ^ i))) b) b) buf

end Alaya.Fht
