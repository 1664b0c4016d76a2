import Verif.Model.FhtAsm

/-
The assembly blocks compute the butterflies: symbolic execution of the blocks, and the transfer to all values.
-/
namespace Alaya.Fht
set_option linter.unusedSectionVars false

variable {α : Type} [Zero α] [Add α] [Sub α]

/-- The equations the blocks rely on. They hold in every ring, and for rounded arithmetic too. -/
class Law (α : Type) [Zero α] [Add α] [Sub α] : Prop where
  comm : ∀ a b : α, a + b = b + a
  zero_add : ∀ a : α, 0 + a = a
  sub_zero : ∀ a : α, a - 0 = a
  sub_neg : ∀ a b : α, a - (0 - b) = a + b
  add_neg : ∀ a b : α, a + (0 - b) = a - b

/-- One pass of butterflies: bit `i` of the index selects sum or difference. -/
def P (i : Nat) (f : Nat → α) (t : Nat) : α := if t.testBit i then f (t - 2 ^ i) - f t else f t + f (t + 2 ^ i)

/-- Passes for the bits `b, b+1, …, b+n-1`. -/
def passes (b : Nat) : Nat → (Nat → α) → Nat → α
  | 0, f => f
  | n + 1, f => P (b + n) (passes b n f)

/-- Terms. -/
inductive E
  | zero
  | var (i : Nat)
  | neg (a : E)
  | add (a b : E)
  | sub (a b : E)
  deriving DecidableEq

/-- The first variable of a term. -/
def E.lead : E → Nat
  | .zero => 0
  | .var i => i
  | .neg a => a.lead
  | .add a _ => a.lead
  | .sub a _ => a.lead

/-- Sum, with zero and minus removed and the operands in order. -/
def E.mkAdd : E → E → E
  | .zero, b => b
  | a, .zero => a
  | a, .neg b => .sub a b
  | .neg a, b => .sub b a
  | a, b => if a.lead ≤ b.lead then .add a b else .add b a

/-- Difference. -/
def E.mkSub : E → E → E
  | a, .zero => a
  | .zero, b => .neg b
  | a, .neg b => if a.lead ≤ b.lead then .add a b else .add b a
  | a, b => .sub a b

instance : Zero E := ⟨.zero⟩
instance : Add E := ⟨E.mkAdd⟩
instance : Sub E := ⟨E.mkSub⟩

/-- The value of a term. -/
def E.eval (ρ : Nat → α) : E → α
  | .zero => 0
  | .var i => ρ i
  | .neg a => 0 - a.eval ρ
  | .add a b => a.eval ρ + b.eval ρ
  | .sub a b => a.eval ρ - b.eval ρ

/-- The operands `u 0, …, u (w-1)`, then `u w, …` -/
def operands {β : Type} (R w : Nat) (u : Nat → β) : List (List β) := (List.range R).map (fun s => (List.range w).map (fun l => u (w * s + l)))

/-- What a block does: the passes `b, …, b+n-1`. -/
def Does (w R : Nat) (prog : List Instr) (b n : Nat) : Prop :=
  ((run w prog ⟨List.replicate 16 none, operands R w E.var⟩).map Cpu.mem) = some (operands R w (passes b n E.var))

instance (w R : Nat) (prog : List Instr) (b n : Nat) : Decidable (Does w R prog b n) := by unfold Does; infer_instance

theorem does_x2 : Does 4 2 x2 2 1 := by decide +kernel
theorem does_x4 : Does 4 4 x4 2 2 := by decide +kernel
theorem does_x8 : Does 4 8 x8 2 3 := by decide +kernel
theorem does_x32 : Does 4 8 x32 0 5 := by decide +kernel
theorem does_y2 : Does 8 2 y2 3 1 := by decide +kernel
theorem does_y4 : Does 8 4 y4 3 2 := by decide +kernel
theorem does_y8 : Does 8 8 y8 3 3 := by decide +kernel
theorem does_y64 : Does 8 8 y64 0 6 := by decide +kernel

theorem E.eval_add [Law α] (ρ : Nat → α) (a b : E) : (a + b).eval ρ = a.eval ρ + b.eval ρ := by
  show (E.mkAdd a b).eval ρ = _
  unfold E.mkAdd
  split
  · simp only [E.eval, Law.zero_add]
  · simp only [E.eval]; rw [Law.comm, Law.zero_add]
  · simp only [E.eval, Law.add_neg]
  · simp only [E.eval]; rw [Law.comm (0 - _), Law.add_neg]
  · split
    · rfl
    · simp only [E.eval]; exact Law.comm _ _

theorem E.eval_sub [Law α] (ρ : Nat → α) (a b : E) : (a - b).eval ρ = a.eval ρ - b.eval ρ := by
  show (E.mkSub a b).eval ρ = _
  unfold E.mkSub
  split
  · simp only [E.eval, Law.sub_zero]
  · rfl
  · simp only [E.eval, Law.sub_neg]
    split
    · rfl
    · simp only [E.eval]; exact Law.comm _ _
  · rfl

/-- Maps that keep zero, sums and differences. -/
structure Hom {β : Type} [Zero β] [Add β] [Sub β] (h : β → α) : Prop where
  zero : h 0 = 0
  add : ∀ a b, h (a + b) = h a + h b
  sub : ∀ a b, h (a - b) = h a - h b

theorem E.hom [Law α] (ρ : Nat → α) : Hom (E.eval ρ) := ⟨rfl, E.eval_add ρ, E.eval_sub ρ⟩

section
variable {β : Type} [Zero β] [Add β] [Sub β] {h : β → α}

theorem P_hom (H : Hom h) (i : Nat) (f : Nat → β) (t : Nat) : h (P i f t) = P i (fun u => h (f u)) t := by
  unfold P
  split
  · exact H.sub _ _
  · exact H.add _ _

theorem passes_hom (H : Hom h) (b n : Nat) (f : Nat → β) (t : Nat) : h (passes b n f t) = passes b n (fun u => h (f u)) t := by
  induction n generalizing t with
  | zero => rfl
  | succ n ih => simp only [passes]; rw [P_hom H]; congr 1; funext u; exact ih u

/-- The state with every value mapped. -/
def Cpu.map (h : β → α) (c : Cpu β) : Cpu α := ⟨c.regs.map (Option.map (List.map h)), c.mem.map (List.map h)⟩

theorem Cpu.reg_map (h : β → α) (c : Cpu β) (r : Nat) : (c.map h).reg r = (c.reg r).map (List.map h) := by
  simp only [Cpu.reg, Cpu.map, List.getD_eq_getElem?_getD, List.getElem?_map]
  cases c.regs[r]? <;> rfl

theorem Cpu.set_map (h : β → α) (c : Cpu β) (r : Nat) (v : List β) : (c.set r v).map h = (c.map h).set r (v.map h) := by
  simp [Cpu.set, Cpu.map, List.map_set]

theorem getD_map (H : Hom h) (l : List β) (i : Nat) : (l.map h).getD i 0 = h (l.getD i 0) := by
  simp only [List.getD_eq_getElem?_getD, List.getElem?_map]
  cases l[i]? <;> simp [H.zero]

theorem zipAdd_map (H : Hom h) (a b : List β) : (List.zipWith (· + ·) a b).map h = List.zipWith (· + ·) (a.map h) (b.map h) := by
  induction a generalizing b with
  | nil => rfl
  | cons x a ih => cases b with
    | nil => rfl
    | cons y b => simp [H.add, ih]

theorem zipSub_map (H : Hom h) (a b : List β) : (List.zipWith (· - ·) a b).map h = List.zipWith (· - ·) (a.map h) (b.map h) := by
  induction a generalizing b with
  | nil => rfl
  | cons x a ih => cases b with
    | nil => rfl
    | cons y b => simp [H.sub, ih]

theorem addsub_map (H : Hom h) : ∀ a b : List β, (addsub a b).map h = addsub (a.map h) (b.map h)
  | [], _ => by simp [addsub]
  | [_], _ => by simp [addsub]
  | _ :: _ :: _, [] => by simp [addsub]
  | _ :: _ :: _, [_] => by simp [addsub]
  | a0 :: a1 :: a, b0 :: b1 :: b => by simp [addsub, H.add, H.sub, addsub_map H a b]

theorem half_map (a b : List β) (s : Nat) : (half a b s).map h = half (a.map h) (b.map h) s := by
  unfold half; split <;> simp [List.map_take, List.map_drop]

theorem step_map (H : Hom h) (w : Nat) (c : Cpu β) (i : Instr) : (i.step w c).map (Cpu.map h) = i.step w (c.map h) := by
  cases i with
  | load m r =>
    simp only [Instr.step]
    have : (c.map h).mem[m]? = (c.mem[m]?).map (List.map h) := by simp [Cpu.map]
    rw [this]
    cases c.mem[m]? <;> simp [Cpu.set_map]
  | store r m =>
    simp only [Instr.step, Cpu.reg_map]
    have e : (c.map h).mem.length = c.mem.length := by simp [Cpu.map]
    cases c.reg r with
    | none => rfl
    | some v =>
      simp only [Option.map_some, Option.bind_eq_bind, Option.bind_some, e]
      split
      · simp [Cpu.map, List.map_set]
      · rfl
  | mov s d =>
    simp only [Instr.step, Cpu.reg_map]
    cases c.reg s <;> simp [Cpu.set_map]
  | zero d => simp [Instr.step, Cpu.set_map, H.zero]
  | add b a d =>
    simp only [Instr.step, Cpu.reg_map]
    cases c.reg b <;> cases c.reg a <;> simp [Cpu.set_map, zipAdd_map H]
  | sub b a d =>
    simp only [Instr.step, Cpu.reg_map]
    cases c.reg b <;> cases c.reg a <;> simp [Cpu.set_map, zipSub_map H]
  | addsub b a d =>
    simp only [Instr.step, Cpu.reg_map]
    cases c.reg b <;> cases c.reg a <;> simp [Cpu.set_map, addsub_map H]
  | shuf imm s d =>
    simp only [Instr.step, Cpu.reg_map]
    cases c.reg s <;> cases c.reg d <;> simp [Cpu.set_map, getD_map H, -List.getD_eq_getElem?_getD, Function.comp_def]
  | permil imm s d =>
    simp only [Instr.step, Cpu.reg_map]
    cases c.reg s <;> simp [Cpu.set_map, getD_map H, -List.getD_eq_getElem?_getD, Function.comp_def]
  | blend imm b a d =>
    simp only [Instr.step, Cpu.reg_map]
    cases c.reg b <;> cases c.reg a <;> simp [Cpu.set_map, getD_map H, -List.getD_eq_getElem?_getD, apply_ite h, Function.comp_def]
  | perm2 imm b a d =>
    simp only [Instr.step, Cpu.reg_map]
    cases c.reg b <;> cases c.reg a <;> simp [Cpu.set_map, half_map]

theorem run_map (H : Hom h) (w : Nat) (is : List Instr) (c : Cpu β) : (run w is c).map (Cpu.map h) = run w is (c.map h) := by
  induction is generalizing c with
  | nil => rfl
  | cons i is ih =>
    simp only [run, Option.bind_eq_bind]
    rw [← step_map H]
    cases i.step w c with
    | none => rfl
    | some c' => exact ih c'

end

theorem operands_map {β γ : Type} (h : β → γ) (R w : Nat) (u : Nat → β) :
    (operands R w u).map (List.map h) = operands R w (fun t => h (u t)) := by
  simp only [operands, List.map_map, Function.comp_def]

/-- A block does its passes whatever the values are. -/
theorem Does.run [Law α] {w R : Nat} {prog : List Instr} {b n : Nat} (d : Does w R prog b n) (u : Nat → α) :
    ∃ c, Fht.run w prog ⟨List.replicate 16 none, operands R w u⟩ = some c ∧ c.mem = operands R w (passes b n u) := by
  have e : (Cpu.map (E.eval u) ⟨List.replicate 16 none, operands R w E.var⟩ : Cpu α) = ⟨List.replicate 16 none, operands R w u⟩ := by
    simp only [Cpu.map, operands_map, E.eval, List.map_replicate, Option.map_none]
  have r := run_map (E.hom u) w prog ⟨List.replicate 16 none, operands R w E.var⟩
  rw [e] at r
  obtain ⟨c, hc, hm⟩ := Option.map_eq_some_iff.1 d
  rw [hc] at r
  refine ⟨c.map (E.eval u), r.symm, ?_⟩
  show c.mem.map _ = _
  rw [hm, operands_map]
  congr 1
  funext t
  exact passes_hom (E.hom u) b n E.var t

end Alaya.Fht
