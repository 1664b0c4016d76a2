import Verif.Model.DiskCollection

/-! C35: add_batch respects the memory cap without arithmetic overflow and is all-or-nothing. -/
namespace Alaya.DiskColl2
open Alaya Alaya.DiskFlat Alaya.DiskManifest

/-- The bytes `add_batch` accounts for: two copies of each row and its label. -/
def accounted (dim rows : Nat) : Nat := 2 * rows * (4 * dim + 8)

/-- The property for one call: all rows appended and within the cap. -/
def AddOk (m : Mem) (vectors labels : List Nat) (m' : Mem) : Prop :=
  m' = { m with pendV := m.pendV ++ vectors, pendL := m.pendL ++ labels } ∧ accounted m.man.dim m'.pendL.length ≤ m.cap

/-- The full statement (every 64-bit dimension). -/
def AddFull : Prop :=
  ∀ (m m' : Mem) (n : Nat) (vectors labels : List Nat) (a : Bool), m.man.dim < 2 ^ 64 → n < 2 ^ 64 → 0 < n → m.cap < 2 ^ 64 →
    labels.length = n → vectors.length = n * m.man.dim → addBatch m n vectors labels a = some m' → AddOk m vectors labels m'

/-- `add_batch` of n > 0 rows succeeds exactly when the accounted bytes of all pending rows stay within the cap (and no
allocation fails); then all rows are appended.  Otherwise it throws and, the model returning no new state, nothing changes.
Missing for the full statement: dimensions of 2^62 - 2 and above, where the row size wraps (`C35_huge_dim_refuted`). -/
theorem C35_add_batch_exact_partial (m m' : Mem) (n : Nat) (vectors labels : List Nat) (a : Bool)
    (hdim : 4 * m.man.dim + 8 < 2 ^ 64) (hn : n < 2 ^ 64) (h0 : 0 < n) (hcap : m.cap < 2 ^ 64)
    (hl : labels.length = n) (hv : vectors.length = n * m.man.dim) :
    addBatch m n vectors labels a = some m' ↔
      m.man.engine ≠ .laser ∧ a = false ∧ accounted m.man.dim (m.pendL.length + n) ≤ m.cap ∧
      m' = { m with pendV := m.pendV ++ vectors, pendL := m.pendL ++ labels } := by
  have hU : U64 = 2 ^ 64 := U64_eq
  have hper : (m.man.dim * 4 % U64 + 8) % U64 = 4 * m.man.dim + 8 := by
    rw [hU, Nat.mod_eq_of_lt (by omega : m.man.dim * 4 < 2 ^ 64), Nat.mul_comm, Nat.mod_eq_of_lt hdim]
  have hpos : 0 < 4 * m.man.dim + 8 := by omega
  unfold addBatch
  simp only [hper]
  generalize hp : 4 * m.man.dim + 8 = p at *
  have hmono : 2 * n * p ≤ 2 * (m.pendL.length + n) * p := Nat.mul_le_mul_right _ (by omega)
  have htot : 2 * (m.pendL.length + n) ≤ 2 * (m.pendL.length + n) * p := Nat.le_mul_of_pos_right _ hpos
  have hacc : accounted m.man.dim (m.pendL.length + n) = 2 * (m.pendL.length + n) * p := by unfold accounted; rw [hp]
  by_cases he : m.man.engine = .laser
  · rw [if_pos he]
    constructor
    · intro h; cases h
    · rintro ⟨h, _⟩; exact absurd he h
  rw [if_neg he, if_neg (by omega)]
  by_cases hc : accounted m.man.dim (m.pendL.length + n) ≤ m.cap
  · rw [hacc] at hc
    rw [if_neg (by omega), if_neg (by omega), if_neg (by omega), if_neg (by omega), if_neg (by omega), if_neg (by omega),
      if_neg (by omega)]
    have hnd : n * m.man.dim < 2 ^ 64 := by
      have : n * m.man.dim ≤ 2 * n * p := by
        rw [← hp]
        calc n * m.man.dim ≤ (2 * n) * m.man.dim := Nat.mul_le_mul_right _ (by omega)
          _ ≤ (2 * n) * (4 * m.man.dim + 8) := Nat.mul_le_mul_left _ (by omega)
      omega
    have hmod : n * m.man.dim % U64 = n * m.man.dim := by rw [hU]; exact Nat.mod_eq_of_lt hnd
    rw [hmod, ← hv, List.take_length, ← hl, List.take_length]
    cases a with
    | true =>
      rw [if_pos rfl]
      constructor
      · intro h; cases h
      · rintro ⟨_, h, _⟩; cases h
    | false =>
      rw [if_neg (by simp)]
      constructor
      · intro h; injection h with h; exact ⟨he, rfl, by rw [hl, hacc]; exact hc, h.symm⟩
      · rintro ⟨_, _, _, h⟩; rw [h]
  · rw [hacc] at hc
    have hnone : ∀ r : Option Mem, r = none → (r = some m' ↔ m.man.engine ≠ .laser ∧ a = false ∧
        accounted m.man.dim (m.pendL.length + n) ≤ m.cap ∧ m' = { m with pendV := m.pendV ++ vectors, pendL := m.pendL ++ labels }) := by
      intro r hr
      rw [hr]
      constructor
      · intro h; cases h
      · rintro ⟨_, _, h, _⟩; rw [hacc] at h; exact absurd h hc
    apply hnone
    by_cases c1 : U64 ≤ 2 * n
    · rw [if_pos c1]
    rw [if_neg c1]
    by_cases c2 : U64 ≤ 2 * n * p
    · rw [if_pos c2]
    rw [if_neg c2]
    by_cases c3 : 2 * n * p > m.cap
    · rw [if_pos c3]
    rw [if_neg c3]
    by_cases c4 : U64 ≤ m.pendL.length + n
    · rw [if_pos c4]
    rw [if_neg c4]
    by_cases c5 : U64 ≤ 2 * (m.pendL.length + n)
    · rw [if_pos c5]
    rw [if_neg c5]
    by_cases c6 : U64 ≤ 2 * (m.pendL.length + n) * p
    · rw [if_pos c6]
    rw [if_neg c6, if_pos (by omega)]

/-- For collections made by the constructor (32-bit dimension) the statement holds without restriction. -/
theorem C35_constructed (m m' : Mem) (n : Nat) (vectors labels : List Nat) (a : Bool)
    (hdim : m.man.dim < 2 ^ 32) (hn : n < 2 ^ 64) (h0 : 0 < n) (hcap : m.cap < 2 ^ 64)
    (hl : labels.length = n) (hv : vectors.length = n * m.man.dim) (h : addBatch m n vectors labels a = some m') :
    AddOk m vectors labels m' := by
  obtain ⟨_, _, h1, h2⟩ := (C35_add_batch_exact_partial m m' n vectors labels a (by omega) hn h0 hcap hl hv).1 h
  refine ⟨h2, ?_⟩
  rw [h2]
  simp only [List.length_append, hl]
  exact h1

/-- An empty batch changes nothing. -/
theorem C35_empty (m m' : Mem) (vectors labels : List Nat) (a : Bool) (h : addBatch m 0 vectors labels a = some m') : m' = m := by
  unfold addBatch at h
  split at h
  · cases h
  · rw [if_pos rfl] at h; injection h with h; exact h.symm

/-- Pending rows stay within the cap over any history of add_batch, flush (with any fault) and reopen. -/
def WithinCap (s : St) : Prop :=
  ∀ m, s.mem = some m → accounted m.man.dim m.pendL.length ≤ m.cap ∨ m.pendL = []

theorem addBatch_keeps {m m' : Mem} {n : Nat} {v l : List Nat} {a : Bool} (h : addBatch m n v l a = some m') :
    m'.man = m.man ∧ m'.cap = m.cap ∧ m'.dirs = m.dirs := by
  unfold addBatch at h
  simp only at h
  repeat' split at h
  all_goals first | (cases h; done) | (injection h with h; subst h; exact ⟨rfl, rfl, rfl⟩)

theorem flush_mem {K : Kernel} {tmp : Bytes} {f : Fault} {d : Disk} {m m' : Mem} (h : (flush K tmp f d m).2.1 = some m') :
    m'.man.dim = m.man.dim ∧ m'.cap = m.cap ∧ (m'.pendL = m.pendL ∨ m'.pendL = []) := by
  have key : ∀ x : Mem, some x = some m' → (x.man.dim = m.man.dim ∧ x.cap = m.cap ∧ (x.pendL = m.pendL ∨ x.pendL = [])) →
      m'.man.dim = m.man.dim ∧ m'.cap = m.cap ∧ (m'.pendL = m.pendL ∨ m'.pendL = []) := by
    intro x e hx; injection e with e; subst e; exact hx
  unfold flush at h
  split at h
  · exact key _ h ⟨rfl, rfl, Or.inl rfl⟩
  · split at h
    · exact key _ h ⟨rfl, rfl, Or.inl rfl⟩
    · simp only at h
      split at h
      · cases h
      · exact key _ h ⟨rfl, rfl, Or.inl rfl⟩
      · exact key _ h ⟨rfl, rfl, Or.inl rfl⟩
    · simp only at h
      split at h
      · cases h
      · split at h
        · exact key _ h ⟨rfl, rfl, Or.inl rfl⟩
        · exact key _ h ⟨rfl, rfl, Or.inr rfl⟩
      · exact key _ h ⟨rfl, rfl, Or.inl rfl⟩
      · exact key _ h ⟨rfl, rfl, Or.inl rfl⟩
      · exact key _ h ⟨rfl, rfl, Or.inl rfl⟩
      · exact key _ h ⟨rfl, rfl, Or.inl rfl⟩
      · exact key _ h ⟨rfl, rfl, Or.inr rfl⟩

/-- The history never lists an engine dimension or cap outside 64 bits. -/
def Sized (s : St) : Prop := ∀ m, s.mem = some m → 4 * m.man.dim + 8 < 2 ^ 64 ∧ m.cap < 2 ^ 64

theorem C35_history_within_cap (K : Kernel) (s : St) (op : Op) (hs : Sized s) (h : WithinCap s)
    (hop : ∀ v l a, op = .add v l a → l.length < 2 ^ 64 ∧ ∀ m, s.mem = some m → v.length = l.length * m.man.dim) :
    WithinCap (step K s op) := by
  intro m' hm'
  cases op with
  | add v l a =>
    obtain ⟨h1, h2⟩ := hop v l a rfl
    simp only [step] at hm'
    cases hm : s.mem with
    | none => rw [hm] at hm'; simp only at hm'; rw [hm] at hm'; cases hm'
    | some m =>
      rw [hm] at hm'
      simp only at hm'
      cases ha : addBatch m l.length v l a with
      | none => rw [ha] at hm'; simp only at hm'; exact h m' hm'
      | some m1 =>
        rw [ha] at hm'
        simp only at hm'
        injection hm' with e
        subst e
        obtain ⟨k1, k2, _⟩ := addBatch_keeps ha
        by_cases h0 : l.length = 0
        · rw [h0] at ha
          rw [C35_empty m m1 v l a ha]; exact h m hm
        · obtain ⟨g1, g2⟩ := hs m hm
          obtain ⟨_, _, g3, g4⟩ := (C35_add_batch_exact_partial m m1 l.length v l a g1 h1 (by omega) g2 rfl (h2 m hm)).1 ha
          left
          rw [k1, k2, g4]
          simp only [List.length_append]
          exact g3
  | flush tmp f =>
    simp only [step] at hm'
    cases hm : s.mem with
    | none => rw [hm] at hm'; simp only at hm'; rw [hm] at hm'; cases hm'
    | some m =>
      rw [hm] at hm'
      simp only at hm'
      obtain ⟨e1, e2, e3⟩ := flush_mem hm'
      rcases e3 with e3 | e3
      · rcases h m hm with g | g
        · left; rw [e1, e2, e3]; exact g
        · right; rw [e3]; exact g
      · right; exact e3
  | reopen sf =>
    simp only [step] at hm'
    right
    unfold openC at hm'
    split at hm'
    · cases hm'
    split at hm'
    · cases hm'
    split at hm'
    · cases hm'
    split at hm'
    · cases hm'
    split at hm'
    · cases hm'
    simp only at hm'
    injection hm' with e
    subst e; rfl

/-- The full statement is false: a manifest with dim = 2^62 is accepted by `open`; then `dim * 4` wraps to 0, a row counts as
8 bytes, and a batch of four rows of 2^62 floats passes a cap of 64 bytes; none of its components is appended. -/
theorem C35_huge_dim_refuted : ¬ AddFull := by
  intro hall
  have hU : U64 = 2 ^ 64 := U64_eq
  obtain ⟨D, hD⟩ : ∃ D, D = 2 ^ 62 := ⟨_, rfl⟩
  let m : Mem := { man := { dim := D, metric := .l2, engine := .flat, next := 1, segs := [], extras := [] }, dirs := [],
                   pendV := [], pendL := [], cap := 64 }
  have hadd : addBatch m 4 (List.replicate (4 * D) 0) [1, 2, 3, 4] false = some { m with pendL := [1, 2, 3, 4] } := by
    have e1 : (D * 4 % U64 + 8) % U64 = 8 := by rw [hU]; omega
    have e2 : 4 * D % U64 = 0 := by rw [hU]; omega
    unfold addBatch
    show (if Engine.flat = Engine.laser then none else if 4 = 0 then some m else _) = _
    simp only [show m.man.dim = D from rfl, e1, e2]
    rw [hU, show m.pendL = [] from rfl, show m.cap = 64 from rfl]
    rw [if_neg (by decide), if_neg (by decide), if_neg (by decide), if_neg (by decide), if_neg (by decide)]
    rfl
  have := hall m _ 4 _ _ false (by show D < 2 ^ 64; omega) (by decide) (by decide) (by show 64 < 2 ^ 64; decide) rfl
    (by rw [List.length_replicate]) hadd
  have h2 := this.2
  have : accounted D 4 ≤ 64 := h2
  unfold accounted at this
  omega

-- a concrete accepted batch and a refused one
example : addBatch (create 2 .l2 100).2 1 [1, 2] [7] false = some { (create 2 .l2 100).2 with pendV := [1, 2], pendL := [7] } := by
  decide +kernel
example : addBatch (create 2 .l2 31).2 1 [1, 2] [7] false = none := by decide +kernel
example : addBatch (create 2 .l2 100).2 (2 ^ 63) [1, 2] [7] false = none := by decide +kernel

end Alaya.DiskColl2
