import Verif.Props.C45
import Verif.Model.DiskAnnSearch

/-
C46. A search concurrent with updates never reports a vector under a label it was never stored with.

Full statement: for any interleaving of a search with removes and inserts, each (label, distance) pair returned is the distance to
a vector that was stored under that label at some moment during the search.

The code reads the labels after the traversal, so the statement fails when a slot is removed and taken again in between
(`C46_reuse_refuted`, `C46_unpublished_label_refuted`).  Proved: it holds whenever no slot that was live at the start of the
search is taken again before its end (`C46_no_reuse_partial`).
-/
namespace Alaya.DiskAnn
open Alaya Alaya.DiskSlots Alaya.DiskAnn.Spec

/-- Vector `v` is stored under label `l`: a live slot has this label and this vector, and the label leads to it. -/
def Stored (σ : Sys) (l v : Nat) : Prop :=
  ∃ x, x < σ.idx.maxSlot ∧ removable σ.idx x = true ∧ σ.idx.labels[x]? = some l ∧ σ.idx.map l = some x ∧ σ.vec x = v

instance (σ : Sys) (l v : Nat) : Decidable (Stored σ l v) := by
  unfold Stored
  infer_instance

/-- States of an index built from `ls`, after `k` slot allocations. -/
inductive SysReach (ls : List Nat) : Nat → Sys → Prop where
  | init {σ} : sysFresh ls = some σ → SysReach ls 0 σ
  | step {k σ σ'} (e : Ev) : SysReach ls k σ → sysStep σ e = some σ' → SysReach ls (k + 1) σ'

structure SysInv (n k : Nat) (σ : Sys) (live dark : List (Nat × Nat)) : Prop where
  inv : LInv n k σ.idx live dark
  pnd : σ.pending.Nodup
  pend : ∀ x ∈ σ.pending, ∃ l, (l, x) ∈ dark ∧ l ≠ noLabel ∧ l ∉ labels live
  dist : ∀ x ∈ σ.pending, ∀ y ∈ σ.pending, ∀ l, (l, x) ∈ dark → (l, y) ∈ dark → x = y

theorem LInv.slot_inj {n k : Nat} {s : Idx} {live dark : List (Nat × Nat)} (h : LInv n k s live dark) {l m x : Nat}
    (h1 : (l, x) ∈ live ++ dark) (h2 : (m, x) ∈ live ++ dark) : l = m := by
  have e1 := h.lab _ h1
  have e2 := h.lab _ h2
  simp only at e1 e2
  rw [e1] at e2
  injection e2

theorem sysStep_inv {n k : Nat} {σ : Sys} {live dark : List (Nat × Nat)} (h : SysInv n k σ live dark) (e : Ev)
    (hk : n + k + 1 < 4294967296) : ∃ σ' live' dark', sysStep σ e = some σ' ∧ SysInv n (k + 1) σ' live' dark' := by
  have same : SysInv n (k + 1) σ live dark := ⟨h.inv.mono (by omega), h.pnd, h.pend, h.dist⟩
  cases e with
  | alloc l =>
    simp only [sysStep]
    by_cases c : (insertable σ.idx [l] && σ.pending.all (fun x => decide (σ.idx.labels[x]? ≠ some l))) = true
    · rw [if_pos c]
      rw [Bool.and_eq_true, List.all_eq_true] at c
      obtain ⟨c1, c2⟩ := c
      have hf := ((insertable_iff h.inv [l]).mp c1).2 l (by simp)
      obtain ⟨x, s', e1, _, hne, h'⟩ := allocStep_spec h.inv hk l
      rw [e1]
      refine ⟨_, live, (l, x) :: dark, rfl, ⟨h', ?_, ?_, ?_⟩⟩
      · show (x :: σ.pending).Nodup
        rw [List.nodup_cons]
        refine ⟨fun hx => ?_, h.pnd⟩
        obtain ⟨m, q, _⟩ := h.pend x hx
        exact hne _ (List.mem_append_right _ q) rfl
      · intro y hy
        rcases List.mem_cons.mp hy with rfl | hy
        · exact ⟨l, List.mem_cons_self, hf⟩
        · obtain ⟨m, q1, q2⟩ := h.pend y hy
          exact ⟨m, List.mem_cons_of_mem _ q1, q2⟩
      · have key : ∀ y ∈ σ.pending, (l, y) ∉ dark := by
          intro y hy q
          have := c2 y hy
          rw [decide_eq_true_eq] at this
          exact this (h.inv.lab _ (List.mem_append_right _ q))
        have key2 : ∀ m, (m, x) ∉ dark := fun m q => hne _ (List.mem_append_right _ q) rfl
        have keyl : ∀ y ∈ σ.pending, ∀ m, (m, y) ∈ (l, x) :: dark → (m, y) ∈ dark := by
          intro y hy m q
          rcases List.mem_cons.mp q with q | q
          · injection q with q1 q2
            subst q2
            obtain ⟨m', q', _⟩ := h.pend y hy
            exact absurd q' (key2 m')
          · exact q
        intro y hy z hz m q1 q2
        rcases List.mem_cons.mp hy with rfl | hy' <;> rcases List.mem_cons.mp hz with rfl | hz'
        · rfl
        · rcases List.mem_cons.mp q1 with q1 | q1
          · injection q1 with q1 _
            subst q1
            exact absurd (keyl z hz' _ q2) (key z hz')
          · exact absurd q1 (key2 m)
        · rcases List.mem_cons.mp q2 with q2 | q2
          · injection q2 with q2 _
            subst q2
            exact absurd (keyl y hy' _ q1) (key y hy')
          · exact absurd q2 (key2 m)
        · exact h.dist y hy' z hz' m (keyl y hy' m q1) (keyl z hz' m q2)
    · rw [if_neg c]
      exact ⟨σ, live, dark, rfl, same⟩
  | write x v =>
    simp only [sysStep]
    by_cases c : x ∈ σ.pending
    · rw [if_pos c]
      exact ⟨_, live, dark, rfl, ⟨same.inv, same.pnd, same.pend, same.dist⟩⟩
    · rw [if_neg c]
      exact ⟨σ, live, dark, rfl, same⟩
  | publish x =>
    simp only [sysStep]
    by_cases c : x ∈ σ.pending
    · rw [if_pos c]
      obtain ⟨l, q1, q2, q3⟩ := h.pend x c
      obtain ⟨s', e1, _, h'⟩ := publishStep_spec h.inv q1 (fun p hp e => q3 (List.mem_map.mpr ⟨p, hp, e⟩)) q2
      rw [e1]
      have hsub : ∀ y ∈ σ.pending.erase x, y ∈ σ.pending := fun y hy => List.mem_of_mem_erase hy
      refine ⟨_, (l, x) :: live, dark.erase (l, x), rfl, ⟨h'.mono (by omega), h.pnd.sublist List.erase_sublist, ?_, ?_⟩⟩
      · intro y hy
        have hne : y ≠ x := fun e => h.pnd.not_mem_erase (e ▸ hy)
        obtain ⟨m, r1, r2, r3⟩ := h.pend y (hsub y hy)
        refine ⟨m, (List.mem_erase_of_ne (by intro e; injection e with _ e; exact hne e)).mpr r1, r2, ?_⟩
        intro q
        rcases List.mem_cons.mp q with q | q
        · simp only at q
          subst q
          exact hne (h.dist y (hsub y hy) x c m r1 q1)
        · exact r3 q
      · intro y hy z hz m r1 r2
        exact h.dist y (hsub y hy) z (hsub z hz) m (List.mem_of_mem_erase r1) (List.mem_of_mem_erase r2)
    · rw [if_neg c]
      exact ⟨σ, live, dark, rfl, same⟩
  | abort x =>
    have hsub : ∀ y ∈ σ.pending.erase x, y ∈ σ.pending := fun y hy => List.mem_of_mem_erase hy
    exact ⟨_, live, dark, rfl, ⟨same.inv, h.pnd.sublist List.erase_sublist, fun y hy => h.pend y (hsub y hy),
      fun y hy z hz => h.dist y (hsub y hy) z (hsub z hz)⟩⟩
  | remove x =>
    simp only [sysStep]
    by_cases c : removable σ.idx x = true
    · rw [if_pos c]
      obtain ⟨s', e1, h'⟩ := removeStep_spec h.inv (by omega) ((removable_iff h.inv x).mp c)
      rw [e1]
      refine ⟨_, _, dark, rfl, ⟨h'.mono (by omega), h.pnd, ?_, h.dist⟩⟩
      intro y hy
      obtain ⟨m, r1, r2, r3⟩ := h.pend y hy
      refine ⟨m, r1, r2, fun q => r3 ?_⟩
      obtain ⟨p, p1, p2⟩ := List.mem_map.mp q
      exact List.mem_map.mpr ⟨p, (List.mem_filter.mp p1).1, p2⟩
    · rw [if_neg c]
      exact ⟨σ, live, dark, rfl, same⟩
  | snapshot => exact ⟨_, live, dark, rfl, ⟨same.inv, same.pnd, same.pend, same.dist⟩⟩
  | readRec x =>
    simp only [sysStep]
    split
    · exact ⟨σ, live, dark, rfl, same⟩
    · split
      · exact ⟨_, live, dark, rfl, ⟨same.inv, same.pnd, same.pend, same.dist⟩⟩
      · exact ⟨σ, live, dark, rfl, same⟩
  | lookup =>
    simp only [sysStep]
    split
    · exact ⟨σ, live, dark, rfl, same⟩
    · exact ⟨_, live, dark, rfl, ⟨same.inv, same.pnd, same.pend, same.dist⟩⟩

theorem sysReach_inv {ls : List Nat} (hnd : ls.Nodup) (hres : noLabel ∉ ls) {k : Nat} {σ : Sys} (h : SysReach ls k σ) :
    ls.length + k < 4294967296 → ∃ live dark, SysInv ls.length k σ live dark := by
  induction h with
  | init e =>
    intro hk
    obtain ⟨s, e', h⟩ := fresh_spec hnd hres (by omega)
    unfold sysFresh at e
    rw [e'] at e
    injection e with e
    subst e
    exact ⟨_, _, h, List.nodup_nil, by simp, by simp⟩
  | step ev _ e ih =>
    intro hk
    obtain ⟨live, dark, h⟩ := ih (by omega)
    obtain ⟨σ', live', dark', e', h'⟩ := sysStep_inv h ev (by omega)
    rw [e] at e'
    injection e' with e'
    exact ⟨live', dark', e' ▸ h'⟩

/-- No event of any schedule ends in an out-of-range access. -/
theorem C46_no_crash (ls : List Nat) (hnd : ls.Nodup) (hres : noLabel ∉ ls) {k : Nat} {σ : Sys} (h : SysReach ls k σ)
    (hk : ls.length + k + 1 < 4294967296) (e : Ev) : ∃ σ', sysStep σ e = some σ' := by
  obtain ⟨live, dark, h'⟩ := sysReach_inv hnd hres h (by omega)
  obtain ⟨σ', _, _, e', _⟩ := sysStep_inv h' e hk
  exact ⟨σ', e'⟩

/-- What the search relies on between its snapshot, taken in state `σ`, and its end. -/
structure Kept (σ : Sys) (S : Nat × Tomb) (τ : Sys) : Prop where
  snap : τ.snap = some S
  keep : ∀ x, inSnap S x = true → τ.idx.labels[x]? = σ.idx.labels[x]? ∧ τ.vec x = σ.vec x
  read : ∀ p ∈ τ.read, inSnap S p.1 = true ∧ p.2 = σ.vec p.1

theorem kept_step {σ τ τ' : Sys} {S : Nat × Tomb} (hl : ∀ x, inSnap S x = true → ∃ l, σ.idx.labels[x]? = some l)
    (h : Kept σ S τ) (e : Ev) (h1 : e ≠ .snapshot) (hs : sysStep τ e = some τ')
    (hp : ∀ x ∈ τ.pending, inSnap S x = false) (hp' : ∀ x ∈ τ'.pending, inSnap S x = false) : Kept σ S τ' := by
  cases e with
  | snapshot => exact absurd rfl h1
  | alloc l =>
    simp only [sysStep] at hs
    split at hs
    · cases ha : allocStep τ.idx l with
      | none => rw [ha] at hs; cases hs
      | some p =>
        obtain ⟨x, i⟩ := p
        rw [ha] at hs
        injection hs with hs
        subst hs
        refine ⟨h.snap, fun y hy => ⟨?_, (h.keep y hy).2⟩, h.read⟩
        have hx := hp' x List.mem_cons_self
        have hne : y ≠ x := by rintro rfl; rw [hy] at hx; cases hx
        obtain ⟨m, hm⟩ := hl y hy
        have hy1 := (h.keep y hy).1
        rw [hm] at hy1 ⊢
        unfold allocStep at ha
        cases hal : τ.idx.slots.alloc with
        | none => rw [hal] at ha; cases ha
        | some q =>
          rw [hal] at ha
          injection ha with ha
          injection ha with ha1 ha2
          subst ha1 ha2
          exact setLabel_ne _ _ _ _ _ hne hy1
    · injection hs with hs; subst hs; exact h
  | write x v =>
    simp only [sysStep] at hs
    split at hs
    · rename_i c
      injection hs with hs
      subst hs
      refine ⟨h.snap, fun y hy => ⟨(h.keep y hy).1, ?_⟩, h.read⟩
      have hx := hp x c
      have hne : y ≠ x := by rintro rfl; rw [hy] at hx; cases hx
      show (if y = x then v else τ.vec y) = σ.vec y
      rw [if_neg hne]
      exact (h.keep y hy).2
    · injection hs with hs; subst hs; exact h
  | publish x =>
    simp only [sysStep] at hs
    split at hs
    · cases hq : publishStep τ.idx x with
      | none => rw [hq] at hs; cases hs
      | some i =>
        rw [hq] at hs
        injection hs with hs
        subst hs
        refine ⟨h.snap, fun y hy => ⟨?_, (h.keep y hy).2⟩, h.read⟩
        unfold publishStep at hq
        split at hq
        · cases hq
        · injection hq with hq
          subst hq
          exact (h.keep y hy).1
    · injection hs with hs; subst hs; exact h
  | abort x =>
    simp only [sysStep] at hs
    injection hs with hs
    subst hs
    exact ⟨h.snap, h.keep, h.read⟩
  | remove x =>
    simp only [sysStep] at hs
    split at hs
    · cases hq : removeStep τ.idx x with
      | none => rw [hq] at hs; cases hs
      | some i =>
        rw [hq] at hs
        injection hs with hs
        subst hs
        refine ⟨h.snap, fun y hy => ⟨?_, (h.keep y hy).2⟩, h.read⟩
        unfold removeStep at hq
        split at hq
        · cases hq
        · split at hq
          · cases hq
          · injection hq with hq
            subst hq
            exact (h.keep y hy).1
    · injection hs with hs; subst hs; exact h
  | readRec x =>
    simp only [sysStep, h.snap] at hs
    split at hs
    · rename_i c
      injection hs with hs
      subst hs
      refine ⟨rfl, h.keep, fun p hp => ?_⟩
      rcases List.mem_cons.mp hp with rfl | hp
      · exact ⟨c, (h.keep x c).2⟩
      · exact h.read p hp
    · injection hs with hs; subst hs; exact h
  | lookup =>
    simp only [sysStep, h.snap] at hs
    injection hs with hs
    subst hs
    exact ⟨rfl, h.keep, h.read⟩

theorem kept_run {σ : Sys} {S : Nat × Tomb} (hl : ∀ x, inSnap S x = true → ∃ l, σ.idx.labels[x]? = some l) :
    ∀ (mid : List Ev) {τ : Sys} {ss : List Sys}, Kept σ S τ → .snapshot ∉ mid → sysRun τ mid = some ss →
      (∀ ρ ∈ ss, ∀ x ∈ ρ.pending, inSnap S x = false) → ∀ ρ ∈ ss, Kept σ S ρ
  | [], τ, ss, h, _, e, _ => by
    injection e with e
    subst e
    intro ρ hρ
    rw [List.mem_singleton] at hρ
    exact hρ ▸ h
  | ev :: es, τ, ss, h, hn, e, hp => by
    rw [sysRun] at e
    cases hs : sysStep τ ev with
    | none => rw [hs] at e; cases e
    | some τ' =>
      rw [hs] at e
      simp only [Option.map_eq_some_iff] at e
      obtain ⟨ss', e', rfl⟩ := e
      rw [List.mem_cons, not_or] at hn
      have hmem : τ' ∈ ss' := by
        cases es with
        | nil => injection e' with e'; subst e'; exact List.mem_singleton.mpr rfl
        | cons ev2 es2 =>
          rw [sysRun] at e'
          cases hs2 : sysStep τ' ev2 with
          | none => rw [hs2] at e'; cases e'
          | some τ2 =>
            rw [hs2] at e'
            simp only [Option.map_eq_some_iff] at e'
            obtain ⟨_, _, rfl⟩ := e'
            exact List.mem_cons_self
      have h' := kept_step hl h ev (fun q => hn.1 q.symm) hs (hp τ List.mem_cons_self)
        (hp τ' (List.mem_cons_of_mem _ hmem))
      intro ρ hρ
      rcases List.mem_cons.mp hρ with rfl | hρ
      · exact h
      · exact kept_run hl es h' hn.2 e' (fun ρ hρ => hp ρ (List.mem_cons_of_mem _ hρ)) ρ hρ

/-- **C46** without reuse: a search starts in state `σ`, `mid` are the events up to its end, `ss` the states passed. If no slot live in
`σ` is taken by an insert meanwhile, every pair returned was stored in `σ`. -/
theorem C46_no_reuse_partial (ls : List Nat) (hnd : ls.Nodup) (hres : noLabel ∉ ls) {k : Nat} {σ σ1 : Sys}
    (hr : SysReach ls k σ) (hk : ls.length + k < 4294967296) (h1 : sysStep σ .snapshot = some σ1) (mid : List Ev)
    (hmid : .snapshot ∉ mid) (ss : List Sys) (hrun : sysRun σ1 mid = some ss)
    (hreuse : ∀ ρ ∈ ss, ∀ x ∈ ρ.pending, removable σ.idx x = false) (τ τ' : Sys) (hτ : τ ∈ ss)
    (hl : sysStep τ .lookup = some τ') (o : List (Nat × Nat)) (ho : τ'.out = some o) :
    ∀ p ∈ o, Stored σ p.1 p.2 := by
  obtain ⟨live, dark, hi⟩ := sysReach_inv hnd hres hr hk
  have hlab : ∀ x, inSnap (σ.idx.maxSlot, σ.idx.slots.tomb) x = true → ∃ l, σ.idx.labels[x]? = some l := by
    intro x hx
    obtain ⟨p, q1, q2⟩ := List.mem_map.mp ((removable_iff hi.inv x).mp hx)
    have := hi.inv.lab p (List.mem_append_left _ q1)
    rw [q2] at this
    exact ⟨_, this⟩
  simp only [sysStep] at h1
  injection h1 with h1
  subst h1
  have hk0 : Kept σ (σ.idx.maxSlot, σ.idx.slots.tomb)
      { σ with snap := some (σ.idx.maxSlot, σ.idx.slots.tomb), read := [], out := none } :=
    ⟨rfl, fun _ _ => ⟨rfl, rfl⟩, by simp⟩
  have hK := kept_run hlab mid hk0 hmid hrun hreuse τ hτ
  simp only [sysStep, hK.snap] at hl
  injection hl with hl
  subst hl
  simp only at ho
  injection ho with ho
  subst ho
  intro p hp
  obtain ⟨⟨x, v⟩, q1, q2⟩ := List.mem_map.mp hp
  obtain ⟨r1, r2⟩ := hK.read _ q1
  simp only at r1 r2
  have hkeep := hK.keep x r1
  obtain ⟨q, s1, s2⟩ := List.mem_map.mp ((removable_iff hi.inv x).mp r1)
  obtain ⟨l, y⟩ := q
  simp only at s2
  subst s2
  have hlx := hi.inv.lab _ (List.mem_append_left _ s1)
  simp only at hlx
  rw [hkeep.1, hlx] at q2
  subst q2
  have hlt : y < σ.idx.maxSlot := by
    have := r1
    unfold inSnap at this
    rw [Bool.and_eq_true, decide_eq_true_eq] at this
    exact this.1
  exact ⟨y, hlt, r1, hlx, (hi.inv.map l y).mpr s1, r2.symm⟩

/-- The schedule of the refutation: the search reads slot 0 (label 7, vector 0); then label 7 is removed and label 9 is inserted
with vector 5, which takes slot 0. -/
def reuseSchedule : List Ev := [.snapshot, .readRec 0, .remove 0, .alloc 9, .write 0 5, .publish 0, .lookup]

/-- **C46** fails: the search returns label 9 with the distance of a vector that label 9 never had. -/
theorem C46_reuse_refuted : ∃ σ ss, sysFresh [7, 8] = some σ ∧ sysRun σ reuseSchedule = some ss ∧
    (ss.getLast?.bind (·.out)) = some [(9, 0)] ∧ ∀ τ ∈ ss, ¬ Stored τ 9 0 := by
  refine ⟨_, _, rfl, rfl, ?_, ?_⟩
  · decide +kernel
  · decide +kernel

/-- Worse, the label need not have been inserted at all: the lookup sees the label of an insert that is under way. -/
theorem C46_unpublished_label_refuted : ∃ σ ss, sysFresh [7, 8] = some σ ∧
    sysRun σ [.snapshot, .readRec 0, .remove 0, .alloc 9, .lookup] = some ss ∧
    (ss.getLast?.bind (·.out)) = some [(9, 0)] ∧ ∀ τ ∈ ss, containsLabel τ.idx 9 = false := by
  refine ⟨_, _, rfl, rfl, ?_, ?_⟩
  · decide +kernel
  · decide +kernel

/-- A schedule that meets the hypothesis of `C46_no_reuse_partial`: an insert into a fresh slot and a remove during the search. -/
example : ∃ σ σ1 ss, sysFresh [7, 8] = some σ ∧ sysStep σ .snapshot = some σ1 ∧
    sysRun σ1 [.readRec 0, .alloc 9, .remove 1, .write 2 5, .readRec 1, .publish 2] = some ss ∧
    (∀ ρ ∈ ss, ∀ x ∈ ρ.pending, removable σ.idx x = false) ∧
    ((ss.getLast?.bind fun τ => sysStep τ .lookup).bind (·.out)) = some [(8, 1), (7, 0)] := by
  refine ⟨_, _, _, rfl, rfl, rfl, ?_, ?_⟩
  · decide +kernel
  · decide +kernel

end Alaya.DiskAnn
