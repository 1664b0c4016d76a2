import Verif.Lemmas.VamanaPart

/-! A vector that is not a number in the training data, and the entry point of the merged graph. -/
namespace Alaya.VPart
open Alaya.Vamana

/-- How values that are not finite behave: `coord` are the infinities and values that are not a number, `bad` those of them that are not below zero,
`unit` the random numbers. -/
structure NonFinite {F : Type} (A : Ar F) (coord bad unit : F → Prop) : Prop where
  sub : ∀ x y, coord x → coord (A.sub x y)
  mul : ∀ x, coord x → bad (A.mul x x)
  addL : ∀ x y, bad x → bad (A.add x y)
  addR : ∀ x y, bad y → bad (A.add x y)
  dart : ∀ u x, unit u → bad x → bad (A.mul u x)
  lt : ∀ x y, bad x → A.lt x y = false
  le : ∀ x, bad x → A.le x A.zero = false

section
variable {F : Type} {A : Ar F} {coord bad unit : F → Prop} (L : NonFinite A coord bad unit)
include L

theorem fold_bad : ∀ (l : List F) (a : F), bad a → bad (l.foldl A.add a)
  | [], _, h => h
  | x :: l, a, h => fold_bad l _ (L.addL a x h)

theorem total_bad : ∀ (l : List F) (a x : F), x ∈ l → bad x → bad (l.foldl A.add a)
  | y :: l, a, x, h, hx => by
    rw [List.foldl_cons]
    rcases List.mem_cons.1 h with rfl | h
    · exact fold_bad L l _ (L.addR _ _ hx)
    · exact total_bad l _ x h hx

theorem sq_bad (v p : List F) (x : F) (hl : v.length = p.length) (hx : x ∈ v) (hc : coord x) : bad (sq A v p) := by
  have hn : ∀ (l : List (F × F)) (a : F), bad a → bad (l.foldl (fun acc x => A.add acc (A.mul (A.sub x.1 x.2) (A.sub x.1 x.2))) a) := by
    intro l
    induction l with
    | nil => intro a h; exact h
    | cons x l ih => intro a h; exact ih _ (L.addL _ _ h)
  have key : ∀ (v p : List F) (a : F), v.length = p.length → x ∈ v →
      bad ((v.zip p).foldl (fun acc x => A.add acc (A.mul (A.sub x.1 x.2) (A.sub x.1 x.2))) a) := by
    intro v
    induction v with
    | nil => intro p a _ h; cases h
    | cons z v ih =>
      intro p a hl h
      cases p with
      | nil => simp at hl
      | cons y p =>
        rw [List.zip_cons_cons, List.foldl_cons]
        rcases List.mem_cons.1 h with rfl | h
        · exact hn _ _ (L.addR _ _ (L.mul _ (L.sub _ _ hc)))
        · exact ih p _ (by simpa using hl) h
  exact key v p A.zero hl hx

theorem pickIdx_bad (dist : List F) (dart : F) (h : bad dart) : pickIdx A dist dart = dist.length - 1 := by
  have : ∀ (ds : List F) (pre : F) (i : Nat), pickFrom A dart pre i ds = none := by
    intro ds
    induction ds with
    | nil => intro pre i; rfl
    | cons d ds ih => intro pre i; unfold pickFrom; rw [L.lt _ _ h, Bool.and_false, if_neg Bool.false_ne_true]; exact ih _ _
  unfold pickIdx
  rw [this]; rfl

theorem redraw_bad (dist : List F) (x : F) (h : x ∈ dist) (hx : bad x) (picked : List Nat) : ∀ us, (∀ u ∈ us, unit u) →
    ∀ r, redraw A dist picked us = some r → r.1 = dist.length - 1 ∧ dist.length - 1 ∉ picked ∧ ∀ u ∈ r.2, unit u
  | [], _, r, e => by cases e
  | u :: us, hu, r, e => by
    unfold redraw at e
    have ht : bad (total A dist) := total_bad L dist _ x h hx
    have hz : isZero A (total A dist) = false := by unfold isZero; rw [L.le _ ht]; rfl
    rw [pickIdx_bad L _ _ (L.dart _ _ (hu u (by simp)) ht), hz, Bool.false_or] at e
    by_cases hc : (!picked.contains (dist.length - 1)) = true
    · rw [if_pos hc] at e
      cases e
      refine ⟨rfl, ?_, fun v hv => hu v (by simp [hv])⟩
      intro hm
      rw [List.contains_iff_mem.2 hm] at hc
      cases hc
    · rw [if_neg hc] at e
      exact redraw_bad dist x h hx picked us (fun v hv => hu v (by simp [hv])) r e

/-- No random numbers are enough for three centres. -/
theorem seed_stuck {data : List (List F)} {dim : Nat} (hdim : ∀ v ∈ data, v.length = dim) (hv : ∃ v ∈ data, ∃ x ∈ v, coord x) {nc first : Nat} (h3 : 3 ≤ nc)
    (hle : nc ≤ data.length) (hmax : data.length ≤ 2 ^ 23) (hf : first < data.length) (us : List F) (hu : ∀ u ∈ us, unit u) : seed A data nc first us = none := by
  obtain ⟨v, hv, x, hx, hcx⟩ := hv
  obtain ⟨i, hi⟩ := List.getElem?_of_mem hv
  have hil := (List.getElem?_eq_some_iff.1 hi).1
  have hsq : ∀ j, j < data.length → bad (sq A v (data.getD j [])) := by
    intro j hj
    have : data.getD j [] = data[j] := by simp [hj]
    rw [this]
    exact sq_bad L v _ x (by rw [hdim v hv, hdim _ (List.getElem_mem hj)]) hx hcx
  unfold seed
  rw [if_neg (by omega), if_neg (by omega), if_neg (by omega)]
  have hd0 : (data.map (fun v => sq A v (data.getD first [])))[i]? = some (sq A v (data.getD first [])) := by
    rw [List.getElem?_map, hi, Option.map_some]
  have hb0 := hsq first hf
  have hl0 : (data.map (fun v => sq A v (data.getD first []))).length = data.length := by simp
  obtain ⟨m, rfl⟩ : ∃ m, nc = m + 3 := ⟨nc - 3, by omega⟩
  generalize data.map (fun v => sq A v (data.getD first [])) = d0 at hd0 hl0
  generalize sq A v (data.getD first []) = b0 at hd0 hb0
  have : seedLoop A data (m + 3 - 1) [first] d0 us = none := by
    rw [show m + 3 - 1 = m + 1 + 1 by omega, seedLoop]
    cases e : redraw A d0 [first] us with
    | none => rfl
    | some r =>
      obtain ⟨q1, _, hu'⟩ := redraw_bad L d0 b0 (List.mem_of_getElem? hd0) hb0 [first] us hu r e
      have hl1 := lower_length A data (data.getD r.1 []) d0 hl0
      have n1 : (lower A data (data.getD r.1 []) d0)[i]? = some b0 := by
        unfold lower
        rw [List.getElem?_map, (List.getElem?_zip_eq_some (z := (v, b0))).2 ⟨hi, hd0⟩, Option.map_some]
        simp only [L.lt _ _ (hsq r.1 (by omega))]
        rfl
      simp only [seedLoop]
      cases e2 : redraw A (lower A data (data.getD r.1 []) d0) ([first] ++ [r.1]) r.2 with
      | none => rfl
      | some r2 =>
        obtain ⟨_, q2, _⟩ := redraw_bad L _ b0 (List.mem_of_getElem? n1) hb0 _ _ hu' r2 e2
        exfalso
        apply q2
        rw [hl1, ← hl0, ← q1]
        simp
  rw [this]
  rfl

end

/-! ### The entry point -/

theorem critical_fold (d : Nat → Int) : ∀ (ls : List (Option Int × Nat)) (b : Option Int × Nat), (∀ x, b.1 = some x → x = d b.2) →
    (∀ l ∈ ls, ∀ x, l.1 = some x → x = d l.2) →
    let r := ls.foldl VBuild.critical b
    (∀ x, r.1 = some x → x = d r.2) ∧ (r = b ∨ r ∈ ls) ∧ (∀ l ∈ ls, ∀ x, l.1 = some x → ∃ y, r.1 = some y ∧ y ≤ x) ∧ (∀ x, b.1 = some x → ∃ y, r.1 = some y ∧ y ≤ x)
  | [], b, h, _ => ⟨h, .inl rfl, by simp, fun x hx => ⟨x, hx, Int.le_refl _⟩⟩
  | l :: ls, b, h, hl => by
    simp only [List.foldl_cons]
    have hc : (∀ x, (VBuild.critical b l).1 = some x → x = d (VBuild.critical b l).2) ∧ (VBuild.critical b l = b ∨ VBuild.critical b l = l) ∧
        (∀ x, l.1 = some x → ∃ y, (VBuild.critical b l).1 = some y ∧ y ≤ x) ∧ (∀ x, b.1 = some x → ∃ y, (VBuild.critical b l).1 = some y ∧ y ≤ x) := by
      unfold VBuild.critical
      cases hl1 : l.1 with
      | none => exact ⟨h, .inl rfl, by simp, fun x hx => ⟨x, hx, Int.le_refl _⟩⟩
      | some x =>
        simp only
        by_cases hb : b.1.all (fun y => decide (x < y)) = true
        · rw [if_pos hb]
          refine ⟨hl l (by simp), .inr rfl, fun y hy => ⟨x, hl1, by cases hy; exact Int.le_refl _⟩, fun y hy => ⟨x, hl1, ?_⟩⟩
          rw [hy] at hb
          have := of_decide_eq_true hb
          omega
        · rw [if_neg hb]
          refine ⟨h, .inl rfl, fun y hy => ?_, fun y hy => ⟨y, hy, Int.le_refl _⟩⟩
          cases hb1 : b.1 with
          | none => rw [hb1] at hb; exact absurd rfl hb
          | some z =>
            rw [hb1] at hb
            cases hy
            refine ⟨z, rfl, ?_⟩
            have : ¬ x < z := fun hlt => hb (decide_eq_true hlt)
            omega
    obtain ⟨c1, c2, c3, c4⟩ := hc
    obtain ⟨k1, k2, k3, k4⟩ := critical_fold d ls (VBuild.critical b l) c1 (fun m hm => hl m (by simp [hm]))
    refine ⟨k1, ?_, ?_, ?_⟩
    · rcases k2 with k2 | k2
      · rcases c2 with c2 | c2
        · exact .inl (by rw [k2, c2])
        · exact .inr (by rw [k2, c2]; simp)
      · exact .inr (by simp [k2])
    · intro m hm x hx
      rcases List.mem_cons.1 hm with rfl | hm
      · obtain ⟨y, e, hle⟩ := c3 x hx
        obtain ⟨z, e', hle'⟩ := k4 y e
        exact ⟨z, e', by omega⟩
      · exact k3 m hm x hx
    · intro x hx
      obtain ⟨y, e, hle⟩ := c4 x hx
      obtain ⟨z, e', hle'⟩ := k4 y e
      exact ⟨z, e', by omega⟩

theorem medoidStream_spec (d : Nat → Int) (blocks : List (List (List Nat))) (n : Nat) (hn : 0 < n) (hp : ∀ i, i < n ↔ ∃ ps ∈ blocks, ∃ p ∈ ps, i ∈ p) :
    medoidStream d blocks < n ∧ ∀ i, i < n → d (medoidStream d blocks) ≤ d i := by
  have hb := fun ps : List (List Nat) => VBuild.fold_spec d ps (none, 0) (by simp)
  obtain ⟨k1, k2, k3, _⟩ := critical_fold d
    (blocks.map (fun ps => (ps.map (fun p => VBuild.localBest d p (none, 0))).foldl VBuild.critical (none, 0))) (none, 0) (by simp) (by
      intro l hl x hx
      obtain ⟨ps, _, rfl⟩ := List.mem_map.1 hl
      exact (hb ps).1 x hx)
  unfold medoidStream
  generalize (blocks.map (fun ps => (ps.map (fun p => VBuild.localBest d p (none, 0))).foldl VBuild.critical (none, 0))).foldl VBuild.critical (none, 0) = r at k1 k2 k3
  have hmin : ∀ i, i < n → ∃ y, r.1 = some y ∧ y ≤ d i := by
    intro i hi
    obtain ⟨ps, hps, p, hpp, hip⟩ := (hp i).1 hi
    obtain ⟨x, e, hle⟩ := (hb ps).2.2.1 p hpp i hip
    obtain ⟨y, e', hle'⟩ := k3 _ (List.mem_map.2 ⟨ps, hps, rfl⟩) x e
    exact ⟨y, e', by omega⟩
  constructor
  · rcases k2 with k2 | k2
    · rw [k2]; exact hn
    · obtain ⟨ps, hps, e⟩ := List.mem_map.1 k2
      obtain ⟨_, b2, _, _⟩ := hb ps
      rw [e] at b2
      rcases b2 with b2 | ⟨p, hpp, hm⟩
      · rw [b2]; exact hn
      · exact (hp _).2 ⟨ps, hps, p, hpp, hm⟩
  · intro i hi
    obtain ⟨y, e, hle⟩ := hmin i hi
    rw [← k1 y e]
    exact hle

end Alaya.VPart
