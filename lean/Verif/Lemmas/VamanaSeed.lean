import Verif.Model.VamanaPart
import Verif.Lemmas.PQLloyd
import Mathlib.Tactic.Ring
import Mathlib.Tactic.Linarith
import Mathlib.Data.List.Nodup
import Mathlib.Data.List.GetD

/-! Choosing the first centres of k-means. -/
namespace Alaya.VPart
open Alaya.Vamana (FDist)

theorem pickFrom_lt {F : Type} (A : Ar F) (dart : F) : ∀ (ds : List F) (pre : F) (i j : Nat), pickFrom A dart pre i ds = some j → i ≤ j ∧ j < i + ds.length
  | [], _, _, _, h => by cases h
  | d :: ds, pre, i, j, h => by
    unfold pickFrom at h
    split at h
    · cases h; simp
    · have := pickFrom_lt A dart ds _ _ _ h
      simp; omega

theorem pickIdx_lt {F : Type} (A : Ar F) (dist : List F) (dart : F) (h : dist ≠ []) : pickIdx A dist dart < dist.length := by
  have := List.length_pos_iff.2 h
  unfold pickIdx
  cases e : pickFrom A dart A.zero 0 dist with
  | none => simp; omega
  | some j => have := pickFrom_lt A dart dist _ _ _ e; simp; omega

theorem redraw_lt {F : Type} (A : Ar F) (dist : List F) (picked : List Nat) (h : dist ≠ []) : ∀ (us : List F) (r : Nat × List F), redraw A dist picked us = some r →
    r.1 < dist.length
  | [], _, e => by cases e
  | u :: us, r, e => by
    unfold redraw at e
    split at e
    · cases e; exact pickIdx_lt A dist _ h
    · exact redraw_lt A dist picked h us r e

theorem lower_length {F : Type} (A : Ar F) (data : List (List F)) (p : List F) (dist : List F) (h : dist.length = data.length) :
    (lower A data p dist).length = data.length := by simp [lower, h]

theorem seedLoop_range {F : Type} (A : Ar F) (data : List (List F)) (hd : data ≠ []) : ∀ (k : Nat) (picked : List Nat) (dist us : List F) (r : List Nat),
    dist.length = data.length → (∀ i ∈ picked, i < data.length) → seedLoop A data k picked dist us = some r →
    r.length = picked.length + k ∧ ∀ i ∈ r, i < data.length
  | 0, picked, _, _, r, _, hp, h => by
    unfold seedLoop at h; cases h; exact ⟨rfl, hp⟩
  | k + 1, picked, dist, us, r, hl, hp, h => by
    unfold seedLoop at h
    have hne : dist ≠ [] := by
      intro e; rw [e] at hl; exact hd (List.length_eq_zero_iff.1 hl.symm)
    cases e : redraw A dist picked us with
    | none => rw [e] at h; cases h
    | some q =>
      rw [e] at h
      have hq := redraw_lt A dist picked hne us q e
      obtain ⟨h1, h2⟩ := seedLoop_range A data hd k (picked ++ [q.1]) _ q.2 r (lower_length A data _ dist hl) (by
        intro i hi
        rcases List.mem_append.1 hi with hi | hi
        · exact hp i hi
        · rw [List.mem_singleton] at hi; rw [hi, ← hl]; exact hq) h
      refine ⟨by rw [h1]; simp; omega, h2⟩

/-! ### Exact arithmetic -/

set_option linter.unusedSectionVars false

section
variable {F : Type} [Field F] [LinearOrder F] [IsStrictOrderedRing F]

def dot (x y : List F) : F := ((x.zip y).map (fun p => p.1 * p.2)).sum

/-- Exact arithmetic; the matrix of distances holds `-2 x·y + x·x + y·y`. -/
def exact (big eps tol : F) (fd : F → FDist) : Ar F where
  zero := 0
  one := 1
  big := big
  eps := eps
  tol := tol
  add := (· + ·)
  sub := (· - ·)
  mul := (· * ·)
  div := (· / ·)
  lt a b := decide (a < b)
  le a b := decide (a ≤ b)
  ofNat n := n
  gemm x y := -2 * dot x y + dot x x + dot y y
  fd := fd

variable (big eps tol : F) (fd : F → FDist)

theorem foldl_add_sum (l : List F) (a : F) : l.foldl (· + ·) a = a + l.sum := by
  induction l generalizing a with
  | nil => simp
  | cons x l ih => rw [List.foldl_cons, ih, List.sum_cons]; ring

theorem total_eq (dist : List F) : total (exact big eps tol fd) dist = dist.sum := by
  change dist.foldl (· + ·) 0 = _
  rw [foldl_add_sum, zero_add]

theorem sq_eq_sum (v p : List F) : sq (exact big eps tol fd) v p = ((v.zip p).map (fun x => (x.1 - x.2) * (x.1 - x.2))).sum := by
  have : ∀ (l : List (F × F)) (a : F), l.foldl (fun acc x => acc + (x.1 - x.2) * (x.1 - x.2)) a = a + (l.map (fun x => (x.1 - x.2) * (x.1 - x.2))).sum := by
    intro l
    induction l with
    | nil => intro a; simp
    | cons x l ih => intro a; rw [List.foldl_cons, ih, List.map_cons, List.sum_cons]; ring
  have h := this (v.zip p) 0
  rw [zero_add] at h
  exact h

theorem sq_nonneg' (v p : List F) : 0 ≤ sq (exact big eps tol fd) v p := by
  rw [sq_eq_sum]
  exact List.sum_nonneg (by
    intro x hx
    obtain ⟨y, _, rfl⟩ := List.mem_map.1 hx
    exact mul_self_nonneg _)

theorem sq_zero_iff (v p : List F) (h : v.length = p.length) : sq (exact big eps tol fd) v p = 0 ↔ v = p := by
  rw [sq_eq_sum]
  induction v generalizing p with
  | nil => cases p with
    | nil => simp
    | cons b p => simp at h
  | cons a v ih => cases p with
    | nil => simp at h
    | cons b p =>
      have hl : v.length = p.length := by simpa using h
      have hi := ih p hl
      have hn : 0 ≤ ((v.zip p).map (fun x => (x.1 - x.2) * (x.1 - x.2))).sum := by
        rw [← sq_eq_sum big eps tol fd]; exact sq_nonneg' big eps tol fd v p
      rw [List.zip_cons_cons, List.map_cons, List.sum_cons]
      have hm := mul_self_nonneg (a - b)
      constructor
      · intro e
        have e1 : (a - b) * (a - b) = 0 := by linarith
        have e2 : ((v.zip p).map (fun x => (x.1 - x.2) * (x.1 - x.2))).sum = 0 := by linarith
        rw [hi.1 e2, sub_eq_zero.1 (mul_self_eq_zero.1 e1)]
      · intro e
        cases e
        rw [hi.2 rfl]; ring

theorem pick_positive (dart : F) : ∀ (ds : List F) (pre : F) (i : Nat), pre ≤ dart → dart < pre + ds.sum →
    ∃ j d, pickFrom (exact big eps tol fd) dart pre i ds = some (i + j) ∧ ds[j]? = some d ∧ 0 < d
  | [], pre, i, h1, h2 => by simp at h2; exact absurd h1 (not_le.2 h2)
  | d :: ds, pre, i, h1, h2 => by
    unfold pickFrom
    by_cases hd : dart < pre + d
    · refine ⟨0, d, ?_, rfl, by linarith⟩
      rw [if_pos]; · rfl
      change (decide (pre ≤ dart) && decide (dart < pre + d)) = true
      rw [decide_eq_true h1, decide_eq_true hd]; rfl
    · have h1' := not_lt.1 hd
      obtain ⟨j, e, k1, k2, k3⟩ := pick_positive dart ds (pre + d) (i + 1) h1' (by rw [List.sum_cons] at h2; linarith)
      refine ⟨j + 1, e, ?_, by simpa using k2, k3⟩
      rw [if_neg]
      · change pickFrom (exact big eps tol fd) dart (pre + d) (i + 1) ds = _
        rw [k1]; congr 1; omega
      · change ¬ (decide (pre ≤ dart) && decide (dart < pre + d)) = true
        rw [decide_eq_false hd, Bool.and_false]; exact Bool.false_ne_true

/-- The distances kept: not negative, zero exactly for the vectors chosen already. -/
structure SeedInv (data : List (List F)) (picked : List Nat) (dist : List F) : Prop where
  len : dist.length = data.length
  nonneg : ∀ d ∈ dist, 0 ≤ d
  zero : ∀ (i : Nat) (v : List F), data[i]? = some v → (dist[i]? = some 0 ↔ ∃ p ∈ picked, data[p]? = some v)

theorem redraw_exact {data : List (List F)} {picked : List Nat} {dist : List F} (h : SeedInv data picked dist) (u : F) (us : List F) (h0 : 0 ≤ u) (h1 : u < 1)
    (hd : data ≠ []) :
    ∃ c, redraw (exact big eps tol fd) dist picked (u :: us) = some (c, us) ∧ c < data.length ∧
      ((∀ v ∈ data, ∃ p ∈ picked, data[p]? = some v) ∨ ¬ ∃ p ∈ picked, data[p]? = data[c]?) := by
  unfold redraw
  rw [total_eq]
  by_cases hs : dist.sum = 0
  · have hz : isZero (exact big eps tol fd) dist.sum = true := by
      change (decide (dist.sum ≤ 0) && decide (0 ≤ dist.sum)) = true
      rw [hs]; simp
    rw [hz]
    refine ⟨_, rfl, ?_, .inl ?_⟩
    · rw [← h.len]; exact pickIdx_lt _ _ _ (by intro e; have := h.len; rw [e] at this; exact hd (List.length_eq_zero_iff.1 this.symm))
    · intro v hv
      obtain ⟨i, hi⟩ := List.getElem?_of_mem hv
      refine (h.zero i v hi).1 ?_
      have hlt : i < dist.length := by rw [h.len]; exact (List.getElem?_eq_some_iff.1 hi).1
      have hm := List.getElem_mem hlt
      have hall := (List.all_zero_of_le_zero_le_of_sum_eq_zero (fun {x} hx => h.nonneg x hx) hs) hm
      rw [List.getElem?_eq_getElem hlt, hall]
  · have hpos : 0 < dist.sum := lt_of_le_of_ne (List.sum_nonneg h.nonneg) (Ne.symm hs)
    obtain ⟨j, d, k1, k2, k3⟩ := pick_positive big eps tol fd (u * dist.sum) dist 0 0 (mul_nonneg h0 hpos.le) (by
      rw [zero_add]; nlinarith)
    have hp : pickIdx (exact big eps tol fd) dist (u * dist.sum) = j := by
      unfold pickIdx
      change (pickFrom (exact big eps tol fd) (u * dist.sum) 0 0 dist).getD _ = j
      rw [k1]; simp
    have hj : j < data.length := by rw [← h.len]; exact (List.getElem?_eq_some_iff.1 k2).1
    have hno : ¬ ∃ p ∈ picked, data[p]? = data[j]? := by
      rintro ⟨p, hp1, hp2⟩
      rw [List.getElem?_eq_getElem hj] at hp2
      have := (h.zero j data[j] (List.getElem?_eq_getElem hj)).2 ⟨p, hp1, hp2⟩
      rw [k2] at this
      cases this
      exact lt_irrefl _ k3
    refine ⟨j, ?_, hj, .inr hno⟩
    change (if (isZero _ _ || !picked.contains (pickIdx (exact big eps tol fd) dist (u * dist.sum))) = true then
      some (pickIdx (exact big eps tol fd) dist (u * dist.sum), us) else _) = _
    rw [hp, if_pos]
    have : picked.contains j = false := by
      rw [Bool.eq_false_iff]; intro hc
      exact hno ⟨j, List.contains_iff_mem.1 hc, rfl⟩
    rw [this]; simp

theorem lower_inv {dim : Nat} {data : List (List F)} (hdim : ∀ v ∈ data, v.length = dim) {picked : List Nat} {dist : List F} (h : SeedInv data picked dist)
    (c : Nat) (hc : c < data.length) : SeedInv data (picked ++ [c]) (lower (exact big eps tol fd) data (data.getD c []) dist) := by
  have hcd : data.getD c [] = data[c] := by simp [hc]
  have hval : ∀ (i : Nat) (v : List F) (d : F), data[i]? = some v → dist[i]? = some d →
      (lower (exact big eps tol fd) data (data.getD c []) dist)[i]? = some (min (sq (exact big eps tol fd) v data[c]) d) := by
    intro i v d hv hd
    unfold lower
    rw [List.getElem?_map, (List.getElem?_zip_eq_some (z := (v, d))).2 ⟨hv, hd⟩, hcd]
    change some (if decide (sq _ v data[c] < d) = true then _ else d) = _
    congr 1
    by_cases hl : sq (exact big eps tol fd) v data[c] < d
    · rw [decide_eq_true hl, if_pos rfl, min_eq_left hl.le]
    · rw [decide_eq_false hl, if_neg Bool.false_ne_true, min_eq_right (not_lt.1 hl)]
  refine ⟨lower_length _ _ _ _ h.len, ?_, ?_⟩
  · intro d hd
    obtain ⟨i, hi⟩ := List.getElem?_of_mem hd
    have hlt := (List.getElem?_eq_some_iff.1 hi).1
    rw [lower_length _ _ _ _ h.len] at hlt
    have hlt' : i < dist.length := by rw [h.len]; exact hlt
    rw [hval i _ _ (List.getElem?_eq_getElem hlt) (List.getElem?_eq_getElem hlt')] at hi
    cases hi
    exact le_min (sq_nonneg' _ _ _ _ _ _) (h.nonneg _ (List.getElem_mem hlt'))
  · intro i v hv
    have hlt := (List.getElem?_eq_some_iff.1 hv).1
    have hlt' : i < dist.length := by rw [h.len]; exact hlt
    rw [hval i v _ hv (List.getElem?_eq_getElem hlt'), Option.some.injEq]
    have hlen : v.length = data[c].length := by rw [hdim v (List.mem_of_getElem? hv), hdim _ (List.getElem_mem hc)]
    have hz := sq_zero_iff big eps tol fd v data[c] hlen
    have ho := h.zero i v hv
    rw [List.getElem?_eq_getElem hlt', Option.some.injEq] at ho
    have n1 := sq_nonneg' big eps tol fd v data[c]
    have n2 := h.nonneg _ (List.getElem_mem hlt')
    constructor
    · intro hm
      rcases min_choice (sq (exact big eps tol fd) v data[c]) dist[i] with e | e
      · rw [e] at hm
        exact ⟨c, by simp, by rw [hz.1 hm, List.getElem?_eq_getElem hc]⟩
      · rw [e] at hm
        obtain ⟨p, hp, hp'⟩ := ho.1 hm
        exact ⟨p, by simp [hp], hp'⟩
    · rintro ⟨p, hp, hp'⟩
      rcases List.mem_append.1 hp with hp | hp
      · rw [ho.2 ⟨p, hp, hp'⟩, min_eq_right n1]
      · rw [List.mem_singleton] at hp
        subst hp
        rw [List.getElem?_eq_getElem hc] at hp'
        cases hp'
        rw [hz.2 rfl, min_eq_left n2]

theorem first_inv {dim : Nat} {data : List (List F)} (hdim : ∀ v ∈ data, v.length = dim) (c : Nat) (hc : c < data.length) :
    SeedInv data [c] (data.map (fun v => sq (exact big eps tol fd) v (data.getD c []))) := by
  have hcd : data.getD c [] = data[c] := by simp [hc]
  refine ⟨by simp, ?_, ?_⟩
  · intro d hd
    obtain ⟨v, _, rfl⟩ := List.mem_map.1 hd
    exact sq_nonneg' _ _ _ _ _ _
  · intro i v hv
    rw [List.getElem?_map, hv, Option.map_some, Option.some.injEq, hcd,
      sq_zero_iff _ _ _ _ _ _ (by rw [hdim v (List.mem_of_getElem? hv), hdim _ (List.getElem_mem hc)])]
    simp only [List.mem_singleton, exists_eq_left, List.getElem?_eq_getElem hc, Option.some.injEq]
    exact eq_comm

/-- One random number per centre is enough, and the vectors chosen differ as long as there are others. -/
theorem seedLoop_exact {dim : Nat} {data : List (List F)} (hdim : ∀ v ∈ data, v.length = dim) (hd : data ≠ []) : ∀ (k : Nat) (picked : List Nat)
    (dist us : List F), SeedInv data picked dist → k ≤ us.length → (∀ u ∈ us, 0 ≤ u ∧ u < 1) →
    (picked.map (fun i => data[i]?)).Nodup → (∀ i ∈ picked, i < data.length) →
    ∃ r, seedLoop (exact big eps tol fd) data k picked dist us = some r ∧
      ((∃ D : List (List F), D.Nodup ∧ D ⊆ data ∧ picked.length + k ≤ D.length) → (r.map (fun i => data[i]?)).Nodup)
  | 0, picked, dist, us, _, _, _, hn, _ => ⟨picked, rfl, fun _ => hn⟩
  | k + 1, picked, dist, [], _, hk, _, _, _ => by simp at hk
  | k + 1, picked, dist, u :: us, h, hk, hu, hn, hp => by
    obtain ⟨c, e, hc, hor⟩ := redraw_exact big eps tol fd h u us (hu u (by simp)).1 (hu u (by simp)).2 hd
    unfold seedLoop
    rw [e]
    change ∃ r, seedLoop (exact big eps tol fd) data k (picked ++ [c]) (lower (exact big eps tol fd) data (data.getD c []) dist) us = some r ∧ _
    have hi := lower_inv big eps tol fd hdim h c hc
    rcases hor with hall | hno
    · -- all vectors chosen: the loop still ends
      have hnd : ∃ r, seedLoop (exact big eps tol fd) data k (picked ++ [c]) (lower (exact big eps tol fd) data (data.getD c []) dist) us = some r := by
        clear hn
        have : ∀ (k : Nat) (us : List F) (picked : List Nat) (dist : List F), SeedInv data picked dist → k ≤ us.length → (∀ u ∈ us, 0 ≤ u ∧ u < 1) →
            ∃ r, seedLoop (exact big eps tol fd) data k picked dist us = some r := by
          intro k
          induction k with
          | zero => intro us picked dist _ _ _; exact ⟨picked, rfl⟩
          | succ k ih =>
            intro us picked dist h hk hu
            cases us with
            | nil => simp at hk
            | cons u us =>
              obtain ⟨c, e, hc, _⟩ := redraw_exact big eps tol fd h u us (hu u (by simp)).1 (hu u (by simp)).2 hd
              unfold seedLoop
              rw [e]
              exact ih us _ _ (lower_inv big eps tol fd hdim h c hc) (by simpa using hk) (fun u hu' => hu u (by simp [hu']))
        exact this k us _ _ hi (by simpa using hk) (fun u hu' => hu u (by simp [hu']))
      obtain ⟨r, hr⟩ := hnd
      refine ⟨r, hr, ?_⟩
      rintro ⟨D, d1, d2, d3⟩
      exfalso
      have hsub : D.map some ⊆ picked.map (fun i => data[i]?) := by
        intro x hx
        obtain ⟨v, hv, rfl⟩ := List.mem_map.1 hx
        obtain ⟨p, hp1, hp2⟩ := hall v (d2 hv)
        exact List.mem_map.2 ⟨p, hp1, hp2⟩
      have := (List.Nodup.subperm (d1.map (Option.some_injective _)) hsub).length_le
      simp at this
      omega
    · obtain ⟨r, hr, hr'⟩ := seedLoop_exact hdim hd k (picked ++ [c]) _ us hi (by simpa using hk) (fun u hu' => hu u (by simp [hu'])) (by
        rw [List.map_append, List.map_singleton]
        refine List.Nodup.append hn (by simp) ?_
        intro x hx hx'
        rw [List.mem_singleton] at hx'
        subst hx'
        obtain ⟨p, hp1, hp2⟩ := List.mem_map.1 hx
        exact hno ⟨p, hp1, hp2⟩) (by
        intro i hi
        rcases List.mem_append.1 hi with hi | hi
        · exact hp i hi
        · rw [List.mem_singleton] at hi; rw [hi]; exact hc)
      refine ⟨r, hr, fun hD => hr' ?_⟩
      obtain ⟨D, d1, d2, d3⟩ := hD
      exact ⟨D, d1, d2, by simp; omega⟩

end

end Alaya.VPart
