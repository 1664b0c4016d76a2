import Verif.Spec.Recall
import Mathlib.Algebra.BigOperators.Group.List.Basic
import Mathlib.Algebra.Order.Field.Rat
import Mathlib.Tactic.Linarith
import Mathlib.Tactic.FieldSimp
import Mathlib.Tactic.Ring
import Mathlib.Data.List.Nodup

/-!
# Lemmas about recall
-/

namespace Alaya.Recall

variable {α : Type} [DecidableEq α]

theorem common_eq (r g : List α) : common r g = found r g := by
  have hn : (r.dedup.filter (fun x => decide (x ∈ g))).Nodup := r.nodup_dedup.filter _
  rw [common, found, ← List.toFinset_card_of_nodup hn]
  congr 1
  ext x; simp

theorem found_le (r g : List α) : found r g ≤ r.length :=
  Nat.le_trans (Finset.card_le_card Finset.inter_subset_left) (List.toFinset_card_le r)

theorem found_eq_length (r g : List α) : found r g = r.length ↔ r.Nodup ∧ ∀ x ∈ r, x ∈ g := by
  constructor
  · intro h
    have h1 : (r.toFinset ∩ g.toFinset).card ≤ r.toFinset.card := Finset.card_le_card Finset.inter_subset_left
    have h2 := List.toFinset_card_le r
    have h3 : (r.toFinset ∩ g.toFinset).card = r.length := h
    have h4 : r.toFinset ∩ g.toFinset = r.toFinset := Finset.eq_of_subset_of_card_le Finset.inter_subset_left (by omega)
    refine ⟨?_, fun x hx => ?_⟩
    · have h5 : r.dedup.length = r.length := by rw [← List.card_toFinset]; omega
      have := (List.dedup_sublist r).eq_of_length h5
      rw [← this]; exact r.nodup_dedup
    · have : x ∈ r.toFinset ∩ g.toFinset := by rw [h4]; exact List.mem_toFinset.mpr hx
      exact List.mem_toFinset.mp (Finset.mem_inter.mp this).2
  · rintro ⟨h1, h2⟩
    have : r.toFinset ∩ g.toFinset = r.toFinset := by
      apply Finset.inter_eq_left.mpr
      intro x hx
      exact List.mem_toFinset.mpr (h2 x (List.mem_toFinset.mp hx))
    rw [found, this, List.toFinset_card_of_nodup h1]

theorem hits_found (r g : List α) (h : r.Nodup) : r.countP (fun x => decide (x ∈ g)) = found r g := by
  rw [← common_eq, common, h.dedup, List.countP_eq_length_filter]

theorem found_le_hits (r g : List α) : found r g ≤ r.countP (fun x => decide (x ∈ g)) := by
  rw [← common_eq, common, ← List.countP_eq_length_filter]
  exact (List.dedup_sublist r).countP_le

theorem pyCount_eq (res gt : List (List α)) :
    pyCount res gt = if gt.length < res.length then none else some ((res.zip gt).map (fun p => found p.1 p.2)).sum := by
  induction res generalizing gt with
  | nil => simp [pyCount]
  | cons r rs ih =>
    cases gt with
    | nil => simp [pyCount]
    | cons g gs =>
      simp only [pyCount, ih, common_eq, List.length_cons, List.zip_cons_cons, List.map_cons, List.sum_cons]
      by_cases h : gs.length < rs.length
      · rw [if_pos h, if_pos (by omega)]; rfl
      · rw [if_neg h, if_neg (by omega)]; rfl

theorem sum_bound (rows : List (List α × List α)) (k : Nat) (h : ∀ p ∈ rows, p.1.length = k) :
    (rows.map (fun p => found p.1 p.2)).sum ≤ rows.length * k ∧
      ((rows.map (fun p => found p.1 p.2)).sum = rows.length * k ↔ ∀ p ∈ rows, p.1.Nodup ∧ ∀ x ∈ p.1, x ∈ p.2) := by
  induction rows with
  | nil => simp
  | cons p rows ih =>
    obtain ⟨h1, h2⟩ := ih (fun q hq => h q (List.mem_cons_of_mem _ hq))
    have h3 := found_le p.1 p.2
    have hk := h p List.mem_cons_self
    have h4 := found_eq_length p.1 p.2
    rw [hk] at h3 h4
    simp only [List.map_cons, List.sum_cons, List.length_cons, Nat.succ_mul, List.forall_mem_cons]
    refine ⟨by omega, ?_⟩
    rw [← h2, ← h4]
    omega

theorem u32_of_lt {n : Nat} (h : n < 4294967296) : u32 n = n := Nat.mod_eq_of_lt h

theorem seek_iff (x : α) (gt : Nat → α) (base g : Nat) (h : base + g ≤ 4294967296) :
    seek x gt base g = true ↔ ∃ l, l < g ∧ gt (base + l) = x := by
  induction g with
  | zero => simp [seek]
  | succ g ih =>
    simp only [seek]
    rw [u32_of_lt (by omega)]
    split
    · next hx => exact ⟨fun _ => ⟨g, by omega, hx.symm⟩, fun _ => rfl⟩
    · next hx =>
      rw [ih (by omega)]
      constructor
      · rintro ⟨l, h1, h2⟩; exact ⟨l, by omega, h2⟩
      · rintro ⟨l, h1, h2⟩
        refine ⟨l, ?_, h2⟩
        rcases Nat.lt_succ_iff_lt_or_eq.mp h1 with h3 | rfl
        · exact h3
        · exact absurd h2.symm hx

theorem cppRow_eq (res gt : Nat → α) (i g topk j : Nat) (hj : i * topk + j ≤ 4294967296) (hg : i * g + g ≤ 4294967296) :
    cppRow res gt i g topk j =
      ((List.range j).map (fun j => res (i * topk + j))).countP (fun x => decide (x ∈ rowOf gt g i)) := by
  induction j with
  | zero => rfl
  | succ j ih =>
    simp only [cppRow]
    rw [ih (by omega), List.range_succ, List.map_append, List.countP_append, u32_of_lt (by omega)]
    congr 1
    simp only [List.map_cons, List.map_nil, List.countP_cons, List.countP_nil, Nat.zero_add, decide_eq_true_eq]
    have : seek (res (i * topk + j)) gt (i * g) g = true ↔ res (i * topk + j) ∈ rowOf gt g i := by
      rw [seek_iff _ _ _ _ hg]
      simp [rowOf]
    by_cases hs : res (i * topk + j) ∈ rowOf gt g i
    · rw [if_pos (this.mpr hs), if_pos hs]
    · rw [if_neg (fun e => hs (this.mp e)), if_neg hs]

theorem rows_sum_le (f : Nat → Nat) (k n : Nat) (h : ∀ i, f i ≤ k) : ((List.range n).map f).sum ≤ n * k := by
  induction n with
  | zero => simp
  | succ n ih =>
    rw [List.range_succ, List.map_append, List.sum_append, Nat.succ_mul]
    have := h n
    simp only [List.map_cons, List.map_nil, List.sum_cons, List.sum_nil]
    omega

theorem cppCount_eq (res gt : Nat → α) (g topk n : Nat) (hk : n * topk < 4294967296) (hg : n * g ≤ 4294967296) :
    cppCount res gt g topk n =
      ((List.range n).map (fun i => (rowOf res topk i).countP (fun x => decide (x ∈ rowOf gt g i)))).sum := by
  induction n with
  | zero => rfl
  | succ n ih =>
    rw [Nat.succ_mul] at hk hg
    have e := cppRow_eq res gt n g topk topk (by omega) (by omega)
    simp only [cppCount]
    rw [ih (by omega) (by omega), e, List.range_succ, List.map_append, List.sum_append]
    simp only [List.map_cons, List.map_nil, List.sum_cons, List.sum_nil, Nat.add_zero]
    refine u32_of_lt (Nat.lt_of_le_of_lt ?_ hk)
    apply Nat.add_le_add
    · refine rows_sum_le _ topk n (fun i => ?_)
      refine Nat.le_trans List.countP_le_length ?_
      simp [rowOf]
    · refine Nat.le_trans List.countP_le_length ?_
      simp

theorem take_nearest {D : Type} [LinearOrder D] (dist : Nat → D) (cand l : List Nat) (k : Nat) (hp : l.Perm cand) (hc : cand.Nodup)
    (hs : l.Pairwise (fun a b => dist a ≤ dist b)) (hk : k ≤ l.length) :
    Nearest dist (· ∈ cand) k (l.take k) ∧ Ascending dist (l.take k) := by
  have hn : l.Nodup := hp.nodup_iff.mpr hc
  have hs' := hs
  rw [← List.take_append_drop k l] at hs
  obtain ⟨h1, _, h3⟩ := List.pairwise_append.mp hs
  refine ⟨⟨by simp [hk], (List.take_sublist k l).nodup hn, fun x hx => hp.mem_iff.mp (List.mem_of_mem_take hx), ?_⟩, h1⟩
  intro x hx y hy hny
  refine h3 x hx y ?_
  have : y ∈ l := hp.mem_iff.mpr hy
  rw [← List.take_append_drop k l] at this
  exact (List.mem_append.mp this).resolve_left hny

theorem sort_map {D : Type} [LinearOrder D] {sort : List D → List Nat} (h : Argsort sort) (dist : Nat → D) (cand : List Nat) :
    ((sort (cand.map dist)).filterMap (cand[·]?)).Perm cand ∧
      ((sort (cand.map dist)).filterMap (cand[·]?)).Pairwise (fun a b => dist a ≤ dist b) := by
  constructor
  · have h1 := (h.perm (cand.map dist)).filterMap (cand[·]?)
    refine h1.trans ?_
    rw [List.length_map]
    have : ∀ l : List Nat, (List.range l.length).filterMap (l[·]?) = l := by
      intro l
      induction l with
      | nil => rfl
      | cons a l ih =>
        rw [List.length_cons, List.range_succ_eq_map, List.filterMap_cons]
        simp only [List.getElem?_cons_zero, List.filterMap_map]
        congr 1
    rw [this]
  · refine List.Pairwise.filterMap _ ?_ (h.sorted (cand.map dist))
    intro a a' haa b hb b' hb'
    exact haa (dist b) (dist b') (by simp [hb]) (by simp [hb'])

theorem sort_range {D : Type} [LinearOrder D] {sort : List D → List Nat} (h : Argsort sort) (dist : Nat → D) (n : Nat) :
    (sort ((List.range n).map dist)).Perm (List.range n) ∧
      (sort ((List.range n).map dist)).Pairwise (fun a b => dist a ≤ dist b) := by
  have h1 := h.perm ((List.range n).map dist)
  rw [List.length_map, List.length_range] at h1
  refine ⟨h1, ?_⟩
  refine List.Pairwise.imp_of_mem ?_ (h.sorted ((List.range n).map dist))
  intro a b ha hb hab
  have ha' : a < n := List.mem_range.mp (h1.mem_iff.mp ha)
  have hb' : b < n := List.mem_range.mp (h1.mem_iff.mp hb)
  exact hab _ _ (by simp [ha']) (by simp [hb'])

theorem nearest_unique {D : Type} [LinearOrder D] {dist : Nat → D} {cand : Nat → Prop} {k : Nat} {r g : List Nat}
    (hg : Nearest dist cand k g) (inj : ∀ x y, cand x → cand y → dist x = dist y → x = y) (hr : r.length = k) :
    (r.Nodup ∧ ∀ x ∈ r, x ∈ g) ↔ Nearest dist cand k r := by
  have cg : g.toFinset.card = k := by rw [List.toFinset_card_of_nodup hg.once, hg.count]
  constructor
  · rintro ⟨h1, h2⟩
    have cr : r.toFinset.card = k := by rw [List.toFinset_card_of_nodup h1, hr]
    have e : r.toFinset = g.toFinset := Finset.eq_of_subset_of_card_le
      (fun x hx => List.mem_toFinset.mpr (h2 x (List.mem_toFinset.mp hx))) (by omega)
    refine ⟨hr, h1, fun x hx => hg.mem x (h2 x hx), fun x hx y hy hny => hg.near x (h2 x hx) y hy ?_⟩
    intro hyg
    apply hny
    have := List.mem_toFinset.mpr hyg
    rw [← e] at this
    exact List.mem_toFinset.mp this
  · intro h
    have cr : r.toFinset.card = k := by rw [List.toFinset_card_of_nodup h.once, hr]
    refine ⟨h.once, fun x hx => ?_⟩
    by_contra hx'
    have : ∃ y ∈ g, y ∉ r := by
      by_contra hno
      push_neg at hno
      have e : g.toFinset = r.toFinset := Finset.eq_of_subset_of_card_le
        (fun y hy => List.mem_toFinset.mpr (hno y (List.mem_toFinset.mp hy))) (by omega)
      have hm := List.mem_toFinset.mpr hx
      rw [← e] at hm
      exact hx' (List.mem_toFinset.mp hm)
    obtain ⟨y, hy, hyr⟩ := this
    have h1 := h.near x hx y (hg.mem y hy) hyr
    have h2 := hg.near y hy x (h.mem x hx) hx'
    have := inj x y (h.mem x hx) (hg.mem y hy) (le_antisymm h1 h2)
    exact hyr (this ▸ hx)

end Alaya.Recall
