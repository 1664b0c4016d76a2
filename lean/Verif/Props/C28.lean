import Verif.Lemmas.Prune
import Verif.Model.F32

/-! C28: α-pruning of a candidate pool. -/
namespace Alaya.Pools
open Spec

/-- Whatever the arithmetic (NaN distances, any alpha), a returned list has at most `range` ids, all from the pool, and
never the node itself. -/
theorem C28_subset {F : Type} (A : Arith F) (loc : Nat) (pool : List Nbr) (alpha : F) (range maxc fuel : Nat) (out : List Nat)
    (h : prune A loc pool alpha range maxc fuel = some out) :
    out.length ≤ range ∧ loc ∉ out ∧ ∀ i ∈ out, ∃ n ∈ pool, n.id = i := by
  unfold prune at h
  split at h
  · cases h; simp
  unfold occludeList at h
  split at h
  · cases h; simp
  obtain ⟨add, e, ha, hlen⟩ := rounds_spec A loc alpha range fuel _ _ _ _ h
  rw [List.nil_append] at e
  subst e
  refine ⟨hlen (by simp), fun hm => (ha _ hm).1 rfl, ?_⟩
  intro i hi
  have := (ha i hi).2
  unfold pids at this
  rw [List.map_map] at this
  obtain ⟨n, hn, e⟩ := List.mem_map.mp this
  exact ⟨n, (sortPool_perm pool).mem_iff.mp (List.mem_of_mem_take hn), e⟩

theorem prune_ids_nodup {pool : List Nbr} (h : (pool.map Nbr.id).Nodup) (m : Nat) {F : Type} (z : F) :
    (pids (((sortPool pool).take m).map (fun n => (n, z)))).Nodup := by
  unfold pids
  rw [List.map_map]
  have h2 : ((sortPool pool).map Nbr.id).Nodup := ((sortPool_perm pool).map Nbr.id).nodup_iff.mpr h
  exact (h2.sublist ((List.take_sublist m _).map Nbr.id))

theorem F32.gt_of_le_lt {a alpha : F32} (h1 : F32.le a alpha = true) (h2 : F32.gt F32.big alpha = true) :
    F32.gt F32.big a = true := by
  cases a <;> cases alpha <;> simp_all [F32.le, F32.gt, F32.big]
  omega

/-- For float arithmetic, whatever the distances: with distinct ids in the pool and alpha below FLT_MAX the result has no
duplicates.  (At FLT_MAX and +inf the mark of a selected entry no longer excludes it, see below.) -/
theorem C28_nodup_partial (upd : F32 → Nbr → Nbr → F32) (loc : Nat) (pool : List Nbr) (alpha : F32) (range maxc fuel : Nat)
    (out : List Nat) (hb : F32.gt F32.big alpha = true) (hn : (pool.map Nbr.id).Nodup)
    (h : prune (F32.arith upd) loc pool alpha range maxc fuel = some out) : out.Nodup := by
  unfold prune at h
  split at h
  · cases h; exact List.nodup_nil
  unfold occludeList at h
  split at h
  · cases h; exact List.nodup_nil
  exact rounds_nodup (F32.arith upd) loc alpha range hb (fun a ha => F32.gt_of_le_lt ha hb) fuel _ _ [] out
    (prune_ids_nodup hn maxc _) List.nodup_nil (by intro p _ hp; simp at hp) h

theorem zero_gt_one : F32.gt (.num 0) F32.one = false := by decide

/-- The nearest candidate is the first result, for every alpha of at least 1. -/
theorem C28_nearest (upd : F32 → Nbr → Nbr → F32) (loc : Nat) (pool : List Nbr) (alpha : F32) (range maxc fuel : Nat)
    (out : List Nat) (ha : F32.le F32.one alpha = true) (hr : 0 < range) (hm : 0 < maxc) (hp : pool ≠ [])
    (hloc : ∀ n ∈ pool, n.id ≠ loc)
    (h : prune (F32.arith upd) loc pool alpha range maxc fuel = some out) :
    ∃ n ∈ pool, out.head? = some n.id ∧ ∀ m ∈ pool, n.dist < m.dist ∨ (n.dist = m.dist ∧ n.id ≤ m.id) := by
  unfold prune at h
  rw [if_neg hp] at h
  have hperm := sortPool_perm pool
  have hs := sortPool_sorted pool
  cases hsp : sortPool pool with
  | nil => rw [hsp] at hperm; exact absurd (List.nil_perm.mp hperm) hp
  | cons n rest =>
    rw [hsp] at h hs hperm
    have hnm : n ∈ pool := hperm.mem_iff.mp (by simp)
    refine ⟨n, hnm, ?_, ?_⟩
    · unfold occludeList at h
      rw [if_neg (by simp)] at h
      obtain ⟨mc, rfl⟩ : ∃ mc, maxc = mc + 1 := ⟨maxc - 1, by omega⟩
      rw [List.take_succ_cons, List.map_cons] at h
      cases fuel with
      | zero =>
        unfold rounds at h
        rw [if_pos (show ((F32.arith upd).le (F32.arith upd).one alpha && decide (([] : List Nat).length < range)) = true by
          rw [show (F32.arith upd).le (F32.arith upd).one alpha = true from ha]; simp [hr])] at h
        cases h
      | succ fuel =>
        unfold rounds at h
        rw [if_pos (show ((F32.arith upd).le (F32.arith upd).one alpha && decide (([] : List Nat).length < range)) = true by
          rw [show (F32.arith upd).le (F32.arith upd).one alpha = true from ha]; simp [hr])] at h
        obtain ⟨add, e, _, _⟩ := rounds_spec (F32.arith upd) loc alpha range fuel _ _ _ _ h
        rw [e, List.length_cons]
        unfold sweep
        rw [if_pos (show ([] : List Nat).length < range from hr),
          if_neg (show ¬ (F32.arith upd).gt (F32.arith upd).zero (F32.arith upd).one = true by rw [show (F32.arith upd).gt (F32.arith upd).zero (F32.arith upd).one = false from zero_gt_one]; simp)]
        obtain ⟨_, add2, e2, _, _⟩ := sweep_spec (F32.arith upd) loc alpha (F32.arith upd).one range
          (List.map (fun n => (n, (F32.arith upd).zero)) (List.take mc rest)).length
          (occludeRest (F32.arith upd) alpha n (List.map (fun n => (n, (F32.arith upd).zero)) (List.take mc rest))) ([] ++ [n.id])
        simp only [if_neg (hloc n hnm)]
        rw [e2]
        simp
    · intro m hmm
      have hmem := hperm.mem_iff.mpr hmm
      rcases List.mem_cons.mp hmem with h' | h'
      · subst h'; exact Or.inr ⟨rfl, Nat.le_refl _⟩
      · have := (List.pairwise_cons.mp hs).1 m h'
        unfold leL Nbr.key at this
        simp only at this
        omega

theorem ramp_eq (upd : F32 → Nbr → Nbr → F32) (k : Nat) (a : F32) : ramp (F32.arith upd) k a = rampF k a := by
  induction k generalizing a with
  | zero => rfl
  | succ k ih => exact ih _

set_option maxRecDepth 100000 in
set_option exponentiation.threshold 2100 in
theorem ramp_overflows : rampF 487 F32.one = .inf := by decide +kernel

theorem ramp_overflows' : ∃ k, k = 487 ∧ ∀ alpha, alpha ≠ F32.inf → F32.le (rampF k F32.one) alpha = false := by
  obtain ⟨k, hk, e⟩ : ∃ k, k = 487 ∧ rampF k F32.one = .inf := ⟨487, rfl, ramp_overflows⟩
  refine ⟨k, hk, ?_⟩
  intro alpha ha
  rw [e]
  cases alpha <;> simp_all [F32.le]

/-- `prune_neighbors` terminates within 487 rounds for every alpha except +inf (NaN and negative values included). -/
theorem C28_terminates_partial (upd : F32 → Nbr → Nbr → F32) (loc : Nat) (pool : List Nbr) (alpha : F32) (range maxc : Nat)
    (ha : alpha ≠ .inf) : ∃ out, ∀ fuel, 487 ≤ fuel → prune (F32.arith upd) loc pool alpha range maxc fuel = some out := by
  unfold prune
  split
  · exact ⟨[], fun _ _ => rfl⟩
  unfold occludeList
  split
  · exact ⟨[], fun _ _ => rfl⟩
  obtain ⟨k, hk, hov⟩ := ramp_overflows'
  rw [← hk]
  obtain ⟨out, ho⟩ := rounds_terminates (F32.arith upd) loc alpha range k k (F32.arith upd).one
    (((sortPool pool).take maxc).map (fun n => (n, (F32.arith upd).zero))) []
    (by rw [ramp_eq]; exact hov alpha ha) (Nat.le_refl _)
  refine ⟨out, ?_⟩
  intro fuel hf
  obtain ⟨e, rfl⟩ : ∃ e, fuel = k + e := ⟨fuel - k, by omega⟩
  exact ho e

def F32.nonneg : F32 → Prop
  | .num v => 0 ≤ v
  | .inf => True
  | _ => False

theorem F32.next_nonneg {a : F32} (h : a.nonneg) : (F32.next a).nonneg := by
  cases a with
  | nan => exact h
  | ninf => exact h
  | inf => exact h
  | num v =>
    unfold F32.next
    simp only
    split
    · unfold F32.nonneg; exact Int.natCast_nonneg _
    · trivial

theorem rampF_nonneg (k : Nat) : ∀ a : F32, a.nonneg → (rampF k a).nonneg := by
  induction k with
  | zero => exact fun _ h => h
  | succ k ih => exact fun a h => ih _ (F32.next_nonneg h)

theorem zero_gt_ramp (k : Nat) : F32.gt (.num 0) (rampF k F32.one) = false := by
  have h := rampF_nonneg k F32.one (show (0 : Int) ≤ 2 ^ 149 by decide)
  revert h
  cases rampF k F32.one <;> simp [F32.nonneg, F32.gt]

/-- What pruning is for: if the result is not full, every candidate considered (the `maxc` nearest) is selected, is the
node itself, or is occluded by a nearer selected candidate (or by the node itself): its distance ratio `r` to that one
exceeds the last ramp value `1.2^k` (rounded) that is still at most alpha. -/
theorem C28_unselected_occluded (upd : F32 → Nbr → Nbr → F32) (r : Nbr → Nbr → F32)
    (hu : ∀ old j i, upd old j i = old ∨ upd old j i = r j i)
    (loc : Nat) (pool : List Nbr) (alpha : F32) (range maxc fuel : Nat) (out : List Nat) (hp : pool ≠ [])
    (ha : F32.le F32.one alpha = true) (h : prune (F32.arith upd) loc pool alpha range maxc fuel = some out)
    (hlt : out.length < range) :
    ∃ k, F32.le (rampF k F32.one) alpha = true ∧ F32.le (F32.next (rampF k F32.one)) alpha = false ∧
      ∀ n ∈ (sortPool pool).take maxc, n.id ∈ out ∨ n.id = loc ∨
        ∃ i ∈ pool, (i.id ∈ out ∨ i.id = loc) ∧ (i.dist < n.dist ∨ (i.dist = n.dist ∧ i.id ≤ n.id)) ∧
          F32.gt (r n i) (rampF k F32.one) = true := by
  unfold prune at h
  rw [if_neg hp] at h
  unfold occludeList at h
  have hperm := sortPool_perm pool
  rw [if_neg (show ¬ sortPool pool = [] by intro hh; rw [hh] at hperm; exact hp (List.nil_perm.mp hperm))] at h
  have hfst : ((((sortPool pool).take maxc).map (fun n => (n, (F32.arith upd).zero))).map Prod.fst) = (sortPool pool).take maxc := by
    rw [List.map_map]; simp [Function.comp_def]
  obtain ⟨last, ⟨k, hk⟩, h1, h2, h3⟩ := rounds_reason (F32.arith upd) r hu pool loc alpha range fuel _ _ [] out
    (by
      intro p hp'
      obtain ⟨n, hn, rfl⟩ := List.mem_map.mp hp'
      exact hperm.mem_iff.mp (List.mem_of_mem_take hn))
    (by rw [hfst]; exact (sortPool_sorted pool).sublist (List.take_sublist _ _))
    (by
      intro p hp'
      obtain ⟨n, hn, rfl⟩ := List.mem_map.mp hp'
      exact Or.inr (Or.inr (Or.inl rfl)))
    ha (by simp; omega) h hlt
  rw [ramp_eq] at hk
  subst hk
  rw [hfst] at h3
  refine ⟨k, h1, h2, ?_⟩
  intro n hn
  rcases h3 n hn with h' | h' | ⟨g, hg, hr⟩
  · exact Or.inl h'
  · exact Or.inr (Or.inl h')
  · rcases hr with hr | ⟨i, hi, hs, hl, he⟩
    · exfalso
      rw [hr] at hg
      have := zero_gt_ramp k
      rw [show (F32.arith upd).gt (F32.arith upd).zero _ = F32.gt (.num 0) (rampF k F32.one) from rfl, this] at hg
      cases hg
    · subst he
      refine Or.inr (Or.inr ⟨i, hi, hs, ?_, hg⟩)
      unfold leL Nbr.key at hl
      simp only at hl
      omega

/-- The full property also covers alpha = +inf. -/
def PruneFull : Prop := ∀ (upd : F32 → Nbr → Nbr → F32) (loc : Nat) (pool : List Nbr) (alpha : F32) (range maxc : Nat),
  (pool.map Nbr.id).Nodup →
  ∃ fuel out, prune (F32.arith upd) loc pool alpha range maxc fuel = some out ∧ out.Nodup

theorem rounds_stuck (upd : F32 → Nbr → Nbr → F32) (n : Nbr) : ∀ (fuel : Nat) (cur g : F32), cur.nonneg →
    rounds (F32.arith upd) n.id .inf 2 fuel cur [(n, g)] [] = none := by
  intro fuel
  induction fuel with
  | zero =>
    intro cur g hc
    cases cur <;> simp_all [F32.nonneg, rounds, F32.arith, F32.le]
  | succ fuel ih =>
    intro cur g hc
    have hle : (F32.arith upd).le cur .inf = true := by cases cur <;> simp_all [F32.nonneg, F32.arith, F32.le]
    unfold rounds
    rw [hle]
    simp only [List.length_cons, List.length_nil, sweep]
    rw [if_pos (by simp)]
    by_cases hg : (F32.arith upd).gt g cur = true
    · simp only [Nat.zero_add, sweep, if_pos hg, show (0 < 2) from by omega, if_true, List.length_nil]
      exact ih _ _ (F32.next_nonneg hc)
    · simp only [Nat.zero_add, sweep, if_neg hg, show (0 < 2) from by omega, if_true, occludeRest, List.map_nil, List.length_nil]
      exact ih _ _ (F32.next_nonneg hc)

/-- alpha = +inf (accepted unchecked as DiskANN `update_alpha`): a pool that holds only the node itself loops forever. -/
theorem C28_infinite_alpha_refuted : ¬ PruneFull := by
  intro h
  obtain ⟨fuel, out, e, _⟩ := h (fun o _ _ => o) 0 [⟨0, 0, false⟩] .inf 2 10 (by simp)
  have := rounds_stuck (fun o _ _ => o) ⟨0, 0, false⟩ fuel F32.one (.num 0) (show (0 : Int) ≤ 2 ^ 149 by decide)
  have e2 : rounds (F32.arith fun o _ _ => o) 0 .inf 2 fuel F32.one [(⟨0, 0, false⟩, .num 0)] [] = some out := e
  rw [this] at e2
  cases e2

set_option maxRecDepth 100000 in
set_option exponentiation.threshold 2100 in
/-- alpha = +inf: a pool with one candidate and range 2 returns the candidate twice. -/
theorem C28_infinite_alpha_duplicates :
    prune (F32.arith fun o _ _ => o) 0 [⟨7, 5, false⟩] .inf 2 10 500 = some [7, 7] := by decide +kernel

/-- A concrete run: ratio 2 between candidates 2 and 3, so 3 is occluded at alpha 1.2. -/
example :
    let upd : F32 → Nbr → Nbr → F32 := fun old j i => if j.id = 3 ∧ i.id = 2 then .num (2 ^ 150) else old
    prune (F32.arith upd) 0 [⟨3, 9, false⟩, ⟨2, 5, false⟩, ⟨4, 20, false⟩, ⟨0, 0, false⟩] (F32.next F32.one) 3 10 5 = some [2, 4] := by
  decide +kernel

/-- The hypotheses on alpha hold for 1.2f. -/
example : F32.le F32.one (F32.next F32.one) = true ∧ F32.gt F32.big (F32.next F32.one) = true ∧ F32.next F32.one ≠ .inf := by
  decide +kernel

end Alaya.Pools
