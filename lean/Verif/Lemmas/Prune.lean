import Verif.Model.Prune
import Verif.Lemmas.NPQ

namespace Alaya.Pools
open Spec

variable {F : Type} (A : Arith F)

theorem sortInsert_perm (x : Nbr) : ∀ l, (sortInsert x l).Perm (x :: l) := by
  intro l
  induction l with
  | nil => exact List.Perm.refl _
  | cons y ys ih =>
    unfold sortInsert
    split
    · exact (ih.cons y).trans (List.Perm.swap x y ys)
    · exact List.Perm.refl _

theorem sortPool_perm : ∀ l, (sortPool l).Perm l := by
  intro l
  induction l with
  | nil => exact List.Perm.refl _
  | cons x xs ih => exact (sortInsert_perm x _).trans (ih.cons x)

theorem sortInsert_sorted (x : Nbr) : ∀ l : List Nbr, l.Pairwise (fun a b => leL a.key b.key) →
    (sortInsert x l).Pairwise (fun a b => leL a.key b.key) := by
  intro l
  induction l with
  | nil => intro _; simp [sortInsert]
  | cons y ys ih =>
    intro h
    rw [List.pairwise_cons] at h
    unfold sortInsert
    split
    · rename_i hlt
      rw [List.pairwise_cons]
      refine ⟨?_, ih h.2⟩
      intro z hz
      rcases List.mem_cons.mp ((sortInsert_perm x ys).mem_iff.mp hz) with h' | h'
      · subst h'; exact ((lt_iff _ _).mp hlt).1
      · exact h.1 z h'
    · rename_i hlt
      rw [Bool.not_eq_true, lt_false_iff] at hlt
      rw [List.pairwise_cons]
      refine ⟨?_, List.pairwise_cons.mpr h⟩
      intro z hz
      rcases List.mem_cons.mp hz with h' | h'
      · subst h'; exact hlt
      · exact leL_trans _ _ _ hlt (h.1 z h')

theorem sortPool_sorted : ∀ l, (sortPool l).Pairwise (fun a b => leL a.key b.key) := by
  intro l
  induction l with
  | nil => exact List.Pairwise.nil
  | cons x xs ih => exact sortInsert_sorted x _ ih

/-- The ids of a pool with factors. -/
def pids (pool : List (Nbr × F)) : List Nat := pool.map (fun p => p.1.id)

theorem occludeRest_fst (alpha : F) (n : Nbr) (rest : List (Nbr × F)) :
    (occludeRest A alpha n rest).map Prod.fst = rest.map Prod.fst := by
  unfold occludeRest
  rw [List.map_map]
  apply List.map_congr_left
  intro p _
  simp only [Function.comp]
  split <;> rfl

theorem sweep_spec (loc : Nat) (alpha cur : F) (degree : Nat) : ∀ (fuel : Nat) (pool : List (Nbr × F)) (res : List Nat),
    (sweep A loc alpha cur degree fuel pool res).1.map Prod.fst = pool.map Prod.fst ∧
    ∃ add, (sweep A loc alpha cur degree fuel pool res).2 = res ++ add ∧ (∀ i ∈ add, i ≠ loc ∧ i ∈ pids pool) ∧
      (res.length ≤ degree → (res ++ add).length ≤ degree) := by
  intro fuel
  induction fuel with
  | zero => intro pool res; exact ⟨rfl, [], by simp [sweep], by simp, by simp⟩
  | succ fuel ih =>
    intro pool res
    cases pool with
    | nil => exact ⟨rfl, [], by simp [sweep], by simp, by simp⟩
    | cons p rest =>
      obtain ⟨n, f⟩ := p
      unfold sweep
      by_cases hd : res.length < degree
      · rw [if_pos hd]
        by_cases hg : A.gt f cur = true
        · rw [if_pos hg]
          obtain ⟨h1, add, h2, h3, h4⟩ := ih rest res
          refine ⟨by simp [h1], add, h2, ?_, h4⟩
          intro i hi
          exact ⟨(h3 i hi).1, by simp [pids]; exact Or.inr (by simpa [pids] using (h3 i hi).2)⟩
        · rw [if_neg hg]
          obtain ⟨h1, add, h2, h3, h4⟩ := ih (occludeRest A alpha n rest) (if n.id = loc then res else res ++ [n.id])
          have hids : pids (occludeRest A alpha n rest) = pids rest := by
            unfold pids
            have := congrArg (List.map Nbr.id) (occludeRest_fst A alpha n rest)
            rw [List.map_map, List.map_map] at this
            exact this
          refine ⟨by simp [h1, occludeRest_fst], ?_⟩
          by_cases hl : n.id = loc
          · rw [if_pos hl] at h2 h4
            refine ⟨add, by simpa [hl] using h2, ?_, h4⟩
            intro i hi
            have := h3 i hi
            rw [hids] at this
            exact ⟨this.1, by unfold pids at *; simp; exact Or.inr (by simpa using this.2)⟩
          · rw [if_neg hl] at h2 h4
            refine ⟨n.id :: add, by simpa [hl] using h2, ?_, ?_⟩
            · intro i hi
              rcases List.mem_cons.mp hi with h' | h'
              · subst h'; exact ⟨hl, by simp [pids]⟩
              · have := h3 i h'
                rw [hids] at this
                exact ⟨this.1, by unfold pids at *; simp; exact Or.inr (by simpa using this.2)⟩
            · intro _
              have := h4 (by simp; omega)
              simpa using this
      · rw [if_neg hd]
        exact ⟨rfl, [], by simp, by simp, by simp⟩

theorem rounds_spec (loc : Nat) (alpha : F) (degree : Nat) : ∀ (fuel : Nat) (cur : F) (pool : List (Nbr × F)) (res out : List Nat),
    rounds A loc alpha degree fuel cur pool res = some out →
    ∃ add, out = res ++ add ∧ (∀ i ∈ add, i ≠ loc ∧ i ∈ pids pool) ∧ (res.length ≤ degree → out.length ≤ degree) := by
  intro fuel
  induction fuel with
  | zero =>
    intro cur pool res out h
    unfold rounds at h
    split at h
    · cases h
    · cases h; exact ⟨[], by simp, by simp, fun h => h⟩
  | succ fuel ih =>
    intro cur pool res out h
    unfold rounds at h
    split at h
    · obtain ⟨h1, add, h2, h3, h4⟩ := sweep_spec A loc alpha cur degree pool.length pool res
      obtain ⟨add2, k1, k2, k3⟩ := ih _ _ _ _ h
      have hids : pids (sweep A loc alpha cur degree pool.length pool res).1 = pids pool := by
        unfold pids
        have := congrArg (List.map Nbr.id) h1
        rw [List.map_map, List.map_map] at this
        exact this
      rw [h2] at k1 k3
      refine ⟨add ++ add2, by rw [k1, List.append_assoc], ?_, fun hh => k3 (h4 hh)⟩
      intro i hi
      rcases List.mem_append.mp hi with h' | h'
      · exact h3 i h'
      · have := k2 i h'; rwa [hids] at this
    · cases h; exact ⟨[], by simp, by simp, fun h => h⟩

/-- Every selected entry has a factor of `big`. -/
def Marked (loc : Nat) (A : Arith F) (pool : List (Nbr × F)) (res : List Nat) : Prop :=
  ∀ p ∈ pool, p.1.id ∈ res → p.2 = A.big

theorem occludeRest_marked (alpha : F) (hb : A.gt A.big alpha = true) (n : Nbr) (rest : List (Nbr × F)) (res : List Nat)
    (loc : Nat) (h : Marked loc A rest res) : Marked loc A (occludeRest A alpha n rest) res := by
  intro p hp hpr
  unfold occludeRest at hp
  obtain ⟨p', hp', rfl⟩ := List.mem_map.mp hp
  by_cases hg : A.gt p'.2 alpha = true
  · rw [if_pos hg] at hpr ⊢; exact h p' hp' hpr
  · rw [if_neg hg] at hpr
    exfalso
    have := h p' hp' hpr
    rw [this] at hg
    exact hg hb

theorem sweep_nodup (loc : Nat) (alpha cur : F) (degree : Nat) (hb : A.gt A.big alpha = true) (hb2 : A.gt A.big cur = true) :
    ∀ (fuel : Nat) (pool : List (Nbr × F)) (res : List Nat), (pids pool).Nodup → res.Nodup → Marked loc A pool res →
    (sweep A loc alpha cur degree fuel pool res).2.Nodup ∧
    Marked loc A (sweep A loc alpha cur degree fuel pool res).1 (sweep A loc alpha cur degree fuel pool res).2 := by
  intro fuel
  induction fuel with
  | zero => intro pool res _ h2 h3; exact ⟨h2, h3⟩
  | succ fuel ih =>
    intro pool res h1 h2 h3
    cases pool with
    | nil => exact ⟨h2, by intro p hp; simp [sweep] at hp⟩
    | cons p rest =>
      obtain ⟨n, f⟩ := p
      have hmr : Marked loc A rest res := fun p hp hpr => h3 p (by simp [hp]) hpr
      unfold pids at h1
      rw [List.map_cons, List.nodup_cons] at h1
      unfold sweep
      by_cases hd : res.length < degree
      · rw [if_pos hd]
        by_cases hg : A.gt f cur = true
        · rw [if_pos hg]
          obtain ⟨i1, i2⟩ := ih rest res h1.2 h2 hmr
          refine ⟨i1, ?_⟩
          intro q hq hqr
          simp only at hq hqr
          rcases List.mem_cons.mp hq with h' | h'
          · subst h'
            obtain ⟨_, add, e, ha, _⟩ := sweep_spec A loc alpha cur degree fuel rest res
            rw [e] at hqr
            rcases List.mem_append.mp hqr with h'' | h''
            · exact h3 (n, f) (by simp) h''
            · exact absurd (ha _ h'').2 h1.1
          · exact i2 q h' hqr
        · rw [if_neg hg]
          have hnr : n.id ∉ res := by
            intro hh
            have : f = A.big := h3 (n, f) (by simp) hh
            rw [this] at hg; exact hg hb2
          have hids : pids (occludeRest A alpha n rest) = pids rest := by
            unfold pids
            have := congrArg (List.map Nbr.id) (occludeRest_fst A alpha n rest)
            rw [List.map_map, List.map_map] at this
            exact this
          have hres : (if n.id = loc then res else res ++ [n.id]).Nodup := by
            split
            · exact h2
            · rw [List.nodup_append]
              refine ⟨h2, by simp, ?_⟩
              intro a ha b hb'
              simp at hb'; subst hb'
              intro hab; subst hab; exact hnr ha
          have hmk : Marked loc A (occludeRest A alpha n rest) (if n.id = loc then res else res ++ [n.id]) := by
            have hm0 := occludeRest_marked A alpha hb n rest res loc hmr
            intro q hq hqr
            split at hqr
            · exact hm0 q hq hqr
            · rcases List.mem_append.mp hqr with h' | h'
              · exact hm0 q hq h'
              · exfalso
                simp at h'
                have : q.1.id ∈ pids (occludeRest A alpha n rest) := List.mem_map.mpr ⟨q, hq, rfl⟩
                rw [hids, h'] at this
                exact h1.1 this
          obtain ⟨i1, i2⟩ := ih (occludeRest A alpha n rest) _ (by rw [hids]; exact h1.2) hres hmk
          refine ⟨i1, ?_⟩
          intro q hq hqr
          simp only at hq hqr
          rcases List.mem_cons.mp hq with h' | h'
          · subst h'; rfl
          · exact i2 q h' hqr
      · rw [if_neg hd]
        exact ⟨h2, h3⟩

theorem rounds_nodup (loc : Nat) (alpha : F) (degree : Nat) (hb : A.gt A.big alpha = true)
    (hle : ∀ a, A.le a alpha = true → A.gt A.big a = true) :
    ∀ (fuel : Nat) (cur : F) (pool : List (Nbr × F)) (res out : List Nat), (pids pool).Nodup → res.Nodup → Marked loc A pool res →
    rounds A loc alpha degree fuel cur pool res = some out → out.Nodup := by
  intro fuel
  induction fuel with
  | zero =>
    intro cur pool res out _ h2 _ h
    unfold rounds at h
    split at h
    · cases h
    · cases h; exact h2
  | succ fuel ih =>
    intro cur pool res out h1 h2 h3 h
    unfold rounds at h
    split at h
    · rename_i hc
      rw [Bool.and_eq_true] at hc
      obtain ⟨k1, k2⟩ := sweep_nodup A loc alpha cur degree hb (hle cur hc.1) pool.length pool res h1 h2 h3
      have hids : pids (sweep A loc alpha cur degree pool.length pool res).1 = pids pool := by
        unfold pids
        have := congrArg (List.map Nbr.id) (sweep_spec A loc alpha cur degree pool.length pool res).1
        rw [List.map_map, List.map_map] at this
        exact this
      exact ih _ _ _ _ (by rw [hids]; exact h1) k1 k2 h
    · cases h; exact h2

/-- `cur_alpha` after `k` rounds. -/
def ramp (A : Arith F) : Nat → F → F
  | 0, a => a
  | k + 1, a => ramp A k (A.next a)

theorem rounds_terminates (loc : Nat) (alpha : F) (degree : Nat) : ∀ (k fuel : Nat) (cur : F) (pool : List (Nbr × F)) (res : List Nat),
    A.le (ramp A k cur) alpha = false → k ≤ fuel →
    ∃ out, ∀ extra, rounds A loc alpha degree (fuel + extra) cur pool res = some out := by
  intro k
  induction k with
  | zero =>
    intro fuel cur pool res h _
    have h : A.le cur alpha = false := h
    refine ⟨res, ?_⟩
    intro extra
    cases hf : fuel + extra with
    | zero => unfold rounds; rw [h]; rfl
    | succ f => unfold rounds; rw [h]; rfl
  | succ k ih =>
    intro fuel cur pool res h hf
    cases fuel with
    | zero => omega
    | succ fuel =>
      cases hc : (A.le cur alpha && decide (res.length < degree)) with
      | false =>
        refine ⟨res, ?_⟩
        intro extra
        rw [show fuel + 1 + extra = (fuel + extra) + 1 by omega]
        unfold rounds
        rw [hc]; rfl
      | true =>
        obtain ⟨out, ho⟩ := ih fuel (A.next cur) (sweep A loc alpha cur degree pool.length pool res).1
          (sweep A loc alpha cur degree pool.length pool res).2 h (by omega)
        refine ⟨out, ?_⟩
        intro extra
        rw [show fuel + 1 + extra = (fuel + extra) + 1 by omega]
        unfold rounds
        rw [hc, if_pos rfl]
        exact ho extra

end Alaya.Pools

namespace Alaya.Pools

variable {F : Type} (A : Arith F)

/-- Every factor has a reason: the entry is selected (or is the node itself), or untouched, or the ratio to a nearer selected entry. -/
def Reason (A : Arith F) (r : Nbr → Nbr → F) (all : List Nbr) (loc : Nat) (res : List Nat) (p : Nbr × F) : Prop :=
  p.1.id ∈ res ∨ p.1.id = loc ∨ p.2 = A.zero ∨
    ∃ i ∈ all, (i.id ∈ res ∨ i.id = loc) ∧ leL i.key p.1.key ∧ p.2 = r p.1 i

theorem Reason.mono {r : Nbr → Nbr → F} {all : List Nbr} {loc : Nat} {res : List Nat} {p : Nbr × F} (add : List Nat)
    (h : Reason A r all loc res p) : Reason A r all loc (res ++ add) p := by
  rcases h with h | h | h | ⟨i, hi, hs, hl, he⟩
  · exact Or.inl (List.mem_append.mpr (Or.inl h))
  · exact Or.inr (Or.inl h)
  · exact Or.inr (Or.inr (Or.inl h))
  · refine Or.inr (Or.inr (Or.inr ⟨i, hi, ?_, hl, he⟩))
    rcases hs with hs | hs
    · exact Or.inl (List.mem_append.mpr (Or.inl hs))
    · exact Or.inr hs

theorem sweep_reason (r : Nbr → Nbr → F) (hu : ∀ old j i, A.upd old j i = old ∨ A.upd old j i = r j i)
    (all : List Nbr) (loc : Nat) (alpha cur : F) (degree : Nat) :
    ∀ (fuel : Nat) (pool : List (Nbr × F)) (res : List Nat), pool.length ≤ fuel → (∀ p ∈ pool, p.1 ∈ all) →
    (pool.map Prod.fst).Pairwise (fun a b => leL a.key b.key) →
    (∀ p ∈ pool, Reason A r all loc res p) →
    (∀ p ∈ (sweep A loc alpha cur degree fuel pool res).1,
      Reason A r all loc (sweep A loc alpha cur degree fuel pool res).2 p) ∧
    ((sweep A loc alpha cur degree fuel pool res).2.length < degree →
      ∀ p ∈ (sweep A loc alpha cur degree fuel pool res).1,
        p.1.id ∈ (sweep A loc alpha cur degree fuel pool res).2 ∨ p.1.id = loc ∨ A.gt p.2 cur = true) := by
  intro fuel
  induction fuel with
  | zero =>
    intro pool res hl _ _ h
    have : pool = [] := List.length_eq_zero_iff.mp (by omega)
    subst this
    exact ⟨by intro p hp; simp [sweep] at hp, by intro _ p hp; simp [sweep] at hp⟩
  | succ fuel ih =>
    intro pool res hl hall hsort h
    cases pool with
    | nil => exact ⟨by intro p hp; simp [sweep] at hp, by intro _ p hp; simp [sweep] at hp⟩
    | cons q rest =>
      obtain ⟨n, f⟩ := q
      rw [List.map_cons, List.pairwise_cons] at hsort
      simp only [List.length_cons] at hl
      unfold sweep
      by_cases hd : res.length < degree
      · rw [if_pos hd]
        by_cases hg : A.gt f cur = true
        · rw [if_pos hg]
          obtain ⟨i1, i2⟩ := ih rest res (by omega) (fun p hp => hall p (by simp [hp])) hsort.2 (fun p hp => h p (by simp [hp]))
          obtain ⟨_, add, e, _, _⟩ := sweep_spec A loc alpha cur degree fuel rest res
          refine ⟨?_, ?_⟩
          · intro p hp
            rcases List.mem_cons.mp hp with h' | h'
            · subst h'
              show Reason A r all loc (sweep A loc alpha cur degree fuel rest res).2 (n, f)
              rw [e]; exact (h (n, f) (by simp)).mono A add
            · exact i1 p h'
          · intro hlt p hp
            rcases List.mem_cons.mp hp with h' | h'
            · subst h'; exact Or.inr (Or.inr hg)
            · exact i2 hlt p h'
        · rw [if_neg hg]
          have hsel : n.id ∈ (if n.id = loc then res else res ++ [n.id]) ∨ n.id = loc := by
            split
            · rename_i hh; exact Or.inr hh
            · exact Or.inl (by simp)
          have hrest : ∀ p ∈ occludeRest A alpha n rest, Reason A r all loc (if n.id = loc then res else res ++ [n.id]) p := by
            intro p hp
            unfold occludeRest at hp
            obtain ⟨p', hp', rfl⟩ := List.mem_map.mp hp
            have hold : Reason A r all loc (if n.id = loc then res else res ++ [n.id]) p' := by
              split
              · exact h p' (by simp [hp'])
              · exact (h p' (by simp [hp'])).mono A [n.id]
            by_cases hga : A.gt p'.2 alpha = true
            · rw [if_pos hga]; exact hold
            · rw [if_neg hga]
              rcases hu p'.2 p'.1 n with hh | hh
              · rw [hh]; exact hold
              · rw [hh]
                exact Or.inr (Or.inr (Or.inr ⟨n, hall (n, f) (by simp), hsel,
                  hsort.1 p'.1 (List.mem_map.mpr ⟨p', hp', rfl⟩), rfl⟩))
          have hfst := occludeRest_fst A alpha n rest
          obtain ⟨i1, i2⟩ := ih (occludeRest A alpha n rest) _ (by unfold occludeRest; simp; omega)
            (by
              intro p hp
              have : p.1 ∈ (occludeRest A alpha n rest).map Prod.fst := List.mem_map.mpr ⟨p, hp, rfl⟩
              rw [hfst] at this
              obtain ⟨p', hp', e⟩ := List.mem_map.mp this
              rw [← e]; exact hall p' (by simp [hp']))
            (by rw [hfst]; exact hsort.2) hrest
          obtain ⟨_, add, e, _, _⟩ := sweep_spec A loc alpha cur degree fuel (occludeRest A alpha n rest)
            (if n.id = loc then res else res ++ [n.id])
          have hsel' : n.id ∈ (sweep A loc alpha cur degree fuel (occludeRest A alpha n rest)
              (if n.id = loc then res else res ++ [n.id])).2 ∨ n.id = loc := by
            rw [e]
            rcases hsel with hs | hs
            · exact Or.inl (List.mem_append.mpr (Or.inl hs))
            · exact Or.inr hs
          refine ⟨?_, ?_⟩
          · intro p hp
            rcases List.mem_cons.mp hp with h' | h'
            · subst h'
              rcases hsel' with hs | hs
              · exact Or.inl hs
              · exact Or.inr (Or.inl hs)
            · exact i1 p h'
          · intro hlt p hp
            rcases List.mem_cons.mp hp with h' | h'
            · subst h'
              rcases hsel' with hs | hs
              · exact Or.inl hs
              · exact Or.inr (Or.inl hs)
            · exact i2 hlt p h'
      · rw [if_neg hd]
        exact ⟨h, fun hlt => absurd hlt hd⟩

/-- `occlude_list` compares against one of the ramp values, and stops at the first one above `alpha`. -/
theorem rounds_reason (r : Nbr → Nbr → F) (hu : ∀ old j i, A.upd old j i = old ∨ A.upd old j i = r j i)
    (all : List Nbr) (loc : Nat) (alpha : F) (degree : Nat) :
    ∀ (fuel : Nat) (cur : F) (pool : List (Nbr × F)) (res out : List Nat), (∀ p ∈ pool, p.1 ∈ all) →
    (pool.map Prod.fst).Pairwise (fun a b => leL a.key b.key) →
    (∀ p ∈ pool, Reason A r all loc res p) → A.le cur alpha = true → res.length < degree →
    rounds A loc alpha degree fuel cur pool res = some out → out.length < degree →
    ∃ last, (∃ k, last = ramp A k cur) ∧ A.le last alpha = true ∧ A.le (A.next last) alpha = false ∧
      ∀ n ∈ pool.map Prod.fst, n.id ∈ out ∨ n.id = loc ∨
        ∃ g, A.gt g last = true ∧ (g = A.zero ∨ ∃ i ∈ all, (i.id ∈ out ∨ i.id = loc) ∧ leL i.key n.key ∧ g = r n i) := by
  intro fuel
  induction fuel with
  | zero =>
    intro cur pool res out _ _ _ hle hlt h _
    unfold rounds at h
    rw [hle] at h
    rw [if_pos (by simp [hlt])] at h
    cases h
  | succ fuel ih =>
    intro cur pool res out hall hsort hr hle hlt h hout
    unfold rounds at h
    rw [if_pos (show (A.le cur alpha && decide (res.length < degree)) = true by rw [hle]; simp [hlt])] at h
    obtain ⟨s1, s2⟩ := sweep_reason A r hu all loc alpha cur degree pool.length pool res (Nat.le_refl _) hall hsort hr
    have hfst := (sweep_spec A loc alpha cur degree pool.length pool res).1
    obtain ⟨add, hadd, _, _⟩ := rounds_spec A loc alpha degree fuel _ _ _ _ h
    have hlt2 : (sweep A loc alpha cur degree pool.length pool res).2.length < degree := by
      have := congrArg List.length hadd
      rw [List.length_append] at this
      omega
    cases hn : A.le (A.next cur) alpha with
    | true =>
      obtain ⟨last, ⟨k, hk⟩, h1, h2, h3⟩ := ih (A.next cur) _ _ out
        (by
          intro p hp
          have : p.1 ∈ (sweep A loc alpha cur degree pool.length pool res).1.map Prod.fst := List.mem_map.mpr ⟨p, hp, rfl⟩
          rw [hfst] at this
          obtain ⟨p', hp', e⟩ := List.mem_map.mp this
          rw [← e]; exact hall p' hp')
        (by rw [hfst]; exact hsort) s1 hn hlt2 h hout
      refine ⟨last, ⟨k + 1, hk⟩, h1, h2, ?_⟩
      rw [← hfst]; exact h3
    | false =>
      have hres : (sweep A loc alpha cur degree pool.length pool res).2 = out := by
        cases fuel with
        | zero => unfold rounds at h; rw [hn] at h; exact Option.some.inj h
        | succ f => unfold rounds at h; rw [hn] at h; exact Option.some.inj h
      refine ⟨cur, ⟨0, rfl⟩, hle, hn, ?_⟩
      rw [← hfst]
      intro n hn'
      obtain ⟨p, hp, rfl⟩ := List.mem_map.mp hn'
      have a1 := s1 p hp
      have a2 := s2 hlt2 p hp
      rw [hres] at a1 a2
      rcases a2 with a2 | a2 | a2
      · exact Or.inl a2
      · exact Or.inr (Or.inl a2)
      · rcases a1 with a1 | a1 | a1 | ⟨i, hi, hs, hl, he⟩
        · exact Or.inl a1
        · exact Or.inr (Or.inl a1)
        · exact Or.inr (Or.inr ⟨p.2, a2, Or.inl a1⟩)
        · exact Or.inr (Or.inr ⟨p.2, a2, Or.inr ⟨i, hi, hs, hl, he⟩⟩)

end Alaya.Pools
