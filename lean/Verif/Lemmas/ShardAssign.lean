import Verif.Model.ShardAssign
import Verif.Lemmas.ShardMerge
import Verif.Lemmas.ListAux

namespace Alaya.Vamana

/-! Top-k of a row. -/

/-- `top` (worst first) after the centres in `P`. -/
structure TopInv (M : Int) (k : Nat) (P : List (Int × Nat)) (top : List (FDist × Nat)) : Prop where
  len : top.length = k
  desc : top.Pairwise fun a b => ∃ x y : Int, a.1 = some x ∧ b.1 = some y ∧ y ≤ x
  ent : ∀ e ∈ top, e = (some M, 0) ∨ ∃ p ∈ P, e = (some p.1, p.2)
  nodup : (top.filter fun e => e.1 != some M).Nodup
  fin : ∀ p ∈ P, p.1 < M
  drop : ∀ p ∈ P, (some p.1, p.2) ∉ top → ∀ e ∈ top, ∃ x : Int, e.1 = some x ∧ x < M ∧ x ≤ p.1

theorem bubble_perm (x : FDist × Nat) (l : List (FDist × Nat)) : (bubble x l).Perm (x :: l) := by
  induction l with
  | nil => exact List.Perm.refl _
  | cons y l ih =>
    rw [bubble]
    split
    · exact (ih.cons y).trans (List.Perm.swap x y l)
    · exact List.Perm.refl _

theorem bubble_desc (z : Int) (i : Nat) (l : List (FDist × Nat))
    (hl : l.Pairwise fun a b => ∃ x y : Int, a.1 = some x ∧ b.1 = some y ∧ y ≤ x)
    (hs : ∀ e ∈ l, ∃ x : Int, e.1 = some x) :
    (bubble (some z, i) l).Pairwise fun a b => ∃ x y : Int, a.1 = some x ∧ b.1 = some y ∧ y ≤ x := by
  induction l with
  | nil => simp [bubble]
  | cons y l ih =>
    obtain ⟨h1, h2⟩ := List.pairwise_cons.mp hl
    obtain ⟨v, hv⟩ := hs y List.mem_cons_self
    rw [bubble]
    by_cases hlt : FDist.lt (some z, i).1 y.1 = true
    · rw [if_pos hlt]
      have hz : z < v := by
        simp only [hv, FDist.lt, decide_eq_true_eq] at hlt
        exact hlt
      refine List.pairwise_cons.mpr ⟨fun e he => ?_, ih h2 (fun e he => hs e (List.mem_cons_of_mem _ he))⟩
      rcases List.mem_cons.mp ((bubble_perm _ _).mem_iff.mp he) with rfl | he
      · exact ⟨v, z, hv, rfl, by omega⟩
      · exact h1 e he
    · rw [if_neg hlt]
      have hz : v ≤ z := by
        simp only [hv, FDist.lt, decide_eq_true_eq] at hlt
        omega
      refine List.pairwise_cons.mpr ⟨fun e he => ?_, hl⟩
      rcases List.mem_cons.mp he with rfl | he
      · exact ⟨z, v, rfl, hv, hz⟩
      · obtain ⟨x, y', q1, q2, q3⟩ := h1 e he
        rw [hv] at q1; cases q1
        exact ⟨z, y', rfl, q2, by omega⟩

theorem TopInv.some {M : Int} {k : Nat} {P : List (Int × Nat)} {top : List (FDist × Nat)} (h : TopInv M k P top) :
    ∀ e ∈ top, ∃ x : Int, e.1 = some x := by
  intro e he
  rcases h.ent e he with rfl | ⟨p, _, rfl⟩
  · exact ⟨M, rfl⟩
  · exact ⟨p.1, rfl⟩

theorem topInv_step {M : Int} {k : Nat} {P : List (Int × Nat)} {top : List (FDist × Nat)} (h : TopInv M k P top)
    (z : Int) (i : Nat) (hz : z < M) (hi : ∀ p ∈ P, p.2 ≠ i) : TopInv M k (P ++ [(z, i)]) (topStep top (some z, i)) := by
  have hsome := h.some
  obtain ⟨hl, hd, he, hn, hf, hp⟩ := h
  have hf' : ∀ p ∈ P ++ [(z, i)], p.1 < M := by
    intro p hp
    rcases List.mem_append.mp hp with q | q
    · exact hf p q
    · rw [List.mem_singleton] at q; subst q; exact hz
  unfold topStep
  cases top with
  | nil =>
    refine ⟨hl, hd, by simp, hn, hf', ?_⟩
    intro p _ _ e he
    cases he
  | cons w ys =>
    obtain ⟨v, hv⟩ := hsome w List.mem_cons_self
    obtain ⟨d1, d2⟩ := List.pairwise_cons.mp hd
    have hworst : ∀ e ∈ w :: ys, ∃ x : Int, e.1 = some x ∧ x ≤ v := by
      intro e he
      rcases List.mem_cons.mp he with rfl | he
      · exact ⟨v, hv, Int.le_refl _⟩
      · obtain ⟨a, b, q1, q2, q3⟩ := d1 e he
        rw [hv] at q1; cases q1
        exact ⟨b, q2, q3⟩
    simp only
    by_cases hge : FDist.ge (some z) w.1 = true
    · rw [if_pos hge]
      have hvz : v ≤ z := by
        simp only [hv, FDist.ge, decide_eq_true_eq] at hge
        omega
      refine ⟨hl, hd, fun e hm => ?_, hn, hf', fun p hpm hnm e hm => ?_⟩
      · rcases he e hm with q | ⟨p, q1, q2⟩
        · exact .inl q
        · exact .inr ⟨p, List.mem_append_left _ q1, q2⟩
      · rcases List.mem_append.mp hpm with q | q
        · exact hp p q hnm e hm
        · rw [List.mem_singleton] at q; subst q
          obtain ⟨x, q1, q2⟩ := hworst e hm
          exact ⟨x, q1, by omega, by simp only; omega⟩
    · rw [if_neg hge]
      have hvz : z < v := by
        simp only [hv, FDist.ge, decide_eq_true_eq] at hge
        omega
      have hperm := bubble_perm (some z, i) ys
      have hmem : ∀ e, e ∈ bubble (some z, i) ys ↔ e = (some z, i) ∨ e ∈ ys := fun e => by
        rw [hperm.mem_iff, List.mem_cons]
      refine ⟨?_, bubble_desc z i ys d2 (fun e he => hsome e (List.mem_cons_of_mem _ he)), fun e hm => ?_, ?_, hf', ?_⟩
      · rw [hperm.length_eq]; simpa using hl
      · rcases (hmem e).mp hm with rfl | hm
        · exact .inr ⟨(z, i), by simp, rfl⟩
        · rcases he e (List.mem_cons_of_mem _ hm) with q | ⟨p, q1, q2⟩
          · exact .inl q
          · exact .inr ⟨p, List.mem_append_left _ q1, q2⟩
      · rw [(hperm.filter _).nodup_iff]
        have hne : ((some z : FDist) != some M) = true := by
          simp only [bne_iff_ne, ne_eq, Option.some.injEq]; omega
        rw [List.filter_cons, if_pos hne, List.nodup_cons]
        refine ⟨fun hm => ?_, ?_⟩
        · have hm' := (List.mem_filter.mp hm).1
          rcases he _ (List.mem_cons_of_mem _ hm') with q | ⟨p, q1, q2⟩
          · rw [Prod.mk.injEq, Option.some.injEq] at q
            omega
          · rw [Prod.mk.injEq] at q2
            exact hi p q1 q2.2.symm
        · exact hn.sublist ((List.sublist_cons_self w ys).filter _)
      · intro p hpm hnm e hm
        by_cases hold : (some p.1, p.2) ∈ w :: ys
        · have hw : w = (some p.1, p.2) := by
            rcases List.mem_cons.mp hold with q | q
            · exact q.symm
            · exact absurd ((hmem _).mpr (.inr q)) hnm
          have hvp : v = p.1 := by rw [hw] at hv; simpa using hv.symm
          have hpM := hf' p hpm
          rcases (hmem e).mp hm with rfl | hm
          · exact ⟨z, rfl, hz, by omega⟩
          · obtain ⟨x, q1, q2⟩ := hworst e (List.mem_cons_of_mem _ hm)
            exact ⟨x, q1, by omega, by omega⟩
        · have hpP : p ∈ P := by
            rcases List.mem_append.mp hpm with q | q
            · exact q
            · rw [List.mem_singleton] at q; subst q
              exact absurd ((hmem _).mpr (.inl rfl)) hnm
          have hall := hp p hpP hold
          rcases (hmem e).mp hm with rfl | hm
          · obtain ⟨x, q1, q2, q3⟩ := hall w List.mem_cons_self
            rw [hv] at q1; cases q1
            exact ⟨z, rfl, hz, by omega⟩
          · exact hall e (List.mem_cons_of_mem _ hm)

theorem topInv_init (M : Int) (k : Nat) : TopInv M k [] (List.replicate k (some M, 0)) := by
  refine ⟨List.length_replicate, ?_, fun e he => .inl (List.eq_of_mem_replicate he), ?_, by simp, by simp⟩
  · rw [List.pairwise_replicate]
    exact .inr ⟨M, M, rfl, rfl, Int.le_refl _⟩
  · rw [List.filter_replicate]
    simp

/-- A row of finite distances. -/
def finRow (zs : List Int) : List FDist := zs.map some

theorem topInv_foldl (M : Int) (k : Nat) (zs : List Int) (hz : ∀ z ∈ zs, z < M) :
    TopInv M k zs.zipIdx ((finRow zs).zipIdx.foldl topStep (List.replicate k (some M, 0))) := by
  have key : ∀ (rest : List Int) (P : List (Int × Nat)) (top : List (FDist × Nat)) (n : Nat), TopInv M k P top →
      (∀ p ∈ P, p.2 < n) → (∀ z ∈ rest, z < M) →
      TopInv M k (P ++ rest.zipIdx n) (((finRow rest).zipIdx n).foldl topStep top) := by
    intro rest
    induction rest with
    | nil => intro P top n h _ _; simpa [finRow] using h
    | cons z rest ih =>
      intro P top n h hp hr
      have h' := topInv_step h z n (hr z List.mem_cons_self) (fun p hq => by have := hp p hq; omega)
      have := ih (P ++ [(z, n)]) (topStep top (some z, n)) (n + 1) h' (by
        intro p hq
        rcases List.mem_append.mp hq with q | q
        · have := hp p q; omega
        · rw [List.mem_singleton] at q; subst q; simp) (fun y hy => hr y (List.mem_cons_of_mem _ hy))
      simpa [finRow, List.zipIdx_cons, List.append_assoc] using this
  have := key zs [] (List.replicate k (some M, 0)) 0 (topInv_init M k) (by simp) hz
  simpa using this

/-- The selected centres of a finite row: `k` of them, distinct, in range, none farther than a centre left out. -/
structure Nearest (k : Nat) (zs : List Int) (c : List Nat) : Prop where
  len : c.length = k
  nodup : c.Nodup
  range : ∀ j ∈ c, j < zs.length
  best : ∀ (i j : Nat) (x y : Int), i ∈ c → j ∉ c → zs[i]? = some x → zs[j]? = some y → x ≤ y

theorem mem_zipIdx0 {zs : List Int} {z : Int} {i : Nat} : (z, i) ∈ zs.zipIdx ↔ zs[i]? = some z := by
  rw [List.mem_zipIdx_iff_getElem?]

theorem topK_nearest (M : Int) (k : Nat) (zs : List Int) (hz : ∀ z ∈ zs, z < M) (hk : k ≤ zs.length) :
    Nearest k zs (topK M k (finRow zs)) := by
  have h := topInv_foldl M k zs hz
  unfold topK
  generalize (finRow zs).zipIdx.foldl topStep (List.replicate k (some M, 0)) = top at *
  -- no sentinel is left
  have hall : ∀ e ∈ top, e.1 ≠ some M := by
    intro e he hM
    have hin : ∀ p ∈ zs.zipIdx, (some p.1, p.2) ∈ top := by
      intro p hp
      refine Classical.byContradiction fun hn => ?_
      obtain ⟨x, q1, q2, _⟩ := h.drop p hp hn e he
      rw [hM] at q1; cases q1; omega
    have hsub : (zs.zipIdx.map fun p => ((some p.1 : FDist), p.2)).Nodup := by
      have : (zs.zipIdx.map (·.2)).Nodup := by
        rw [List.zipIdx_map_snd]; exact List.nodup_range'
      rw [List.Nodup, List.pairwise_map] at this ⊢
      exact this.imp fun hne heq => hne (by simpa using (Prod.mk.inj heq).2)
    have hsub2 : (e :: zs.zipIdx.map fun p => ((some p.1 : FDist), p.2)).length ≤ top.length := by
      refine Alaya.nodup_subset_length (List.nodup_cons.mpr ⟨?_, hsub⟩) ?_
      · intro hm
        obtain ⟨p, hp, rfl⟩ := List.mem_map.mp hm
        have := h.fin p hp
        simp only [Option.some.injEq] at hM
        omega
      · intro a ha
        rcases List.mem_cons.mp ha with rfl | ha
        · exact he
        · obtain ⟨p, hp, rfl⟩ := List.mem_map.mp ha
          exact hin p hp
    rw [h.len, List.length_cons, List.length_map, List.length_zipIdx] at hsub2
    omega
  have hent : ∀ e ∈ top, ∃ x : Int, e.1 = some x ∧ zs[e.2]? = some x := by
    intro e he
    rcases h.ent e he with rfl | ⟨p, hp, rfl⟩
    · exact absurd rfl (hall _ he)
    · exact ⟨p.1, rfl, mem_zipIdx0.mp hp⟩
  have hnd : top.Nodup := by
    have := h.nodup
    rwa [List.filter_eq_self.mpr (fun e he => by simpa using hall e he)] at this
  have hmem : ∀ i, i ∈ (top.reverse).map (·.2) ↔ ∃ e ∈ top, e.2 = i := by
    intro i; simp [List.mem_map]
  refine ⟨by rw [List.length_map, List.length_reverse, h.len], ?_, fun j hj => ?_, fun i j x y hi hj hx hy => ?_⟩
  · rw [List.Nodup, List.pairwise_map]
    have hr : top.reverse.Pairwise (· ≠ ·) := (List.reverse_perm top).nodup_iff.mpr hnd
    refine hr.imp_of_mem ?_
    intro a b ha hb hne heq
    obtain ⟨x, a1, a2⟩ := hent a (List.mem_reverse.mp ha)
    obtain ⟨y, b1, b2⟩ := hent b (List.mem_reverse.mp hb)
    rw [heq, b2] at a2
    cases a2
    exact hne (Prod.ext (by rw [a1, b1]) heq)
  · obtain ⟨e, he, rfl⟩ := (hmem j).mp hj
    obtain ⟨x, _, q⟩ := hent e he
    exact (List.getElem?_eq_some_iff.mp q).1
  · obtain ⟨e, he, rfl⟩ := (hmem i).mp hi
    obtain ⟨x', q1, q2⟩ := hent e he
    rw [q2] at hx; cases hx
    have hjn : (some y, j) ∉ top := fun hm => hj ((hmem j).mpr ⟨_, hm, rfl⟩)
    obtain ⟨v, r1, _, r3⟩ := h.drop (y, j) (mem_zipIdx0.mpr hy) hjn e he
    rw [q1] at r1; cases r1
    exact r3

theorem argMin_nearest (M : Int) (zs : List Int) (hz : ∀ z ∈ zs, z < M) (hne : zs ≠ []) :
    Nearest 1 zs [argMin M (finRow zs)] := by
  -- the running best is a centre not farther than any seen so far
  have key : ∀ (rest : List Int) (n : Nat) (b : FDist × Nat) (P : List (Int × Nat)),
      (∀ p ∈ P, p.2 < n) → (∀ z ∈ rest, z < M) →
      (∃ x : Int, b.1 = some x ∧ (∀ p ∈ P, x ≤ p.1) ∧ ((P = [] ∧ x = M) ∨ (x, b.2) ∈ P)) →
      ∃ x : Int, (((finRow rest).zipIdx n).foldl (fun b x => if FDist.lt x.1 b.1 then x else b) b).1 = some x ∧
        (∀ p ∈ P ++ rest.zipIdx n, x ≤ p.1) ∧
        ((P ++ rest.zipIdx n = [] ∧ x = M) ∨
          (x, (((finRow rest).zipIdx n).foldl (fun b x => if FDist.lt x.1 b.1 then x else b) b).2) ∈
            P ++ rest.zipIdx n) := by
    intro rest
    induction rest with
    | nil => intro n b P _ _ h; simpa [finRow] using h
    | cons z rest ih =>
      rintro n b P hP hr ⟨x, hb, hle, hin⟩
      have hzM := hr z List.mem_cons_self
      have hx : ∃ x' : Int, (if FDist.lt (some z) b.1 then ((some z : FDist), n) else b).1 = some x' ∧
          (∀ p ∈ P ++ [(z, n)], x' ≤ p.1) ∧ ((P ++ [(z, n)] = [] ∧ x' = M) ∨
            (x', (if FDist.lt (some z) b.1 then ((some z : FDist), n) else b).2) ∈ P ++ [(z, n)]) := by
        by_cases hlt : FDist.lt (some z) b.1 = true
        · rw [if_pos hlt]
          have hzx : z < x := by simpa [hb, FDist.lt] using hlt
          refine ⟨z, rfl, fun p hp => ?_, .inr (by simp)⟩
          rcases List.mem_append.mp hp with q | q
          · have := hle p q; omega
          · rw [List.mem_singleton] at q; subst q; simp
        · rw [if_neg hlt]
          have hzx : x ≤ z := by
            have : ¬ z < x := by simpa [hb, FDist.lt] using hlt
            omega
          refine ⟨x, hb, fun p hp => ?_, .inr ?_⟩
          · rcases List.mem_append.mp hp with q | q
            · exact hle p q
            · rw [List.mem_singleton] at q; subst q; exact hzx
          · rcases hin with ⟨_, q⟩ | q
            · omega
            · exact List.mem_append_left _ q
      have := ih (n + 1) _ (P ++ [(z, n)]) (by
        intro p hq
        rcases List.mem_append.mp hq with q | q
        · have := hP p q; omega
        · rw [List.mem_singleton] at q; subst q; simp) (fun y hy => hr y (List.mem_cons_of_mem _ hy)) hx
      simpa [finRow, List.zipIdx_cons, List.append_assoc] using this
  obtain ⟨x, h1, h2, h3⟩ := key zs 0 (some M, 0) [] (by simp) hz ⟨M, rfl, by simp, .inl ⟨rfl, rfl⟩⟩
  rw [List.nil_append] at h2 h3
  have hmem : zs[argMin M (finRow zs)]? = some x := by
    rcases h3 with ⟨q, _⟩ | q
    · exfalso
      have := congrArg List.length q
      rw [List.length_zipIdx] at this
      exact hne (List.length_eq_zero_iff.mp this)
    · exact mem_zipIdx0.mp q
  refine ⟨rfl, by simp, fun j hj => ?_, fun i j a b hi hj ha hb => ?_⟩
  · rw [List.mem_singleton] at hj; subst hj
    exact (List.getElem?_eq_some_iff.mp hmem).1
  · rw [List.mem_singleton] at hi; subst hi
    rw [hmem] at ha; cases ha
    exact h2 (b, j) (mem_zipIdx0.mpr hb)

theorem closest_nearest (M : Int) (k : Nat) (zs : List Int) (hz : ∀ z ∈ zs, z < M) (hk : k ≤ zs.length) (_h0 : 0 < k) :
    Nearest k zs (closest M k (finRow zs)) := by
  unfold closest
  by_cases h1 : k = 1
  · rw [if_pos h1, h1]
    exact argMin_nearest M zs hz (by intro e; subst e; simp at hk; omega)
  · rw [if_neg h1]; exact topK_nearest M k zs hz hk

/-! The scatter loop. -/

/-- What the point `(gid, v)` adds to shard `s`. -/
def copies {V : Type} (gid : Nat) (v : V) (cl : List Nat) (s : Nat) : List (Nat × V) :=
  List.replicate (cl.count s) (gid, v)

theorem scatterOne_get {V : Type} (shards : List (List (Nat × V))) (gid : Nat) (v : V) (cl : List Nat) (s : Nat) :
    (scatterOne shards gid v cl)[s]? = shards[s]?.map (· ++ copies gid v cl s) := by
  unfold scatterOne copies
  induction cl generalizing shards with
  | nil => simp
  | cons c cl ih =>
    rw [List.foldl_cons, ih, List.getElem?_modify]
    by_cases hcs : c = s
    · subst hcs
      rw [List.count_cons_self]
      cases shards[c]? with
      | none => rfl
      | some l => simp [List.replicate_succ]
    · rw [List.count_cons_of_ne hcs]
      cases shards[s]? with
      | none => rfl
      | some l => simp [hcs]

theorem scatter_get {V : Type} (M : Int) (k gid : Nat) (base : List (V × List FDist)) (shards : List (List (Nat × V)))
    (s : Nat) : (scatter M k gid base shards)[s]? = shards[s]?.map
      (· ++ (base.zipIdx gid).flatMap fun p => copies p.2 p.1.1 (closest M k p.1.2) s) := by
  induction base generalizing gid shards with
  | nil => simp [scatter]
  | cons b base ih =>
    rw [scatter, ih, scatterOne_get]
    cases shards[s]? with
    | none => rfl
    | some l => simp [List.zipIdx_cons, List.append_assoc]

end Alaya.Vamana
