import Verif.Model.QgBuilder
import Verif.Lemmas.RaBitQResult
import Mathlib.Algebra.Order.BigOperators.Group.Finset

namespace Alaya.Qg
open Alaya Alaya.Hybrid Alaya.RSearch

/-! ### Lists of neighbours -/

/-- Distinct existing nodes other than `i`. -/
def Clean (n i : Nat) (l : List Cand) : Prop := (idsOf l).Nodup ∧ i ∉ idsOf l ∧ ∀ v ∈ idsOf l, v < n

/-- The same, at most 32. -/
def Good (n i : Nat) (l : List Cand) : Prop := l.length ≤ deg ∧ Clean n i l

/-- Existing nodes other than `i`, not necessarily distinct. -/
def Recs (n i : Nat) (l : List Cand) : Prop := ∀ c ∈ l, c.1 ≠ i ∧ c.1 < n

theorem Clean.nil (n i : Nat) : Clean n i [] := ⟨by simp [idsOf], by simp [idsOf], by simp [idsOf]⟩

theorem Clean.perm {n i : Nat} {l l' : List Cand} (h : Clean n i l) (hp : l'.Perm l) : Clean n i l' := by
  have hq : (idsOf l').Perm (idsOf l) := hp.map _
  exact ⟨hq.nodup_iff.mpr h.1, fun hh => h.2.1 (hq.mem_iff.mp hh), fun v hv => h.2.2 v (hq.mem_iff.mp hv)⟩

theorem Clean.sublist {n i : Nat} {l l' : List Cand} (h : Clean n i l) (hs : l'.Sublist l) : Clean n i l' := by
  have hq : (idsOf l').Sublist (idsOf l) := hs.map _
  exact ⟨h.1.sublist hq, fun hh => h.2.1 (hq.subset hh), fun v hv => h.2.2 v (hq.subset hv)⟩

theorem Clean.recs {n i : Nat} {l : List Cand} (h : Clean n i l) : Recs n i l := by
  intro c hc
  have : c.1 ∈ idsOf l := List.mem_map.mpr ⟨c, hc, rfl⟩
  exact ⟨fun he => h.2.1 (he ▸ this), h.2.2 _ this⟩

theorem Clean.append {n i : Nat} {l : List Cand} (h : Clean n i l) {c : Cand} (h1 : c.1 ∉ idsOf l) (h2 : c.1 ≠ i) (h3 : c.1 < n) :
    Clean n i (l ++ [c]) := by
  have e : idsOf (l ++ [c]) = idsOf l ++ [c.1] := by simp [idsOf]
  refine ⟨?_, ?_, ?_⟩
  · rw [e, List.nodup_append]
    refine ⟨h.1, by simp, ?_⟩
    intro a ha b hb hab
    rw [List.mem_singleton.mp hb] at hab
    exact h1 (hab ▸ ha)
  · rw [e]; simp [h.2.1, Ne.symm h2]
  · rw [e]
    intro v hv
    rcases List.mem_append.mp hv with hv | hv
    · exact h.2.2 v hv
    · rw [List.mem_singleton.mp hv]; exact h3

theorem insC_perm (x : Cand) : ∀ l, (insC x l).Perm (x :: l)
  | [] => List.Perm.refl _
  | y :: ys => by
    unfold insC
    split
    · exact List.Perm.refl _
    · exact ((insC_perm x ys).cons y).trans (List.Perm.swap x y ys)

theorem sortC_perm : ∀ l, (sortC l).Perm l
  | [] => List.Perm.refl _
  | x :: xs => (insC_perm x (sortC xs)).trans ((sortC_perm xs).cons x)

/-! ### Random neighbours -/

/-- Every id comes again and again. -/
def Fair (n : Nat) (draw : Nat → Nat) : Prop := ∀ v, v < n → ∀ t, ∃ t', t ≤ t' ∧ draw t' = v

/-- Besides `i` and at most 31 others there is another node when there are at least 33. -/
theorem free_node {n i : Nat} {l : List Nat} (hn : deg < n) (hl : l.length < deg) : ∃ v, v < n ∧ v ≠ i ∧ v ∉ l := by
  by_contra hc
  push Not at hc
  have : ∀ v ∈ List.range n, v ∈ i :: l := by
    intro v hv
    by_cases he : v = i
    · simp [he]
    · exact List.mem_cons_of_mem _ (hc v (List.mem_range.mp hv) he)
  have := nodup_subset_length (l2 := i :: l) (List.nodup_range (n := n)) this
  simp at this
  omega

theorem fillLoop_good {W : World} {draw : Nat → Nat} (hd : ∀ t, draw t < W.n) (i : Nat) (fuel : Nat) : ∀ (t : Nat) (res out : List Cand),
    Good W.n i res → fillLoop W draw i fuel t res = some out → Good W.n i out ∧ out.length = deg := by
  induction fuel with
  | zero =>
    intro t res out h ho
    unfold fillLoop at ho
    split at ho
    · cases ho
    · cases ho
      have := h.1
      exact ⟨h, by omega⟩
  | succ fuel ih =>
    intro t res out h ho
    unfold fillLoop at ho
    by_cases hl : res.length < deg
    · rw [if_pos hl] at ho
      refine ih _ _ _ ?_ ho
      split
      · rename_i hc
        exact ⟨by simp; omega, h.2.append hc.2 hc.1 (hd t)⟩
      · exact h
    · rw [if_neg hl] at ho
      cases ho
      have := h.1
      exact ⟨h, by omega⟩

theorem fillLoop_ends {W : World} (hn : deg < W.n) {draw : Nat → Nat} (hf : Fair W.n draw) (i : Nat) (m : Nat) : ∀ (t : Nat) (res : List Cand),
    deg ≤ res.length + m → ∃ fuel out, fillLoop W draw i fuel t res = some out := by
  induction m with
  | zero =>
    intro t res h
    exact ⟨0, res, by unfold fillLoop; rw [if_neg (by omega)]⟩
  | succ m ih =>
    intro t res h
    by_cases hl : res.length < deg
    · obtain ⟨v, v1, v2, v3⟩ := free_node (i := i) (l := idsOf res) hn (by simpa [idsOf] using hl)
      obtain ⟨t', t1, t2⟩ := hf v v1 t
      obtain ⟨g, rfl⟩ : ∃ g, t' = t + g := ⟨t' - t, by omega⟩
      clear t1
      induction g generalizing t with
      | zero =>
        obtain ⟨fuel, out, e⟩ := ih (t + 1) (res ++ [(draw t, W.dist (draw t) i)]) (by simp; omega)
        refine ⟨fuel + 1, out, ?_⟩
        unfold fillLoop
        rw [if_pos hl, if_pos (by rw [Nat.add_zero] at t2; rw [t2]; exact ⟨v2, v3⟩)]
        exact e
      | succ g ihg =>
        by_cases hc : draw t ≠ i ∧ draw t ∉ idsOf res
        · obtain ⟨fuel, out, e⟩ := ih (t + 1) (res ++ [(draw t, W.dist (draw t) i)]) (by simp; omega)
          refine ⟨fuel + 1, out, ?_⟩
          unfold fillLoop
          rw [if_pos hl, if_pos hc]
          exact e
        · obtain ⟨fuel, out, e⟩ := ihg (t + 1) (by rw [← t2]; congr 1; omega)
          refine ⟨fuel + 1, out, ?_⟩
          unfold fillLoop
          rw [if_pos hl, if_neg hc]
          exact e
    · exact ⟨0, res, by unfold fillLoop; rw [if_neg hl]⟩

theorem drawSet_ends {n : Nat} (hn : deg < n) {draw : Nat → Nat} (hf : Fair n draw) (i : Nat) (m : Nat) : ∀ (t : Nat) (res : List Nat),
    deg ≤ res.length + m → ∃ fuel out, drawSet draw i fuel t res = some out := by
  induction m with
  | zero =>
    intro t res h
    exact ⟨0, res, by unfold drawSet; rw [if_neg (by omega)]⟩
  | succ m ih =>
    intro t res h
    by_cases hl : res.length < deg
    · obtain ⟨v, v1, v2, v3⟩ := free_node (i := i) (l := res) hn hl
      obtain ⟨t', t1, t2⟩ := hf v v1 t
      obtain ⟨g, rfl⟩ : ∃ g, t' = t + g := ⟨t' - t, by omega⟩
      clear t1
      induction g generalizing t with
      | zero =>
        obtain ⟨fuel, out, e⟩ := ih (t + 1) (res ++ [draw t]) (by simp; omega)
        refine ⟨fuel + 1, out, ?_⟩
        unfold drawSet
        rw [if_pos hl, if_pos (by rw [Nat.add_zero] at t2; rw [t2]; exact ⟨v2, v3⟩)]
        exact e
      | succ g ihg =>
        by_cases hc : draw t ≠ i ∧ draw t ∉ res
        · obtain ⟨fuel, out, e⟩ := ih (t + 1) (res ++ [draw t]) (by simp; omega)
          refine ⟨fuel + 1, out, ?_⟩
          unfold drawSet
          rw [if_pos hl, if_pos hc]
          exact e
        · obtain ⟨fuel, out, e⟩ := ihg (t + 1) (by rw [← t2]; congr 1; omega)
          refine ⟨fuel + 1, out, ?_⟩
          unfold drawSet
          rw [if_pos hl, if_neg hc]
          exact e
    · exact ⟨0, res, by unfold drawSet; rw [if_neg hl]⟩

theorem drawSet_good {n : Nat} {draw : Nat → Nat} (hd : ∀ t, draw t < n) (i : Nat) (fuel : Nat) : ∀ (t : Nat) (acc out : List Nat),
    acc.Nodup → i ∉ acc → (∀ v ∈ acc, v < n) → acc.length ≤ deg → drawSet draw i fuel t acc = some out →
    out.Nodup ∧ i ∉ out ∧ (∀ v ∈ out, v < n) ∧ out.length = deg := by
  induction fuel with
  | zero =>
    intro t acc out h1 h2 h3 h4 ho
    unfold drawSet at ho
    split at ho
    · cases ho
    · cases ho; exact ⟨h1, h2, h3, by omega⟩
  | succ fuel ih =>
    intro t acc out h1 h2 h3 h4 ho
    unfold drawSet at ho
    by_cases hl : acc.length < deg
    · rw [if_pos hl] at ho
      by_cases hc : draw t ≠ i ∧ draw t ∉ acc
      · rw [if_pos hc] at ho
        refine ih _ _ _ ?_ ?_ ?_ ?_ ho
        · rw [List.nodup_append]
          refine ⟨h1, by simp, ?_⟩
          intro a ha b hb hab
          rw [List.mem_singleton.mp hb] at hab
          exact hc.2 (hab ▸ ha)
        · simp [h2, Ne.symm hc.1]
        · intro v hv
          rcases List.mem_append.mp hv with hv | hv
          · exact h3 v hv
          · rw [List.mem_singleton.mp hv]; exact hd t
        · simp; omega
      · rw [if_neg hc] at ho
        exact ih _ _ _ h1 h2 h3 h4 ho
    · rw [if_neg hl] at ho
      cases ho; exact ⟨h1, h2, h3, by omega⟩

theorem initNode_good {W : World} {draw : Nat → Nat} (hd : ∀ t, draw t < W.n) {fuel i : Nat} {l : List Cand} (h : initNode W draw fuel i = some l) :
    Good W.n i l := by
  unfold initNode at h
  obtain ⟨ids, e1, rfl⟩ := Option.map_eq_some_iff.mp h
  obtain ⟨h1, h2, h3, h4⟩ := drawSet_good hd i fuel 0 [] ids (by simp) (by simp) (by simp) (by simp) e1
  have e : idsOf (ids.map (fun v => (v, W.dist i v))) = ids := by
    unfold idsOf; rw [List.map_map]; exact List.map_id _
  refine ⟨by simp [h4], ?_⟩
  unfold Clean
  rw [e]
  exact ⟨h1, h2, h3⟩

/-! ### Candidates -/

theorem findLoop_spec {σ : Type} {V : VOps σ} {d0 dmax : Int} {I : Idx} {Rep : σ → List Nat → Prop} (hI : IdxOk I) (hV : VOk V I.rows.length Rep)
    {ef D cur : Nat} (hef : 0 < ef) (hD : ∀ row ∈ I.rows, row.length ≤ D) (fuel : Nat) : ∀ {E : List Nat} {s : RSearch.St σ} {acc : List Cand},
    SInv d0 dmax I ef Rep E s → (Clean I.rows.length cur acc ∧ ∀ v, v ∈ idsOf acc → v ∈ E) → meas I D E s ≤ fuel →
    ∃ s' acc' E', findLoop V dmax I cur fuel s acc = some (s', acc') ∧ SInv d0 dmax I ef Rep E' s' ∧
      Clean I.rows.length cur acc' ∧ ∀ v, v ∈ idsOf acc' → v ∈ E' := by
  have done : ∀ {s : RSearch.St σ} {acc : List Cand} (f : Nat), s.pool.hasNext = false → findLoop V dmax I cur f s acc = some (s, acc) := by
    intro s acc f hu
    cases f with
    | zero => unfold findLoop; rw [if_neg (by rw [hu]; simp)]
    | succ f => unfold findLoop; rw [if_neg (by rw [hu]; simp)]
  induction fuel with
  | zero =>
    intro E s acc h hb hf
    cases hu : s.pool.hasNext with
    | false => exact ⟨s, acc, E, done _ hu, h, hb⟩
    | true =>
      obtain ⟨s', r, -, h2⟩ := step_spec hI hV hef hD h hu
      rcases h2 with ⟨-, -, h2⟩ | ⟨c, -, -, h2⟩ <;> omega
  | succ fuel ih =>
    intro E s acc h hb hf
    cases hu : s.pool.hasNext with
    | false => exact ⟨s, acc, E, done _ hu, h, hb⟩
    | true =>
      obtain ⟨s', r, h1, h2⟩ := step_spec hI hV hef hD h hu
      unfold findLoop
      rw [if_pos hu, h1]
      rcases h2 with ⟨rfl, h3, h4⟩ | ⟨c, rfl, h3, h4⟩
      · exact ih h3 hb (by omega)
      · simp only
        refine ih h3 ?_ (by omega)
        have hnew : c ∉ E := by
          have := h3.lin.nodup
          rw [List.nodup_append] at this
          intro hc
          exact this.2.2 c hc c (by simp) rfl
        split
        · rename_i hc
          refine ⟨hb.1.append (fun hh => hnew (hb.2 c hh)) hc (h3.lin.valid c (by simp)), ?_⟩
          intro v hv
          have e : idsOf (acc ++ [(c, I.exact c)]) = idsOf acc ++ [c] := by simp [idsOf]
          rw [e] at hv
          rcases List.mem_append.mp hv with hv | hv
          · simp [hb.2 v hv]
          · simp [List.mem_singleton.mp hv]
        · exact ⟨hb.1, fun v hv => by simp [hb.2 v hv]⟩

theorem addCurrent_spec {σ : Type} {V : VOps σ} {n : Nat} {Rep : σ → List Nat → Prop} (hV : VOk V n Rep) {vis : σ} {E : List Nat} (hv : Rep vis E)
    (cur : Nat) (cs : List Cand) : ∀ (acc : List Cand), Clean n cur cs → Clean n cur acc → (∀ v ∈ idsOf acc, v ∈ E ∨ v ∉ idsOf cs) →
    ∃ out, addCurrent V vis cur cs acc = some out ∧ Clean n cur out := by
  induction cs with
  | nil => intro acc _ h _; exact ⟨acc, rfl, h⟩
  | cons c cs ih =>
    intro acc hc h hd
    have hcs : Clean n cur cs := hc.sublist (List.sublist_cons_self _ _)
    have e : idsOf (c :: cs) = c.1 :: idsOf cs := rfl
    have hc1 : c.1 ≠ cur := fun he => hc.2.1 (by rw [e, he]; simp)
    have hc2 : c.1 < n := hc.2.2 _ (by rw [e]; simp)
    have hc3 : c.1 ∉ idsOf cs := by have := hc.1; rw [e, List.nodup_cons] at this; exact this.1
    have hd' : ∀ v ∈ idsOf acc, v ∈ E ∨ v ∉ idsOf cs := by
      intro v hv
      rcases hd v hv with h | h
      · exact .inl h
      · exact .inr (fun hh => h (by rw [e]; simp [hh]))
    unfold addCurrent
    rw [if_pos hc1, hV.get hv hc2]
    by_cases hin : c.1 ∈ E
    · rw [decide_eq_true hin]; exact ih acc hcs h hd'
    · rw [decide_eq_false hin]
      refine ih (acc ++ [c]) hcs (h.append ?_ hc1 hc2) ?_
      · intro hh
        rcases hd c.1 hh with h' | h'
        · exact hin h'
        · exact h' (by rw [e]; simp)
      · intro v hv'
        have e2 : idsOf (acc ++ [c]) = idsOf acc ++ [c.1] := by simp [idsOf]
        rw [e2] at hv'
        rcases List.mem_append.mp hv' with hv' | hv'
        · exact hd' v hv'
        · right; rw [List.mem_singleton.mp hv']; exact hc3

/-- The assumptions on the data. -/
structure World.Ok (W : World) : Prop where
  ep : W.ep < W.n
  small : W.n ≤ 2147483648
  ef : 0 < W.ef
  d0 : W.d0 ≤ W.dmax

theorem candidates_spec {W : World} (hW : W.Ok) (est : Nat → Nat → Nat → Int) {lists : Nat → List Cand} (hl : ∀ i, i < W.n → Good W.n i (lists i))
    {cur : Nat} (hc : cur < W.n) {fuel : Nat} (hf : 33 * W.n + 1 ≤ fuel) :
    ∃ pool, candidates W est fuel lists cur = some pool ∧ Clean W.n cur pool := by
  have hlen : (view W est lists cur).rows.length = W.n := by simp [view]
  have hrow : ∀ row ∈ (view W est lists cur).rows, ∃ i, i < W.n ∧ row = idsOf (lists i) := by
    intro row hr
    obtain ⟨i, hi, rfl⟩ := List.mem_map.mp hr
    exact ⟨i, List.mem_range.mp hi, rfl⟩
  have hI : IdxOk (view W est lists cur) := by
    refine ⟨by rw [hlen]; exact hW.ep, by rw [hlen]; exact hW.small, ?_⟩
    intro row hr v hv
    obtain ⟨i, hi, rfl⟩ := hrow row hr
    rw [hlen]
    exact (hl i hi).2.2.2 v hv
  have hD : ∀ row ∈ (view W est lists cur).rows, row.length ≤ 32 := by
    intro row hr
    obtain ⟨i, hi, rfl⟩ := hrow row hr
    have := (hl i hi).1
    unfold deg at this
    simpa [idsOf] using this
  have hV : VOk hashOps (view W est lists cur).rows.length HRep := hash_ok (by rw [hlen]; have := hW.small; unfold emptyId; omega)
  obtain ⟨s0, a1, a2, a3⟩ := start_spec (d0 := W.d0) (dmax := W.dmax) hI hW.ef hW.d0 (HRep.new (visCap W))
  have hm : meas (view W est lists cur) 32 [] s0 ≤ fuel := by
    unfold meas
    rw [hlen]
    simp
    omega
  obtain ⟨s, acc, E, b1, b2, b3, b4⟩ := findLoop_spec (cur := cur) hI hV hW.ef hD fuel a2 ⟨Clean.nil _ _, by simp [idsOf]⟩ hm
  rw [hlen] at b3 hV
  obtain ⟨out, c1, c2⟩ := addCurrent_spec hV b2.vis cur (lists cur) acc (hl cur hc).2 b3 (fun v hv => .inl (b4 v hv))
  refine ⟨(sortC out).take 750, ?_, (c2.perm (sortC_perm out)).sublist (List.take_sublist _ _)⟩
  unfold candidates
  simp only
  rw [a1]
  simp only
  rw [b1]
  simp only
  rw [c1]
  rfl

/-! ### Pruning -/

theorem pruneLoop_spec (dist : Nat → Nat → Int) : ∀ (r : Nat) (pool : List (Cand × Bool)),
    (pruneLoop dist r pool).1.Sublist (pool.map Prod.fst) ∧ (pruneLoop dist r pool).1.length ≤ r ∧
      ∀ c ∈ (pruneLoop dist r pool).2, c ∈ pool.map Prod.fst := by
  intro r pool
  induction hm : pool.length generalizing r pool with
  | zero =>
    have : pool = [] := List.length_eq_zero_iff.mp hm
    subst this
    cases r <;> simp [pruneLoop]
  | succ m ih =>
    match r, pool, hm with
    | 0, _, _ => simp [pruneLoop]
    | r + 1, (c, true) :: rest, hm =>
      obtain ⟨h1, h2, h3⟩ := ih (r + 1) rest (by simpa using hm)
      unfold pruneLoop
      refine ⟨h1.trans (List.sublist_cons_self _ _), h2, fun x hx => ?_⟩
      exact List.mem_cons_of_mem _ (h3 x hx)
    | r + 1, (c, false) :: rest, hm =>
      obtain ⟨h1, h2, h3⟩ := ih r (rest.map (fun x => (x.1, x.2 || (!x.2 && decide (dist c.1 x.1.1 < x.1.2))))) (by simpa using hm)
      have e : (rest.map (fun x : Cand × Bool => (x.1, x.2 || (!x.2 && decide (dist c.1 x.1.1 < x.1.2))))).map Prod.fst = rest.map Prod.fst := by
        rw [List.map_map]; rfl
      rw [e] at h1 h3
      unfold pruneLoop
      simp only
      refine ⟨by rw [List.map_cons]; exact h1.cons_cons _, by simp; omega, ?_⟩
      intro x hx
      rw [List.map_cons]
      rcases List.mem_append.mp hx with hx | hx
      · obtain ⟨y, hy, rfl⟩ := List.mem_map.mp hx
        exact List.mem_cons_of_mem _ (List.mem_map.mpr ⟨y, List.mem_of_mem_filter hy, rfl⟩)
      · exact List.mem_cons_of_mem _ (h3 x hx)

/-- What the loop leaves out is occluded, and nothing it chooses is. -/
theorem pruneLoop_rule (dist : Nat → Nat → Int) : ∀ (r : Nat) (pool : List (Cand × Bool)),
    (∀ c ∈ (pruneLoop dist r pool).1, (c, false) ∈ pool) ∧
    (pruneLoop dist r pool).1.Pairwise (fun a b => ¬ dist a.1 b.1 < b.2) ∧
    ∀ x, (x, false) ∈ pool → x ∈ (pruneLoop dist r pool).1 ∨ (pruneLoop dist r pool).1.length = r ∨
      ∃ c ∈ (pruneLoop dist r pool).1, dist c.1 x.1 < x.2 := by
  intro r pool
  induction hm : pool.length generalizing r pool with
  | zero =>
    have : pool = [] := List.length_eq_zero_iff.mp hm
    subst this
    cases r <;> simp [pruneLoop]
  | succ m ih =>
    match r, pool, hm with
    | 0, _, _ => simp [pruneLoop]
    | r + 1, (c, true) :: rest, hm =>
      obtain ⟨h1, h2, h3⟩ := ih (r + 1) rest (by simpa using hm)
      unfold pruneLoop
      refine ⟨fun x hx => List.mem_cons_of_mem _ (h1 x hx), h2, fun x hx => ?_⟩
      rcases List.mem_cons.mp hx with hx | hx
      · cases hx
      · exact h3 x hx
    | r + 1, (c, false) :: rest, hm =>
      obtain ⟨h1, h2, h3⟩ := ih r (rest.map (fun x => (x.1, x.2 || (!x.2 && decide (dist c.1 x.1.1 < x.1.2))))) (by simpa using hm)
      have hfl : ∀ x, (x, false) ∈ rest.map (fun x : Cand × Bool => (x.1, x.2 || (!x.2 && decide (dist c.1 x.1.1 < x.1.2)))) ↔
          (x, false) ∈ rest ∧ ¬ dist c.1 x.1 < x.2 := by
        intro x
        rw [List.mem_map]
        constructor
        · rintro ⟨⟨y, f⟩, hy, he⟩
          cases f <;> simp at he
          obtain ⟨rfl, he⟩ := he
          exact ⟨hy, by omega⟩
        · rintro ⟨hx, hd⟩
          exact ⟨(x, false), hx, by simp; omega⟩
      unfold pruneLoop
      simp only
      refine ⟨?_, ?_, ?_⟩
      · intro x hx
        rcases List.mem_cons.mp hx with rfl | hx
        · simp
        · exact List.mem_cons_of_mem _ ((hfl x).mp (h1 x hx)).1
      · rw [List.pairwise_cons]
        exact ⟨fun x hx => ((hfl x).mp (h1 x hx)).2, h2⟩
      · intro x hx
        rcases List.mem_cons.mp hx with hx | hx
        · cases hx; left; simp
        · by_cases hd : dist c.1 x.1 < x.2
          · exact .inr (.inr ⟨c, by simp, hd⟩)
          · rcases h3 x ((hfl x).mpr ⟨hx, hd⟩) with h | h | ⟨c', h, h'⟩
            · exact .inl (List.mem_cons_of_mem _ h)
            · exact .inr (.inl (by simp [h]))
            · exact .inr (.inr ⟨c', List.mem_cons_of_mem _ h, h'⟩)

theorem prune_spec {W : World} {i : Nat} (sup : Bool) {pool old recs : List Cand} (hp : Clean W.n i pool) (ho : Good W.n i old)
    (hr : Recs W.n i recs) : Good W.n i (prune W sup pool old recs).1 ∧ Recs W.n i (prune W sup pool old recs).2 := by
  unfold prune
  split
  · exact ⟨ho, hr⟩
  · split
    · rename_i h
      exact ⟨⟨h, hp⟩, hr⟩
    · obtain ⟨h1, h2, h3⟩ := pruneLoop_spec W.dist deg (pool.map (fun c => (c, false)))
      have e : (pool.map (fun c : Cand => (c, false))).map Prod.fst = pool := by rw [List.map_map]; exact List.map_id _
      rw [e] at h1 h3
      refine ⟨⟨h2, hp.sublist h1⟩, ?_⟩
      simp only
      split
      · intro c hc
        rcases List.mem_append.mp (List.mem_of_mem_take hc) with hc | hc
        · exact hr c hc
        · exact hp.recs c (h3 c hc)
      · exact hr

/-! ### Reverse edges -/

structure VInv (n : Nat) (s : RState) : Prop where
  clean : ∀ i, i < n → Clean n i (s.lists i ++ s.buf i)
  len : ∀ i, i < n → (s.lists i).length ≤ deg
  prog : ∀ i m j, s.prog i = some (m, j) → i < n ∧ j ≤ m ∧ m ≤ (s.lists i).length
  hist : ∀ dst src, dst < n → src ∈ idsOf (s.buf dst) → ∃ m j k c, s.prog src = some (m, j) ∧ k < j ∧ (s.lists src)[k]? = some c ∧ c.1 = dst

theorem upd_self {α : Type} (f : Nat → α) (i : Nat) (x : α) : upd f i x i = x := by simp [upd]
theorem upd_ne {α : Type} (f : Nat → α) {i j : Nat} (x : α) (h : j ≠ i) : upd f i x j = f j := by simp [upd, h]

theorem idsOf_append (a b : List Cand) : idsOf (a ++ b) = idsOf a ++ idsOf b := by simp [idsOf]

theorem VInv.step {n : Nat} {s t : RState} (h : VInv n s) (hs : RStep n s t) : VInv n t := by
  cases hs with
  | begin i hi hp =>
    refine ⟨h.clean, h.len, ?_, ?_⟩
    · intro i' m j he
      simp only at he
      by_cases hii : i' = i
      · subst hii
        rw [upd_self] at he
        cases he
        exact ⟨hi, by omega, Nat.le_refl _⟩
      · rw [upd_ne _ _ hii] at he
        exact h.prog i' m j he
    · intro dst src hd hsrc
      obtain ⟨m, j, k, c, h1, h2, h3, h4⟩ := h.hist dst src hd hsrc
      refine ⟨m, j, k, c, ?_, h2, h3, h4⟩
      simp only
      rw [upd_ne _ _ (by intro he; rw [he, hp] at h1; cases h1)]
      exact h1
  | edge i m j c hp hj hc =>
    obtain ⟨hi, hjm, hml⟩ := h.prog i m j hp
    have hcl := h.clean i hi
    have hcm : c ∈ s.lists i := List.mem_of_getElem? hc
    have hcid : c.1 ∈ idsOf (s.lists i ++ s.buf i) := by
      rw [idsOf_append]; exact List.mem_append_left _ (List.mem_map.mpr ⟨c, hcm, rfl⟩)
    have hdst : c.1 < n := hcl.2.2 _ hcid
    have hne : c.1 ≠ i := fun he => hcl.2.1 (he ▸ hcid)
    have hnd : (idsOf (s.lists i)).Nodup := (hcl.sublist (List.sublist_append_left _ _)).1
    have hget : ∀ (l : List Cand) (k : Nat) (x : Cand), l[k]? = some x → (idsOf l)[k]? = some x.1 := by
      intro l k x hx
      unfold idsOf; rw [List.getElem?_map, hx]; rfl
    have hnb : i ∉ idsOf (s.buf c.1) := by
      intro hin
      obtain ⟨m', j', k, c', h1, h2, h3, h4⟩ := h.hist c.1 i hdst hin
      rw [hp] at h1
      cases h1
      have e1 := hget _ _ _ h3
      have e2 := hget _ _ _ hc
      rw [h4] at e1
      have := (List.nodup_iff_getElem?_ne_getElem?.mp hnd) k j (by omega) (List.getElem?_eq_some_iff.mp e2).1
      rw [e1, e2] at this
      exact this rfl
    -- the parts that do not depend on the branch
    have hprog : ∀ (lists' : Nat → List Cand), (∀ x, ∃ sfx, lists' x = s.lists x ++ sfx) → ∀ i' m' j', upd s.prog i (some (m, j + 1)) i' = some (m', j') →
        i' < n ∧ j' ≤ m' ∧ m' ≤ (lists' i').length := by
      intro lists' hl i' m' j' he
      obtain ⟨sfx, hs⟩ := hl i'
      rw [hs, List.length_append]
      by_cases hii : i' = i
      · subst hii
        rw [upd_self] at he
        cases he
        exact ⟨hi, by omega, by omega⟩
      · rw [upd_ne _ _ hii] at he
        have := h.prog i' m' j' he
        exact ⟨this.1, this.2.1, by omega⟩
    have hhist : ∀ (lists' : Nat → List Cand), (∀ x, ∃ sfx, lists' x = s.lists x ++ sfx) → ∀ dst src, dst < n →
        (src ∈ idsOf (s.buf dst) ∨ (dst = c.1 ∧ src = i)) →
        ∃ m' j' k c', upd s.prog i (some (m, j + 1)) src = some (m', j') ∧ k < j' ∧ (lists' src)[k]? = some c' ∧ c'.1 = dst := by
      intro lists' hl dst src hd hsrc
      obtain ⟨sfx, hsf⟩ := hl src
      rcases hsrc with hsrc | ⟨rfl, rfl⟩
      · obtain ⟨m', j', k, c', h1, h2, h3, h4⟩ := h.hist dst src hd hsrc
        have h3' : (lists' src)[k]? = some c' := by
          rw [hsf, List.getElem?_append_left (List.getElem?_eq_some_iff.mp h3).1]; exact h3
        by_cases hii : src = i
        · subst hii
          rw [hp] at h1
          cases h1
          exact ⟨m, j + 1, k, c', upd_self _ _ _, by omega, h3', h4⟩
        · exact ⟨m', j', k, c', by rw [upd_ne _ _ hii]; exact h1, h2, h3', h4⟩
      · exact ⟨m, j + 1, j, c, upd_self _ _ _, by omega,
          by rw [hsf, List.getElem?_append_left (List.getElem?_eq_some_iff.mp hc).1]; exact hc, rfl⟩
    have hsame : ∀ x, ∃ sfx, s.lists x = s.lists x ++ sfx := fun x => ⟨[], by simp⟩
    unfold revEdge
    split
    · exact ⟨h.clean, h.len, hprog _ hsame, fun dst src hd hsrc => hhist _ hsame dst src hd (.inl hsrc)⟩
    · rename_i hnl
      split
      · rename_i hlt
        have hsfx : ∀ x, ∃ sfx, upd s.lists c.1 (s.lists c.1 ++ [(i, c.2)]) x = s.lists x ++ sfx := by
          intro x
          by_cases hx : x = c.1
          · subst hx; exact ⟨_, upd_self _ _ _⟩
          · exact ⟨[], by rw [upd_ne _ _ hx]; simp⟩
        refine ⟨?_, ?_, hprog _ hsfx, fun dst src hd hsrc => hhist _ hsfx dst src hd (.inl hsrc)⟩
        · intro x hx
          simp only
          by_cases hxc : x = c.1
          · subst hxc
            rw [upd_self]
            have := (h.clean c.1 hx).append (c := (i, c.2)) (by
              rw [idsOf_append]
              intro hh
              rcases List.mem_append.mp hh with hh | hh
              · exact hnl hh
              · exact hnb hh) (Ne.symm hne) hi
            refine this.perm ?_
            rw [List.append_assoc, List.append_assoc]
            exact List.Perm.append_left _ List.perm_append_comm
          · rw [upd_ne _ _ hxc]; exact h.clean x hx
        · intro x hx
          simp only
          by_cases hxc : x = c.1
          · subst hxc; rw [upd_self]; simp; omega
          · rw [upd_ne _ _ hxc]; exact h.len x hx
      · split
        · refine ⟨?_, h.len, hprog _ hsame, ?_⟩
          · intro x hx
            simp only
            by_cases hxc : x = c.1
            · subst hxc
              rw [upd_self, ← List.append_assoc]
              refine (h.clean c.1 hx).append (c := (i, c.2)) ?_ (Ne.symm hne) hi
              rw [idsOf_append]
              intro hh
              rcases List.mem_append.mp hh with hh | hh
              · exact hnl hh
              · exact hnb hh
            · rw [upd_ne _ _ hxc]; exact h.clean x hx
          · intro dst src hd hsrc
            simp only at hsrc ⊢
            refine hhist _ hsame dst src hd ?_
            by_cases hxc : dst = c.1
            · subst hxc
              rw [upd_self, idsOf_append] at hsrc
              rcases List.mem_append.mp hsrc with hh | hh
              · exact .inl hh
              · exact .inr ⟨rfl, by simpa [idsOf] using hh⟩
            · rw [upd_ne _ _ hxc] at hsrc; exact .inl hsrc
        · exact ⟨h.clean, h.len, hprog _ hsame, fun dst src hd hsrc => hhist _ hsame dst src hd (.inl hsrc)⟩

theorem VInv.run {n : Nat} {s t : RState} (h : VInv n s) (hs : RRun n s t) : VInv n t := by
  induction hs with
  | refl => exact h
  | step _ hst ih => exact ih.step hst

theorem VInv.start {n : Nat} {lists : Nat → List Cand} (hl : ∀ i, i < n → Good n i (lists i)) : VInv n ⟨lists, fun _ => [], fun _ => none⟩ :=
  ⟨fun i hi => by simpa using (hl i hi).2, fun i hi => (hl i hi).1, (by intro i m j h; simp at h), (by intro dst src _ h; simp [idsOf] at h)⟩

/-- The work left. -/
def RState.work (n : Nat) (s : RState) : Nat := (Finset.range n).sum (fun i => match s.prog i with | none => deg + 1 | some (m, j) => m - j)

theorem VInv.step_work {n : Nat} {s t : RState} (h : VInv n s) (hs : RStep n s t) : t.work n < s.work n := by
  have key : ∀ (f g : Nat → Nat) (i : Nat), i < n → (∀ x, x ≠ i → f x = g x) → f i < g i → (Finset.range n).sum f < (Finset.range n).sum g := by
    intro f g i hi hx hlt
    apply Finset.sum_lt_sum
    · intro x _
      by_cases he : x = i
      · subst he; omega
      · rw [hx x he]
    · exact ⟨i, Finset.mem_range.mpr hi, hlt⟩
  cases hs with
  | begin i hi hp =>
    refine key _ _ i hi ?_ ?_
    · intro x hx; simp only; rw [upd_ne _ _ hx]
    · simp only
      rw [upd_self, hp]
      have := h.len i hi
      simp only
      omega
  | edge i m j c hp hj hc =>
    obtain ⟨hi, hjm, hml⟩ := h.prog i m j hp
    refine key _ _ i hi ?_ ?_
    · intro x hx; simp only; rw [upd_ne _ _ hx]
    · simp only
      rw [upd_self, hp]
      simp only
      omega

theorem VInv.progress {n : Nat} {s : RState} (h : VInv n s) (hd : ¬ s.done n) : ∃ t, RStep n s t := by
  unfold RState.done at hd
  push Not at hd
  obtain ⟨i, hi, hx⟩ := hd
  match hp : s.prog i with
  | none => exact ⟨_, .begin s i hi hp⟩
  | some (m, j) =>
    obtain ⟨-, hjm, hml⟩ := h.prog i m j hp
    have hne : j ≠ m := by intro he; subst he; exact hx j hp
    exact ⟨_, .edge s i m j _ hp (by omega) (List.getElem?_eq_getElem (by omega))⟩

/-- Every run can be continued to its end. -/
theorem VInv.finish {n : Nat} (m : Nat) : ∀ {s : RState}, VInv n s → s.work n ≤ m → ∃ t, RRun n s t ∧ t.done n := by
  have head : ∀ {s t u : RState}, RStep n s t → RRun n t u → RRun n s u := by
    intro s t u h1 h2
    induction h2 with
    | refl => exact .step (.refl _) h1
    | step _ hst ih => exact .step ih hst
  induction m with
  | zero =>
    intro s h hm
    by_cases hd : s.done n
    · exact ⟨s, .refl s, hd⟩
    · obtain ⟨t, ht⟩ := h.progress hd
      have := h.step_work ht
      omega
  | succ m ih =>
    intro s h hm
    by_cases hd : s.done n
    · exact ⟨s, .refl s, hd⟩
    · obtain ⟨t, ht⟩ := h.progress hd
      have := h.step_work ht
      obtain ⟨u, hu1, hu2⟩ := ih (h.step ht) (by omega)
      exact ⟨u, head ht hu1, hu2⟩

/-! ### Supplement -/

theorem addPruned_spec {n i : Nat} (occ : List Cand → Cand → Bool) (recs : List Cand) : ∀ (res : List Cand), Recs n i recs → Good n i res →
    Good n i (addPruned occ recs res) := by
  induction recs with
  | nil => intro res _ h; exact h
  | cons c cs ih =>
    intro res hr h
    have hr' : Recs n i cs := fun x hx => hr x (by simp [hx])
    unfold addPruned
    split
    · rename_i hl
      split
      · exact ih res hr' h
      · rename_i hn
        split
        · exact ih res hr' h
        · refine ih _ hr' ⟨?_, ?_⟩
          · rw [(sortC_perm _).length_eq]; simp; omega
          · exact (h.2.append hn (hr c (by simp)).1 (hr c (by simp)).2).perm (sortC_perm _)
    · exact h

theorem supplementNode_good {W : World} (occ : List Cand → Cand → Bool) {draw : Nat → Nat} (hd : ∀ t, draw t < W.n) {fuel i : Nat} {cur recs out : List Cand}
    (hc : Good W.n i cur) (hr : Recs W.n i recs) (h : supplementNode W occ draw fuel i cur recs = some out) : Good W.n i out ∧ out.length = deg := by
  unfold supplementNode at h
  split at h
  · cases h
    have := hc.1
    exact ⟨hc, by omega⟩
  · have hr' : Recs W.n i (sortC recs) := fun c hc' => hr c ((sortC_perm recs).mem_iff.mp hc')
    exact fillLoop_good hd i fuel 0 _ _ (addPruned_spec occ _ _ hr' hc) h

/-! ### The entry point -/

theorem bestOf_spec (dc : Nat → Int) (l : List Nat) : ∀ (b : Nat × Int), (bestOf dc l b).2 ≤ b.2 ∧ (∀ v ∈ l, (bestOf dc l b).2 ≤ dc v) ∧
    (bestOf dc l b = b ∨ ∃ v ∈ l, bestOf dc l b = (v, dc v)) := by
  induction l with
  | nil => intro b; simp [bestOf]
  | cons v vs ih =>
    intro b
    unfold bestOf
    split
    · obtain ⟨h1, h2, h3⟩ := ih (v, dc v)
      refine ⟨by simp only at h1; omega, ?_, ?_⟩
      · intro w hw
        rcases List.mem_cons.mp hw with rfl | hw
        · exact h1
        · exact h2 w hw
      · rcases h3 with h3 | ⟨w, hw, h3⟩
        · exact .inr ⟨v, by simp, h3⟩
        · exact .inr ⟨w, by simp [hw], h3⟩
    · obtain ⟨h1, h2, h3⟩ := ih b
      refine ⟨h1, ?_, ?_⟩
      · intro w hw
        rcases List.mem_cons.mp hw with rfl | hw
        · omega
        · exact h2 w hw
      · rcases h3 with h3 | ⟨w, hw, h3⟩
        · exact .inl h3
        · exact .inr ⟨w, by simp [hw], h3⟩

theorem bestEntry_spec (l : List (Nat × Int)) : ∀ (b : Nat × Int), (bestEntry l b).2 ≤ b.2 ∧ (∀ e ∈ l, (bestEntry l b).2 ≤ e.2) ∧
    (bestEntry l b = b ∨ bestEntry l b ∈ l) := by
  induction l with
  | nil => intro b; simp [bestEntry]
  | cons v vs ih =>
    intro b
    unfold bestEntry
    split
    · obtain ⟨h1, h2, h3⟩ := ih v
      refine ⟨by omega, ?_, ?_⟩
      · intro w hw
        rcases List.mem_cons.mp hw with rfl | hw
        · exact h1
        · exact h2 w hw
      · rcases h3 with h3 | h3
        · exact .inr (by rw [h3]; simp)
        · exact .inr (by simp [h3])
    · obtain ⟨h1, h2, h3⟩ := ih b
      refine ⟨h1, ?_, ?_⟩
      · intro w hw
        rcases List.mem_cons.mp hw with rfl | hw
        · omega
        · exact h2 w hw
      · rcases h3 with h3 | h3
        · exact .inl h3
        · exact .inr (by simp [h3])

/-! ### An iteration -/

theorem searchNode_spec {W : World} (hW : W.Ok) (est : Nat → Nat → Nat → Int) (sup : Bool) {lists : Nat → List Cand}
    (hl : ∀ i, i < W.n → Good W.n i (lists i)) {i : Nat} (hi : i < W.n) {fuel : Nat} (hf : 33 * W.n + 1 ≤ fuel) :
    ∃ l r, searchNode W est fuel sup lists i = some (l, r) ∧ Good W.n i l ∧ Recs W.n i r := by
  obtain ⟨pool, e1, e2⟩ := candidates_spec hW est hl hi hf
  obtain ⟨h1, h2⟩ := prune_spec sup e2 (hl i hi) (recs := []) (by intro c hc; cases hc)
  refine ⟨_, _, ?_, h1, h2⟩
  unfold searchNode
  rw [e1]
  rfl

theorem Iter.good {W : World} (hW : W.Ok) {est : Nat → Nat → Nat → Int} {sup : Bool} {lists lists' recs' : Nat → List Cand}
    (hl : ∀ i, i < W.n → Good W.n i (lists i)) {fuel : Nat} (hf : 33 * W.n + 1 ≤ fuel) (h : Iter W est fuel sup lists lists' recs') :
    ∀ i, i < W.n → Good W.n i (lists' i) ∧ Recs W.n i (recs' i) := by
  obtain ⟨l1, r1, s, h1, h2, -, h4⟩ := h
  have hn : ∀ i, i < W.n → Good W.n i (l1 i) ∧ Recs W.n i (r1 i) := by
    intro i hi
    obtain ⟨l, r, e1, e2, e3⟩ := searchNode_spec hW est sup hl hi hf
    rw [h1 i hi] at e1
    cases e1
    exact ⟨e2, e3⟩
  have hv := (VInv.start (fun i hi => (hn i hi).1)).run h2
  intro i hi
  have e := h4 i hi
  have hcl : Clean W.n i (sortC (s.buf i ++ s.lists i)) :=
    (hv.clean i hi).perm ((sortC_perm _).trans List.perm_append_comm)
  have := prune_spec sup hcl ⟨hv.len i hi, (hv.clean i hi).sublist (List.sublist_append_left _ _)⟩ (hn i hi).2
  unfold reverseNode at e
  rw [← e] at this
  exact this

theorem Iter.exists {W : World} (hW : W.Ok) (est : Nat → Nat → Nat → Int) (sup : Bool) {lists : Nat → List Cand}
    (hl : ∀ i, i < W.n → Good W.n i (lists i)) {fuel : Nat} (hf : 33 * W.n + 1 ≤ fuel) : ∃ lists' recs', Iter W est fuel sup lists lists' recs' := by
  have hsn : ∀ i, ∃ x : List Cand × List Cand, i < W.n → searchNode W est fuel sup lists i = some (x.1, x.2) ∧ Good W.n i x.1 := by
    intro i
    by_cases hi : i < W.n
    · obtain ⟨l, r, e1, e2, -⟩ := searchNode_spec hW est sup hl hi hf
      exact ⟨(l, r), fun _ => ⟨e1, e2⟩⟩
    · exact ⟨([], []), fun h => absurd h hi⟩
  choose x hx using hsn
  obtain ⟨s, s1, s2⟩ := VInv.finish _ (VInv.start (lists := fun i => (x i).1) (fun i hi => (hx i hi).2)) (Nat.le_refl _)
  exact ⟨fun i => (reverseNode W sup s (x i).2 i).1, fun i => (reverseNode W sup s (x i).2 i).2, fun i => (x i).1, fun i => (x i).2, s,
    fun i hi => (hx i hi).1, s1, s2, fun i _ => rfl⟩

end Alaya.Qg
