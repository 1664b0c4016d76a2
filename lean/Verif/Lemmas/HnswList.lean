import Verif.Model.Hnsw
import Mathlib.Tactic.ByContra
import Mathlib.Tactic.Tauto
import Mathlib.Data.List.Perm.Basic

/-! Lemmas about the queues and scans of the HNSW construction. -/
namespace Alaya.Hnsw

/-- A queue returns one of its entries, and none is larger. -/
def PickOk (pk : Pick) : Prop := ∀ l, l ≠ [] → pk l ∈ l ∧ ∀ x ∈ l, x.1 ≤ (pk l).1

theorem next_spec {pk : Pick} (h : PickOk pk) {l : List Cand} (hl : l ≠ []) : next pk l ∈ l ∧ ∀ x ∈ l, (next pk l).1 ≤ x.1 := by
  obtain ⟨h1, h2⟩ := h (l.map (fun y => (-y.1, y.2))) (by simpa using hl)
  obtain ⟨y, hy, e⟩ := List.mem_map.mp h1
  have en : next pk l = y := by
    unfold next; rw [← e]; simp
  refine ⟨en ▸ hy, fun x hx => ?_⟩
  have := h2 _ (List.mem_map.mpr ⟨x, hx, rfl⟩)
  rw [en]
  rw [← e] at this
  simp at this
  exact this

theorem sortIns_perm (a : Cand) (l : List Cand) : (sortIns a l).Perm (a :: l) := by
  induction l with
  | nil => exact List.Perm.refl _
  | cons b l ih =>
    unfold sortIns
    split
    · exact (List.Perm.cons b ih).trans (List.Perm.swap a b l)
    · exact List.Perm.refl _

theorem sortC_perm (l : List Cand) : (sortC l).Perm l := by
  induction l with
  | nil => exact List.Perm.refl _
  | cons a l ih => exact (sortIns_perm a _).trans (ih.cons a)

theorem before_total (a b : Cand) (h : before b a = false) : before a b = true ∨ a = b := by
  unfold before at *
  simp only [decide_eq_false_iff_not, not_or, not_and, decide_eq_true_eq] at *
  obtain ⟨h1, h2⟩ := h
  by_cases e : a.1 = b.1
  · have := h2 e.symm
    by_cases e2 : a.2 = b.2
    · right; exact Prod.ext e e2
    · left; right; omega
  · left; left; omega

/-- Nearest first. -/
theorem sortC_sorted (l : List Cand) : (sortC l).Pairwise (fun a b => a.1 ≤ b.1) := by
  induction l with
  | nil => exact List.Pairwise.nil
  | cons a l ih =>
    have key : ∀ l : List Cand, l.Pairwise (fun a b => a.1 ≤ b.1) → (sortIns a l).Pairwise (fun a b => a.1 ≤ b.1) := by
      intro l
      induction l with
      | nil => intro _; exact List.pairwise_singleton _ _
      | cons b l ih2 =>
        intro h
        obtain ⟨h1, h2⟩ := List.pairwise_cons.mp h
        unfold sortIns
        split
        · rename_i hb
          refine List.pairwise_cons.mpr ⟨fun x hx => ?_, ih2 h2⟩
          rcases List.mem_cons.mp ((sortIns_perm a l).mem_iff.mp hx) with rfl | hx
          · unfold before at hb; simp only [decide_eq_true_eq] at hb; omega
          · exact h1 x hx
        · rename_i hb
          have hab : a.1 ≤ b.1 := by
            unfold before at hb; simp only [decide_eq_true_eq] at hb; omega
          refine List.pairwise_cons.mpr ⟨fun x hx => ?_, h⟩
          rcases List.mem_cons.mp hx with rfl | hx
          · exact hab
          · exact Int.le_trans hab (h1 x hx)
    exact key _ ih

/-! ### The selection of neighbours -/

theorem heurLoop_spec (dd : Nat → Nat → Int) (m : Nat) : ∀ (q ret : List Cand), ret.length ≤ m →
    ∃ add, heurLoop dd m q ret = ret ++ add ∧ add.Sublist q ∧ (ret ++ add).length ≤ m := by
  intro q
  induction q with
  | nil => intro ret h; exact ⟨[], by simp [heurLoop], List.Sublist.refl _, by simpa using h⟩
  | cons x xs ih =>
    intro ret h
    unfold heurLoop
    split
    · exact ⟨[], by simp, List.nil_sublist _, by simpa using h⟩
    · rename_i hm
      split
      · obtain ⟨add, e, hs, hl⟩ := ih ret h
        exact ⟨add, e, hs.cons x, hl⟩
      · obtain ⟨add, e, hs, hl⟩ := ih (ret ++ [x]) (by simp; omega)
        exact ⟨x :: add, by simpa using e, hs.cons_cons x, by simpa using hl⟩

theorem heur_spec {dd : Nat → Nat → Int} {m : Nat} (hm : 0 < m) {q : List Cand} (hq : (q.map Prod.snd).Nodup) :
    (heur dd m q).length ≤ m ∧ ((heur dd m q).map Prod.snd).Nodup ∧ (∀ x ∈ heur dd m q, x ∈ q) ∧ (q ≠ [] → heur dd m q ≠ []) := by
  unfold heur
  split
  · rename_i h
    exact ⟨by omega, hq, fun x hx => hx, fun h => h⟩
  · obtain ⟨add, e, hs, hl⟩ := heurLoop_spec dd m (sortC q) [] (by simp)
    rw [e]
    have hp := sortC_perm q
    have hnd : ((sortC q).map Prod.snd).Nodup := (hp.map Prod.snd).nodup_iff.mpr hq
    refine ⟨hl, ?_, fun x hx => hp.mem_iff.mp (hs.subset (by simpa using hx)), fun hne => ?_⟩
    · simpa using hnd.sublist (hs.map Prod.snd)
    · intro he
      rw [he] at e
      cases hsq : sortC q with
      | nil => rw [hsq] at hp; exact hne (List.Perm.nil_eq hp).symm
      | cons y ys =>
        rw [hsq] at e
        unfold heurLoop at e
        rw [if_neg (by simp; omega), if_neg (by simp)] at e
        obtain ⟨add', e', _, _⟩ := heurLoop_spec dd m ys ([] ++ [y]) (by simp; omega)
        rw [e'] at e
        simp at e

theorem popAll_perm {pk : Pick} (h : PickOk pk) : ∀ (k : Nat) (q : List Cand), q.length = k → (popAll pk k q).Perm (q.map Prod.snd) := by
  intro k
  induction k with
  | zero => intro q hq; rw [List.length_eq_zero_iff] at hq; subst hq; exact List.Perm.refl _
  | succ k ih =>
    intro q hq
    have hne : q ≠ [] := by intro e; rw [e] at hq; simp at hq
    obtain ⟨h1, _⟩ := h q hne
    have hl : (q.erase (pk q)).length = k := by rw [List.length_erase_of_mem h1]; omega
    unfold popAll
    have := ((ih _ hl).cons (pk q).2)
    exact this.trans ((List.perm_cons_erase h1).map Prod.snd).symm

/-! ### The way down -/

theorem nearer_spec (d : Nat → Int) : ∀ (l : List Nat) (r : Nat × Int × Bool), r.2.1 = d r.1 →
    (nearer d l r).2.1 = d (nearer d l r).1 ∧ ((nearer d l r).1 = r.1 ∨ (nearer d l r).1 ∈ l) ∧
    (nearer d l r).2.1 ≤ r.2.1 ∧
    ((nearer d l r = r) ∨ ((nearer d l r).2.2 = true ∧ (nearer d l r).2.1 < r.2.1)) := by
  intro l
  induction l with
  | nil => intro r h; exact ⟨h, .inl rfl, Int.le_refl _, .inl rfl⟩
  | cons v vs ih =>
    intro r h
    unfold nearer
    split
    · rename_i hv
      obtain ⟨h1, h2, h3, h4⟩ := ih (v, d v, true) rfl
      simp only at h3 h4
      refine ⟨h1, .inr ?_, by omega, .inr ?_⟩
      · rcases h2 with h2 | h2
        · rw [h2]; exact List.mem_cons_self
        · exact List.mem_cons_of_mem _ h2
      · rcases h4 with h4 | h4
        · rw [h4]; exact ⟨rfl, hv⟩
        · exact ⟨h4.1, by omega⟩
    · obtain ⟨h1, h2, h3, h4⟩ := ih r h
      exact ⟨h1, h2.imp id (List.mem_cons_of_mem _), h3, h4⟩

/-! ### The search of a layer -/

/-- What holds for the locals of `search_base_layer`: `P` of every visited node, `F` of every expanded one. -/
structure SOk (d : Nat → Int) (P F : Nat → Prop) (ef : Nat) (st : Srch) : Prop where
  top_ne : st.top ≠ []
  top_len : st.top.length ≤ ef
  top_nd : (st.top.map Prod.snd).Nodup
  top_vis : ∀ x ∈ st.top, x.2 ∈ st.vis
  cand_vis : ∀ x ∈ st.cand, x.2 ∈ st.vis
  vis : ∀ v ∈ st.vis, P v
  vis_nd : st.vis.Nodup
  dist : ∀ x ∈ st.top, x.1 = d x.2
  lb : ∀ x ∈ st.top, x.1 ≤ st.lb
  opened : ∀ x ∈ st.top, F x.2 ∨ x ∈ st.cand

theorem SOk.mono {d d' : Nat → Int} {P P' F F' : Nat → Prop} {ef : Nat} {st : Srch} (h : SOk d P F ef st) (hP : ∀ v, P v → P' v)
    (hF : ∀ v, F v → F' v) (hd : ∀ v, P v → d v = d' v) : SOk d' P' F' ef st where
  top_ne := h.top_ne
  top_len := h.top_len
  top_nd := h.top_nd
  top_vis := h.top_vis
  cand_vis := h.cand_vis
  vis := fun v hv => hP v (h.vis v hv)
  vis_nd := h.vis_nd
  dist := fun x hx => (h.dist x hx).trans (hd _ (h.vis _ (h.top_vis x hx)))
  lb := h.lb
  opened := fun x hx => (h.opened x hx).imp (hF _) id

theorem SOk.start {d : Nat → Int} {P F : Nat → Prop} {ef u : Nat} (hef : 0 < ef) (hu : P u) : SOk d P F ef (.start d u) where
  top_ne := by simp [Srch.start]
  top_len := by simp [Srch.start]; omega
  top_nd := by simp [Srch.start]
  top_vis := by simp [Srch.start]
  cand_vis := by simp [Srch.start]
  vis := by simpa [Srch.start] using hu
  vis_nd := by simp [Srch.start]
  dist := by simp [Srch.start]
  lb := by simp [Srch.start]
  opened := fun x hx => .inr hx

/-- Weight of a search: it falls with every expanded node. -/
def Srch.w (n : Nat) (st : Srch) : Nat := st.cand.length + (n - st.vis.length)

theorem scan_spec {d : Nat → Int} {P F : Nat → Prop} {ef : Nat} {pk : Pick} (hp : PickOk pk) (hef : 0 < ef) (n : Nat)
    (hn : ∀ v, P v → v < n) : ∀ (l : List Nat) (st : Srch), (∀ v ∈ l, P v) → SOk d P F ef st →
    SOk d P F ef (scan d ef pk l st) ∧ (scan d ef pk l st).w n ≤ st.w n := by
  intro l
  induction l with
  | nil => intro st _ h; exact ⟨h, Nat.le_refl _⟩
  | cons v vs ih =>
    intro st hl h
    have hvP : P v := hl v List.mem_cons_self
    have hl' : ∀ u ∈ vs, P u := fun u hu => hl u (List.mem_cons_of_mem _ hu)
    unfold scan
    split
    · exact ih st hl' h
    · rename_i hv
      have hvis : ∀ u ∈ v :: st.vis, P u := by
        intro u hu
        rcases List.mem_cons.mp hu with rfl | hu
        · exact hvP
        · exact h.vis u hu
      have hnd : (v :: st.vis).Nodup := List.nodup_cons.mpr ⟨hv, h.vis_nd⟩
      have hlen : (v :: st.vis).length ≤ n := by
        have : (v :: st.vis).Subperm (List.range n) := List.subperm_of_subset hnd (fun u hu => List.mem_range.mpr (hn u (hvis u hu)))
        simpa using this.length_le
      simp only [List.length_cons] at hlen
      split
      · set t1 := (d v, v) :: st.top with ht1
        set t := if ef < t1.length then t1.erase (pk t1) else t1 with ht
        have ht1nd : (t1.map Prod.snd).Nodup := by
          rw [ht1, List.map_cons, List.nodup_cons]
          refine ⟨fun hm => hv ?_, h.top_nd⟩
          obtain ⟨x, hx, e⟩ := List.mem_map.mp hm
          have e' : x.2 = v := e
          rw [← e']; exact h.top_vis x hx
        have hsub : t.Sublist t1 := by
          rw [ht]; split
          · exact List.erase_sublist
          · exact List.Sublist.refl _
        have hmem : ∀ x ∈ t, x = (d v, v) ∨ x ∈ st.top := fun x hx => List.mem_cons.mp (hsub.subset hx)
        have htl : t.length ≤ ef ∧ t ≠ [] := by
          have h1 : t1.length = st.top.length + 1 := by rw [ht1]; rfl
          have h2 := h.top_len
          rw [ht]
          split
          · rename_i hgt
            have hne : t1 ≠ [] := by rw [ht1]; simp
            have h3 := List.length_erase_of_mem (hp t1 hne).1
            refine ⟨by omega, fun he => ?_⟩
            rw [he] at h3
            simp at h3
            omega
          · rename_i hgt
            exact ⟨by omega, by rw [ht1]; simp⟩
        refine (ih ⟨t, (d v, v) :: st.cand, v :: st.vis, if t = [] then st.lb else (pk t).1⟩ hl' ?_).imp id ?_
        · exact {
            top_ne := htl.2
            top_len := htl.1
            top_nd := ht1nd.sublist (hsub.map _)
            top_vis := by
              intro x hx
              rcases hmem x hx with rfl | hx
              · exact List.mem_cons_self
              · exact List.mem_cons_of_mem _ (h.top_vis x hx)
            cand_vis := by
              intro x hx
              rcases List.mem_cons.mp hx with rfl | hx
              · exact List.mem_cons_self
              · exact List.mem_cons_of_mem _ (h.cand_vis x hx)
            vis := hvis
            vis_nd := hnd
            dist := by
              intro x hx
              rcases hmem x hx with rfl | hx
              · rfl
              · exact h.dist x hx
            lb := by
              intro x hx
              rw [if_neg htl.2]
              exact (hp t htl.2).2 x hx
            opened := by
              intro x hx
              rcases hmem x hx with rfl | hx
              · exact .inr List.mem_cons_self
              · exact (h.opened x hx).imp id (List.mem_cons_of_mem _) }
        · intro hw
          refine Nat.le_trans hw ?_
          unfold Srch.w
          simp only [List.length_cons]
          omega
      · refine (ih { st with vis := v :: st.vis } hl' ?_).imp id ?_
        · exact { h with
            top_vis := fun x hx => List.mem_cons_of_mem _ (h.top_vis x hx)
            cand_vis := fun x hx => List.mem_cons_of_mem _ (h.cand_vis x hx)
            vis := hvis
            vis_nd := hnd }
        · intro hw
          refine Nat.le_trans hw ?_
          unfold Srch.w
          simp only [List.length_cons]
          omega

end Alaya.Hnsw
