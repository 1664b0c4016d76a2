import Verif.Lemmas.VamanaSeed

/-! Rounds of k-means in exact arithmetic. -/
namespace Alaya.VPart
open Alaya.Vamana (FDist)
open Alaya.PQ (mean_min sum_add sum_zero sum_one sum_congr sum_le)
open Alaya.PQ.Spec (sqDist)

set_option linter.unusedSectionVars false

section
variable {F : Type} [Field F] [LinearOrder F] [IsStrictOrderedRing F]
variable (big eps tol : F) (fd : F → FDist)

theorem getD_map_range (n d : Nat) (f : Nat → F) (h : d < n) : ((List.range n).map f).getD d 0 = f d := by
  rw [List.getD_eq_getElem?_getD, List.getElem?_map, List.getElem?_range h]; rfl

theorem sum_shift (n : Nat) (f : Nat → F) : PQ.Spec.sum (n + 1) f = f 0 + PQ.Spec.sum n (fun d => f (d + 1)) := by
  induction n with
  | zero => simp [PQ.Spec.sum]
  | succ n ih => rw [PQ.Spec.sum, ih, PQ.Spec.sum]; ring

/-- The loop over the coordinates computes the squared distance. -/
theorem sq_eq (dim : Nat) (v p : List F) (hv : v.length = dim) (hp : p.length = dim) :
    sq (exact big eps tol fd) v p = sqDist dim (fun d => v.getD d 0) (fun d => p.getD d 0) := by
  rw [sq_eq_sum]
  unfold sqDist
  induction dim generalizing v p with
  | zero => rw [List.length_eq_zero_iff.1 hv]; rfl
  | succ n ih =>
    cases v with
    | nil => simp at hv
    | cons a v => cases p with
      | nil => simp at hp
      | cons b p =>
        rw [List.zip_cons_cons, List.map_cons, List.sum_cons, ih v p (by simpa using hv) (by simpa using hp), sum_shift]
        simp

theorem dot_cons (a b : F) (v p : List F) : dot (a :: v) (b :: p) = a * b + dot v p := by simp [dot]

/-- The matrix of distances holds the squared distances, too. -/
theorem gemm_eq (v p : List F) (h : v.length = p.length) : (exact big eps tol fd).gemm v p = sq (exact big eps tol fd) v p := by
  rw [sq_eq_sum]
  change -2 * dot v p + dot v v + dot p p = _
  induction v generalizing p with
  | nil => cases p with
    | nil => simp [dot]
    | cons b p => simp at h
  | cons a v ih => cases p with
    | nil => simp at h
    | cons b p =>
      have := ih p (by simpa using h)
      rw [List.zip_cons_cons, List.map_cons, List.sum_cons, ← this, dot_cons, dot_cons, dot_cons]
      ring

theorem near_fold (v : List F) : ∀ (l : List (List F × Nat)) (b : F × Nat),
    let r := l.foldl (fun (b : F × Nat) c => if (exact big eps tol fd).lt ((exact big eps tol fd).gemm v c.1) b.1 then ((exact big eps tol fd).gemm v c.1, c.2) else b) b
    (r = b ∨ ∃ c ∈ l, r = ((exact big eps tol fd).gemm v c.1, c.2)) ∧ r.1 ≤ b.1 ∧ ∀ c ∈ l, r.1 ≤ (exact big eps tol fd).gemm v c.1
  | [], b => ⟨.inl rfl, le_refl _, by simp⟩
  | c :: l, b => by
    simp only [List.foldl_cons]
    by_cases hl : (exact big eps tol fd).gemm v c.1 < b.1
    · have he : (exact big eps tol fd).lt ((exact big eps tol fd).gemm v c.1) b.1 = true := decide_eq_true hl
      rw [if_pos he]
      obtain ⟨h1, h2, h3⟩ := near_fold v l ((exact big eps tol fd).gemm v c.1, c.2)
      refine ⟨.inr ?_, le_trans h2 hl.le, ?_⟩
      · rcases h1 with h1 | ⟨x, hx, h1⟩
        · exact ⟨c, by simp, h1⟩
        · exact ⟨x, by simp [hx], h1⟩
      · intro x hx
        rcases List.mem_cons.1 hx with rfl | hx
        · exact h2
        · exact h3 x hx
    · have he : ¬ (exact big eps tol fd).lt ((exact big eps tol fd).gemm v c.1) b.1 = true := by
        change ¬ decide _ = true
        rw [decide_eq_false hl]; exact Bool.false_ne_true
      rw [if_neg he]
      obtain ⟨h1, h2, h3⟩ := near_fold v l b
      refine ⟨?_, h2, ?_⟩
      · rcases h1 with h1 | ⟨x, hx, h1⟩
        · exact .inl h1
        · exact .inr ⟨x, by simp [hx], h1⟩
      · intro x hx
        rcases List.mem_cons.1 hx with rfl | hx
        · exact le_trans h2 (not_lt.1 hl)
        · exact h3 x hx

theorem nearest_lt (cents : List (List F)) (v : List F) (h : cents ≠ []) : nearest (exact big eps tol fd) cents v < cents.length := by
  have hp := List.length_pos_iff.2 h
  obtain ⟨h1, _, _⟩ := near_fold big eps tol fd v cents.zipIdx (big, 0)
  unfold nearest
  change (cents.zipIdx.foldl _ (big, 0)).2 < _
  rcases h1 with h1 | ⟨c, hc, h1⟩
  · rw [h1]; exact hp
  · rw [h1]
    have := List.mem_zipIdx_iff_getElem?.1 hc
    exact (List.getElem?_eq_some_iff.1 this).1

/-- The nearest centre, if some centre is nearer than the largest float. -/
theorem nearest_min {dim : Nat} {cents : List (List F)} (hc : ∀ c ∈ cents, c.length = dim) {v : List F} (hv : v.length = dim) {k0 : Nat} (hk0 : k0 < cents.length)
    (hb : sq (exact big eps tol fd) v (cents.getD k0 []) < big) {k : Nat} (hk : k < cents.length) :
    sq (exact big eps tol fd) v (cents.getD (nearest (exact big eps tol fd) cents v) []) ≤ sq (exact big eps tol fd) v (cents.getD k []) := by
  have hg : ∀ j (hj : j < cents.length), sq (exact big eps tol fd) v (cents.getD j []) = (exact big eps tol fd).gemm v cents[j] := by
    intro j hj
    have : cents.getD j [] = cents[j] := by simp [hj]
    rw [this, gemm_eq _ _ _ _ _ _ (by rw [hv, hc _ (List.getElem_mem hj)])]
  have hz : ∀ j (hj : j < cents.length), (cents[j], j) ∈ cents.zipIdx := by
    intro j hj; exact List.mem_zipIdx_iff_getElem?.2 (List.getElem?_eq_getElem hj)
  obtain ⟨h1, h2, h3⟩ := near_fold big eps tol fd v cents.zipIdx (big, 0)
  have hn := nearest_lt big eps tol fd cents v (by intro e; rw [e] at hk; simp at hk)
  rw [hg _ hn, hg k hk]
  rcases h1 with h1 | ⟨c, hcm, h1⟩
  · have := h3 _ (hz k0 hk0)
    rw [h1] at this
    rw [hg k0 hk0] at hb
    exact absurd hb (not_lt.2 this)
  · have hcv := List.mem_zipIdx_iff_getElem?.1 hcm
    have hne : nearest (exact big eps tol fd) cents v = c.2 := by
      unfold nearest
      exact congrArg Prod.snd h1
    have h4 := h3 _ (hz k hk)
    rw [h1] at h4
    have : cents[nearest (exact big eps tol fd) cents v] = c.1 := by
      rw [← hne] at hcv
      exact (List.getElem?_eq_some_iff.1 hcv).2
    rw [this]
    exact h4

theorem map_sum_swap {α : Type} (n : Nat) (g : α → Nat → F) : ∀ l : List α,
    (l.map (fun i => PQ.Spec.sum n (g i))).sum = PQ.Spec.sum n (fun d => (l.map (fun i => g i d)).sum)
  | [] => by simp [sum_zero]
  | i :: l => by
    simp only [List.map_cons, List.sum_cons]
    rw [map_sum_swap n g l, ← sum_add]

theorem map_sum_fiber {α : Type} (m : Nat) (a : α → Nat) (g : α → Nat → F) : ∀ l : List α, (∀ v ∈ l, a v < m) →
    (l.map (fun v => g v (a v))).sum = PQ.Spec.sum m (fun k => ((l.filter (fun v => a v = k)).map (fun v => g v k)).sum)
  | [], _ => by simp [sum_zero]
  | v :: l, h => by
    have ih := map_sum_fiber m a g l (fun x hx => h x (by simp [hx]))
    rw [List.map_cons, List.sum_cons, ih, add_comm]
    rw [sum_congr (n := m) (f := fun k => (((v :: l).filter (fun v => a v = k)).map (fun v => g v k)).sum)
      (g := fun k => ((l.filter (fun v => a v = k)).map (fun v => g v k)).sum + (if a v = k then g v (a v) else 0))]
    · rw [sum_add, sum_one m (a v) _ (h v (by simp))]
    · intro k _
      by_cases hk : a v = k
      · rw [if_pos hk, List.filter_cons_of_pos (by simpa using hk), List.map_cons, List.sum_cons, ← hk, add_comm]
      · rw [if_neg hk, List.filter_cons_of_neg (by simpa using hk), add_zero]

theorem residual_eq (data old new : List (List F)) : residual (exact big eps tol fd) data old new =
    (data.map (fun v => sq (exact big eps tol fd) v (new.getD (nearest (exact big eps tol fd) old v) []))).sum := by
  change (data.map _).foldl (· + ·) 0 = _
  rw [foldl_add_sum, zero_add]

theorem recentre_length {F : Type} (A : Ar F) (dim : Nat) (data cents : List (List F)) : (recentre A dim data cents).length = cents.length := by simp [recentre]

theorem recentre_dim {F : Type} (A : Ar F) (dim : Nat) (data cents : List (List F)) : ∀ c ∈ recentre A dim data cents, c.length = dim := by
  intro c hc
  obtain ⟨k, _, rfl⟩ := List.mem_map.1 hc
  unfold centre
  split <;> simp

/-- New centres: the residual does not grow. -/
theorem recentre_residual {dim : Nat} {data : List (List F)} (hd : ∀ v ∈ data, v.length = dim) {cents : List (List F)} (hc : ∀ c ∈ cents, c.length = dim)
    (hne : cents ≠ []) :
    residual (exact big eps tol fd) data cents (recentre (exact big eps tol fd) dim data cents) ≤ residual (exact big eps tol fd) data cents cents := by
  rw [residual_eq, residual_eq]
  have hlt : ∀ v ∈ data, nearest (exact big eps tol fd) cents v < cents.length := fun v _ => nearest_lt big eps tol fd cents v hne
  rw [map_sum_fiber cents.length (nearest (exact big eps tol fd) cents)
      (fun v k => sq (exact big eps tol fd) v ((recentre (exact big eps tol fd) dim data cents).getD k [])) data hlt,
    map_sum_fiber cents.length (nearest (exact big eps tol fd) cents) (fun v k => sq (exact big eps tol fd) v (cents.getD k [])) data hlt]
  refine sum_le ?_
  intro k hk
  by_cases hn : data.filter (fun v => nearest (exact big eps tol fd) cents v = k) = []
  · rw [hn]; simp
  · have hrow : (recentre (exact big eps tol fd) dim data cents).getD k [] =
        (List.range dim).map (fun d => ((data.filter (fun v => nearest (exact big eps tol fd) cents v = k)).map (fun v => v.getD d 0)).sum /
          ((data.filter (fun v => nearest (exact big eps tol fd) cents v = k)).length : F)) := by
      unfold recentre
      rw [List.getD_eq_getElem?_getD, List.getElem?_map, List.getElem?_range hk, Option.map_some, Option.getD_some]
      unfold centre
      rw [if_neg hn]
      refine List.map_congr_left ?_
      intro d _
      change (List.foldl (· + ·) 0 _) * (1 / ((data.filter (fun v => nearest (exact big eps tol fd) cents v = k)).length : F)) = _
      rw [foldl_add_sum, zero_add, mul_one_div]
      rfl
    have hL : ∀ v ∈ data.filter (fun v => nearest (exact big eps tol fd) cents v = k), v.length = dim := fun v hv => hd v (List.mem_of_mem_filter hv)
    generalize data.filter (fun v => nearest (exact big eps tol fd) cents v = k) = L at hn hrow hL ⊢
    have hck : (cents.getD k []).length = dim := by
      have : cents.getD k [] = cents[k] := by simp [hk]
      rw [this]; exact hc _ (List.getElem_mem hk)
    rw [hrow]
    have e1 : L.map (fun v => sq (exact big eps tol fd) v ((List.range dim).map (fun d => (L.map (fun v => v.getD d 0)).sum / (L.length : F)))) =
        L.map (fun v => PQ.Spec.sum dim (fun d => (v.getD d 0 - (L.map (fun v => v.getD d 0)).sum / (L.length : F)) * (v.getD d 0 - (L.map (fun v => v.getD d 0)).sum / (L.length : F)))) := by
      refine List.map_congr_left ?_
      intro v hv
      rw [sq_eq big eps tol fd dim v _ (hL v hv) (by simp)]
      unfold sqDist
      refine sum_congr ?_
      intro d hdl
      simp only
      rw [getD_map_range _ _ _ hdl]
    have e2 : L.map (fun v => sq (exact big eps tol fd) v (cents.getD k [])) =
        L.map (fun v => PQ.Spec.sum dim (fun d => (v.getD d 0 - (cents.getD k []).getD d 0) * (v.getD d 0 - (cents.getD k []).getD d 0))) := by
      refine List.map_congr_left ?_
      intro v hv
      rw [sq_eq big eps tol fd dim v _ (hL v hv) hck]
      rfl
    rw [e1, e2, map_sum_swap, map_sum_swap]
    refine sum_le ?_
    intro d _
    have := mean_min (L.map (fun v => v.getD d 0)) (by simpa using hn) ((cents.getD k []).getD d 0)
    simpa only [List.map_map, Function.comp_def, List.length_map] using this

theorem map_sum_le {α : Type} (f g : α → F) : ∀ l : List α, (∀ v ∈ l, f v ≤ g v) → (l.map f).sum ≤ (l.map g).sum
  | [], _ => by simp
  | v :: l, h => by
    rw [List.map_cons, List.map_cons, List.sum_cons, List.sum_cons]
    exact add_le_add (h v (by simp)) (map_sum_le f g l (fun x hx => h x (by simp [hx])))

theorem le_map_sum {α : Type} (f : α → F) (hf : ∀ v, 0 ≤ f v) : ∀ l : List α, ∀ v ∈ l, f v ≤ (l.map f).sum
  | v :: l, x, hx => by
    rw [List.map_cons, List.sum_cons]
    have hn : 0 ≤ (l.map f).sum := List.sum_nonneg (by
      intro y hy; obtain ⟨z, _, rfl⟩ := List.mem_map.1 hy; exact hf z)
    rcases List.mem_cons.1 hx with rfl | hx
    · linarith
    · have := le_map_sum f hf l x hx
      have := hf v
      linarith

/-- Assigning the vectors anew does not make the residual grow either. -/
theorem reassign_residual {dim : Nat} {data : List (List F)} (hd : ∀ v ∈ data, v.length = dim) {old new : List (List F)} (hn : ∀ c ∈ new, c.length = dim)
    (hl : new.length = old.length) (hne : old ≠ []) (hb : residual (exact big eps tol fd) data old new < big) :
    residual (exact big eps tol fd) data new new ≤ residual (exact big eps tol fd) data old new := by
  rw [residual_eq] at hb
  rw [residual_eq, residual_eq]
  refine map_sum_le _ _ data ?_
  intro v hv
  have ho : nearest (exact big eps tol fd) old v < new.length := by rw [hl]; exact nearest_lt big eps tol fd old v hne
  refine nearest_min big eps tol fd hn (hd v hv) ho (lt_of_le_of_lt ?_ hb) ho
  exact le_map_sum (fun v => sq (exact big eps tol fd) v (new.getD (nearest (exact big eps tol fd) old v) [])) (fun v => sq_nonneg' _ _ _ _ _ _) data v hv

/-- All rounds together. -/
theorem lloyds_residual {dim : Nat} {data : List (List F)} (hd : ∀ v ∈ data, v.length = dim) : ∀ (k : Nat) (o : Option F) (cents : List (List F)),
    (∀ c ∈ cents, c.length = dim) → cents ≠ [] → residual (exact big eps tol fd) data cents cents < big →
    residual (exact big eps tol fd) data (lloyds (exact big eps tol fd) dim data k o cents) (lloyds (exact big eps tol fd) dim data k o cents) ≤
      residual (exact big eps tol fd) data cents cents
  | 0, _, _, _, _, _ => le_refl _
  | k + 1, o, cents, hc, hne, hb => by
    have h1 := recentre_residual big eps tol fd hd hc hne
    have hlen := recentre_length (exact big eps tol fd) dim data cents
    have hdim := recentre_dim (exact big eps tol fd) dim data cents
    have h2 := reassign_residual big eps tol fd hd hdim hlen hne (lt_of_le_of_lt h1 hb)
    unfold lloyds
    simp only
    split
    · exact le_trans h2 h1
    · refine le_trans (lloyds_residual hd k _ _ hdim ?_ (lt_of_le_of_lt (le_trans h2 h1) hb)) (le_trans h2 h1)
      intro e
      rw [e] at hlen
      exact hne (List.length_eq_zero_iff.1 hlen.symm)

end

theorem lloyds_length {F : Type} (A : Ar F) (dim : Nat) (data : List (List F)) : ∀ (k : Nat) (o : Option F) (cents : List (List F)),
    (lloyds A dim data k o cents).length = cents.length
  | 0, _, _ => rfl
  | k + 1, o, cents => by
    unfold lloyds
    simp only
    split
    · exact recentre_length ..
    · rw [lloyds_length, recentre_length]

end Alaya.VPart
