import Verif.Lemmas.Recall

/-!
# C101: recall, exact neighbours and percentiles

Model: Model/Recall.lean.  Spec: Spec/Recall.lean.  What fails is in C101Limits.lean.
-/

namespace Alaya.Recall

variable {α : Type} [DecidableEq α]

/-- `calc_recall` (Python) gives the recall whenever there is a true row for every row and anything to divide by,
otherwise it raises. -/
theorem C101_python (res gt : List (List α)) (col : Nat) :
    pyRecall res col gt =
      if gt.length < res.length ∨ res.length = 0 ∨ col = 0 then none else some (recallOf (res.zip gt) col) := by
  unfold pyRecall
  rw [pyCount_eq]
  by_cases h : gt.length < res.length
  · simp [h]
  · have hl : (res.zip gt).length = res.length := by rw [List.length_zip]; omega
    simp only [h, if_false, false_or, recallOf, hl, Nat.mul_eq_zero]

/-- Recall lies between 0 and 1. It is 1 exactly if every row has only true ids, each once. -/
theorem C101_bounds (rows : List (List α × List α)) (k : Nat) (h : ∀ p ∈ rows, p.1.length = k) (hr : rows ≠ []) (hk : 0 < k) :
    0 ≤ recallOf rows k ∧ recallOf rows k ≤ 1 ∧ (recallOf rows k = 1 ↔ ∀ p ∈ rows, p.1.Nodup ∧ ∀ x ∈ p.1, x ∈ p.2) := by
  obtain ⟨h1, h2⟩ := sum_bound rows k h
  have hpos : 0 < rows.length * k := Nat.mul_pos (List.length_pos_iff.mpr hr) hk
  have hq : (0 : ℚ) < ((rows.length * k : Nat) : ℚ) := by exact_mod_cast hpos
  unfold recallOf
  refine ⟨div_nonneg (Nat.cast_nonneg _) hq.le, ?_, ?_⟩
  · rw [div_le_one₀ hq]; exact_mod_cast h1
  · rw [div_eq_one_iff_eq hq.ne', ← h2]
    exact_mod_cast Iff.rfl

/-- Recall does not depend on the order within rows, nor on the order of the queries. -/
theorem C101_order (rows rows' : List (List α × List α)) (k : Nat) :
    (rows.Perm rows' → recallOf rows k = recallOf rows' k) ∧
      (rows.length = rows'.length → (∀ p ∈ rows.zip rows', p.1.1.Perm p.2.1 ∧ p.1.2.Perm p.2.2) → recallOf rows k = recallOf rows' k) := by
  constructor
  · intro h
    unfold recallOf
    rw [(h.map _).sum_eq, h.length_eq]
  · intro hl h
    unfold recallOf
    rw [hl]
    congr 2
    clear k
    induction rows generalizing rows' with
    | nil => cases rows' with
      | nil => rfl
      | cons a t => cases hl
    | cons a t ih => cases rows' with
      | nil => cases hl
      | cons b t' =>
        simp only [List.zip_cons_cons, List.forall_mem_cons] at h
        simp only [List.map_cons, List.sum_cons]
        rw [ih t' (by simpa using hl) h.2]
        congr 1
        unfold found
        rw [List.toFinset_eq_of_perm _ _ h.1.1, List.toFinset_eq_of_perm _ _ h.1.2]

/-- `recall_at_k` is the recall of the first `k` of every row against the first `k` true ids; it raises if the numbers of
rows differ or are zero, or if `k` is zero. -/
theorem C101_at_k (pred gt : List (List α)) (k : Nat) :
    recallAtK pred gt k =
      if pred.length ≠ gt.length ∨ pred = [] ∨ k = 0 then none
      else some (recallOf ((pred.zip gt).map (fun p => (p.1.take k, p.2.take k))) k) := by
  unfold recallAtK
  by_cases h1 : pred.length ≠ gt.length
  · simp [h1]
  · by_cases h2 : pred = []
    · simp [h2]
    · by_cases h3 : k = 0
      · simp [h3]
      · have h1' : pred.length = gt.length := not_not.mp h1
        rw [if_neg h1, if_neg (by simpa using h2), if_neg (by exact_mod_cast h3), if_neg (by simp [h1', h2, h3])]
        congr 1
        have hl : ((pred.zip gt).map (fun p => (p.1.take k, p.2.take k))).length = pred.length := by simp [h1']
        have hk : ((k : Int) : ℚ) = (k : ℚ) := by norm_cast
        have hk0 : (k : ℚ) ≠ 0 := by exact_mod_cast h3
        have hs : ∀ (p g : List (List α)),
            (List.zipWith (fun p g => (common (upTo p (k : Int)) (upTo g (k : Int)) : ℚ) / ((k : Int) : ℚ)) p g).sum =
              ((((p.zip g).map (fun p => (p.1.take k, p.2.take k))).map (fun p => found p.1 p.2)).sum : Nat) / (k : ℚ) := by
          intro p
          induction p with
          | nil => intro g; simp
          | cons a p ih =>
            intro g
            cases g with
            | nil => simp
            | cons b g =>
              rw [List.zipWith_cons_cons, List.sum_cons, ih g]
              simp only [List.sum_cons, List.zip_cons_cons, List.map_cons, common_eq, upTo, hk]
              have : ¬ ((k : Int) < 0) := by omega
              simp only [this, if_false, Int.toNat_natCast]
              push_cast
              ring
        rw [hs, recallOf, hl]
        have hn : (pred.length : ℚ) ≠ 0 := by
          have := List.length_pos_iff.mpr h2
          exact_mod_cast this.ne'
        push_cast
        field_simp

/-- `calc_recall` (C++), as long as the numbers fit: the places of the result that hold a true id, of all places. -/
theorem C101_cpp (res gt : Nat → α) (q g k : Nat) (hk : q * k < 4294967296) (hg : q * g ≤ 4294967296) (hpos : 0 < q * k) :
    cppRecall res gt q g k =
      some ((((List.range q).map (fun i => (rowOf res k i).countP (fun x => decide (x ∈ rowOf gt g i)))).sum : Nat) / ((q * k : Nat) : ℚ)) := by
  unfold cppRecall
  rw [u32_of_lt hk, if_neg (by omega), cppCount_eq res gt g k q hk hg]

/-- It is the recall if no row of the result repeats an id. -/
theorem C101_cpp_recall (res gt : Nat → α) (q g k : Nat) (hk : q * k < 4294967296) (hg : q * g ≤ 4294967296) (hpos : 0 < q * k)
    (hn : ∀ i < q, (rowOf res k i).Nodup) :
    cppRecall res gt q g k = some (recallOf ((List.range q).map (fun i => (rowOf res k i, rowOf gt g i))) k) := by
  rw [C101_cpp res gt q g k hk hg hpos, recallOf, List.length_map, List.length_range, List.map_map]
  congr 4
  apply List.map_congr_left
  intro i hi
  exact hits_found _ _ (hn i (List.mem_range.mp hi))

/-- `calc_gt`: with at least `topk` items every row holds the `topk` nearest, each once, in order of distance, however the
sort breaks ties. -/
theorem C101_exact_python {D : Type} [LinearOrder D] {sort : List D → List Nat} (h : Argsort sort) (dist : Nat → Nat → D)
    (queries n topk : Nat) (hk : topk ≤ n) :
    ∃ rows, pyGt sort ((List.range queries).map (fun i => (List.range n).map (dist i))) topk = some rows ∧ rows.length = queries ∧
      ∀ i r, rows[i]? = some r → Nearest (dist i) (· < n) topk r ∧ Ascending (dist i) r := by
  have one : ∀ i, pyGtRow sort ((List.range n).map (dist i)) topk = some ((sort ((List.range n).map (dist i))).take topk) := by
    intro i
    have hl : ((sort ((List.range n).map (dist i))).take topk).length = topk := by
      rw [List.length_take, (sort_range h (dist i) n).1.length_eq, List.length_range]; omega
    unfold pyGtRow
    generalize (sort ((List.range n).map (dist i))).take topk = l at hl ⊢
    rcases l with _ | ⟨x, _ | ⟨y, t⟩⟩
    · simp only [assignRow]; rw [if_pos hl]
    · simp only [assignRow]
      rw [← hl]; rfl
    · simp only [assignRow]; rw [if_pos hl]
  refine ⟨(List.range queries).map (fun i => (sort ((List.range n).map (dist i))).take topk), ?_, by simp, ?_⟩
  · unfold pyGt
    rw [List.mapM_map]
    change List.mapM (fun i => pyGtRow sort ((List.range n).map (dist i)) topk) _ = _
    rw [show (fun i => pyGtRow sort ((List.range n).map (dist i)) topk) =
      fun i => some ((sort ((List.range n).map (dist i))).take topk) from funext one]
    exact List.mapM_pure
  · intro i r hr
    rw [List.getElem?_map] at hr
    obtain ⟨a, ha, rfl⟩ := Option.map_eq_some_iff.mp hr
    have : a = i := by
      by_cases hi : i < queries
      · rw [List.getElem?_range hi] at ha; exact (Option.some.inj ha).symm
      · rw [List.getElem?_eq_none (by simpa using hi)] at ha; cases ha
    subst this
    obtain ⟨h1, h2⟩ := sort_range h (dist a) n
    have := take_nearest (dist a) (List.range n) _ topk h1 List.nodup_range h2 (by rw [h1.length_eq, List.length_range]; exact hk)
    simpa using this

/-- `find_exact_gt`: the same among the items that are not deleted, if there are at least `topk` of them. -/
theorem C101_exact_cpp {D : Type} [LinearOrder D] {sort : List D → List Nat} (h : Argsort sort) (dist : Nat → Nat → D)
    (queries n dim topk : Nat) (deleted : Nat → Bool) (hq : 0 < queries) (hn : 0 < n) (hd : 0 < dim)
    (hk : topk ≤ ((List.range n).filter (fun j => !deleted j)).length) :
    ∃ rows, cppGt sort dist (queries * dim) (n * dim) dim deleted topk = some rows ∧ rows.length = queries ∧
      ∀ i r, rows[i]? = some r → Nearest (dist i) (fun j => j < n ∧ deleted j = false) topk r ∧ Ascending (dist i) r := by
  have one : ∀ i, cppGtRow sort (dist i) n deleted topk =
      some (((sort (((List.range n).filter (fun j => !deleted j)).map (dist i))).filterMap (((List.range n).filter (fun j => !deleted j))[·]?)).take topk) := by
    intro i
    unfold cppGtRow firsts
    rw [if_neg]
    rw [(sort_map h (dist i) _).1.length_eq]; omega
  refine ⟨(List.range queries).map (fun i => ((sort (((List.range n).filter (fun j => !deleted j)).map (dist i))).filterMap (((List.range n).filter (fun j => !deleted j))[·]?)).take topk), ?_, by simp, ?_⟩
  · unfold cppGt
    have p1 : 0 < queries * dim := Nat.mul_pos hq hd
    have p2 : 0 < n * dim := Nat.mul_pos hn hd
    rw [if_neg (by omega), if_neg (by omega), if_neg (by simp), Nat.mul_div_cancel _ hd, Nat.mul_div_cancel _ hd]
    rw [show (fun i => cppGtRow sort (dist i) n deleted topk) = fun i => some _ from funext one]
    exact List.mapM_pure
  · intro i r hr
    rw [List.getElem?_map] at hr
    obtain ⟨a, ha, rfl⟩ := Option.map_eq_some_iff.mp hr
    have : a = i := by
      by_cases hi : i < queries
      · rw [List.getElem?_range hi] at ha; exact (Option.some.inj ha).symm
      · rw [List.getElem?_eq_none (by simpa using hi)] at ha; cases ha
    subst this
    obtain ⟨h1, h2⟩ := sort_map h (dist a) ((List.range n).filter (fun j => !deleted j))
    have := take_nearest (dist a) _ _ topk h1 (List.nodup_range.filter _) h2 (by rw [h1.length_eq]; exact hk)
    simpa using this

/-- Recall against exact neighbours, with no two items at the same distance: it is 1 exactly if every row of the result
holds the nearest. -/
theorem C101_exact_recall {D : Type} [LinearOrder D] (dist : Nat → Nat → D) (cand : Nat → Prop) (res gt : List (List Nat)) (k : Nat)
    (hk : 0 < k) (hne : res ≠ []) (hlen : gt.length = res.length) (hres : ∀ r ∈ res, r.length = k)
    (hgt : ∀ i g, gt[i]? = some g → Nearest (dist i) cand k g)
    (inj : ∀ i x y, cand x → cand y → dist i x = dist i y → x = y) :
    pyRecall res k gt = some 1 ↔ ∀ i r, res[i]? = some r → Nearest (dist i) cand k r := by
  have hpos := List.length_pos_iff.mpr hne
  rw [C101_python, if_neg (by omega)]
  have hz : ∀ p ∈ res.zip gt, p.1.length = k := fun p hp => hres p.1 (List.of_mem_zip hp).1
  have hzne : res.zip gt ≠ [] := by
    rw [ne_eq, ← List.length_eq_zero_iff, List.length_zip]; omega
  rw [Option.some.injEq, (C101_bounds _ k hz hzne hk).2.2]
  constructor
  · intro h i r hr
    have hi : i < res.length := (List.getElem?_eq_some_iff.mp hr).1
    have hg : gt[i]? = some gt[i] := List.getElem?_eq_getElem (by omega)
    have hm : (r, gt[i]) ∈ res.zip gt := by
      apply List.mem_of_getElem? (i := i)
      rw [List.getElem?_zip_eq_some]; exact ⟨hr, hg⟩
    exact (nearest_unique (hgt i _ hg) (inj i) (hres r (List.mem_of_getElem? hr))).mp (h _ hm)
  · intro h p hp
    obtain ⟨i, hi⟩ := List.mem_iff_getElem?.mp hp
    obtain ⟨h1, h2⟩ := List.getElem?_zip_eq_some.mp hi
    exact (nearest_unique (hgt i _ h2) (inj i) (hz p hp)).mpr (h i _ h1)

/-- A percentile of some values in ascending order is one of them; more than `q` percent are not above it, at most `q`
percent are below it. -/
theorem C101_percentile {D : Type} [LinearOrder D] (l : List D) (hs : l.Pairwise (· ≤ ·)) (hl : l ≠ []) (q : Nat) (hq : q < 100) :
    ∃ v, percentile l q = some v ∧ v ∈ l ∧ l.length * q < 100 * l.countP (fun x => decide (x ≤ v)) ∧
      100 * l.countP (fun x => decide (x < v)) ≤ l.length * q := by
  have hpos := List.length_pos_iff.mpr hl
  have hlt : l.length * q / 100 < l.length := by
    rw [Nat.div_lt_iff_lt_mul (by omega)]; exact Nat.mul_lt_mul_of_pos_left hq hpos
  have hidx : (max 0 (min ((l.length : Int) - 1) (((l.length : Int) * (q : Int)).tdiv 100))).toNat = l.length * q / 100 := by
    have : ((l.length : Int) * (q : Int)).tdiv 100 = ((l.length * q / 100 : Nat) : Int) := by
      rw [Int.tdiv_eq_ediv_of_nonneg (by positivity)]; norm_cast
    rw [this]; omega
  have hsplit := List.take_append_drop (l.length * q / 100) l
  have hdrop := List.drop_eq_getElem_cons hlt
  refine ⟨l[l.length * q / 100], ?_, List.getElem_mem hlt, ?_, ?_⟩
  · unfold percentile
    rw [if_neg (by simpa using hl), hidx]
    exact List.getElem?_eq_getElem hlt
  · have h1 : l.length * q / 100 + 1 ≤ l.countP (fun x => decide (x ≤ l[l.length * q / 100])) := by
      have : ((l.take (l.length * q / 100 + 1)).countP (fun x => decide (x ≤ l[l.length * q / 100]))) = l.length * q / 100 + 1 := by
        rw [List.countP_eq_length.mpr, List.length_take]
        · omega
        · intro x hx
          obtain ⟨i, hi, rfl⟩ := List.mem_iff_getElem.mp hx
          rw [List.length_take] at hi
          rw [List.getElem_take, decide_eq_true_eq]
          rcases Nat.lt_or_ge i (l.length * q / 100) with h | h
          · exact List.pairwise_iff_getElem.mp hs i _ (by omega) hlt h
          · have : i = l.length * q / 100 := by omega
            subst this; exact le_refl _
      rw [← this]
      exact (List.take_sublist _ _).countP_le
    omega
  · have h1 : l.countP (fun x => decide (x < l[l.length * q / 100])) ≤ l.length * q / 100 := by
      have hcount : ∀ v : D, l.countP (fun x => decide (x < v)) = (l.take (l.length * q / 100)).countP (fun x => decide (x < v)) +
          (l.drop (l.length * q / 100)).countP (fun x => decide (x < v)) := by
        intro v; rw [← List.countP_append, hsplit]
      rw [hcount]
      have h0 : (l.drop (l.length * q / 100)).countP (fun x => decide (x < l[l.length * q / 100])) = 0 := by
        rw [List.countP_eq_zero]
        intro x hx
        obtain ⟨i, hi, rfl⟩ := List.mem_iff_getElem.mp hx
        rw [List.getElem_drop, decide_eq_true_eq, not_lt]
        rcases Nat.eq_zero_or_pos i with h | h
        · subst h; exact le_refl _
        · exact List.pairwise_iff_getElem.mp hs _ _ hlt (by rw [List.length_drop] at hi; omega) (by omega)
      rw [h0]
      refine Nat.le_trans (Nat.add_le_add_right List.countP_le_length 0) ?_
      rw [List.length_take]; omega
    omega

/-- Percentiles grow with `q`, and from 100 on are the greatest value. -/
theorem C101_percentile_mono {D : Type} [LinearOrder D] (l : List D) (hs : l.Pairwise (· ≤ ·)) (q q' : Nat) (h : q ≤ q') (v v' : D)
    (hv : percentile l q = some v) (hv' : percentile l q' = some v') : v ≤ v' ∧ (100 ≤ q → ∀ x ∈ l, x ≤ v) := by
  have hidx : ∀ q : Nat, l ≠ [] → (max 0 (min ((l.length : Int) - 1) (((l.length : Int) * (q : Int)).tdiv 100))).toNat =
      min (l.length - 1) (l.length * q / 100) := by
    intro q hl
    have := List.length_pos_iff.mpr hl
    have : ((l.length : Int) * (q : Int)).tdiv 100 = ((l.length * q / 100 : Nat) : Int) := by
      rw [Int.tdiv_eq_ediv_of_nonneg (by positivity)]; norm_cast
    rw [this]; omega
  unfold percentile at hv hv'
  by_cases hl : l = []
  · simp [hl] at hv
  · rw [if_neg (by simpa using hl), hidx _ hl] at hv hv'
    obtain ⟨h1, rfl⟩ := List.getElem?_eq_some_iff.mp hv
    obtain ⟨h2, rfl⟩ := List.getElem?_eq_some_iff.mp hv'
    have hmono : ∀ i j (hi : i < l.length) (hj : j < l.length), i ≤ j → l[i] ≤ l[j] := by
      intro i j hi hj hij
      rcases Nat.lt_or_eq_of_le hij with h | h
      · exact List.pairwise_iff_getElem.mp hs i j hi hj h
      · subst h; exact le_refl _
    refine ⟨hmono _ _ h1 h2 ?_, fun h100 x hx => ?_⟩
    · have := Nat.div_le_div_right (c := 100) (Nat.mul_le_mul_left l.length h)
      omega
    · obtain ⟨i, hi, rfl⟩ := List.mem_iff_getElem.mp hx
      refine hmono _ _ hi h1 ?_
      have : l.length * 100 / 100 ≤ l.length * q / 100 := Nat.div_le_div_right (Nat.mul_le_mul_left _ h100)
      rw [Nat.mul_div_cancel _ (by omega)] at this
      omega

/-! Concrete cases. -/

/-- A sort of positions. -/
def isort (l : List Nat) : List Nat := (List.range l.length).insertionSort (fun a b => l.getD a 0 ≤ l.getD b 0)

theorem isort_argsort : Argsort isort := by
  constructor
  · intro l; exact List.perm_insertionSort _ _
  · intro l
    haveI : Std.Total (fun a b => l.getD a 0 ≤ l.getD b 0) := ⟨fun a b => Nat.le_total _ _⟩
    haveI : IsTrans Nat (fun a b => l.getD a 0 ≤ l.getD b 0) := ⟨fun a b c h1 h2 => Nat.le_trans h1 h2⟩
    refine List.Pairwise.imp ?_ (List.pairwise_insertionSort (fun a b => l.getD a 0 ≤ l.getD b 0) (List.range l.length))
    intro a b hab x y hx hy
    simpa [List.getD, hx, hy] using hab

theorem C101_example_gt : pyGt isort [[5, 3, 9, 4], [1, 8, 2, 0]] 2 = some [[1, 3], [3, 0]] := by decide +kernel

theorem C101_example_gt_cpp :
    cppGt isort (fun i j => (([[5, 3, 9, 4], [1, 8, 2, 0]][i]?.getD [])[j]?.getD 0)) 6 12 3 (fun j => j == 3) 2 = some [[1, 0], [0, 2]] := by
  decide +kernel

theorem C101_example_recall : pyRecall [[1, 3], [3, 2]] 2 [[1, 3], [3, 0]] = some (3 / 4) := by decide +kernel

theorem C101_example_percentile : percentile [1, 2, 3, 4, 5, 6, 7, 8, 9, 10] 95 = some 10 := by decide +kernel

end Alaya.Recall
