import Verif.Spec.PyParams
import Mathlib.Data.List.Forall2
import Mathlib.Tactic.Ring
import Mathlib.Tactic.FieldSimp
import Mathlib.Tactic.Linarith
import Mathlib.Tactic.Positivity
import Mathlib.Tactic.Tauto

/-! Lemmas for C98. -/

namespace Alaya.PyParams

theorem Res.bind_ok {α β : Type} {r : Res α} {f : α → Res β} {b : β} :
    r.bind f = .ok b ↔ ∃ a, r = .ok a ∧ f a = .ok b := by
  cases r <;> simp [Res.bind]

theorem require_ok {c : Bool} {u : Unit} : require c = .ok u ↔ c = true := by
  cases c <;> simp [require]

theorem require_true {c : Bool} (h : c = true) : require c = .ok () := by simp [require, h]

theorem require_false {c : Bool} (h : c = false) : require c = .raised := by simp [require, h]

@[simp] theorem bind_mk {α β : Type} (a : α) (f : α → Res β) : (Res.ok a).bind f = f a := rfl

@[simp] theorem bind_raised {α β : Type} (f : α → Res β) : (Res.raised : Res α).bind f = .raised := rfl

/-- Small letters, digits and other characters: not a capital. -/
def Small (c : Char) : Prop := ¬ (65 ≤ c.toNat ∧ c.toNat ≤ 90)

instance (c : Char) : Decidable (Small c) := by unfold Small; infer_instance

theorem toNat_ofNat_small {n : Nat} (h : n < 1000) : (Char.ofNat n).toNat = n := by
  have hv : n.isValidChar := Or.inl (by omega)
  unfold Char.ofNat
  rw [dif_pos hv]
  rfl

theorem char_ext {a b : Char} (h : a.toNat = b.toNat) : a = b := by
  apply Char.ext
  exact UInt32.toNat_inj.mp h

theorem lowerChar_eq {a b : Char} (hb : Small b) :
    lowerChar a = b ↔ a = b ∨ (65 ≤ a.toNat ∧ a.toNat ≤ 90 ∧ b.toNat = a.toNat + 32) := by
  unfold lowerChar
  split
  · next h =>
    constructor
    · rintro rfl
      refine Or.inr ⟨h.1, h.2, ?_⟩
      exact toNat_ofNat_small (by omega)
    · rintro (rfl | ⟨_, _, h3⟩)
      · exact absurd h hb
      · apply char_ext
        rw [toNat_ofNat_small (by omega), h3]
  · next h =>
    constructor
    · rintro rfl; exact Or.inl rfl
    · rintro (rfl | ⟨h1, h2, _⟩)
      · rfl
      · exact absurd ⟨h1, h2⟩ h

theorem lower_eq {s n : Name} (hn : ∀ c ∈ n, Small c) : lower s = n ↔ Spells s n := by
  unfold Spells lower
  induction n generalizing s with
  | nil => cases s <;> simp
  | cons b n ih =>
    cases s with
    | nil => simp
    | cons a s =>
      have hb := lowerChar_eq (a := a) (hn b (by simp))
      have ih' := ih (s := s) (fun c hc => hn c (by simp [hc]))
      simp only [List.map_cons, List.cons.injEq, List.forall₂_cons, hb, ih']

/-- The accepted names are written in small letters. -/
theorem small_names : ∀ n ∈ validIndexTypes ++ validMetrics ++ validQuants, ∀ c ∈ n, Small c := by
  decide +kernel

theorem lower_index {s : Name} {n : Name} (h : n ∈ validIndexTypes) : lower s = n ↔ Spells s n :=
  lower_eq (small_names n (by simp [h]))

theorem lower_metric {s : Name} {n : Name} (h : n ∈ validMetrics) : lower s = n ↔ Spells s n :=
  lower_eq (small_names n (by simp [h]))

theorem lower_quant {s : Name} {n : Name} (h : n ∈ validQuants) : lower s = n ↔ Spells s n :=
  lower_eq (small_names n (by simp [h]))

theorem okIndexType_iff {s : Name} : okIndexType s = true ↔ ∃ i, NamesIndex s i := by
  unfold okIndexType NamesIndex
  rw [decide_eq_true_iff]
  constructor
  · intro h
    have hs := (lower_index h).mp rfl
    have : lower s = nHnsw ∨ lower s = nNsg ∨ lower s = nFusion := by simpa [validIndexTypes] using h
    rcases this with e | e | e <;> rw [e] at hs
    · exact ⟨.hnsw, _, by simp [indexNames], hs⟩
    · exact ⟨.nsg, _, by simp [indexNames], hs⟩
    · exact ⟨.fusion, _, by simp [indexNames], hs⟩
  · rintro ⟨i, n, hn, hs⟩
    have hv : n ∈ validIndexTypes := by
      cases i <;> simp [indexNames] at hn <;> simp [hn, validIndexTypes]
    rw [(lower_index hv).mpr hs]; exact hv

theorem okMetric_iff {s : Name} : okMetric s = true ↔ ∃ i, NamesMetric s i := by
  unfold okMetric NamesMetric
  rw [decide_eq_true_iff]
  constructor
  · intro h
    have hs := (lower_metric h).mp rfl
    have : lower s = nEuclidean ∨ lower s = nL2 ∨ lower s = nIp ∨ lower s = nCosine ∨ lower s = nCos := by
      simpa [validMetrics] using h
    rcases this with e | e | e | e | e <;> rw [e] at hs
    · exact ⟨.l2, _, by simp [metricNames], hs⟩
    · exact ⟨.l2, _, by simp [metricNames], hs⟩
    · exact ⟨.ip, _, by simp [metricNames], hs⟩
    · exact ⟨.cos, _, by simp [metricNames], hs⟩
    · exact ⟨.cos, _, by simp [metricNames], hs⟩
  · rintro ⟨i, n, hn, hs⟩
    have hv : n ∈ validMetrics := by
      cases i <;> simp [metricNames] at hn <;> rcases hn with rfl | rfl <;> simp [validMetrics]
    rw [(lower_metric hv).mpr hs]; exact hv

theorem okQuant_iff {s : Name} : okQuant s = true ↔ ∃ i, NamesQuant s i := by
  unfold okQuant NamesQuant
  rw [decide_eq_true_iff]
  constructor
  · intro h
    have hs := (lower_quant h).mp rfl
    have : lower s = nNone ∨ lower s = nSq8 ∨ lower s = nSq4 ∨ lower s = nRabitq := by
      simpa [validQuants] using h
    rcases this with e | e | e | e <;> rw [e] at hs
    · exact ⟨.none, _, by simp [quantNames], hs⟩
    · exact ⟨.sq8, _, by simp [quantNames], hs⟩
    · exact ⟨.sq4, _, by simp [quantNames], hs⟩
    · exact ⟨.rabitq, _, by simp [quantNames], hs⟩
  · rintro ⟨i, n, hn, hs⟩
    have hv : n ∈ validQuants := by
      cases i <;> simp [quantNames] at hn <;> simp [hn, validQuants]
    rw [(lower_quant hv).mpr hs]; exact hv

theorem okDtype_iff {d : DType} : okDtype d = true ↔ VectorType d := by
  simp [okDtype, validDtypes, VectorType]

theorem castsToId_iff {d : DType} : castsToId d = true ↔ UnsignedType d := by
  cases d <;> simp [castsToId, UnsignedType]

/-- A name of an index type names no other. -/
theorem validIndexType_some {s : Name} {k : IndexKind} :
    validIndexType (some s) = .ok k ↔ NamesIndex s k := by
  by_cases h : okIndexType s = true
  · simp only [validIndexType, require_true h, bind_mk]
    have hm : lower s ∈ validIndexTypes := by simpa [okIndexType] using h
    have hl : lower s = nHnsw ∨ lower s = nNsg ∨ lower s = nFusion := by
      simpa [validIndexTypes] using hm
    have key : ∀ k, NamesIndex s k ↔ lower s ∈ indexNames k := by
      intro k
      constructor
      · rintro ⟨n, hn, hs⟩
        have hv : n ∈ validIndexTypes := by
          cases k <;> simp [indexNames] at hn <;> simp [hn, validIndexTypes]
        rw [(lower_index hv).mpr hs]; exact hn
      · intro hn; exact ⟨_, hn, (lower_index hm).mp rfl⟩
    rw [key]
    rcases hl with e | e | e <;> rw [e] <;> cases k <;> decide +kernel
  · constructor
    · intro hk
      simp [validIndexType, require, h] at hk
    · intro hk; exact absurd (okIndexType_iff.mpr ⟨k, hk⟩) h

theorem validMetric_some {s : Name} {k : MetricKind} :
    validMetric (some s) = .ok k ↔ NamesMetric s k := by
  by_cases h : okMetric s = true
  · simp only [validMetric, require_true h, bind_mk]
    have hm : lower s ∈ validMetrics := by simpa [okMetric] using h
    have hl : lower s = nEuclidean ∨ lower s = nL2 ∨ lower s = nIp ∨ lower s = nCosine ∨ lower s = nCos := by
      simpa [validMetrics] using hm
    have key : ∀ k, NamesMetric s k ↔ lower s ∈ metricNames k := by
      intro k
      constructor
      · rintro ⟨n, hn, hs⟩
        have hv : n ∈ validMetrics := by
          cases k <;> simp [metricNames] at hn <;> rcases hn with rfl | rfl <;> simp [validMetrics]
        rw [(lower_metric hv).mpr hs]; exact hn
      · intro hn; exact ⟨_, hn, (lower_metric hm).mp rfl⟩
    rw [key]
    rcases hl with e | e | e | e | e <;> rw [e] <;> cases k <;> decide +kernel
  · constructor
    · intro hk
      simp [validMetric, require, h] at hk
    · intro hk; exact absurd (okMetric_iff.mpr ⟨k, hk⟩) h

theorem validQuant_some {s : Name} {k : QuantKind} :
    validQuant (some s) = .ok k ↔ NamesQuant s k := by
  by_cases h : okQuant s = true
  · simp only [validQuant, require_true h, bind_mk]
    have hm : lower s ∈ validQuants := by simpa [okQuant] using h
    have hl : lower s = nNone ∨ lower s = nSq8 ∨ lower s = nSq4 ∨ lower s = nRabitq := by
      simpa [validQuants] using hm
    have key : ∀ k, NamesQuant s k ↔ lower s ∈ quantNames k := by
      intro k
      constructor
      · rintro ⟨n, hn, hs⟩
        have hv : n ∈ validQuants := by
          cases k <;> simp [quantNames] at hn <;> simp [hn, validQuants]
        rw [(lower_quant hv).mpr hs]; exact hn
      · intro hn; exact ⟨_, hn, (lower_quant hm).mp rfl⟩
    rw [key]
    rcases hl with e | e | e | e <;> rw [e] <;> cases k <;> decide +kernel
  · constructor
    · intro hk
      simp [validQuant, require, h] at hk
    · intro hk; exact absurd (okQuant_iff.mpr ⟨k, hk⟩) h

/-- The table of the factory holds exactly the supported combinations. -/
theorem mem_table {d i : DType} {q : QuantKind} {k : IndexKind} :
    (d, i, q, k) ∈ dispatchTable ↔ Supported d i q := by
  cases q <;> cases k <;> simp [dispatchTable, Supported] <;> tauto

theorem toU32_ok {v : Int} {n : Nat} : toU32 v = .ok n ↔ (0 ≤ v ∧ v < 2 ^ 32) ∧ (n : Int) = v := by
  unfold toU32 require
  by_cases h : 0 ≤ v ∧ v < 4294967296
  · rw [if_pos (by simpa using h)]
    simp only [bind_mk, Res.ok.injEq]
    omega
  · rw [if_neg (by simpa using h)]
    simp only [bind_raised]
    constructor
    · intro hh; cases hh
    · rintro ⟨h1, _⟩; exact absurd h1 h

theorem needNum_ok {ok : Num → Bool} {o : Option Num} {v : Int} :
    needNum ok o = .ok v ↔ ∃ n, o = some n ∧ ok n = true ∧ n.val = v := by
  cases o with
  | none => simp [needNum]
  | some n => cases h : ok n <;> simp [needNum, require, h]

theorem threadNum_ok {o : Option Num} {v : Int} :
    threadNum o = .ok v ↔ (o = none ∧ v = 0) ∨ ∃ n, o = some n ∧ 0 < n.val ∧ n.val = v := by
  cases o with
  | none => simp [threadNum, eq_comm]
  | some n => by_cases h : 0 < n.val <;> simp [threadNum, require, okThreads, h]

theorem validDtype_ok {o : Option DType} {d : DType} :
    validDtype o = .ok d ↔ o = some d ∧ VectorType d := by
  cases o with
  | none => simp [validDtype, require, okDtype, validDtypes]
  | some e =>
    by_cases h : okDtype e = true
    · have hv := okDtype_iff.mp h
      simp [validDtype, require, h]
      rintro rfl; exact hv
    · simp [validDtype, require, h]
      rintro rfl hv; exact h (okDtype_iff.mpr hv)

theorem validIdType_ok {o : Option DType} {d : DType} :
    validIdType o = .ok d ↔ o = some d ∧ UnsignedType d := by
  cases o with
  | none => simp [validIdType, require, castsToId]
  | some e =>
    by_cases h : castsToId e = true
    · have hv := castsToId_iff.mp h
      simp [validIdType, require, h]
      rintro rfl; exact hv
    · simp [validIdType, require, h]
      rintro rfl hv; exact h (castsToId_iff.mpr hv)

/-- `to_cpp_params` on parameters without gaps. -/
theorem toCpp_ok {p : Params} {n : Native} : toCpp p = .ok n ↔
    validIndexType p.indexType = .ok n.index ∧ (p.dataType = some n.data ∧ VectorType n.data) ∧
    (p.idType = some n.id ∧ UnsignedType n.id) ∧ validMetric p.metric = .ok n.metric ∧
    validQuant p.quant = .ok n.quant ∧
    (∃ c, p.capacity = some c ∧ 0 < c.val ∧ c.val < 2 ^ 32 ∧ (n.capacity : Int) = c.val) ∧
    (∃ c, p.maxNbrs = some c ∧ 0 < c.val ∧ c.val < 1000 ∧ (n.maxNbrs : Int) = c.val) ∧
    ((p.buildThreads = none ∧ n.buildThreads = 0) ∨
      ∃ c, p.buildThreads = some c ∧ 0 < c.val ∧ c.val < 2 ^ 32 ∧ (n.buildThreads : Int) = c.val) ∧
    ((p.viewThreads = none ∧ n.viewThreads = 0) ∨
      ∃ c, p.viewThreads = some c ∧ 0 < c.val ∧ c.val < 2 ^ 32 ∧ (n.viewThreads : Int) = c.val) ∧
    n.rocksdb = p.rocksdb ∧ n.hasScalar = p.hasScalar ∧ n.fields = p.fields.getD [] := by
  constructor
  · intro h
    simp only [toCpp, Res.bind_ok, validDtype_ok, validIdType_ok, needNum_ok, threadNum_ok,
      toU32_ok, Res.ok.injEq] at h
    obtain ⟨i, hi, d, hd, j, hj, m, hm, q, hq, c, ⟨nc, hc1, hc2, hc3⟩, b, ⟨nb, hb1, hb2, hb3⟩,
      t, ht, w, hw, c', hc', b', hb', t', ht', w', hw', rfl⟩ := h
    refine ⟨hi, hd, hj, hm, hq, ⟨nc, hc1, ?_, ?_, ?_⟩, ⟨nb, hb1, ?_, ?_, ?_⟩, ?_, ?_, rfl, rfl, rfl⟩
    · simpa [okCapacity] using hc2
    · omega
    · simp only; omega
    · simp [okMaxNbrs] at hb2; exact hb2.1
    · simp [okMaxNbrs] at hb2; exact hb2.2
    · simp only; omega
    · rcases ht with ⟨h1, h2⟩ | ⟨n, h1, h2, h3⟩
      · left; refine ⟨h1, ?_⟩; simp only; omega
      · right; refine ⟨n, h1, h2, ?_, ?_⟩
        · omega
        · simp only; omega
    · rcases hw with ⟨h1, h2⟩ | ⟨n, h1, h2, h3⟩
      · left; refine ⟨h1, ?_⟩; simp only; omega
      · right; refine ⟨n, h1, h2, ?_, ?_⟩
        · omega
        · simp only; omega
  · rintro ⟨hi, hd, hj, hm, hq, ⟨c, hc1, hc2, hc3, hc4⟩, ⟨b, hb1, hb2, hb3, hb4⟩, ht, hw, h1, h2, h3⟩
    simp only [toCpp, Res.bind_ok, validDtype_ok, validIdType_ok, needNum_ok, threadNum_ok,
      toU32_ok, Res.ok.injEq]
    refine ⟨_, hi, _, hd, _, hj, _, hm, _, hq, c.val, ⟨c, hc1, by simpa [okCapacity] using hc2, rfl⟩,
      b.val, ⟨b, hb1, by simp [okMaxNbrs]; exact ⟨hb2, hb3⟩, rfl⟩, (n.buildThreads : Int), ?_,
      (n.viewThreads : Int), ?_, n.capacity, ⟨⟨by omega, by omega⟩, hc4⟩, n.maxNbrs,
      ⟨⟨by omega, by omega⟩, hb4⟩, n.buildThreads, ⟨⟨by omega, ?_⟩, rfl⟩, n.viewThreads,
      ⟨⟨by omega, ?_⟩, rfl⟩, ?_⟩
    · rcases ht with ⟨e, e0⟩ | ⟨t, e, e1, e2, e3⟩
      · left; exact ⟨e, by omega⟩
      · right; exact ⟨t, e, e1, e3.symm⟩
    · rcases hw with ⟨e, e0⟩ | ⟨t, e, e1, e2, e3⟩
      · left; exact ⟨e, by omega⟩
      · right; exact ⟨t, e, e1, e3.symm⟩
    · rcases ht with ⟨e, e0⟩ | ⟨t, e, e1, e2, e3⟩ <;> omega
    · rcases hw with ⟨e, e0⟩ | ⟨t, e, e1, e2, e3⟩ <;> omega
    · cases n; simp_all

/-- Nothing that is not a Python exception comes out of `to_cpp_params`. -/
theorem checked_total {α : Type} (ok : α → Bool) (o : Option α) :
    checked ok o = .ok o ∨ checked ok o = .raised := by
  cases o with
  | none => exact Or.inl rfl
  | some a => cases h : ok a <;> simp [checked, require, h]

theorem checked_ok {α : Type} {ok : α → Bool} {o r : Option α} :
    checked ok o = .ok r ↔ o = r ∧ ∀ a, o = some a → ok a = true := by
  cases o with
  | none => simp [checked]
  | some a => cases h : ok a <;> simp [checked, require, h]

/-! ### Vectors -/

theorem dot_eq (v q : List ℝ) : dot v q = inner v q := by
  unfold inner
  induction v generalizing q with
  | nil => simp [dot]
  | cons x v ih =>
    cases q with
    | nil => simp [dot]
    | cons y q => simp [dot, ih]

theorem sqDist_eq (v q : List ℝ) : sqDist v q = (List.zipWith (fun x y => (x - y) ^ 2) v q).sum := by
  induction v generalizing q with
  | nil => simp [sqDist]
  | cons x v ih =>
    cases q with
    | nil => simp [sqDist]
    | cons y q => simp [sqDist, ih]

theorem norm_eq (v : List ℝ) : norm v = length2 v := by
  unfold norm length2; rw [dot_eq]

theorem dot_nonneg (v : List ℝ) : 0 ≤ dot v v := by
  induction v with
  | nil => simp [dot]
  | cons x v ih => simp only [dot]; nlinarith [mul_self_nonneg x]

theorem dot_comm (v q : List ℝ) : dot v q = dot q v := by
  induction v generalizing q with
  | nil => cases q <;> simp [dot]
  | cons x v ih =>
    cases q with
    | nil => simp [dot]
    | cons y q => simp only [dot, ih]; ring

theorem dot_map_left (c : ℝ) (v q : List ℝ) : dot (v.map (· / c)) q = dot v q / c := by
  induction v generalizing q with
  | nil => simp [dot]
  | cons x v ih =>
    cases q with
    | nil => simp [dot]
    | cons y q => simp only [List.map_cons, dot, ih]; ring

theorem dot_map_right (c : ℝ) (v q : List ℝ) : dot v (q.map (· / c)) = dot v q / c := by
  rw [dot_comm, dot_map_left, dot_comm]

theorem norm_nonneg (v : List ℝ) : 0 ≤ norm v := Real.sqrt_nonneg _

theorem norm_sq (v : List ℝ) : norm v * norm v = dot v v := Real.mul_self_sqrt (dot_nonneg v)

/-- The normalised vector has length one. -/
theorem norm_unit {v : List ℝ} (h : norm v ≠ 0) : norm (v.map (· / norm v)) = 1 := by
  have hd : dot (v.map (· / norm v)) (v.map (· / norm v)) = 1 := by
    rw [dot_map_left, dot_map_right, ← norm_sq]
    field_simp
  unfold norm at hd ⊢
  rw [hd]; exact Real.sqrt_one

/-- Normalising twice is normalising once. -/
theorem prepare_twice (m : Option Name) (v : List ℝ) : prepare m (prepare m v) = prepare m v := by
  unfold prepare
  split
  · rfl
  · by_cases h : norm v = 0
    · simp [h]
    · simp only [h, if_false]
      rw [norm_unit h]
      simp

theorem prepare_cos {m : Option Name} (hm : m = some nCos ∨ m = some nCosine) {v q : List ℝ}
    (hv : norm v ≠ 0) (hq : norm q ≠ 0) : dot (prepare m v) (prepare m q) = dot v q / (norm v * norm q) := by
  have h : ¬ (m ≠ some nCos ∧ m ≠ some nCosine) := by
    rintro ⟨h1, h2⟩; rcases hm with e | e
    · exact h1 e
    · exact h2 e
  unfold prepare
  simp only [h, if_false, hv, hq]
  rw [dot_map_left, dot_map_right]
  field_simp

end Alaya.PyParams
