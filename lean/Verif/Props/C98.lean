import Verif.Lemmas.PyParams

/-!
# C98: Parameters of an in-memory index

What the user passes to `create_index` / `create_collection` is checked, completed by defaults,
handed to the native side, written to the schema document and read back.
-/

namespace Alaya.PyParams

/-- `create_index` / `create_collection` take exactly the documented values, in capitals or small
letters, and raise otherwise. -/
theorem C98_create (k : Kwargs) :
    (Documented k → ∃ p, fromKwargs k = .ok p) ∧ (¬ Documented k → fromKwargs k = .raised) := by
  have hiff : (∃ p, fromKwargs k = .ok p) ↔ Documented k := by
    simp only [fromKwargs, Res.bind_ok, checked_ok, Res.ok.injEq]
    constructor
    · rintro ⟨p, _, ⟨rfl, h1⟩, _, ⟨rfl, h2⟩, _, ⟨rfl, h3⟩, _, ⟨rfl, h4⟩, _, ⟨rfl, h5⟩, _, ⟨rfl, h6⟩,
        _, ⟨rfl, h7⟩, _, ⟨rfl, h8⟩, _, ⟨rfl, h9⟩, _⟩
      exact ⟨fun a e => okIndexType_iff.mp (h1 a e), fun a e => okDtype_iff.mp (h2 a e),
        fun a e => castsToId_iff.mp (h3 a e), fun a e => okQuant_iff.mp (h4 a e),
        fun a e => okMetric_iff.mp (h5 a e), fun a e => by simpa [okCapacity] using h6 a e,
        fun a e => by simpa [okMaxNbrs] using h7 a e, fun a e => by simpa [okThreads] using h8 a e,
        fun a e => by simpa [okThreads] using h9 a e⟩
    · intro h
      exact ⟨_, _, ⟨rfl, fun a e => okIndexType_iff.mpr (h.index a e)⟩,
        _, ⟨rfl, fun a e => okDtype_iff.mpr (h.data a e)⟩,
        _, ⟨rfl, fun a e => castsToId_iff.mpr (h.id a e)⟩,
        _, ⟨rfl, fun a e => okQuant_iff.mpr (h.quant a e)⟩,
        _, ⟨rfl, fun a e => okMetric_iff.mpr (h.metric a e)⟩,
        _, ⟨rfl, fun a e => by simpa [okCapacity] using h.capacity a e⟩,
        _, ⟨rfl, fun a e => by simpa [okMaxNbrs] using h.maxNbrs a e⟩,
        _, ⟨rfl, fun a e => by simpa [okThreads] using h.build a e⟩,
        _, ⟨rfl, fun a e => by simpa [okThreads] using h.view a e⟩, rfl⟩
  refine ⟨hiff.mpr, fun hn => ?_⟩
  have hnot : ∀ p, fromKwargs k ≠ .ok p := fun p hp => hn (hiff.mp ⟨p, hp⟩)
  unfold fromKwargs at hnot ⊢
  rcases checked_total okIndexType k.indexType with e | e <;> rw [e] at hnot ⊢ <;> try rfl
  simp only [bind_mk] at hnot ⊢
  rcases checked_total okDtype k.dataType with e | e <;> rw [e] at hnot ⊢ <;> try rfl
  simp only [bind_mk] at hnot ⊢
  rcases checked_total castsToId k.idType with e | e <;> rw [e] at hnot ⊢ <;> try rfl
  simp only [bind_mk] at hnot ⊢
  rcases checked_total okQuant k.quant with e | e <;> rw [e] at hnot ⊢ <;> try rfl
  simp only [bind_mk] at hnot ⊢
  rcases checked_total okMetric k.metric with e | e <;> rw [e] at hnot ⊢ <;> try rfl
  simp only [bind_mk] at hnot ⊢
  rcases checked_total okCapacity k.capacity with e | e <;> rw [e] at hnot ⊢ <;> try rfl
  simp only [bind_mk] at hnot ⊢
  rcases checked_total okMaxNbrs k.maxNbrs with e | e <;> rw [e] at hnot ⊢ <;> try rfl
  simp only [bind_mk] at hnot ⊢
  rcases checked_total okThreads k.buildThreads with e | e <;> rw [e] at hnot ⊢ <;> try rfl
  simp only [bind_mk] at hnot ⊢
  rcases checked_total okThreads k.viewThreads with e | e <;> rw [e] at hnot ⊢ <;> try rfl
  simp only [bind_mk] at hnot ⊢
  exact absurd rfl (hnot _)

/-- Accepted parameters are kept as they were given. -/
theorem C98_create_keeps {k : Kwargs} {p : Params} (h : fromKwargs k = .ok p) :
    p.indexType = k.indexType ∧ p.dataType = k.dataType ∧ p.idType = k.idType ∧ p.quant = k.quant ∧
    p.metric = k.metric ∧ p.capacity = k.capacity ∧ p.maxNbrs = k.maxNbrs ∧
    p.buildThreads = k.buildThreads ∧ p.viewThreads = k.viewThreads ∧
    p.rocksdb = k.rocksdb.getD [] ∧ p.fields = k.fields := by
  simp only [fromKwargs, Res.bind_ok, checked_ok, Res.ok.injEq] at h
  obtain ⟨_, ⟨rfl, -⟩, _, ⟨rfl, -⟩, _, ⟨rfl, -⟩, _, ⟨rfl, -⟩, _, ⟨rfl, -⟩, _, ⟨rfl, -⟩,
        _, ⟨rfl, -⟩, _, ⟨rfl, -⟩, _, ⟨rfl, -⟩, rfl⟩ := h
  exact ⟨rfl, rfl, rfl, rfl, rfl, rfl, rfl, rfl, rfl, rfl, rfl⟩

/-- What a successful `Index.fit` went through. -/
theorem indexFit_ok {p : Params} {dt : DType} {x : Index} : indexFit p dt = .ok x ↔
    VectorType dt ∧ (p.dataType = none ∨ p.dataType = some dt) ∧
    x.params = fillNone { p with dataType := some dt } ∧ toCpp x.params = .ok x.native ∧
    create x.native = .ok () ∧ nativeFit x.native = .ok x.graph := by
  simp only [indexFit, Res.bind_ok, validDtype_ok, require_ok, decide_eq_true_iff, Res.ok.injEq]
  constructor
  · rintro ⟨d0, ⟨hdd0, hd0⟩, d, hd, _, hdd, n, hn, _, hc, g, hg, rfl⟩
    subst hdd
    refine ⟨?_, ?_, rfl, hn, hc, hg⟩
    · cases hp : p.dataType with
      | none => cases hdd0; exact hd0
      | some e => simp only [hp, validDtype_ok] at hd; exact hd.2
    · cases hp : p.dataType with
      | none => left; rfl
      | some e => right; simp only [hp, validDtype_ok] at hd; exact hd.1
  · rintro ⟨hv, hp, hx, hn, hc, hg⟩
    refine ⟨dt, ⟨rfl, hv⟩, dt, ?_, (), rfl, x.native, hx ▸ hn, (), hc, x.graph, hg, ?_⟩
    · rcases hp with e | e <;> rw [e]
      exact validDtype_ok.mpr ⟨rfl, hv⟩
    · cases x; simp_all

/-- A fitted index follows its parameters: every given value is used, every missing one is the
documented default, and the component type is that of the vectors. -/
theorem C98_fit_follows {p : Params} {dt : DType} {x : Index} (h : indexFit p dt = .ok x) :
    Follows p dt x.native ∧ VectorType dt ∧ (p.dataType = none ∨ p.dataType = some dt) := by
  obtain ⟨hv, hp, hx, hn, -, -⟩ := indexFit_ok.mp h
  refine ⟨?_, hv, hp⟩
  rw [toCpp_ok] at hn
  obtain ⟨hi, hd, hj, hm, hq, ⟨c, hc1, _, _, hc4⟩, ⟨b, hb1, _, _, hb4⟩, ht, hw, h1, h2, h3⟩ := hn
  rw [hx] at hi hd hj hm hq hc1 hb1 ht hw h1 h2 h3
  simp only [fillNone, Option.some.injEq] at hd hj hc1 hb1
  refine ⟨validIndexType_some.mp hi, by simpa using hd.1.symm, hj.1.symm, validQuant_some.mp hq,
    validMetric_some.mp hm, by rw [hc4, hc1], by rw [hb4, hb1], ?_, ?_, h1, h2, h3⟩
  · simp only [fillNone] at ht
    rcases ht with ⟨e, e0⟩ | ⟨t, e, -, -, e3⟩ <;> simp [Num.val, *]
  · simp only [fillNone] at hw
    rcases hw with ⟨e, e0⟩ | ⟨t, e, -, -, e3⟩ <;> simp [Num.val, *]

/-- A vector type other than float32, int8 and uint8, or other than the configured one, is
refused with an exception. -/
theorem C98_fit_dtype {p : Params} {dt : DType}
    (h : ¬ VectorType dt ∨ ∃ d, p.dataType = some d ∧ d ≠ dt) : indexFit p dt = .raised := by
  have hr : ∀ d, validDtype (some d) = .ok d ∨ validDtype (some d) = .raised := by
    intro d; cases hd : okDtype d <;> simp [validDtype, require, hd]
  unfold indexFit
  by_cases hv : VectorType dt
  · rcases h with h | ⟨d, hd, hne⟩
    · exact absurd hv h
    · rw [validDtype_ok.mpr ⟨rfl, hv⟩, hd]
      simp only [bind_mk]
      rcases hr d with e | e <;> rw [e]
      · simp [require, hne]
      · rfl
  · have : validDtype (some dt) = .raised := by
      rcases hr dt with e | e
      · exact absurd (validDtype_ok.mp e).2 hv
      · exact e
    rw [this]; rfl

/-- Parameters with documented values in a supported combination can be fitted; cosine needs
float vectors. -/
theorem C98_fit_works {p : Params} {dt : DType} (hp : Usable p) (hv : VectorType dt)
    (hd : p.dataType = none ∨ p.dataType = some dt) {q : QuantKind} {m : MetricKind}
    (hq : NamesQuant (p.quant.getD nNone) q) (hm : NamesMetric (p.metric.getD nL2) m)
    (hs : Supported dt (p.idType.getD .u32) q) (hcos : m = .cos → dt = .f32) :
    ∃ x, indexFit p dt = .ok x := by
  have hi : ∃ i, NamesIndex (p.indexType.getD nHnsw) i := by
    cases e : p.indexType with
    | none => exact ⟨.hnsw, validIndexType_some.mp (by decide +kernel)⟩
    | some s => exact hp.index s e
  obtain ⟨i, hi⟩ := hi
  have hid : UnsignedType (p.idType.getD .u32) := by
    cases e : p.idType with
    | none => simp [UnsignedType]
    | some s => exact hp.id s e
  have hc : 0 < (p.capacity.getD (.py 100000)).val ∧ (p.capacity.getD (.py 100000)).val < 2 ^ 32 := by
    cases e : p.capacity with
    | none => simp [Num.val]
    | some s => exact hp.capacity s e
  have hb : 0 < (p.maxNbrs.getD (.py 32)).val ∧ (p.maxNbrs.getD (.py 32)).val < 1000 := by
    cases e : p.maxNbrs with
    | none => simp [Num.val]
    | some s => exact hp.maxNbrs s e
  have ht : 0 ≤ (p.buildThreads.getD (.py 0)).val := by
    cases e : p.buildThreads with
    | none => simp [Num.val]
    | some s => exact Int.le_of_lt (hp.build s e).1
  have hw : 0 ≤ (p.viewThreads.getD (.py 0)).val := by
    cases e : p.viewThreads with
    | none => simp [Num.val]
    | some s => exact Int.le_of_lt (hp.view s e).1
  let n : Native :=
    { index := i, data := dt, id := p.idType.getD .u32, quant := q, metric := m,
      capacity := (p.capacity.getD (.py 100000)).val.toNat, maxNbrs := (p.maxNbrs.getD (.py 32)).val.toNat,
      buildThreads := (p.buildThreads.getD (.py 0)).val.toNat,
      viewThreads := (p.viewThreads.getD (.py 0)).val.toNat, rocksdb := p.rocksdb,
      hasScalar := p.hasScalar, fields := p.fields.getD [] }
  have hg : ∃ g, nativeFit n = .ok g := by
    unfold nativeFit
    cases hq' : n.quant <;> simp only [] <;>
      first
        | exact ⟨_, rfl⟩
        | (refine ⟨.hnsw, if_neg ?_⟩; rintro ⟨h1, h2⟩; exact h1 (hcos h2))
  obtain ⟨g, hg⟩ := hg
  refine ⟨⟨fillNone { p with dataType := some dt }, n, g⟩, indexFit_ok.mpr ⟨hv, hd, rfl, ?_, ?_, hg⟩⟩
  · rw [toCpp_ok]
    refine ⟨validIndexType_some.mpr hi, ⟨rfl, hv⟩, ⟨rfl, hid⟩, validMetric_some.mpr hm,
      validQuant_some.mpr hq, ⟨_, rfl, hc.1, hc.2, Int.toNat_of_nonneg (Int.le_of_lt hc.1)⟩,
      ⟨_, rfl, hb.1, hb.2, Int.toNat_of_nonneg (Int.le_of_lt hb.1)⟩, ?_, ?_, rfl, rfl, rfl⟩
    · cases e : p.buildThreads with
      | none => left; simp [fillNone, e, n, Num.val]
      | some t =>
        right
        exact ⟨t, by simp [fillNone, e], (hp.build t e).1, (hp.build t e).2, by
          simp [n, e, Int.toNat_of_nonneg (Int.le_of_lt (hp.build t e).1)]⟩
    · cases e : p.viewThreads with
      | none => left; simp [fillNone, e, n, Num.val]
      | some t =>
        right
        exact ⟨t, by simp [fillNone, e], (hp.view t e).1, (hp.view t e).2, by
          simp [n, e, Int.toNat_of_nonneg (Int.le_of_lt (hp.view t e).1)]⟩
  · unfold create
    rw [if_pos (mem_table.mpr hs)]

/-- Only supported combinations are ever fitted, and cosine only on float vectors. -/
theorem C98_fit_only {p : Params} {dt : DType} {x : Index} (h : indexFit p dt = .ok x) :
    Supported dt (p.idType.getD .u32) x.native.quant ∧ (x.native.metric = .cos → dt = .f32) := by
  have hf := (C98_fit_follows h).1
  obtain ⟨hv, -, -, -, hc, hg⟩ := indexFit_ok.mp h
  have hs : Supported x.native.data x.native.id x.native.quant := by
    unfold create at hc
    split at hc
    · next hm => exact mem_table.mp hm
    · split at hc <;> cases hc
  rw [hf.data, hf.id] at hs
  refine ⟨hs, fun hm => ?_⟩
  unfold nativeFit at hg
  cases hq : x.native.quant with
  | rabitq => rw [hq] at hs; exact hs.1
  | _ =>
    rw [hq] at hg
    simp only [] at hg
    split at hg
    · cases hg
    · next hn =>
      rw [hf.data] at hn
      by_contra hne
      exact hn ⟨hne, hm⟩

/-- With index type `hnsw` and no RaBitQ the graph is the one asked for. -/
theorem C98_graph {p : Params} {dt : DType} {x : Index} (h : indexFit p dt = .ok x) :
    (x.native.quant = .rabitq → x.graph = .qg) ∧
    (x.native.quant ≠ .rabitq → x.native.index = .hnsw → x.graph = .hnsw) := by
  obtain ⟨-, -, -, -, -, hg⟩ := indexFit_ok.mp h
  unfold nativeFit at hg
  constructor
  · intro hq; rw [hq] at hg; simpa using hg.symm
  · intro hq _
    cases hq' : x.native.quant with
    | rabitq => exact absurd hq' hq
    | _ =>
      rw [hq'] at hg; simp only [] at hg
      split at hg
      · cases hg
      · simpa using hg.symm

/-- The first insertion into a collection is `Index.fit` with the type of the first embedding and
with metadata storage on. -/
theorem C98_collection {p : Params} {dt : DType} (hv : VectorType dt) :
    collectionFit p dt = indexFit { p with dataType := some dt, hasScalar := true } dt := by
  unfold collectionFit
  rw [validDtype_ok.mpr ⟨rfl, hv⟩]
  simp only [bind_mk, indexFit, fillNone, Option.getD_some]

/-- Searching computes the documented distance: squared Euclidean distance, negative inner product,
or negative cosine if the metric was written in small letters. -/
theorem C98_metric {p : Params} {dt : DType} {x : Index} (h : indexFit p dt = .ok x)
    (v q : List ℝ)
    (hcos : x.native.metric = .cos →
      (p.metric = some nCos ∨ p.metric = some nCosine) ∧ length2 v ≠ 0 ∧ length2 q ≠ 0) :
    searchDistance x v q = meaning x.native.metric v q := by
  have hf := (C98_fit_follows h).1
  obtain ⟨-, -, hx, -, -, -⟩ := indexFit_ok.mp h
  have hmx : x.params.metric = some (p.metric.getD nL2) := by rw [hx]; rfl
  unfold searchDistance
  rw [hmx]
  have plain : x.native.metric ≠ .cos → ∀ u, prepare (some (p.metric.getD nL2)) u = u := by
    intro hne u
    unfold prepare
    rw [if_pos]
    have hk := validMetric_some.mpr hf.metric
    constructor
    · intro e
      simp only [Option.some.injEq] at e
      rw [e] at hk
      have : validMetric (some nCos) = .ok .cos := by decide +kernel
      rw [this] at hk; simp only [Res.ok.injEq] at hk; exact hne hk.symm
    · intro e
      simp only [Option.some.injEq] at e
      rw [e] at hk
      have : validMetric (some nCosine) = .ok .cos := by decide +kernel
      rw [this] at hk; simp only [Res.ok.injEq] at hk; exact hne hk.symm
  cases hm : x.native.metric with
  | l2 =>
    rw [plain (by rw [hm]; decide), plain (by rw [hm]; decide)]
    simp only [distOf, distance, meaning, sqDist_eq]
  | ip =>
    rw [plain (by rw [hm]; decide), plain (by rw [hm]; decide)]
    simp only [distOf, distance, meaning, dot_eq]
  | cos =>
    obtain ⟨hn, hv, hq⟩ := hcos hm
    have hn' : some (p.metric.getD nL2) = some nCos ∨ some (p.metric.getD nL2) = some nCosine := by
      rcases hn with e | e <;> simp [e]
    simp only [distOf, distance, meaning]
    rw [prepare_cos hn' (by rw [norm_eq]; exact hv) (by rw [norm_eq]; exact hq), dot_eq, norm_eq, norm_eq]

/-- With the cosine metric the length of the vectors does not matter. -/
theorem C98_cosine_scale {p : Params} {dt : DType} {x : Index} (h : indexFit p dt = .ok x)
    (hp : p.metric = some nCos ∨ p.metric = some nCosine) {v q : List ℝ}
    (hv : length2 v ≠ 0) (hq : length2 q ≠ 0) {a b : ℝ} (ha : 0 < a) (hb : 0 < b) :
    searchDistance x (v.map (· * a)) (q.map (· * b)) = searchDistance x v q := by
  obtain ⟨-, -, hx, -, -, -⟩ := indexFit_ok.mp h
  have hmx : x.params.metric = some (p.metric.getD nL2) := by rw [hx]; rfl
  have hn : x.params.metric = some nCos ∨ x.params.metric = some nCosine := by
    rw [hmx]; rcases hp with e | e <;> simp [e]
  have hk : x.native.metric = .cos := by
    have hf := (C98_fit_follows h).1
    have hk := validMetric_some.mpr hf.metric
    rcases hp with e | e <;> rw [e] at hk
    · have : validMetric (some nCos) = .ok .cos := by decide +kernel
      rw [Option.getD_some, this] at hk; simpa using hk.symm
    · have : validMetric (some nCosine) = .ok .cos := by decide +kernel
      rw [Option.getD_some, this] at hk; simpa using hk.symm
  have key : ∀ (u : List ℝ) (c : ℝ), 0 < c → norm u ≠ 0 → prepare x.params.metric (u.map (· * c)) = prepare x.params.metric u := by
    intro u c hc hu
    have e0 : u.map (· * c) = u.map (· / c⁻¹) := by
      apply List.map_congr_left; intro y _; simp
    have hn2 : norm (u.map (· * c)) = norm u * c := by
      rw [e0]; unfold norm
      rw [dot_map_left, dot_map_right]
      have : dot u u / c⁻¹ / c⁻¹ = dot u u * (c * c) := by field_simp
      rw [this, Real.sqrt_mul (dot_nonneg u), Real.sqrt_mul_self (le_of_lt hc)]
    have hne : norm (u.map (· * c)) ≠ 0 := by rw [hn2]; exact mul_ne_zero hu (ne_of_gt hc)
    have hm' : ¬ (x.params.metric ≠ some nCos ∧ x.params.metric ≠ some nCosine) := by
      rintro ⟨h1, h2⟩; rcases hn with e | e
      · exact h1 e
      · exact h2 e
    unfold prepare
    simp only [hm', if_false, hne, hu]
    rw [hn2, List.map_map]
    apply List.map_congr_left
    intro y _
    simp only [Function.comp]
    field_simp
  unfold searchDistance
  rw [key v a ha (by rw [norm_eq]; exact hv), key q b hb (by rw [norm_eq]; exact hq)]

/-- A collection, which prepares each query twice, sees the same distances. -/
theorem C98_collection_distance (x : Index) (v q : List ℝ) :
    collectionDistance x v q = searchDistance x v q := by
  unfold collectionDistance searchDistance
  rw [prepare_twice]

theorem parse_name (d : DType) : DType.parse d.name = some d := by
  cases d <;> decide +kernel

theorem jNum_plain {o : Option Num} (h : ∀ n, o = some n → ∃ v, n = .py v) :
    ∃ j, jNum o = .ok j ∧ (∀ d : Doc, ∀ k, d k = some j → getNum d k = .ok o) ∧
      ((∀ n, o = some n → 0 < n.val) → ∀ d : Doc, ∀ k, d k = some j → getThreads d k = .ok o) := by
  cases o with
  | none => exact ⟨.null, rfl, fun d k e => by simp [getNum, e], fun _ d k e => by simp [getThreads, e]⟩
  | some n =>
    obtain ⟨v, rfl⟩ := h n rfl
    refine ⟨.int v, rfl, fun d k e => by simp [getNum, e], fun hpos d k e => ?_⟩
    have : 0 < v := hpos _ rfl
    have hne : v ≠ 0 := by omega
    simp [getThreads, e, hne]

/-- A saved index is loaded with the same native configuration, the same file names and the same
treatment of vectors, and saving it again writes the same document. -/
theorem C98_save_load {p : Params} {dt : DType} {x : Index} (h : indexFit p dt = .ok x)
    (hpl : PlainNumbers x.params) :
    ∃ d p', save x.params = .ok d ∧ indexLoad d = .ok (p', x.native) ∧
      indexFile p' = indexFile x.params ∧ quantFile p' = quantFile x.params ∧
      p'.metric = x.params.metric ∧ p'.dataType = some dt ∧ save p' = .ok d := by
  obtain ⟨hv, hp, hx, hn, hc, -⟩ := indexFit_ok.mp h
  have hn0 := hn
  rw [toCpp_ok] at hn0
  obtain ⟨hi, hd, hj, hm, hq, -, -, ht, hw, -, -, -⟩ := hn0
  obtain ⟨jc, ec, gc, -⟩ := jNum_plain (o := x.params.capacity) (fun n e => hpl n (Or.inl e))
  obtain ⟨jb, eb, gb, -⟩ := jNum_plain (o := x.params.maxNbrs) (fun n e => hpl n (Or.inr (Or.inl e)))
  obtain ⟨jt, et, -, gt⟩ := jNum_plain (o := x.params.buildThreads) (fun n e => hpl n (Or.inr (Or.inr (Or.inl e))))
  obtain ⟨jw, ew, -, gw⟩ := jNum_plain (o := x.params.viewThreads) (fun n e => hpl n (Or.inr (Or.inr (Or.inr e))))
  have ht' : ∀ n, x.params.buildThreads = some n → 0 < n.val := by
    intro n e; rw [e] at ht; rcases ht with ⟨e', -⟩ | ⟨c, e', hpos, -⟩
    · cases e'
    · cases e'; exact hpos
  have hw' : ∀ n, x.params.viewThreads = some n → 0 < n.val := by
    intro n e; rw [e] at hw; rcases hw with ⟨e', -⟩ | ⟨c, e', hpos, -⟩
    · cases e'
    · cases e'; exact hpos
  have hii : ∃ s, x.params.indexType = some s := by rw [hx]; exact ⟨_, rfl⟩
  have hmm : ∃ s, x.params.metric = some s := by rw [hx]; exact ⟨_, rfl⟩
  have hqq : ∃ s, x.params.quant = some s := by rw [hx]; exact ⟨_, rfl⟩
  obtain ⟨si, hsi⟩ := hii
  obtain ⟨sm, hsm⟩ := hmm
  obtain ⟨sq, hsq⟩ := hqq
  have hsave : ∃ d, save x.params = .ok d ∧
      load d = .ok { x.params with fields := some (x.params.fields.getD []) } := by
    simp only [save, ec, eb, et, ew, bind_mk]
    refine ⟨_, rfl, ?_⟩
    simp only [load]
    rw [gc _ .capacity rfl, gb _ .maxNbrs rfl, gt ht' _ .buildThreads rfl, gw hw' _ .viewThreads rfl]
    simp [getName, getDtype, getText, getBool, getStrs, jName, hsi, hsm, hsq, hd.1, hj.1, parse_name]
  obtain ⟨d, hs, hl⟩ := hsave
  have hcpp : toCpp { x.params with fields := some (x.params.fields.getD []) } = toCpp x.params := by
    unfold toCpp; rfl
  refine ⟨d, { x.params with fields := some (x.params.fields.getD []) }, hs, ?_, rfl, rfl, rfl, ?_, ?_⟩
  · unfold indexLoad
    rw [hl]
    simp only [bind_mk]
    rw [hcpp, hn]
    simp only [bind_mk]
    rw [hc]; rfl
  · show x.params.dataType = some dt
    rw [hx]; rfl
  · rw [← hs]; unfold save; rfl

/-- Documents of earlier versions, without the later keys, load with the defaults. -/
theorem C98_old_schema {d : Doc} {p : Params} (h : load d = .ok p) :
    (d .buildThreads = none → p.buildThreads = none) ∧ (d .viewThreads = none → p.viewThreads = none) ∧
    (d .rocksdb = none → p.rocksdb = []) ∧ (d .hasScalar = none → p.hasScalar = false) ∧
    (d .fields = none → p.fields = some []) := by
  simp only [load, Res.bind_ok, Res.ok.injEq] at h
  obtain ⟨i, _, dt, _, it, _, q, _, m, _, c, _, b, _, t, ht, w, hw, r, hr, s, hs, f, hf, rfl⟩ := h
  refine ⟨fun e => ?_, fun e => ?_, fun e => ?_, fun e => ?_, fun e => ?_⟩
  · simp only [getThreads, e] at ht; cases ht; rfl
  · simp only [getThreads, e] at hw; cases hw; rfl
  · simp only [getText, e] at hr; cases hr; rfl
  · simp only [getBool, e] at hs; cases hs; rfl
  · simp only [getStrs, e] at hf; cases hf; rfl

/-- A document that lacks a required key is not loaded. -/
theorem C98_load_requires {d : Doc} {k : Key} (hk : k ∈ requiredKeys) (h : d k = none) :
    ∀ p, load d ≠ .ok p := by
  intro p hp
  simp only [load, Res.bind_ok] at hp
  obtain ⟨i, hi, dt, hdt, it, hit, q, hq, m, hm, c, hc, b, hb, -⟩ := hp
  simp only [requiredKeys, List.mem_cons, List.not_mem_nil, or_false] at hk
  rcases hk with rfl | rfl | rfl | rfl | rfl | rfl | rfl
  · simp [getName, h] at hi
  · simp [getDtype, h] at hdt
  · simp [getDtype, h] at hit
  · simp [getName, h] at hq
  · simp [getName, h] at hm
  · simp [getNum, h] at hc
  · simp [getNum, h] at hb

/-- The files of one index have different names, and a quantised index has a file for its codes. -/
theorem C98_files {p : Params} {dt : DType} {x : Index} (h : indexFit p dt = .ok x) :
    indexFile x.params ≠ dataFile ∧ quantFile x.params ≠ some dataFile ∧
    quantFile x.params ≠ some (indexFile x.params) ∧
    (x.native.quant ≠ .none → quantFile x.params ≠ none) := by
  have hf := (C98_fit_follows h).1
  obtain ⟨-, -, hx, -, -, -⟩ := indexFit_ok.mp h
  have hqx : x.params.quant = some (p.quant.getD nNone) := by rw [hx]; rfl
  have last1 : (indexFile x.params).getLast? = some 'x' := by
    unfold indexFile dotIndex
    simp [List.getLast?_append, List.getLast?_cons]
  have last2 : ∀ f, quantFile x.params = some f → f.getLast? = some 'a' := by
    intro f hf
    unfold quantFile at hf
    split at hf
    · cases hf
    · cases hf; simp [dotData, List.getLast?_append]
  refine ⟨fun e => ?_, fun e => ?_, fun e => ?_, fun hne e => ?_⟩
  · rw [e] at last1; revert last1; decide
  · unfold quantFile at e
    split at e
    · cases e
    · rw [hqx] at e
      simp only [showName, Option.getD_some, dataFile, Option.some.injEq] at e
      have e' := List.append_cancel_right e
      have := validQuant_some.mpr hf.quant
      rw [e'] at this
      have hbad : validQuant (some ['r', 'a', 'w']) = .raised := by decide +kernel
      rw [hbad] at this; cases this
  · have := last2 _ e
    rw [last1] at this; revert this; decide
  · unfold quantFile at e
    split at e
    · next hn =>
      rw [hqx] at hn
      simp only [Option.some.injEq] at hn
      have := validQuant_some.mpr hf.quant
      rw [hn] at this
      have hz : validQuant (some nNone) = .ok .none := by decide +kernel
      rw [hz] at this; simp only [Res.ok.injEq] at this; exact hne this.symm
    · cases e

/-! ### Concrete cases -/

/-- `create_index(index_type="HNSW", metric="cosine", quantization_type="sq8", capacity=5000)`. -/
def exKwargs : Kwargs :=
  { indexType := some ['H', 'N', 'S', 'W'], metric := some nCosine, quant := some nSq8, capacity := some (.py 5000) }

/-- The parameter object made of it. -/
def exParams : Params :=
  { indexType := some ['H', 'N', 'S', 'W'], metric := some nCosine, quant := some nSq8, capacity := some (.py 5000) }

/-- The index fitted on float vectors. -/
def exIndex : Index :=
  { params := { exParams with dataType := some .f32, idType := some .u32, maxNbrs := some (.py 32) }
    native := ⟨.hnsw, .f32, .u32, .sq8, .cos, 5000, 32, 0, 0, [], false, []⟩
    graph := .hnsw }

theorem exKwargs_ok : fromKwargs exKwargs = .ok exParams := by decide +kernel

theorem exIndex_ok : indexFit exParams .f32 = .ok exIndex := by decide +kernel

example : Documented exKwargs := by
  by_contra h
  have := (C98_create exKwargs).2 h
  rw [exKwargs_ok] at this; cases this

example : ¬ Documented { metric := some ['l', '1'] } := by
  intro h
  obtain ⟨p, hp⟩ := (C98_create _).1 h
  have : fromKwargs { metric := some ['l', '1'] } = .raised := by decide +kernel
  rw [this] at hp; cases hp

example : collectionFit exParams .f32 = .ok { exIndex with params := { exIndex.params with hasScalar := true }, native := { exIndex.native with hasScalar := true } } := by
  decide +kernel

example : indexFit { dataType := some .i8 } .f32 = .raised :=
  C98_fit_dtype (Or.inr ⟨.i8, rfl, by decide⟩)

example : PlainNumbers exIndex.params := by
  rintro n (h | h | h | h) <;> simp [exIndex, exParams] at h <;> exact ⟨_, h.symm⟩

example : (quantFile exIndex.params) = some ['s', 'q', '8', '.', 'd', 'a', 't', 'a'] := by decide +kernel

end Alaya.PyParams
