import Verif.Props.C98

/-! # C98: what does not hold -/

namespace Alaya.PyParams

/-- `create_index(index_type="nsg")`. -/
def nsgParams : Params := { indexType := some nNsg }

/-- False: the graph is of the type asked for.  An index of type `nsg` (or `fusion`) holds the same
HNSW graph as one of type `hnsw`. -/
theorem C98_index_type_refuted :
    ¬ ∀ (p : Params) (dt : DType) (x : Index), indexFit p dt = .ok x → x.native.index = .nsg → x.graph = .nsg := by
  intro h
  have hx : indexFit nsgParams .f32 =
      .ok ⟨fillNone { nsgParams with dataType := some .f32 }, ⟨.nsg, .f32, .u32, .none, .l2, 100000, 32, 0, 0, [], false, []⟩, .hnsw⟩ := by
    decide +kernel
  have := h _ _ _ hx rfl
  cases this

/-- No index ever holds an NSG or fusion graph. -/
theorem C98_only_hnsw {p : Params} {dt : DType} {x : Index} (h : indexFit p dt = .ok x) :
    x.graph = .hnsw ∨ x.graph = .qg := by
  obtain ⟨-, -, -, -, -, hg⟩ := indexFit_ok.mp h
  unfold nativeFit at hg
  split at hg
  · right; simpa using hg.symm
  · split at hg
    · cases hg
    · left; simpa using hg.symm

/-- `create_index(metric="COSINE")`. -/
def capitals : Params := { metric := some ['C', 'O', 'S', 'I', 'N', 'E'] }

/-- The index fitted with it. -/
def capIndex : Index :=
  ⟨fillNone { capitals with dataType := some .f32 }, ⟨.hnsw, .f32, .u32, .none, .cos, 100000, 32, 0, 0, [], false, []⟩, .hnsw⟩

theorem capIndex_ok : indexFit capitals .f32 = .ok capIndex := by decide +kernel

/-- False: the metric does not depend on the case of its letters.  `"COSINE"` is accepted and
selects the native cosine metric, but the vectors are not normalised: the length of a vector
changes its distance. -/
theorem C98_cosine_case_refuted :
    ¬ ∀ (p : Params) (dt : DType) (x : Index), indexFit p dt = .ok x → x.native.metric = .cos →
      ∀ (v q : List ℝ) (a : ℝ), 0 < a → length2 v ≠ 0 → length2 q ≠ 0 →
        searchDistance x (v.map (· * a)) q = searchDistance x v q := by
  intro h
  have h1 : length2 [1] ≠ 0 := by simp [length2, inner]
  have := h _ _ _ capIndex_ok rfl [1] [1] 2 (by norm_num) h1 h1
  have hp : ∀ u, prepare capIndex.params.metric u = u := by
    intro u; unfold prepare; rw [if_pos (by decide +kernel)]
  unfold searchDistance at this
  rw [hp, hp] at this
  norm_num [distOf, distance, capIndex, dot] at this

/-- Its distances are not the documented cosine distances. -/
theorem C98_cosine_meaning_refuted :
    ¬ ∀ (p : Params) (dt : DType) (x : Index), indexFit p dt = .ok x →
      ∀ (v q : List ℝ), length2 v ≠ 0 → length2 q ≠ 0 → searchDistance x v q = meaning x.native.metric v q := by
  intro h
  have h1 : length2 [1] = 1 := by simp [length2, inner]
  have h2 : length2 [2] = 2 := by
    have : (2 : ℝ) * 2 = 2 ^ 2 := by norm_num
    simp [length2, inner, this]
  have := h _ _ _ capIndex_ok [2] [1] (by rw [h2]; norm_num) (by rw [h1]; norm_num)
  have hp : ∀ u, prepare capIndex.params.metric u = u := by
    intro u; unfold prepare; rw [if_pos (by decide +kernel)]
  unfold searchDistance at this
  rw [hp, hp] at this
  have hm : meaning capIndex.native.metric [2] [1] = - (inner [2] [1] / (length2 [2] * length2 [1])) := rfl
  rw [hm, h1, h2] at this
  norm_num [distOf, distance, capIndex, dot, inner] at this

/-- False: documented parameters either work or raise.  The cosine metric with int8 vectors ends
the process. -/
theorem C98_exit_refuted :
    ¬ ∀ (p : Params) (dt : DType), Usable p → VectorType dt → indexFit p dt ≠ .exits := by
  intro h
  refine h { metric := some nCosine } .i8 ?_ (Or.inr (Or.inl rfl)) (by decide +kernel)
  refine ⟨?_, ?_, ?_, ?_, ?_, ?_, ?_, ?_⟩ <;> intro a e <;> simp at e
  subst e
  exact ⟨.cos, validMetric_some.mp (by decide +kernel)⟩

/-- False: an unsupported combination raises.  For `nsg` and `fusion` the exception text cannot be
formed: undefined behaviour. -/
theorem C98_unsupported_refuted :
    ¬ ∀ (p : Params) (dt : DType), Usable p → VectorType dt → indexFit p dt ≠ .ub := by
  intro h
  refine h { indexType := some nNsg, quant := some nRabitq, idType := some .u64 } .f32 ?_ (Or.inl rfl)
    (by decide +kernel)
  refine ⟨?_, ?_, ?_, ?_, ?_, ?_, ?_, ?_⟩ <;> intro a e <;> simp at e <;> subst e
  · exact ⟨.nsg, validIndexType_some.mp (by decide +kernel)⟩
  · simp [UnsignedType]
  · exact ⟨.rabitq, validQuant_some.mp (by decide +kernel)⟩

/-- False: what `create_index` accepts can be fitted with vectors of a documented type.  16-bit ids
are accepted at creation and refused by `fit`. -/
theorem C98_accepted_refuted :
    ¬ ∀ (k : Kwargs) (p : Params), fromKwargs k = .ok p → ∃ dt x, indexFit p dt = .ok x := by
  intro h
  obtain ⟨dt, x, hx⟩ := h { idType := some .u16 } { idType := some .u16 } (by decide +kernel)
  have := (C98_fit_only hx).1
  cases hq : x.native.quant <;> rw [hq] at this <;> simp [Supported] at this

/-- False: a misspelt parameter name, or the documented field `has_scalar_data`, is refused or has
an effect.  Both are ignored. -/
theorem C98_unknown_refuted :
    ¬ ∀ (k : Kwargs), k.others ≠ [] → fromKwargs k = .raised := by
  intro h
  have := h { others := [['m', 'e', 't', 'r', 'i', 'c', 's']] } (by simp)
  revert this; decide +kernel

/-- `has_scalar_data=True` given to `create_index` is not kept. -/
theorem C98_scalar_refuted :
    ¬ ∀ (k : Kwargs) (p : Params), fromKwargs k = .ok p → Given k.hasScalar fun b => p.hasScalar = b := by
  intro h
  have := h { hasScalar := some true } {} (by decide +kernel) true rfl
  cases this

/-- False: the configured component type of a collection is respected.  The first embedding
replaces it. -/
theorem C98_collection_dtype_refuted :
    ¬ ∀ (p : Params) (dt : DType) (x : Index), collectionFit p dt = .ok x → Given p.dataType fun d => x.native.data = d := by
  intro h
  have hx : collectionFit { dataType := some .i8 } .f32 =
      .ok ⟨{ fillNone { dataType := some .f32 } with hasScalar := true }, ⟨.hnsw, .f32, .u32, .none, .l2, 100000, 32, 0, 0, [], true, []⟩, .hnsw⟩ := by
    decide +kernel
  have := h _ _ _ hx .i8 rfl
  cases this

/-- False: every fitted index can be saved.  A NumPy capacity (the declared type) is accepted by
`create_index` and `fit`, and the schema document cannot be written. -/
theorem C98_numpy_save_refuted :
    ¬ ∀ (p : Params) (dt : DType) (x : Index), indexFit p dt = .ok x → ∃ d, save x.params = .ok d := by
  intro h
  have hx : indexFit { capacity := some (.np 5000) } .f32 =
      .ok ⟨fillNone { capacity := some (.np 5000), dataType := some .f32 }, ⟨.hnsw, .f32, .u32, .none, .l2, 5000, 32, 0, 0, [], false, []⟩, .hnsw⟩ := by
    decide +kernel
  obtain ⟨d, hd⟩ := h _ _ _ hx
  simp [save, fillNone, jNum] at hd

end Alaya.PyParams
