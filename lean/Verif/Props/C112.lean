import Verif.Model.DiskANNPy

/-!
# C112: the DiskANN index reads the elements of the arrays it is given, or refuses them

Model: Model/DiskANNPy.lean.
-/

namespace Alaya.DPy

/-- Element `i` of a one-dimensional array. -/
def Arr.at1 {α : Type} (a : Arr α) (i : Nat) : α := a.mem (i * a.strides.getD 0 0)

/-- Element `i, j` of a two-dimensional array. -/
def Arr.at2 {α : Type} (a : Arr α) (i j : Nat) : α := a.mem (i * a.strides.getD 0 0 + j * a.strides.getD 1 0)

/-- What NumPy promises: an array with the flag has the strides of its shape, except along an axis with one entry or when it is empty. -/
def Arr.numpy {α : Type} (a : Arr α) : Prop :=
  a.cflag = true →
    (∀ n, a.shape = [n] → n ≤ 1 ∨ a.strides.getD 0 0 = a.dtype.size) ∧
    (∀ n d, a.shape = [n, d] → n = 0 ∨ d = 0 ∨ ((d = 1 ∨ a.strides.getD 1 0 = a.dtype.size) ∧
      (n = 1 ∨ a.strides.getD 0 0 = d * a.dtype.size)))

/-- The arrays that are accepted. -/
def Arr.good {α : Type} (a : Arr α) (t : DType) (dims : Nat) : Prop := a.dtype = t ∧ a.shape.length = dims ∧ a.cflag = true

theorem require_ok {α : Type} (a : Arr α) (t : DType) (dims : Nat) (u : Unit) : requireArray a t dims = .ok u ↔ a.good t dims := by
  unfold requireArray Arr.good
  by_cases h1 : a.dtype = t <;> by_cases h2 : a.shape.length = dims <;> cases h3 : a.cflag <;> simp [h1, h2]

theorem require_cases {α : Type} (a : Arr α) (t : DType) (dims : Nat) :
    (requireArray a t dims = .ok () ∧ a.good t dims) ∨ (∃ e, requireArray a t dims = .error e) ∧ ¬ a.good t dims := by
  have := require_ok a t dims ()
  cases h : requireArray a t dims with
  | ok u => exact Or.inl ⟨rfl, this.mp h⟩
  | error e => exact Or.inr ⟨⟨e, rfl⟩, fun hg => by rw [this.mpr hg] at h; cases h⟩

theorem read1 {α : Type} (a : Arr α) (t : DType) (hg : a.good t 1) (hn : a.numpy) (i : Nat) (hi : i < a.dim 0) : a.read i = a.at1 i := by
  obtain ⟨_, h2, h3⟩ := hg
  match hs : a.shape, h2 with
  | [n], _ =>
    simp only [Arr.dim, hs, List.getD_cons_zero] at hi
    unfold Arr.read Arr.at1
    rcases (hn h3).1 n hs with h | h
    · have : i = 0 := by omega
      subst this; simp
    · rw [h]; simp

theorem read2 {α : Type} (a : Arr α) (t : DType) (hg : a.good t 2) (hn : a.numpy) (i j : Nat) (hi : i < a.dim 0) (hj : j < a.dim 1) :
    a.read (i * a.dim 1 + j) = a.at2 i j := by
  obtain ⟨_, h2, h3⟩ := hg
  match hs : a.shape, h2 with
  | [n, d], _ =>
    simp only [Arr.dim, hs, List.getD_cons_zero, List.getD_cons_succ] at hi hj ⊢
    unfold Arr.read Arr.at2
    rcases (hn h3).2 n d hs with h | h | ⟨h4, h5⟩
    · omega
    · omega
    · have e1 : (j : Int) * a.strides.getD 1 0 = j * a.dtype.size := by
        rcases h4 with h | h
        · have : j = 0 := by omega
          subst this; simp
        · rw [h]
      have e0 : (i : Int) * a.strides.getD 0 0 = i * (d * a.dtype.size) := by
        rcases h5 with h | h
        · have : i = 0 := by omega
          subst this; simp
        · rw [h]
      rw [e0, e1]
      congr 1
      push_cast
      rw [Int.add_mul, Int.mul_assoc]

theorem checked_ok (n c : Nat) : checkedU32 n = .ok c ↔ c = n ∧ n < 4294967296 := by
  unfold checkedU32
  split
  · constructor
    · intro h; cases h
    · intro h; omega
  · rename_i h
    rw [Except.ok.injEq, Nat.mod_eq_of_lt (by omega)]
    omega

/-- Building accepts exactly the C-contiguous float matrices that are not empty with as many 64-bit labels, and the index then reads their elements. -/
theorem C112_build {α β : Type} (v : Arr α) (l : Arr β) (c : Call α β) (h : build v l = .ok c) (hv : v.numpy) (hl : l.numpy) :
    v.good .f32 2 ∧ l.good .u64 1 ∧ l.dim 0 = v.dim 0 ∧ 0 < v.dim 0 ∧ 0 < v.dim 1 ∧ c.count = v.dim 0 ∧ c.dim = v.dim 1 ∧
      (∀ i j, i < c.count → j < c.dim → c.vec i j = v.at2 i j) ∧ (∀ i, i < c.count → c.label i = l.at1 i) := by
  unfold build at h
  rcases require_cases v .f32 2 with ⟨e, g⟩ | ⟨⟨x, e⟩, _⟩
  · rcases require_cases l .u64 1 with ⟨e', g'⟩ | ⟨⟨x, e'⟩, _⟩
    · rw [e, e'] at h
      by_cases h1 : v.dim 0 = 0 ∨ v.dim 1 = 0
      · simp [h1, bind, Except.bind, throw, throwThe, MonadExceptOf.throw] at h
      · by_cases h2 : l.dim 0 ≠ v.dim 0
        · simp [h1, h2, bind, Except.bind, throw, throwThe, MonadExceptOf.throw] at h
        · have h2' : l.dim 0 = v.dim 0 := by simpa using h2
          simp only [h1, h2, bind, Except.bind, if_false, pure, Except.pure, Except.ok.injEq] at h
          subst h
          refine ⟨g, g', h2', by omega, by omega, rfl, rfl, fun i j hi hj => read2 v _ g hv i j hi hj, fun i hi => ?_⟩
          exact read1 l _ g' hl i (by rw [h2']; exact hi)
    · rw [e, e'] at h; cases h
  · rw [e] at h; cases h

/-- ... and it refuses no such arrays. -/
theorem C112_build_accepts {α β : Type} (v : Arr α) (l : Arr β) (g : v.good .f32 2) (g' : l.good .u64 1) (h1 : 0 < v.dim 0) (h2 : 0 < v.dim 1)
    (h3 : l.dim 0 = v.dim 0) : ∃ c, build v l = .ok c := by
  have n1 : ¬ (v.dim 0 = 0 ∨ v.dim 1 = 0) := by omega
  refine ⟨⟨v.dim 0, v.dim 1, fun i j => v.read (i * v.dim 1 + j), l.read⟩, ?_⟩
  unfold build
  rw [(require_ok v _ _ ()).mpr g, (require_ok l _ _ ()).mpr g']
  simp [n1, h3, bind, Except.bind, pure, Except.pure]

/-- A search reads the query. -/
theorem C112_search {α : Type} (dim : Nat) (q : Arr α) (topK : Nat) (c : Call α Unit) (h : search dim q topK = .ok c) (hq : q.numpy) :
    q.good .f32 1 ∧ q.dim 0 = dim ∧ 0 < topK ∧ c.dim = dim ∧ ∀ j, j < dim → c.vec 0 j = q.at1 j := by
  unfold search at h
  rcases require_cases q .f32 1 with ⟨e, g⟩ | ⟨⟨x, e⟩, _⟩
  · rw [e] at h
    by_cases h1 : q.dim 0 ≠ dim
    · simp [h1, bind, Except.bind, throw, throwThe, MonadExceptOf.throw] at h
    · by_cases h2 : topK = 0
      · simp [h1, h2, bind, Except.bind, throw, throwThe, MonadExceptOf.throw] at h
      · have h1' : q.dim 0 = dim := by simpa using h1
        simp only [h1, h2, bind, Except.bind, if_false, pure, Except.pure, Except.ok.injEq] at h
        subst h
        exact ⟨g, h1', by omega, rfl, fun j hj => read1 q _ g hq j (by rw [h1']; exact hj)⟩
  · rw [e] at h; cases h

/-- An insertion reads the vector. -/
theorem C112_insert {α β : Type} (dim : Nat) (v : Arr α) (id : β) (c : Call α β) (h : insert dim v id = .ok c) (hv : v.numpy) :
    v.good .f32 1 ∧ v.dim 0 = dim ∧ c.count = 1 ∧ c.dim = dim ∧ c.label 0 = id ∧ ∀ j, j < dim → c.vec 0 j = v.at1 j := by
  unfold insert at h
  rcases require_cases v .f32 1 with ⟨e, g⟩ | ⟨⟨x, e⟩, _⟩
  · rw [e] at h
    by_cases h1 : v.dim 0 ≠ dim
    · simp [h1, bind, Except.bind, throw, throwThe, MonadExceptOf.throw] at h
    · have h1' : v.dim 0 = dim := by simpa using h1
      simp only [h1, bind, Except.bind, if_false, pure, Except.pure, Except.ok.injEq] at h
      subst h
      exact ⟨g, h1', rfl, rfl, rfl, fun j hj => read1 v _ g hv j (by rw [h1']; exact hj)⟩
  · rw [e] at h; cases h

/-- A batch of searches reads every query, none is lost to the 32-bit count, and the number of results does not overflow. -/
theorem C112_batch_search {α : Type} (dim : Nat) (q : Arr α) (topK threads : Nat) (c : Call α Unit) (h : batchSearch dim q topK threads = .ok c)
    (hq : q.numpy) : q.good .f32 2 ∧ q.dim 1 = dim ∧ 0 < topK ∧ 0 < threads ∧ 0 < c.count ∧ c.count = q.dim 0 ∧ q.dim 0 < 2 ^ 32 ∧ c.dim = dim ∧
      (topK < 2 ^ 32 → c.count * topK < 2 ^ 64) ∧ ∀ i j, i < c.count → j < dim → c.vec i j = q.at2 i j := by
  unfold batchSearch at h
  rcases require_cases q .f32 2 with ⟨e, g⟩ | ⟨⟨x, e⟩, _⟩
  · rw [e] at h
    by_cases h0 : q.dim 0 = 0
    · simp [h0, bind, Except.bind, throw, throwThe, MonadExceptOf.throw] at h
    · by_cases h1 : q.dim 1 ≠ dim
      · simp [h0, h1, bind, Except.bind, throw, throwThe, MonadExceptOf.throw] at h
      · by_cases h2 : topK = 0 ∨ threads = 0
        · simp [h0, h1, h2, bind, Except.bind, throw, throwThe, MonadExceptOf.throw] at h
        · have h1' : q.dim 1 = dim := by simpa using h1
          simp only [h0, h1, h2, bind, Except.bind, if_false, pure, Except.pure] at h
          cases hc : checkedU32 (q.dim 0) with
          | error e => rw [hc] at h; cases h
          | ok n =>
            rw [hc] at h
            simp only [Except.ok.injEq] at h
            obtain ⟨hn, hlt⟩ := (checked_ok _ _).mp hc
            subst h
            refine ⟨g, h1', by omega, by omega, by simp only [hn]; omega, hn, hlt, rfl, ?_, fun i j hi hj => ?_⟩
            · intro ht
              simp only [hn]
              exact Nat.lt_of_le_of_lt (Nat.mul_le_mul (Nat.le_of_lt_succ hlt) (Nat.le_of_lt_succ ht)) (by decide)
            · have := read2 q _ g hq i j (by rw [← hn]; exact hi) (by rw [h1']; exact hj)
              rwa [h1'] at this
  · rw [e] at h; cases h

/-- A batch of insertions reads every vector and its own label. -/
theorem C112_batch_insert {α β : Type} (dim : Nat) (v : Arr α) (l : Arr β) (c : Call α β) (h : batchInsert dim v l = .ok c) (hv : v.numpy)
    (hl : l.numpy) : v.good .f32 2 ∧ l.good .u64 1 ∧ v.dim 1 = dim ∧ l.dim 0 = v.dim 0 ∧ c.count = v.dim 0 ∧ v.dim 0 < 2 ^ 32 ∧ c.dim = dim ∧
      (∀ i j, i < c.count → j < dim → c.vec i j = v.at2 i j) ∧ ∀ i, i < c.count → c.label i = l.at1 i := by
  unfold batchInsert at h
  rcases require_cases v .f32 2 with ⟨e, g⟩ | ⟨⟨x, e⟩, _⟩
  · rcases require_cases l .u64 1 with ⟨e', g'⟩ | ⟨⟨x, e'⟩, _⟩
    · rw [e, e'] at h
      by_cases h1 : v.dim 1 ≠ dim
      · simp [h1, bind, Except.bind, throw, throwThe, MonadExceptOf.throw] at h
      · by_cases h2 : v.dim 0 ≠ l.dim 0
        · simp [h1, h2, bind, Except.bind, throw, throwThe, MonadExceptOf.throw] at h
        · have h1' : v.dim 1 = dim := by simpa using h1
          have h2' : v.dim 0 = l.dim 0 := by simpa using h2
          simp only [h1, h2, bind, Except.bind, if_false, pure, Except.pure] at h
          cases hc : checkedU32 (v.dim 0) with
          | error e => rw [hc] at h; cases h
          | ok n =>
            rw [hc] at h
            simp only [Except.ok.injEq] at h
            obtain ⟨hn, hlt⟩ := (checked_ok _ _).mp hc
            subst h
            refine ⟨g, g', h1', h2'.symm, hn, hlt, rfl, fun i j hi hj => ?_, fun i hi => ?_⟩
            · have := read2 v _ g hv i j (by rw [← hn]; exact hi) (by rw [h1']; exact hj)
              rwa [h1'] at this
            · exact read1 l _ g' hl i (by rw [← h2', ← hn]; exact hi)
    · rw [e, e'] at h; cases h
  · rw [e] at h; cases h

/-- A batch of removals reads every label. -/
theorem C112_batch_remove {β : Type} (l : Arr β) (c : Call Unit β) (h : batchRemove l = .ok c) (hl : l.numpy) :
    l.good .u64 1 ∧ c.count = l.dim 0 ∧ l.dim 0 < 2 ^ 32 ∧ ∀ i, i < c.count → c.label i = l.at1 i := by
  unfold batchRemove at h
  rcases require_cases l .u64 1 with ⟨e, g⟩ | ⟨⟨x, e⟩, _⟩
  · rw [e] at h
    simp only [bind, Except.bind, pure, Except.pure] at h
    cases hc : checkedU32 (l.dim 0) with
    | error e => rw [hc] at h; cases h
    | ok n =>
      rw [hc] at h
      simp only [Except.ok.injEq] at h
      obtain ⟨hn, hlt⟩ := (checked_ok _ _).mp hc
      subst h
      exact ⟨g, hn, hlt, fun i hi => read1 l _ g hl i (by rw [← hn]; exact hi)⟩
  · rw [e] at h; cases h

/-- The others refuse no good arrays either. -/
theorem C112_accepts {α β : Type} (dim : Nat) :
    (∀ (q : Arr α) (topK : Nat), q.good .f32 1 → q.dim 0 = dim → 0 < topK → ∃ c, search dim q topK = .ok c) ∧
    (∀ (v : Arr α) (id : β), v.good .f32 1 → v.dim 0 = dim → ∃ c, insert dim v id = .ok c) ∧
    (∀ (q : Arr α) (topK threads : Nat), q.good .f32 2 → q.dim 1 = dim → 0 < q.dim 0 → q.dim 0 < 2 ^ 32 → 0 < topK → 0 < threads →
      ∃ c, batchSearch dim q topK threads = .ok c) ∧
    (∀ (v : Arr α) (l : Arr β), v.good .f32 2 → l.good .u64 1 → v.dim 1 = dim → v.dim 0 = l.dim 0 → v.dim 0 < 2 ^ 32 →
      ∃ c, batchInsert dim v l = .ok c) ∧
    (∀ l : Arr β, l.good .u64 1 → l.dim 0 < 2 ^ 32 → ∃ c, batchRemove l = .ok c) := by
  refine ⟨fun q topK g h1 h2 => ?_, fun v id g h1 => ?_, fun q topK threads g h1 h0 hlt h2 h3 => ?_, fun v l g g' h1 h2 hlt => ?_, fun l g hlt => ?_⟩
  · unfold search
    rw [(require_ok q _ _ ()).mpr g]
    have n2 : topK ≠ 0 := by omega
    simp [h1, n2, bind, Except.bind, pure, Except.pure]
  · unfold insert
    rw [(require_ok v _ _ ()).mpr g]
    simp [h1, bind, Except.bind, pure, Except.pure]
  · unfold batchSearch
    rw [(require_ok q _ _ ()).mpr g, (checked_ok _ _).mpr ⟨rfl, hlt⟩]
    have n0 : q.dim 0 ≠ 0 := by omega
    have n2 : ¬ (topK = 0 ∨ threads = 0) := by omega
    simp [n0, h1, n2, bind, Except.bind, pure, Except.pure]
  · unfold batchInsert
    rw [(require_ok v _ _ ()).mpr g, (require_ok l _ _ ()).mpr g', (checked_ok _ _).mpr ⟨rfl, hlt⟩]
    simp [h1, h2, bind, Except.bind, pure, Except.pure]
  · unfold batchRemove
    rw [(require_ok l _ _ ()).mpr g, (checked_ok _ _).mpr ⟨rfl, hlt⟩]
    simp [bind, Except.bind, pure, Except.pure]

/-- Two vectors of three components; a row taken out of a larger matrix, whose first stride is that of the matrix. -/
def mat : Arr Int := ⟨.f32, [2, 3], [12, 4], true, id⟩
def row : Arr Int := ⟨.f32, [1, 3], [400, 4], true, id⟩
def ids : Arr Int := ⟨.u64, [2], [8], true, id⟩

example : mat.numpy ∧ row.numpy ∧ ids.numpy := by
  refine ⟨fun _ => ⟨?_, ?_⟩, fun _ => ⟨?_, ?_⟩, fun _ => ⟨?_, ?_⟩⟩
  · intro n h; simp [mat] at h
  · intro n d h; simp only [mat, List.cons.injEq, and_true] at h; obtain ⟨rfl, rfl⟩ := h; decide
  · intro n h; simp [row] at h
  · intro n d h; simp only [row, List.cons.injEq, and_true] at h; obtain ⟨rfl, rfl⟩ := h; decide
  · intro n h; simp only [ids, List.cons.injEq, and_true] at h; subst h; decide
  · intro n d h; simp [ids] at h
example : (build mat ids).toOption.map (fun c => (c.count, c.dim, c.vec 1 2, c.label 1)) = some (2, 3, 20, 8) := by decide +kernel
example : (batchSearch 3 row 10 1).toOption.map (fun c => (c.count, c.vec 0 2)) = some (1, 8) := by decide +kernel
example : (batchInsert 3 mat ids).toOption.map (fun c => (c.count, c.vec 1 0)) = some (2, 12) := by decide +kernel
example : (batchRemove ids).toOption.map (fun c => c.count) = some 2 := by decide +kernel
example : (search 3 (⟨.f32, [3], [4], true, id⟩ : Arr Int) 5).toOption.map (fun c => c.vec 0 2) = some 8 := by decide +kernel

example : (insert 3 (⟨.f32, [3], [4], true, id⟩ : Arr Int) 9).toOption.map (fun c => (c.vec 0 2, c.label 0)) = some (8, 9) := by decide +kernel

end Alaya.DPy
