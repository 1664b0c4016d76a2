import Verif.Lemmas.DiskFlat

/-! C30: Flat segment search is exact. -/
namespace Alaya.DiskFlat
open Alaya.TopK Alaya.Spec

/-- The query checks pass. -/
def QueryOk (m : Metric) (query : List Nat) : Prop :=
  query.all finite32 = true ∧ ¬ (m = .cos ∧ allZero query = true)

/-- The query handed to the kernel. -/
def effQuery (K : Kernel) (m : Metric) (query : List Nat) : List Nat := if m = .cos then K.norm query else query

/-- Every segment that opens (any file contents) and every acceptable query: no read leaves the files, and the result
holds the `topk` best rows by (distance, label), ascending. -/
theorem C30_search_exact (K : Kernel) (H : StdHeap Hit Hit.lt) (s : Segment) (ho : s.opens = true) (query : List Nat)
    (topk : Nat) (hk : 0 < topk) (hq : QueryOk s.metric query) :
    ∃ out, s.search K H query topk = some (some out) ∧
      Best hitLe topk out ((List.range s.count).map (fun i =>
        (⟨(fileRow s i).1, K.dist s.metric (effQuery K s.metric query) (fileRow s i).2⟩ : Hit))) := by
  unfold Segment.opens at ho
  simp only [Bool.and_eq_true, decide_eq_true_eq] at ho
  obtain ⟨⟨⟨⟨⟨⟨⟨hd, hc⟩, -⟩, -⟩, -⟩, -⟩, h1⟩, h2⟩ := ho
  unfold Segment.search
  rw [if_neg (by omega), if_neg (by rw [hq.1]; simp), if_neg (by
    intro hh
    rw [Bool.and_eq_true, decide_eq_true_eq] at hh
    exact hq.2 hh)]
  simp only
  rw [show (if s.metric = Metric.cos then K.norm query else query) = effQuery K s.metric query from rfl]
  rw [scan_eq s _ h1 h2 s.count 0 (by omega)]
  simp only [Nat.zero_add]
  obtain ⟨out, e, hb⟩ := select_spec Hit.weak H (k := min topk s.count) (by omega) ((List.range s.count).map (fun i =>
        (⟨(fileRow s i).1, K.dist s.metric (effQuery K s.metric query) (fileRow s i).2⟩ : Hit)))
  rw [leOf_hitLe] at hb
  refine ⟨out, by rw [e]; rfl, hb.1, ?_, hb.2.2⟩
  have := hb.2.1
  rw [List.length_map, List.length_range] at *
  omega

/-- `topk = 0`, a non-finite component and a zero query under COS throw. -/
theorem C30_bad_query (K : Kernel) (H : StdHeap Hit Hit.lt) (s : Segment) (query : List Nat) (topk : Nat)
    (h : topk = 0 ∨ ¬ QueryOk s.metric query) : s.search K H query topk = some none := by
  unfold Segment.search
  by_cases h0 : topk = 0
  · rw [if_pos h0]
  · rw [if_neg h0]
    rcases h with h | h
    · exact absurd h h0
    · unfold QueryOk at h
      by_cases hf : query.all finite32 = true
      · rw [if_neg (by rw [hf]; simp), if_pos]
        rw [Bool.and_eq_true, decide_eq_true_eq]
        by_cases hz : s.metric = .cos ∧ allZero query = true
        · exact hz
        · exact absurd ⟨hf, hz⟩ h
      · rw [if_pos (by simp [hf])]

/-- A history of `add_batch` calls; a call that throws changes nothing. -/
def addAll : List (List Nat × List Nat) → Builder → Builder
  | [], b => b
  | (v, l) :: cs, b => addAll cs ((b.addBatch v l).getD b)

/-- The rows of the calls that did not throw, in order. -/
def accepted (dim : Nat) : List (List Nat × List Nat) → List (Nat × List Nat)
  | [] => []
  | (v, l) :: cs =>
    (if l ≠ [] ∧ l.length * dim < U64 ∧ v.all finite32 then l.zip (rowsOf dim l.length v) else []) ++ accepted dim cs

theorem rowsOf_length (dim n : Nat) (v : List Nat) : (rowsOf dim n v).length = n := by simp [rowsOf]

theorem rowAt_append_right (dim : Nat) (v v' : List Nat) (n : Nat) (h : v.length = n * dim) (i : Nat) :
    rowAt dim (v ++ v') (n + i) = rowAt dim v' i := by
  unfold rowAt
  rw [Nat.add_mul, ← h, List.drop_append, List.drop_eq_nil_of_le (by omega), List.nil_append]
  rw [show v.length + i * dim - v.length = i * dim by omega]

theorem rowAt_append_left (dim : Nat) (v v' : List Nat) (n : Nat) (h : v.length = n * dim) (i : Nat) (hi : i < n) :
    rowAt dim (v ++ v') i = rowAt dim v i := by
  unfold rowAt
  have hb : i * dim + dim ≤ v.length := by
    rw [h, ← Nat.succ_mul]; exact Nat.mul_le_mul_right _ (by omega)
  rw [List.drop_append_of_le_length (by omega), List.take_append_of_le_length (by rw [List.length_drop]; omega)]

theorem rowsOf_append (dim n m : Nat) (v v' : List Nat) (h : v.length = n * dim) :
    rowsOf dim (n + m) (v ++ v') = rowsOf dim n v ++ rowsOf dim m v' := by
  unfold rowsOf
  rw [List.range_add, List.map_append, List.map_map]
  congr 1
  · apply List.map_congr_left
    intro i hi
    exact rowAt_append_left dim v v' n h i (List.mem_range.mp hi)
  · apply List.map_congr_left
    intro i _
    exact rowAt_append_right dim v v' n h i

/-- Builder state: the data so far, with matching lengths and types. -/
structure BInv (dim : Nat) (m : Metric) (b : Builder) (rows : List (Nat × List Nat)) : Prop where
  bdim : b.dim = dim
  bmet : b.metric = m
  bopen : b.closed = false
  blen : b.vectors.length = b.labels.length * dim
  blab : ∀ l ∈ b.labels, l < 2 ^ 64
  bvec : ∀ x ∈ b.vectors, x < 2 ^ 32
  brows : b.labels.zip (rowsOf dim b.labels.length b.vectors) = rows

theorem addAll_inv (dim : Nat) (m : Metric) : ∀ (cs : List (List Nat × List Nat)) (b : Builder) (rows : List (Nat × List Nat)),
    (∀ c ∈ cs, c.1.length = c.2.length * dim ∧ (∀ l ∈ c.2, l < 2 ^ 64) ∧ (∀ x ∈ c.1, x < 2 ^ 32)) →
    BInv dim m b rows → BInv dim m (addAll cs b) (rows ++ accepted dim cs) := by
  intro cs
  induction cs with
  | nil => intro b rows _ h; simpa [addAll, accepted] using h
  | cons c cs ih =>
    intro b rows hcs h
    obtain ⟨v, l⟩ := c
    obtain ⟨c1, c2, c3⟩ := hcs (v, l) (by simp)
    simp only at c1 c2 c3
    unfold addAll accepted
    rw [← List.append_assoc]
    apply ih _ _ (fun c hc => hcs c (by simp [hc]))
    unfold Builder.addBatch
    rw [h.bopen]
    simp only [Bool.false_eq_true, if_false]
    by_cases hl : l.length = 0
    · have : l = [] := List.length_eq_zero_iff.mp hl
      subst this
      simpa using h
    · rw [if_neg hl, h.bdim]
      by_cases ho : U64 ≤ l.length * dim
      · rw [if_pos ho, if_neg (by intro hh; omega)]
        simpa using h
      · rw [if_neg ho]
        by_cases hf : v.all finite32 = true
        · rw [if_pos hf, if_pos ⟨by intro hh; rw [hh] at hl; exact hl rfl, by omega, hf⟩]
          simp only [Option.getD_some]
          refine ⟨rfl, h.bmet, rfl, ?_, ?_, ?_, ?_⟩
          · simp only [List.length_append]; rw [h.blen, c1, Nat.add_mul]
          · intro x hx
            rcases List.mem_append.mp hx with h' | h'
            · exact h.blab x h'
            · exact c2 x h'
          · intro x hx
            rcases List.mem_append.mp hx with h' | h'
            · exact h.bvec x h'
            · exact c3 x h'
          · show (b.labels ++ l).zip (rowsOf dim (b.labels ++ l).length (b.vectors ++ v)) = _
            rw [List.length_append, rowsOf_append dim _ _ _ _ h.blen, List.zip_append (by rw [rowsOf_length]), h.brows]
        · rw [if_neg hf, if_neg (by intro hh; exact hf hh.2.2)]
          simpa using h

/-- What a segment stores for a row. -/
def stored (K : Kernel) (m : Metric) (row : List Nat) : List Nat := if m = .cos then K.norm row else row

theorem fileRow_flat (dim : Nat) (m : Metric) (labels vs : List Nat) (hl : vs.length = labels.length * dim)
    (h1 : ∀ l ∈ labels, l < 2 ^ 64) (h2 : ∀ x ∈ vs, x < 2 ^ 32) (i : Nat) (hi : i < labels.length) :
    fileRow ⟨dim, labels.length, m, labels.flatMap (leBytes 8), vs.flatMap (leBytes 4)⟩ i = (labels.getD i 0, rowAt dim vs i) := by
  unfold fileRow
  simp only
  have getD_mem : ∀ (xs : List Nat) (j : Nat), j < xs.length → xs.getD j 0 ∈ xs := by
    intro xs j hj
    rw [List.getD_eq_getElem?_getD, List.getElem?_eq_getElem hj]
    exact List.getElem_mem hj
  rw [slice_flatMap 8 labels i hi, leNat_leBytes_of_lt (by have := h1 _ (getD_mem labels i hi); simpa using this)]
  congr 1
  unfold rowAt
  have hb : i * dim + dim ≤ vs.length := by
    rw [hl, ← Nat.succ_mul]; exact Nat.mul_le_mul_right _ (by omega)
  apply List.ext_getElem?
  intro c
  by_cases hc : c < dim
  · have hidx : i * dim + c < vs.length := by omega
    rw [List.getElem?_map, List.getElem?_range hc, List.getElem?_take_of_lt hc, List.getElem?_drop]
    rw [Option.map_some, show i * dim * 4 + c * 4 = 4 * (i * dim + c) by rw [← Nat.add_mul]; omega]
    rw [slice_flatMap 4 vs _ hidx, leNat_leBytes_of_lt (by have := h2 _ (getD_mem vs _ hidx); simpa using this)]
    rw [List.getD_eq_getElem?_getD, List.getElem?_eq_getElem hidx]
    rfl
  · rw [List.getElem?_eq_none (by simp; omega), List.getElem?_eq_none (by simp; omega)]

theorem range_zip (labels : List Nat) (f : Nat → List Nat) :
    (List.range labels.length).map (fun i => (labels.getD i 0, f i)) = labels.zip ((List.range labels.length).map f) := by
  apply List.ext_getElem?
  intro i
  by_cases h : i < labels.length
  · rw [List.getElem?_map, List.getElem?_range h, Option.map_some]
    rw [List.getElem?_eq_getElem (by simp [h]), List.getElem_zip]
    simp [List.getD_eq_getElem?_getD, h]
  · rw [List.getElem?_eq_none (by simp; omega), List.getElem?_eq_none (by simp; omega)]

theorem flatten_rows (dim : Nat) (rows : List (List Nat)) (h : ∀ r ∈ rows, r.length = dim) :
    rows.flatten.length = rows.length * dim ∧ rowsOf dim rows.length rows.flatten = rows := by
  induction rows with
  | nil => simp [rowsOf]
  | cons r rows ih =>
    obtain ⟨i1, i2⟩ := ih (fun x hx => h x (by simp [hx]))
    have hr := h r (by simp)
    refine ⟨by rw [List.flatten_cons, List.length_append, i1, hr, List.length_cons, Nat.succ_mul]; omega, ?_⟩
    rw [List.flatten_cons, List.length_cons, show rows.length + 1 = 1 + rows.length by omega]
    rw [rowsOf_append dim 1 rows.length r rows.flatten (by omega), i2]
    unfold rowsOf rowAt
    simp [hr, List.take_of_length_le]

/-- End to end: add any batches (some may throw), finish, open: the segment opens, and a search returns the best rows
among exactly the rows of the accepted batches. -/
theorem C30_built_segment_exact (K : Kernel) (H : StdHeap Hit Hit.lt) (dim : Nat) (m : Metric)
    (cs : List (List Nat × List Nat)) (hd : 0 < dim ∧ dim < 2 ^ 32)
    (hcs : ∀ c ∈ cs, c.1.length = c.2.length * dim ∧ (∀ l ∈ c.2, l < 2 ^ 64) ∧ (∀ x ∈ c.1, x < 2 ^ 32))
    (hnorm : ∀ r, (∀ x ∈ r, x < 2 ^ 32) → (K.norm r).length = r.length ∧ ∀ x ∈ K.norm r, x < 2 ^ 32)
    (s : Segment) (hf : (addAll cs ⟨dim, m, [], [], false⟩).finish K = some s)
    (hsize : (accepted dim cs).length * dim * 4 < U64 ∧ (accepted dim cs).length * 8 < U64) :
    s.opens = true ∧ s.metric = m ∧
      ∀ (query : List Nat) (topk : Nat), 0 < topk → QueryOk m query →
        ∃ out, s.search K H query topk = some (some out) ∧
          Best hitLe topk out ((accepted dim cs).map (fun r =>
            (⟨r.1, K.dist m (effQuery K m query) (stored K m r.2)⟩ : Hit))) := by
  have inv := addAll_inv dim m cs ⟨dim, m, [], [], false⟩ [] hcs
    ⟨rfl, rfl, rfl, by simp, by simp, by simp, by simp⟩
  rw [List.nil_append] at inv
  generalize addAll cs ⟨dim, m, [], [], false⟩ = b at *
  have hcount : (accepted dim cs).length = b.labels.length := by
    rw [← inv.brows, List.length_zip, rowsOf_length]; omega
  rw [hcount] at hsize
  unfold Builder.finish at hf
  rw [inv.bopen] at hf
  simp only [Bool.false_eq_true, if_false] at hf
  by_cases hnil : b.labels = []
  · rw [if_pos hnil] at hf; cases hf
  rw [if_neg hnil, inv.bmet, inv.bdim] at hf
  have hpos : 0 < b.labels.length := List.length_pos_iff.mpr hnil
  -- the stored components
  obtain ⟨vs, hs, hvl, hv32, hrows⟩ : ∃ vs, s = ⟨dim, b.labels.length, m, b.labels.flatMap (leBytes 8), vs.flatMap (leBytes 4)⟩ ∧
      vs.length = b.labels.length * dim ∧ (∀ x ∈ vs, x < 2 ^ 32) ∧
      rowsOf dim b.labels.length vs = (rowsOf dim b.labels.length b.vectors).map (stored K m) := by
    by_cases hm : m = .cos
    · rw [if_pos hm] at hf
      split at hf
      · cases hf
      · have hrl : ∀ r ∈ rowsOf dim b.labels.length b.vectors, r.length = dim ∧ ∀ x ∈ r, x < 2 ^ 32 := by
          intro r hr
          unfold rowsOf at hr
          obtain ⟨i, hi, rfl⟩ := List.mem_map.mp hr
          have hi := List.mem_range.mp hi
          unfold rowAt
          have hb : i * dim + dim ≤ b.vectors.length := by
            rw [inv.blen, ← Nat.succ_mul]; exact Nat.mul_le_mul_right _ (by omega)
          refine ⟨by rw [List.length_take, List.length_drop]; omega, ?_⟩
          intro x hx
          exact inv.bvec x (List.mem_of_mem_drop (List.mem_of_mem_take hx))
        have hnl : ∀ r ∈ (rowsOf dim b.labels.length b.vectors).map K.norm, r.length = dim := by
          intro r hr
          obtain ⟨r', hr', rfl⟩ := List.mem_map.mp hr
          rw [(hnorm r' (hrl r' hr').2).1, (hrl r' hr').1]
        obtain ⟨f1, f2⟩ := flatten_rows dim _ hnl
        rw [List.length_map, rowsOf_length] at f1 f2
        refine ⟨_, (Option.some.inj hf).symm, f1, ?_, ?_⟩
        · intro x hx
          obtain ⟨r, hr, hxr⟩ := List.mem_flatten.mp hx
          obtain ⟨r', hr', rfl⟩ := List.mem_map.mp hr
          exact (hnorm r' (hrl r' hr').2).2 x hxr
        · rw [f2]
          apply List.map_congr_left
          intro r _
          unfold stored
          rw [if_pos hm]
    · rw [if_neg hm] at hf
      refine ⟨b.vectors, (Option.some.inj hf).symm, inv.blen, inv.bvec, ?_⟩
      rw [show stored K m = id from by funext r; unfold stored; rw [if_neg hm]; rfl, List.map_id]
  subst hs
  have hopen : (Segment.opens ⟨dim, b.labels.length, m, b.labels.flatMap (leBytes 8), vs.flatMap (leBytes 4)⟩) = true := by
    unfold Segment.opens
    have h3 : b.labels.length * dim < U64 := by omega
    simp only [Bool.and_eq_true, decide_eq_true_eq, flatMap_length, hvl]
    exact ⟨⟨⟨⟨⟨⟨⟨by omega, by omega⟩, h3⟩, hsize.1⟩, hsize.2⟩, hd.2⟩, trivial⟩, trivial⟩
  refine ⟨hopen, rfl, ?_⟩
  intro query topk hk hq
  obtain ⟨out, e, hb⟩ := C30_search_exact K H _ hopen query topk hk hq
  refine ⟨out, e, ?_⟩
  have hlist : (List.range b.labels.length).map (fun i =>
      fileRow ⟨dim, b.labels.length, m, b.labels.flatMap (leBytes 8), vs.flatMap (leBytes 4)⟩ i) =
      (accepted dim cs).map (fun r => (r.1, stored K m r.2)) := by
    rw [← inv.brows]
    have e1 : (List.range b.labels.length).map (fun i =>
        fileRow ⟨dim, b.labels.length, m, b.labels.flatMap (leBytes 8), vs.flatMap (leBytes 4)⟩ i) =
        (List.range b.labels.length).map (fun i => (b.labels.getD i 0, rowAt dim vs i)) := by
      apply List.map_congr_left
      intro i hi
      exact fileRow_flat dim m b.labels vs hvl inv.blab hv32 i (List.mem_range.mp hi)
    rw [e1, range_zip]
    have : List.map (rowAt dim vs) (List.range b.labels.length) = rowsOf dim b.labels.length vs := rfl
    rw [show List.map (fun i => rowAt dim vs i) (List.range b.labels.length) = rowsOf dim b.labels.length vs from rfl, hrows]
    rw [List.zip_map_right]
    rfl
  have hmap := congrArg (List.map (fun p : Nat × List Nat => (⟨p.1, K.dist m (effQuery K m query) p.2⟩ : Hit))) hlist
  rw [List.map_map, List.map_map] at hmap
  simp only [Function.comp_def] at hmap
  simp only at hb
  rw [hmap] at hb
  exact hb

/-- A concrete segment: two batches of one row (labels 7 and 3), dimension 1, distance = component; label order breaks
the tie. -/
example :
    let K : Kernel := ⟨id, fun _ q r => (r.getD 0 0 : Int) - (q.getD 0 0 : Int)⟩
    ((addAll [([5], [7]), ([0x7F800000], [1]), ([5, 2], [3, 9])] ⟨1, .l2, [], [], false⟩).finish K).map
      (fun s => s.search K (sortedHeap Hit.weak) [1] 2) = some (some (some [⟨9, 1⟩, ⟨3, 4⟩])) := by
  decide +kernel

end Alaya.DiskFlat
