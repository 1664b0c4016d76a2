import Verif.Lemmas.PQBasic

/- Operations of a table of the right shape do what the formulas say, without reading outside of an array. -/
namespace Alaya.PQ

/-- The arrays of a trained table. -/
structure Shape {F : Type} (t : Table F) : Prop where
  nc : 0 < t.nc
  cd : 0 < t.cd
  dim : t.dim = t.nc * t.cd
  gc : t.gc.length = t.dim
  cb : t.cb.length = t.nc * 256 * t.cd

/-- The arrays of a table with codes. -/
structure Filled {F : Type} (t : Table F) : Prop extends Shape t where
  codes : t.codes.length = t.points * t.nc
  byte : ∀ b, b ∈ t.codes → b < 256
  room : t.points * t.nc < 2 ^ 64

theorem Shape.cb_ne {F : Type} {t : Table F} (S : Shape t) : t.cb ≠ [] := by
  intro h
  have := S.cb
  rw [h] at this
  have : 0 < t.nc * 256 * t.cd := Nat.mul_pos (Nat.mul_pos S.nc (by decide)) S.cd
  simp at *; omega

/-- Centroid `k` of chunk `c`. -/
def Table.cen {F : Type} (t : Table F) (c k : Nat) : List F := (t.cb.drop ((c * 256 + k) * t.cd)).take t.cd

/-- Chunk `c` of a vector. -/
def Table.chunk {F : Type} (t : Table F) (r : List F) (c : Nat) : List F := (r.drop (c * t.cd)).take t.cd

/-- The vector minus the mean. -/
def Table.resid {F : Type} (A : Ar F) (t : Table F) (v : List F) : List F :=
  (List.range t.dim).map (fun d => A.sub (v.getD d A.zero) (t.gc.getD d A.zero))

/-- The code of a vector. -/
def Table.codeOf {F : Type} (A : Ar F) (t : Table F) (v : List F) : List Nat :=
  (List.range t.nc).map (fun c => (best A 256 (fun k => A.l2 (t.chunk (t.resid A v) c) (t.cen c k))).2)

theorem block_eq {F : Type} {t : Table F} (S : Shape t) {c : Nat} (hc : c < t.nc) :
    t.block c = some ((t.cb.drop (c * 256 * t.cd)).take (256 * t.cd)) := by
  unfold Table.block
  refine slice_eq ?_
  rw [S.cb, Nat.mul_assoc c, Nat.mul_assoc t.nc]
  exact row_bound hc

theorem block_len {F : Type} {t : Table F} (S : Shape t) {c : Nat} (hc : c < t.nc) :
    ((t.cb.drop (c * 256 * t.cd)).take (256 * t.cd)).length = 256 * t.cd := slice_len (block_eq S hc)

theorem cen_block {F : Type} (t : Table F) (c k : Nat) (hk : k < 256) :
    cen t.cd ((t.cb.drop (c * 256 * t.cd)).take (256 * t.cd)) k = t.cen c k := by
  unfold cen Table.cen
  apply List.ext_getElem?
  intro j
  by_cases hj : j < t.cd
  · have h1 : k * t.cd + j < 256 * t.cd := by
      have := row_bound (w := t.cd) hk; omega
    rw [take_drop_get _ _ _ _ hj, take_drop_get _ _ _ _ h1, take_drop_get _ _ _ _ hj]
    have e : c * 256 * t.cd + (k * t.cd + j) = (c * 256 + k) * t.cd + j := by rw [Nat.add_mul]; omega
    rw [e]
  · rw [List.getElem?_eq_none (by rw [List.length_take]; omega), List.getElem?_eq_none (by rw [List.length_take]; omega)]

theorem resid_len {F : Type} (A : Ar F) (t : Table F) (v : List F) : (t.resid A v).length = t.dim := by simp [Table.resid]

theorem residual_eq {F : Type} {A : Ar F} {t : Table F} (S : Shape t) {v : List F} (hv : v.length = t.dim) :
    t.residual A v = some (t.resid A v) := by
  unfold Table.residual Table.resid
  refine each_map ?_
  intro d hd
  have hd := List.mem_range.1 hd
  rw [getElem?_getD (by omega : d < v.length) A.zero, getElem?_getD (by rw [S.gc]; omega : d < t.gc.length) A.zero]

theorem chunk_eq {F : Type} {t : Table F} (S : Shape t) {r : List F} (hr : r.length = t.dim) {c : Nat} (hc : c < t.nc) :
    slice r (c * t.cd) t.cd = some (t.chunk r c) := by
  unfold Table.chunk
  exact slice_eq (by rw [hr, S.dim]; exact row_bound hc)

theorem nearest_eq {F : Type} {A : Ar F} {t : Table F} (S : Shape t) {r : List F} (hr : r.length = t.dim) {c : Nat} (hc : c < t.nc) :
    t.nearest A r c = some (best A 256 (fun k => A.l2 (t.chunk r c) (t.cen c k))).2 := by
  unfold Table.nearest
  rw [chunk_eq S hr hc, block_eq S hc]
  simp only
  rw [argmin_eq A (block_len S hc)]
  rw [best_congr A 256 _ (fun k => A.l2 (t.chunk r c) (t.cen c k)) (fun k hk => by rw [cen_block t c k hk])]

theorem code_eq {F : Type} {A : Ar F} {t : Table F} (S : Shape t) {v : List F} (hv : v.length = t.dim) : t.code A v = some (t.codeOf A v) := by
  unfold Table.code Table.codeOf
  rw [residual_eq S hv]
  simp only
  exact each_map (fun c hc => nearest_eq S (resid_len A t v) (List.mem_range.1 hc))

theorem codeOf_len {F : Type} (A : Ar F) (t : Table F) (v : List F) : (t.codeOf A v).length = t.nc := by simp [Table.codeOf]

theorem codeOf_byte {F : Type} (A : Ar F) (t : Table F) (v : List F) (b : Nat) (hb : b ∈ t.codeOf A v) : b < 256 := by
  unfold Table.codeOf at hb
  obtain ⟨c, _, hc⟩ := List.mem_map.1 hb
  rw [← hc]; exact best_lt A _ 256 (by decide)

/-! ### Symmetric table -/

/-- The rows of `build_symmetric_distance_table`. -/
def Table.symOf {F : Type} (A : Ar F) (t : Table F) : List F :=
  ((List.range t.nc).map (fun c => ((List.range 256).map (fun l => (List.range 256).map (fun r => A.l2 (t.cen c l) (t.cen c r)))).flatten)).flatten

theorem symTable_eq {F : Type} {A : Ar F} {t : Table F} (S : Shape t) : t.symTable A = some (t.symOf A) := by
  unfold Table.symTable Table.symOf
  rw [each_map (g := fun c => ((List.range 256).map (fun l => (List.range 256).map (fun r => A.l2 (t.cen c l) (t.cen c r)))).flatten)]
  · rfl
  · intro c hc
    have hc := List.mem_range.1 hc
    rw [block_eq S hc]
    simp only [Option.bind_some]
    rw [each_map (g := fun l => (List.range 256).map (fun r => A.l2 (t.cen c l) (t.cen c r)))]
    · rfl
    · intro l hl
      refine each_map ?_
      intro r hr
      rw [cent_eq (block_len S hc) (List.mem_range.1 hl), cent_eq (block_len S hc) (List.mem_range.1 hr)]
      simp only
      rw [cen_block t c l (List.mem_range.1 hl), cen_block t c r (List.mem_range.1 hr)]

theorem map_get {α : Type} (n i : Nat) (f : Nat → α) (h : i < n) : ((List.range n).map f)[i]? = some (f i) := by simp [h]

theorem sym_get {F : Type} (A : Ar F) (t : Table F) (c x y : Nat) (hc : c < t.nc) (hx : x < 256) (hy : y < 256) :
    (t.symOf A)[c * 65536 + x * 256 + y]? = some (A.l2 (t.cen c x) (t.cen c y)) := by
  unfold Table.symOf
  have hin : ∀ c, ∀ r, r ∈ (List.range 256).map (fun l => (List.range 256).map (fun r => A.l2 (t.cen c l) (t.cen c r))) → r.length = 256 := by
    intro c r hr
    obtain ⟨l, _, hl⟩ := List.mem_map.1 hr
    rw [← hl]; simp
  have hout : ∀ r, r ∈ (List.range t.nc).map (fun c => ((List.range 256).map (fun l => (List.range 256).map (fun r => A.l2 (t.cen c l) (t.cen c r)))).flatten) →
      r.length = 65536 := by
    intro r hr
    obtain ⟨c, _, hl⟩ := List.mem_map.1 hr
    rw [← hl, flatten_len (hin c), List.length_map, List.length_range]
  rw [Nat.add_assoc, flatten_get c (x * 256 + y) _ hout (by omega) (map_get _ _ _ hc)]
  rw [flatten_get x y _ (hin c) hy (map_get _ _ _ hx), map_get _ _ _ hy]

theorem sym_len {F : Type} (A : Ar F) (t : Table F) : (t.symOf A).length = t.nc * 65536 := by
  unfold Table.symOf
  rw [flatten_len (w := 65536), List.length_map, List.length_range]
  intro r hr
  obtain ⟨c, _, hl⟩ := List.mem_map.1 hr
  rw [← hl, flatten_len (w := 256), List.length_map, List.length_range]
  intro r hr
  obtain ⟨l, _, hl⟩ := List.mem_map.1 hr
  rw [← hl]; simp

/-! ### Queries -/

/-- The table of a query. -/
def Table.queryOf {F : Type} (A : Ar F) (t : Table F) (q : List F) : List F :=
  ((List.range t.nc).map (fun c => (List.range 256).map (fun k => A.l2 (t.chunk (t.resid A q) c) (t.cen c k)))).flatten

theorem query_eq {F : Type} {A : Ar F} {t : Table F} (S : Shape t) {q : List F} (hq : q.length = t.dim) : t.query A q = some (t.queryOf A q) := by
  unfold Table.query Table.queryOf
  rw [residual_eq S hq]
  simp only
  rw [each_map (g := fun c => (List.range 256).map (fun k => A.l2 (t.chunk (t.resid A q) c) (t.cen c k)))]
  · rfl
  · intro c hc
    have hc := List.mem_range.1 hc
    rw [chunk_eq S (resid_len A t q) hc, block_eq S hc]
    simp only
    refine each_map ?_
    intro k hk
    rw [cent_eq (block_len S hc) (List.mem_range.1 hk), cen_block t c k (List.mem_range.1 hk)]
    rfl

theorem query_get {F : Type} (A : Ar F) (t : Table F) (q : List F) (c k : Nat) (hc : c < t.nc) (hk : k < 256) :
    (t.queryOf A q)[c * 256 + k]? = some (A.l2 (t.chunk (t.resid A q) c) (t.cen c k)) := by
  unfold Table.queryOf
  rw [flatten_get (w := 256) c k _ ?_ hk (map_get _ _ _ hc), map_get _ _ _ hk]
  intro r hr
  obtain ⟨l, _, hl⟩ := List.mem_map.1 hr
  rw [← hl]; simp

/-- Code of a stored point in chunk `c`. -/
def Table.at {F : Type} (t : Table F) (id c : Nat) : Nat := t.codes.getD (id * t.nc + c) 0

theorem row_eq {F : Type} {t : Table F} (S : Filled t) {id : Nat} (hid : id < t.points) :
    t.row id = some ((t.codes.drop (id * t.nc)).take t.nc) := by
  unfold Table.row u64
  have h1 := row_bound (w := t.nc) hid
  have h2 := S.room
  rw [Nat.mod_eq_of_lt (by omega)]
  exact slice_eq (by rw [S.codes]; exact h1)

theorem row_get {F : Type} {t : Table F} (S : Filled t) {id : Nat} (hid : id < t.points) {c : Nat} (hc : c < t.nc) :
    ((t.codes.drop (id * t.nc)).take t.nc)[c]? = some (t.at id c) := by
  rw [take_drop_get _ _ _ _ hc]
  refine getElem?_getD ?_ 0
  have h1 := row_bound (w := t.nc) hid
  rw [S.codes]; omega

theorem at_lt {F : Type} {t : Table F} (S : Filled t) {id : Nat} (hid : id < t.points) {c : Nat} (hc : c < t.nc) : t.at id c < 256 :=
  S.byte _ (List.mem_of_getElem? ((take_drop_get _ _ _ _ hc).symm.trans (row_get S hid hc)))

theorem dist_eq {F : Type} {A : Ar F} {t : Table F} (S : Filled t) (q : List F) {id : Nat} (hid : id < t.points) :
    t.dist A (t.queryOf A q) id =
      some ((List.range t.nc).foldl (fun a c => A.add a (A.l2 (t.chunk (t.resid A q) c) (t.cen c (t.at id c)))) A.zero) := by
  unfold Table.dist
  rw [row_eq S hid]
  simp only
  refine loop_foldl ?_
  intro s c hc
  have hc := List.mem_range.1 hc
  rw [row_get S hid hc]
  simp only
  rw [query_get A t q c _ hc (at_lt S hid hc)]
  rfl

theorem symFrom_eq {F : Type} {A : Ar F} {t : Table F} (S : Filled t) (hs : t.sym = t.symOf A) {lhs : List Nat} (hl : lhs.length = t.nc)
    (hb : ∀ b, b ∈ lhs → b < 256) {rhs : Nat} (hid : rhs < t.points) :
    t.symFrom A lhs rhs = some (some ((List.range t.nc).foldl (fun a c => A.add a (A.l2 (t.cen c (lhs.getD c 0)) (t.cen c (t.at rhs c)))) A.zero)) := by
  unfold Table.symFrom
  rw [if_neg (by omega), if_neg, row_eq S hid]
  · simp only
    rw [loop_foldl (g := fun a c => A.add a (A.l2 (t.cen c (lhs.getD c 0)) (t.cen c (t.at rhs c))))]
    · rfl
    · intro s c hc
      have hc := List.mem_range.1 hc
      have h1 : lhs[c]? = some (lhs.getD c 0) := getElem?_getD (by omega) 0
      rw [row_get S hid hc, h1]
      simp only
      rw [hs, sym_get A t c _ _ hc (hb _ (List.mem_of_getElem? h1)) (at_lt S hid hc)]
      rfl
  · intro h
    have h1 := sym_len A t
    rw [← hs, h] at h1
    have := S.nc
    simp at h1; omega

theorem symDist_eq {F : Type} {A : Ar F} {t : Table F} (S : Filled t) (hs : t.sym = t.symOf A) {lhs rhs : Nat} (hl : lhs < t.points)
    (hr : rhs < t.points) :
    t.symDist A lhs rhs = some (some ((List.range t.nc).foldl (fun a c => A.add a (A.l2 (t.cen c (t.at lhs c)) (t.cen c (t.at rhs c)))) A.zero)) := by
  unfold Table.symDist
  rw [if_neg (by omega), row_eq S hl]
  simp only
  have h0 := row_bound (w := t.nc) hl
  rw [symFrom_eq S hs (by rw [List.length_take, List.length_drop, S.codes]; omega)
    (fun b hb => S.byte b (List.drop_subset _ _ (List.take_subset _ _ hb))) hr]
  congr 2
  refine foldl_congr ?_
  intro s c hc
  have hc := List.mem_range.1 hc
  have := row_get S hl hc
  rw [List.getD_eq_getElem?_getD, this]
  rfl

/-! ### Batches -/

theorem loop_succ {α σ : Type} {f : σ → α → Option σ} {a : α} {as : List α} {s : σ} : loop f (a :: as) s = (f s a).bind (loop f as) := by
  conv => lhs; unfold loop
  cases f s a <;> rfl

/-- Chunk by chunk over all points is the same as point by point over all chunks. -/
theorem tile_loop {F : Type} (g : F → List Nat → Nat → Option F) (rows : List (List Nat)) : ∀ (cs : List Nat) (o r : List F), o.length = rows.length →
    r.length = rows.length →
    (∀ (i : Nat) (x : F) (row : List Nat), o[i]? = some x → rows[i]? = some row → ∃ y, r[i]? = some y ∧ loop (fun a c => g a row c) cs x = some y) →
    loop (fun (o : List F) c => each (fun i => match o[i]?, rows[i]? with
        | some x, some row => g x row c
        | _, _ => none) (List.range rows.length)) cs o = some r
  | [], o, r, ho, hr, h => by
    unfold loop
    congr 1
    apply List.ext_getElem?
    intro i
    by_cases hi : i < rows.length
    · obtain ⟨y, hy, hl⟩ := h i o[i] rows[i] (List.getElem?_eq_getElem (by omega)) (List.getElem?_eq_getElem hi)
      unfold loop at hl
      rw [hy, List.getElem?_eq_getElem (by omega), hl]
    · rw [List.getElem?_eq_none (by omega), List.getElem?_eq_none (by omega)]
  | c :: cs, o, r, ho, hr, h => by
    have hstep : ∀ i, i < rows.length → ∃ x row y, o[i]? = some x ∧ rows[i]? = some row ∧ g x row c = some y ∧
        ∃ z, r[i]? = some z ∧ loop (fun a c => g a row c) cs y = some z := by
      intro i hi
      have h1 : o[i]? = some o[i] := List.getElem?_eq_getElem (by omega)
      have h2 : rows[i]? = some rows[i] := List.getElem?_eq_getElem hi
      obtain ⟨z, hz, hl⟩ := h i _ _ h1 h2
      rw [loop_succ] at hl
      cases hg : g o[i] rows[i] c with
      | none => rw [hg] at hl; simp at hl
      | some y => rw [hg] at hl; exact ⟨_, _, y, h1, h2, hg, z, hz, hl⟩
    have hex : ∃ o', each (fun i => match o[i]?, rows[i]? with
        | some x, some row => g x row c
        | _, _ => none) (List.range rows.length) = some o' := by
      have : ∀ (is : List Nat), (∀ i, i ∈ is → i < rows.length) → ∃ o', each (fun i => match o[i]?, rows[i]? with
        | some x, some row => g x row c
        | _, _ => none) is = some o' := by
        intro is
        induction is with
        | nil => intro _; exact ⟨[], rfl⟩
        | cons i is ih =>
          intro hi
          obtain ⟨o', ho'⟩ := ih (fun j hj => hi j (List.mem_cons_of_mem _ hj))
          obtain ⟨x, row, y, h1, h2, h3, _⟩ := hstep i (hi i (List.mem_cons_self ..))
          exact ⟨y :: o', by unfold each; rw [h1, h2]; simp only; rw [h3, ho']⟩
      exact this _ (fun i hi => List.mem_range.1 hi)
    obtain ⟨o', ho'⟩ := hex
    rw [loop_succ, ho']
    obtain ⟨hlen, hget⟩ := each_some ho'
    refine tile_loop g rows cs o' r (by rw [hlen, List.length_range]) hr ?_
    intro i x row hx hrow
    have hi : i < rows.length := (List.getElem?_eq_some_iff.1 hrow).1
    obtain ⟨x0, row0, y, h1, h2, h3, z, hz, hl⟩ := hstep i hi
    obtain ⟨b, hb1, hb2⟩ := hget i i (by rw [List.getElem?_range hi])
    rw [h1, h2] at hb2
    simp only at hb2
    rw [h3] at hb2
    injection hb2 with hb2
    rw [hb1] at hx
    injection hx with hx
    rw [h2] at hrow
    injection hrow with hrow
    rw [← hx, ← hb2, ← hrow]
    exact ⟨z, hz, hl⟩

theorem loop_congr {α σ : Type} {f g : σ → α → Option σ} : ∀ {l : List α} {s : σ}, (∀ s a, a ∈ l → f s a = g s a) → loop f l s = loop g l s
  | [], _, _ => rfl
  | a :: l, s, h => by
    rw [loop_succ, loop_succ, h s a (List.mem_cons_self ..)]
    congr 1
    funext s'
    exact loop_congr (fun s b hb => h s b (List.mem_cons_of_mem _ hb))

theorem tile_eq {F : Type} {A : Ar F} {t : Table F} {tab : List F} {ids : List Nat} {r : List F} (hn : t.nc ≤ 64) (hi : ids.length ≤ 96)
    (h : each (t.dist A tab) ids = some r) : t.tile A tab ids = some r := by
  obtain ⟨hlen, hget⟩ := each_some h
  have hrows : ∃ rows, each (fun id => t.row id) ids = some rows := by
    have : ∀ (is : List Nat) (r : List F), each (t.dist A tab) is = some r → ∃ rows, each (fun id => t.row id) is = some rows := by
      intro is
      induction is with
      | nil => intro r _; exact ⟨[], rfl⟩
      | cons i is ih =>
        intro r hr
        unfold each at hr
        split at hr
        · simp at hr
        · rename_i b hb
          split at hr
          · simp at hr
          · rename_i bs hbs
            obtain ⟨rows, hrows⟩ := ih bs hbs
            unfold Table.dist at hb
            split at hb
            · simp at hb
            · rename_i row hrow
              exact ⟨row :: rows, by unfold each; rw [hrow, hrows]⟩
    exact this ids r h
  obtain ⟨rows, hrows⟩ := hrows
  obtain ⟨hrl, hrg⟩ := each_some hrows
  have hw : ∀ row, row ∈ rows → row.length = t.nc := by
    intro row hr
    obtain ⟨id, _, hid⟩ := each_mem hrows row hr
    exact slice_len hid
  unfold Table.tile
  rw [hrows]
  simp only
  have hroom : rows.flatten.length ≤ 96 * 64 := by
    rw [flatten_len hw, hrl]; exact Nat.mul_le_mul hi hn
  rw [if_pos hroom, ← hrl]
  rw [loop_congr (g := fun (o : List F) c => each (fun i => match o[i]?, rows[i]? with
        | some x, some row => (match row[c]? with
          | none => none
          | some b => (tab[c * 256 + b]?).map (A.add x))
        | _, _ => none) (List.range rows.length))]
  · refine tile_loop (fun x row c => match row[c]? with
          | none => none
          | some b => (tab[c * 256 + b]?).map (A.add x)) rows (List.range t.nc) _ r (by simp) (by omega) ?_
    intro i x row hx hrow
    have hi2 : i < ids.length := by rw [← hrl]; exact (List.getElem?_eq_some_iff.1 hrow).1
    rw [List.getElem?_replicate, if_pos (by omega)] at hx
    injection hx with hx
    obtain ⟨b, hb, hd⟩ := hget i ids[i] (List.getElem?_eq_getElem hi2)
    obtain ⟨row2, hr2, hr3⟩ := hrg i ids[i] (List.getElem?_eq_getElem hi2)
    rw [hrow] at hr2
    injection hr2 with hr2
    subst hr2
    refine ⟨b, hb, ?_⟩
    unfold Table.dist at hd
    rw [hr3] at hd
    simp only at hd
    rw [← hx]
    exact hd
  · intro o c hc
    have hc := List.mem_range.1 hc
    refine each_congr ?_
    intro i hir
    have hir := List.mem_range.1 hir
    have h2 : rows[i]? = some rows[i] := List.getElem?_eq_getElem hir
    rw [flatten_get i c rows[i] hw hc h2, h2]
    cases o[i]? with
    | none => rfl
    | some x =>
      simp only
      cases rows[i][c]? <;> rfl

theorem tiles_eq {F : Type} {A : Ar F} {t : Table F} {tab : List F} (hn : t.nc ≤ 64) : ∀ (fuel : Nat) (ids : List Nat) (r : List F), ids.length ≤ fuel →
    each (t.dist A tab) ids = some r → t.tiles A tab fuel ids = some r
  | 0, ids, r, hf, h => by
    have : ids = [] := List.eq_nil_of_length_eq_zero (by omega)
    subst this
    simpa [Table.tiles, each] using h
  | fuel + 1, [], r, hf, h => by simpa [Table.tiles, each] using h
  | fuel + 1, i :: ids, r, hf, h => by
    obtain ⟨h1, h2⟩ := each_take_drop 96 h
    unfold Table.tiles
    rw [tile_eq hn (by rw [List.length_take]; omega) h1, tiles_eq hn fuel _ _ (by rw [List.length_drop]; simp only [List.length_cons] at *; omega) h2]
    simp

theorem batch_eq {F : Type} {A : Ar F} {t : Table F} {tab : List F} {ids : List Nat} {r : List F} (h : each (t.dist A tab) ids = some r) :
    t.batch A tab ids = some r := by
  unfold Table.batch
  split
  · exact h
  · exact tiles_eq (by omega) _ _ _ (Nat.le_refl _) h

end Alaya.PQ
