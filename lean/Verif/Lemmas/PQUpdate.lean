import Verif.Lemmas.PQTable

/- Training, encoding, single updates and files of product quantisation tables. -/
namespace Alaya.PQ

/-! ### Encoding -/

theorem filled_rows {F : Type} {A : Ar F} {t : Table F} (S : Shape t) (n : Nat) (hn : n * t.nc < 2 ^ 64) (vec : Nat → List F) (sym : List F) :
    Filled { t with points := n, codes := ((List.range n).map (fun i => t.codeOf A (vec i))).flatten, sym := sym } := by
  have hw : ∀ r, r ∈ (List.range n).map (fun i => t.codeOf A (vec i)) → r.length = t.nc := by
    intro r hr
    obtain ⟨i, _, hi⟩ := List.mem_map.1 hr
    rw [← hi]; exact codeOf_len A t _
  refine ⟨⟨S.nc, S.cd, S.dim, S.gc, S.cb⟩, ?_, ?_, hn⟩
  · change (List.flatten _).length = n * t.nc
    rw [flatten_len hw]; simp
  · intro b hb
    change b ∈ List.flatten _ at hb
    obtain ⟨r, hr, hb⟩ := List.mem_flatten.1 hb
    obtain ⟨i, _, hi⟩ := List.mem_map.1 hr
    rw [← hi] at hb
    exact codeOf_byte A t _ b hb

/-- Vector `i` of a flat array. -/
def vecOf {F : Type} (data : List F) (dim i : Nat) : List F := (data.drop (i * dim)).take dim

theorem vecOf_len {F : Type} {data : List F} {n dim i : Nat} (hd : data.length = n * dim) (hi : i < n) : (vecOf data dim i).length = dim := by
  unfold vecOf
  have := row_bound (w := dim) hi
  rw [List.length_take, List.length_drop, hd]; omega

theorem encodePart_eq {F : Type} {A : Ar F} {t : Table F} (S : Shape t) {data : List F} {n i : Nat} (hd : data.length = n * t.dim) (hi : i < n) :
    encodePart A t data i = some (t.codeOf A (vecOf data t.dim i)) := by
  unfold encodePart
  rw [slice_eq (by rw [hd]; exact row_bound hi)]
  simp only [Option.bind_some]
  exact code_eq S (vecOf_len hd hi)

theorem encode_eq {F : Type} {A : Ar F} {t : Table F} (S : Shape t) {data : List F} {n workers : Nat} (hd : data.length = n * t.dim) (hn : 0 < n)
    {out : List (Option (Option (List Nat)))} (hr : ParFor.Runs n 4096 workers (encodePart A t data) out) :
    t.encode A n (out.map (Option.join)) =
      some (some { t with points := n, codes := ((List.range n).map (fun i => t.codeOf A (vecOf data t.dim i))).flatten, sym := t.symOf A }) := by
  have h1 : out.map Option.join = ((List.range n).map (fun i => t.codeOf A (vecOf data t.dim i))).map some := by
    rw [hr.eq, List.map_map, List.map_map]
    refine List.map_congr_left ?_
    intro i hi
    simp only [Function.comp]
    rw [encodePart_eq S hd (List.mem_range.1 hi)]
    rfl
  unfold Table.encode
  rw [if_neg S.cb_ne, if_neg (by omega), h1, each_id]
  simp only
  rw [symTable_eq S]

/-! ### Single updates -/

theorem splice_get {α : Type} {l r l' : List α} {off : Nat} (h : splice l off r = some l') : l'.length = l.length ∧
    ∀ i, l'[i]? = if off ≤ i ∧ i < off + r.length then r[i - off]? else l[i]? := by
  unfold splice at h
  split at h
  · rename_i hle
    injection h with h
    subst h
    refine ⟨by simp only [List.length_append, List.length_take, List.length_drop]; omega, ?_⟩
    intro i
    by_cases h1 : i < off
    · rw [List.getElem?_append_left (by rw [List.length_take]; omega), List.getElem?_take_of_lt h1, if_neg (by omega)]
    · rw [List.getElem?_append_right (by rw [List.length_take]; omega)]
      have e : i - (l.take off).length = i - off := by rw [List.length_take]; omega
      rw [e]
      by_cases h2 : i < off + r.length
      · rw [List.getElem?_append_left (by omega), if_pos ⟨by omega, h2⟩]
      · rw [List.getElem?_append_right (by omega), List.getElem?_drop, if_neg (by omega)]
        congr 1; omega
  · simp at h

theorem splice_eq {α : Type} {l r : List α} {off : Nat} (h : off + r.length ≤ l.length) : ∃ l', splice l off r = some l' := by
  unfold splice; rw [if_pos h]; exact ⟨_, rfl⟩

/-- What `encode_one` leaves. -/
theorem encodeOne_eq {F : Type} {A : Ar F} {t : Table F} (S : Filled t) {v : List F} (hv : v.length = t.dim) {id : Nat}
    (hid : (id + 1) * t.nc < 2 ^ 64) : ∃ t', t.encodeOne A v id = some (some t') ∧ Filled t' ∧ t'.dim = t.dim ∧ t'.nc = t.nc ∧ t'.cd = t.cd ∧
      t'.gc = t.gc ∧ t'.cb = t.cb ∧ t'.sym = t.sym ∧ t'.points = max t.points (id + 1) ∧
      (∀ c, c < t.nc → t'.at id c = (t.codeOf A v).getD c 0) ∧
      (∀ j c, j ≠ id → j < t.points → c < t.nc → t'.at j c = t.at j c) ∧
      (∀ j c, j ≠ id → t.points ≤ j → j < id → c < t.nc → t'.at j c = 0) := by
  have hnc := S.nc
  have hid64 : id + 1 < 2 ^ 64 := by
    have : (id + 1) * 1 ≤ (id + 1) * t.nc := Nat.mul_le_mul_left _ hnc
    omega
  have hid2 : id * t.nc < 2 ^ 64 := by
    have : id * t.nc ≤ (id + 1) * t.nc := Nat.mul_le_mul_right _ (Nat.le_succ _)
    omega
  have e1 : u64 (id + 1) = id + 1 := Nat.mod_eq_of_lt hid64
  have e2 : u64 (id * t.nc) = id * t.nc := Nat.mod_eq_of_lt hid2
  have e3 : u64 ((id + 1) * t.nc) = (id + 1) * t.nc := Nat.mod_eq_of_lt hid
  have hcl := codeOf_len A t v
  -- the table after growing
  obtain ⟨m, hm⟩ : ∃ m, m = max t.points (id + 1) := ⟨_, rfl⟩
  obtain ⟨codes1, hc1⟩ : ∃ codes1, codes1 = resize t.codes (m * t.nc) := ⟨_, rfl⟩
  have hmle : t.points * t.nc ≤ m * t.nc := Nat.mul_le_mul_right _ (by omega)
  have hlen1 : codes1.length = m * t.nc := by
    rw [hc1]; unfold resize
    rw [List.length_append, List.length_take, List.length_replicate, S.codes]; omega
  have hget1 : ∀ i, i < m * t.nc → codes1[i]? = some (t.codes.getD i 0) := by
    intro i hi
    rw [hc1]; unfold resize
    rw [List.take_of_length_le (by rw [S.codes]; exact hmle)]
    by_cases h : i < t.codes.length
    · rw [List.getElem?_append_left h]; exact getElem?_getD h 0
    · rw [List.getElem?_append_right (by omega), List.getElem?_replicate, if_pos (by omega), List.getD_eq_default _ _ (by omega)]
  have hgrow : (if t.points < u64 (id + 1) then { t with codes := resize t.codes (u64 (u64 (id + 1) * t.nc)), points := u64 (id + 1) } else t)
      = { t with codes := codes1, points := m } := by
    rw [e1, e3, hc1]
    split
    · rename_i h
      have : m = id + 1 := by omega
      rw [this]
    · rename_i h
      have : m = t.points := by omega
      rw [this]
      have : resize t.codes (t.points * t.nc) = t.codes := by
        unfold resize
        rw [List.take_of_length_le (Nat.le_of_eq S.codes), S.codes, Nat.sub_self]; simp
      rw [this]
  have hb : id * t.nc + t.nc ≤ m * t.nc := row_bound (by omega)
  obtain ⟨codes2, hs⟩ := splice_eq (l := codes1) (r := t.codeOf A v) (off := id * t.nc) (by rw [hcl, hlen1]; exact hb)
  obtain ⟨hlen2, hget2⟩ := splice_get hs
  rw [hcl] at hget2
  have hroom : m * t.nc < 2 ^ 64 := by
    rcases Nat.le_total t.points (id + 1) with h | h
    · have : m = id + 1 := by omega
      rw [this]; exact hid
    · have : m = t.points := by omega
      rw [this]; exact S.room
  have hother : ∀ j c, j ≠ id → j < m → c < t.nc → codes2.getD (j * t.nc + c) 0 = t.codes.getD (j * t.nc + c) 0 := by
    intro j c hj hjm hc
    have hbj := row_bound (w := t.nc) hjm
    rw [List.getD_eq_getElem?_getD, hget2, if_neg, hget1 _ (by omega)]
    · rfl
    · intro hx
      rcases Nat.lt_or_gt_of_ne hj with h | h
      · have := row_bound (w := t.nc) h; omega
      · have := row_bound (w := t.nc) h; omega
  refine ⟨{ t with codes := codes2, points := m }, ?_, ?_, rfl, rfl, rfl, rfl, rfl, rfl, hm, ?_, ?_, ?_⟩
  · unfold Table.encodeOne
    rw [if_neg S.cb_ne]
    simp only
    rw [code_eq S.toShape hv, hgrow]
    simp only
    rw [e2, hs]
  · refine ⟨⟨S.nc, S.cd, S.dim, S.gc, S.cb⟩, ?_, ?_, hroom⟩
    · change codes2.length = m * t.nc
      rw [hlen2, hlen1]
    · intro b hb
      change b ∈ codes2 at hb
      obtain ⟨i, hi⟩ := List.mem_iff_getElem?.1 hb
      rw [hget2] at hi
      split at hi
      · exact codeOf_byte A t v b (List.mem_of_getElem? hi)
      · have hlt : i < m * t.nc := by
          rw [← hlen1]; exact (List.getElem?_eq_some_iff.1 hi).1
        rw [hget1 i hlt] at hi
        injection hi with hi
        by_cases h : i < t.codes.length
        · rw [List.getD_eq_getElem _ _ h] at hi
          exact S.byte b (hi ▸ List.getElem_mem h)
        · rw [List.getD_eq_default _ _ (by omega)] at hi; omega
  · intro c hc
    change codes2.getD (id * t.nc + c) 0 = _
    rw [List.getD_eq_getElem?_getD, hget2, if_pos ⟨by omega, by omega⟩, List.getD_eq_getElem?_getD]
    congr 2; omega
  · intro j c hj hjp hc
    exact hother j c hj (by omega) hc
  · intro j c hj hjp hji hc
    change codes2.getD (j * t.nc + c) 0 = 0
    rw [hother j c hj (by omega) hc]
    refine List.getD_eq_default _ _ ?_
    rw [S.codes]
    have : t.points * t.nc ≤ j * t.nc := Nat.mul_le_mul_right _ hjp
    omega

/-! ### Files -/

/-- Four bytes per float, read back as written. -/
structure Codec.Ok {F : Type} (E : Codec F) : Prop where
  len : ∀ x, (E.enc x).length = 4
  inv : ∀ x, E.dec (E.enc x) = x

theorem decodeFloats_enc {F : Type} {E : Codec F} (hE : E.Ok) (a m b : List F) :
    decodeFloats E ((a ++ (m ++ b)).flatMap E.enc) a.length m.length = some m := by
  unfold decodeFloats
  have hw : ∀ r, r ∈ (a ++ (m ++ b)).map E.enc → r.length = 4 := by
    intro r hr
    obtain ⟨x, _, hx⟩ := List.mem_map.1 hr
    rw [← hx]; exact hE.len x
  cases m with
  | nil => rfl
  | cons m0 ms =>
    rw [each_map (g := fun i => (m0 :: ms).getD i m0)]
    · congr 1
      apply List.ext_getElem?
      intro i
      by_cases hi : i < (m0 :: ms).length
      · rw [map_get _ _ _ hi, getElem?_getD hi m0]
      · rw [List.getElem?_eq_none (by rw [List.length_map, List.length_range]; omega), List.getElem?_eq_none (by omega)]
    · intro i hi
      have hi := List.mem_range.1 hi
      have hlt : a.length + i < (a ++ ((m0 :: ms) ++ b)).length := by simp only [List.length_append]; omega
      have hx : (a ++ ((m0 :: ms) ++ b))[a.length + i]? = some ((m0 :: ms).getD i m0) := by
        rw [List.getElem?_append_right (by omega), Nat.add_sub_cancel_left, List.getElem?_append_left hi, getElem?_getD hi m0]
      rw [List.flatMap_def]
      have hrow : ((a ++ ((m0 :: ms) ++ b)).map E.enc)[a.length + i]? = some (E.enc ((m0 :: ms).getD i m0)) := by
        rw [List.getElem?_map, hx]; rfl
      rw [slice_eq (by rw [flatten_len hw, List.length_map]; exact row_bound hlt), flatten_row _ _ hw hrow]
      simp only [Option.map_some, hE.inv]

theorem flatMap_len {F : Type} {E : Codec F} (hE : E.Ok) (l : List F) : (l.flatMap E.enc).length = l.length * 4 := by
  rw [List.flatMap_def, flatten_len (w := 4), List.length_map]
  intro r hr
  obtain ⟨x, _, hx⟩ := List.mem_map.1 hr
  rw [← hx]; exact hE.len x

theorem Shape.mod {F : Type} {t : Table F} (S : Shape t) : t.dim % t.nc = 0 := by rw [S.dim]; exact Nat.mul_mod_right _ _

theorem Shape.div {F : Type} {t : Table F} (S : Shape t) : t.dim / t.nc = t.cd := by rw [S.dim]; exact Nat.mul_div_cancel_left _ S.nc

theorem Shape.dim_pos {F : Type} {t : Table F} (S : Shape t) : 0 < t.dim := by rw [S.dim]; exact Nat.mul_pos S.nc S.cd

theorem load_save {F : Type} {A : Ar F} {E : Codec F} (hE : E.Ok) {t : Table F} (S : Filled t) (hp : 0 < t.points)
    (hroom : (t.dim + t.nc * 256 * t.cd) * 4 < 2 ^ 64) {piv codes : List Nat} (hs : t.save E = some (piv, codes)) (t0 : Table F) :
    t0.load A E piv codes t.points t.dim t.nc = some ({ t with sym := t.symOf A }, true) := by
  unfold Table.save at hs
  rw [if_neg S.cb_ne] at hs
  injection hs with hs
  injection hs with h1 h2
  subst h1 h2
  unfold Table.load
  have hd := S.toShape.dim_pos
  have hn := S.nc
  have hm := S.toShape.mod
  rw [if_neg (by omega), S.toShape.div]
  simp only
  rw [if_neg]
  · have g1 := decodeFloats_enc hE [] t.gc t.cb
    have g2 := decodeFloats_enc hE t.gc t.cb []
    simp only [List.nil_append, List.length_nil, List.append_nil] at g1 g2
    rw [S.gc] at g1 g2
    rw [S.cb] at g2
    rw [g1, g2]
    simp only
    rw [if_neg]
    · have hsym := symTable_eq (A := A) (t := { t0 with dim := t.dim, nc := t.nc, cd := t.cd, points := t.points, gc := t.gc, cb := t.cb })
        ⟨S.nc, S.cd, S.dim, S.gc, S.cb⟩
      rw [hsym]
      rfl
    · rw [S.codes]; unfold u64; rw [Nat.mod_eq_of_lt S.room]; simp
  · rw [flatMap_len hE, List.length_append, S.gc, S.cb]; unfold u64; rw [Nat.mod_eq_of_lt hroom]; simp

theorem decodeFloats_len {F : Type} {E : Codec F} {b : List Nat} {off n : Nat} {l : List F} (h : decodeFloats E b off n = some l) : l.length = n := by
  have := (each_some h).1
  simpa using this

theorem load_ok {F : Type} {A : Ar F} {E : Codec F} {t0 t : Table F} {piv codes : List Nat} {n dim nc : Nat}
    (h : t0.load A E piv codes n dim nc = some (t, true)) (hcodes : ∀ b, b ∈ codes → b < 256) :
    Shape t ∧ t.sym = t.symOf A ∧ t.dim = dim ∧ t.nc = nc ∧ t.points = n ∧ t.codes = codes ∧
      piv.length = u64 ((dim + nc * 256 * (dim / nc)) * 4) ∧ codes.length = u64 (n * nc) ∧ (n * nc < 2 ^ 64 → Filled t) := by
  unfold Table.load at h
  split at h
  · injection h with h; injection h with _ h; simp at h
  · rename_i h0
    simp only at h
    split at h
    · injection h with h; injection h with _ h; simp at h
    · rename_i h1
      split at h
      · rename_i gc cb hg hc
        split at h
        · injection h with h; injection h with _ h; simp at h
        · rename_i h2
          have hmod : dim % nc = 0 := by omega
          have hdim : dim = nc * (dim / nc) := (Nat.mul_div_cancel' (Nat.dvd_of_mod_eq_zero hmod)).symm
          have hcd : 0 < dim / nc := by
            rcases Nat.eq_zero_or_pos (dim / nc) with h | h
            · rw [h] at hdim; omega
            · exact h
          have S : Shape { t0 with dim := dim, nc := nc, cd := dim / nc, points := n, gc := gc, cb := cb } :=
            ⟨by change 0 < nc; omega, hcd, hdim, decodeFloats_len hg, decodeFloats_len hc⟩
          rw [symTable_eq S] at h
          simp only at h
          injection h with h
          injection h with h _
          subst h
          have S2 : ∀ sym, Shape { t0 with dim := dim, nc := nc, cd := dim / nc, points := n, gc := gc, cb := cb, codes := codes, sym := sym } :=
            fun _ => ⟨S.nc, S.cd, S.dim, S.gc, S.cb⟩
          refine ⟨S2 _, rfl, rfl, rfl, rfl, rfl, not_not.1 h1, not_not.1 h2, ?_⟩
          intro hr
          refine ⟨S2 _, ?_, hcodes, hr⟩
          change codes.length = n * nc
          have := not_not.1 h2
          unfold u64 at this
          rw [Nat.mod_eq_of_lt hr] at this
          exact this
      · simp at h

/-! ### Training -/

theorem train_shape {F : Type} {A : Ar F} {t t' : Table F} {data : List F} {n dim nc : Nat} {blocks : List F → List (Option (List F))}
    (hb : ∀ res, (blocks res).length = nc ∧ ∀ b, some b ∈ blocks res → b.length = 256 * (dim / nc))
    (h : t.train A data n dim nc blocks = some (some t')) : Shape t' ∧ t'.dim = dim ∧ t'.nc = nc ∧ t'.codes = t.codes ∧ t'.points = t.points ∧
      t'.sym = t.sym ∧ ∃ res bs, residuals A data t'.gc n dim = some res ∧ mean A data n dim = some t'.gc ∧ each id (blocks res) = some bs ∧ t'.cb = bs.flatten := by
  unfold Table.train at h
  split at h
  · simp at h
  · rename_i h0
    split at h
    · simp at h
    · rename_i h1
      split at h
      · simp at h
      · rename_i gc hgc
        split at h
        · simp at h
        · rename_i res hres
          split at h
          · simp at h
          · rename_i bs hbs
            injection h with h
            injection h with h
            subst h
            have hmod : dim % nc = 0 := not_not.1 h1
            have hdim : dim = nc * (dim / nc) := (Nat.mul_div_cancel' (Nat.dvd_of_mod_eq_zero hmod)).symm
            have hcd : 0 < dim / nc := by
              rcases Nat.eq_zero_or_pos (dim / nc) with h | h
              · rw [h] at hdim; omega
              · exact h
            refine ⟨⟨by change 0 < nc; omega, hcd, hdim, ?_, ?_⟩, rfl, rfl, rfl, rfl, rfl, res, bs, hres, hgc, hbs, rfl⟩
            · have := (each_some hgc).1
              simpa using this
            · change bs.flatten.length = nc * 256 * (dim / nc)
              obtain ⟨g1, _⟩ := each_some hbs
              rw [flatten_len (w := 256 * (dim / nc)), g1, (hb res).1, Nat.mul_assoc]
              intro r hr
              obtain ⟨a, ha, hf⟩ := each_mem hbs r hr
              refine (hb res).2 r ?_
              simp only [id] at hf
              rw [← hf]; exact ha

theorem mean_eq {F : Type} {A : Ar F} {data : List F} {n dim : Nat} (hd : data.length = n * dim) : mean A data n dim =
    some ((List.range dim).map (fun d => A.divn ((List.range n).foldl (fun a i => A.add a (data.getD (i * dim + d) A.zero)) A.zero) n)) := by
  unfold mean
  refine each_map ?_
  intro d hdm
  have hdm := List.mem_range.1 hdm
  rw [loop_foldl (g := fun a i => A.add a (data.getD (i * dim + d) A.zero))]
  · rfl
  · intro s i hi
    have hi := List.mem_range.1 hi
    have := row_bound (w := dim) hi
    rw [getElem?_getD (by omega : i * dim + d < data.length) A.zero]
    rfl

theorem residuals_eq {F : Type} {A : Ar F} {data gc : List F} {n dim : Nat} (hd : data.length = n * dim) (hg : gc.length = dim) :
    residuals A data gc n dim = some ((List.range n).map (fun i => (List.range dim).map (fun d =>
      A.sub (data.getD (i * dim + d) A.zero) (gc.getD d A.zero)))).flatten := by
  unfold residuals
  rw [each_map (g := fun i => (List.range dim).map (fun d => A.sub (data.getD (i * dim + d) A.zero) (gc.getD d A.zero)))]
  · rfl
  · intro i hi
    have hi := List.mem_range.1 hi
    refine each_map ?_
    intro d hdm
    have hdm := List.mem_range.1 hdm
    have := row_bound (w := dim) hi
    rw [getElem?_getD (by omega : i * dim + d < data.length) A.zero, getElem?_getD (by omega : d < gc.length) A.zero]

theorem chunkData_eq {F : Type} {res : List F} {n dim cd nc c : Nat} (hr : res.length = n * dim) (hdim : dim = nc * cd) (hc : c < nc) :
    chunkData res n dim cd c = some ((List.range n).map (fun i => (res.drop (i * dim + c * cd)).take cd)).flatten := by
  unfold chunkData
  rw [each_map (g := fun i => (res.drop (i * dim + c * cd)).take cd)]
  · rfl
  · intro i hi
    have h1 := row_bound (w := dim) (List.mem_range.1 hi)
    have h2 := row_bound (w := cd) hc
    refine slice_eq ?_
    rw [hr]; omega

theorem chunkData_len {F : Type} {res : List F} {n dim cd c : Nat} {d : List F} (h : chunkData res n dim cd c = some d) : d.length = n * cd := by
  unfold chunkData at h
  obtain ⟨rows, hr, he⟩ := Option.map_eq_some_iff.1 h
  rw [← he, flatten_len (w := cd), (each_some hr).1, List.length_range]
  intro r hm
  obtain ⟨i, _, hi⟩ := each_mem hr r hm
  exact slice_len hi

theorem rows_flatten_len {α : Type} {f : Nat → Option (List α)} {l : List Nat} {w : Nat} {r : List α} (hw : ∀ i b, i ∈ l → f i = some b → b.length = w)
    (h : (each f l).map List.flatten = some r) : r.length = l.length * w := by
  obtain ⟨rows, hr, he⟩ := Option.map_eq_some_iff.1 h
  rw [← he, flatten_len (w := w), (each_some hr).1]
  intro b hb
  obtain ⟨i, hi, hf⟩ := each_mem hr b hb
  exact hw i b hi hf

/-- Members of a cluster. -/
theorem lloyd_some {F : Type} (A : Ar F) {cd n : Nat} {data : List F} (hd : data.length = n * cd) (hn : 0 < n) (pick : Nat → Nat) {cents : List F}
    (hc : cents.length = 256 * cd) :
    lloyd A cd n data pick cents = some ((List.range 256).map (fun k =>
      if (List.range n).filter (fun i => (best A 256 (fun k => A.l2 (vecOf data cd i) (cen cd cents k))).2 = k) = [] then vecOf data cd (pick k % n)
      else (List.range cd).map (fun d => A.avg (((List.range n).filter (fun i => (best A 256 (fun k => A.l2 (vecOf data cd i) (cen cd cents k))).2 = k)).map
        (fun i => data.getD (i * cd + d) A.zero))))).flatten := by
  unfold lloyd
  rw [each_map (g := fun i => (best A 256 (fun k => A.l2 (vecOf data cd i) (cen cd cents k))).2)]
  · simp only
    have hfil : ∀ k, (List.range n).filter (fun i => decide (((List.range n).map (fun i => (best A 256 (fun k => A.l2 (vecOf data cd i) (cen cd cents k))).2))[i]? = some k))
        = (List.range n).filter (fun i => decide ((best A 256 (fun k => A.l2 (vecOf data cd i) (cen cd cents k))).2 = k)) := by
      intro k
      refine List.filter_congr ?_
      intro i hi
      rw [map_get _ _ _ (List.mem_range.1 hi)]
      simp
    rw [each_map (g := fun k =>
      if (List.range n).filter (fun i => (best A 256 (fun k => A.l2 (vecOf data cd i) (cen cd cents k))).2 = k) = [] then vecOf data cd (pick k % n)
      else (List.range cd).map (fun d => A.avg (((List.range n).filter (fun i => (best A 256 (fun k => A.l2 (vecOf data cd i) (cen cd cents k))).2 = k)).map
        (fun i => data.getD (i * cd + d) A.zero))))]
    · rfl
    · intro k hk
      rw [hfil k]
      split
      · exact slice_eq (by rw [hd]; exact row_bound (Nat.mod_lt _ hn))
      · refine each_map ?_
        intro d hdm
        have hdm := List.mem_range.1 hdm
        rw [each_map (g := fun i => data.getD (i * cd + d) A.zero)]
        · rfl
        · intro i hi
          have hi := List.mem_range.1 (List.mem_filter.1 hi).1
          have := row_bound (w := cd) hi
          exact getElem?_getD (by omega) A.zero
  · intro i hi
    rw [slice_eq (by rw [hd]; exact row_bound (List.mem_range.1 hi))]
    simp only [Option.bind_some]
    exact argmin_eq A hc

theorem lloyd_len {F : Type} (A : Ar F) {cd n : Nat} {data : List F} (hd : data.length = n * cd) (hn : 0 < n) (pick : Nat → Nat) {cents c' : List F}
    (hc : cents.length = 256 * cd) (h : lloyd A cd n data pick cents = some c') : c'.length = 256 * cd := by
  rw [lloyd_some A hd hn pick hc] at h
  injection h with h
  rw [← h, flatten_len (w := cd), List.length_map, List.length_range]
  intro r hr
  obtain ⟨k, _, hk⟩ := List.mem_map.1 hr
  rw [← hk]
  split
  · exact vecOf_len hd (Nat.mod_lt _ hn)
  · simp

theorem lloyds_some {F : Type} (A : Ar F) {cd n : Nat} {data : List F} (hd : data.length = n * cd) (hn : 0 < n) (pick : Nat → Nat → Nat) :
    ∀ (it : Nat) (cents : List F), cents.length = 256 * cd → ∃ c', lloyds A cd n data pick it cents = some c' ∧ c'.length = 256 * cd
  | 0, cents, hc => ⟨cents, rfl, hc⟩
  | it + 1, cents, hc => by
    unfold lloyds
    have h1 := lloyd_some A hd hn (pick it) hc
    rw [h1]
    exact lloyds_some A hd hn pick it _ (lloyd_len A hd hn (pick it) hc h1)

theorem trainChunk_some {F : Type} (A : Ar F) {cd n : Nat} {data : List F} (hd : data.length = n * cd) (hn : 0 < n) (iters : Nat) (sp : Nat → Nat)
    (pick : Nat → Nat → Nat) : ∃ c', trainChunk A cd n iters data sp pick = some c' ∧ c'.length = 256 * cd := by
  unfold trainChunk
  split
  · rw [each_map (g := fun k => vecOf data cd (if k < n then k else n - 1))]
    · refine ⟨_, rfl, ?_⟩
      rw [flatten_len (w := cd), List.length_map, List.length_range]
      intro r hr
      obtain ⟨k, _, hk⟩ := List.mem_map.1 hr
      rw [← hk]
      exact vecOf_len hd (by split <;> omega)
    · intro k hk
      exact slice_eq (by rw [hd]; exact row_bound (by split <;> omega))
  · rw [each_map (g := fun k => vecOf data cd (sp k % n))]
    · refine lloyds_some A hd hn pick iters _ ?_
      rw [flatten_len (w := cd), List.length_map, List.length_range]
      intro r hr
      obtain ⟨k, _, hk⟩ := List.mem_map.1 hr
      rw [← hk]
      exact vecOf_len hd (Nat.mod_lt _ hn)
    · intro k hk
      exact slice_eq (by rw [hd]; exact row_bound (Nat.mod_lt _ hn))

/-- The flat residuals of the training vectors. -/
def residOf {F : Type} (A : Ar F) (data gc : List F) (n dim : Nat) : List F :=
  ((List.range n).map (fun i => (List.range dim).map (fun d => A.sub (data.getD (i * dim + d) A.zero) (gc.getD d A.zero)))).flatten

theorem residOf_len {F : Type} (A : Ar F) (data gc : List F) (n dim : Nat) : (residOf A data gc n dim).length = n * dim := by
  unfold residOf
  rw [flatten_len (w := dim), List.length_map, List.length_range]
  intro r hr
  obtain ⟨i, _, hi⟩ := List.mem_map.1 hr
  rw [← hi]; simp

theorem trainPart_some {F : Type} (A : Ar F) {n dim nc : Nat} {res : List F} (hr : res.length = n * dim) (hn : 0 < n) (hm : dim % nc = 0) (iters : Nat)
    (sp : Nat → Nat → Nat) (pick : Nat → Nat → Nat → Nat) (c : Nat) (hc : c < nc) :
    ∃ b, trainPart A n dim nc iters sp pick res c = some b ∧ b.length = 256 * (dim / nc) := by
  unfold trainPart
  have hdim : dim = nc * (dim / nc) := (Nat.mul_div_cancel' (Nat.dvd_of_mod_eq_zero hm)).symm
  have h1 := chunkData_eq (cd := dim / nc) hr hdim hc
  rw [h1]
  exact trainChunk_some A (chunkData_len h1) hn iters (sp c) (pick c)

/-- Training on data of the right size ends with a table of the right shape, for any number of workers. -/
theorem train_some {F : Type} {A : Ar F} (t : Table F) {data : List F} {n dim nc : Nat} (hd : data.length = n * dim) (hn : 0 < n) (hdim : 0 < dim)
    (hnc : 0 < nc) (hm : dim % nc = 0) (iters : Nat) (sp : Nat → Nat → Nat) (pick : Nat → Nat → Nat → Nat) :
    ∃ t', t.train A data n dim nc (fun res => (List.range nc).map (trainPart A n dim nc iters sp pick res)) = some (some t') ∧ Shape t' ∧ t'.dim = dim ∧ t'.nc = nc ∧
      t'.codes = t.codes ∧ t'.points = t.points ∧ t'.sym = t.sym ∧ mean A data n dim = some t'.gc ∧
      ∀ c, c < nc → ∃ b, trainPart A n dim nc iters sp pick (residOf A data t'.gc n dim) c = some b ∧ ∀ k, k < 256 → t'.cen c k = cen (dim / nc) b k := by
  have hme := mean_eq (A := A) hd
  obtain ⟨gc, hgc⟩ : ∃ gc, mean A data n dim = some gc := ⟨_, hme⟩
  have hgl : gc.length = dim := by have := (each_some hgc).1; simpa using this
  have hre := residuals_eq (A := A) hd hgl
  have hrl := residOf_len A data gc n dim
  have hparts := fun c hc => trainPart_some A hrl hn hm iters sp pick c hc
  have hex : ∃ bs, each id ((List.range nc).map (trainPart A n dim nc iters sp pick (residOf A data gc n dim))) = some bs := by
    have : ∀ (cs : List Nat), (∀ c, c ∈ cs → c < nc) → ∃ bs, each id (cs.map (trainPart A n dim nc iters sp pick (residOf A data gc n dim))) = some bs := by
      intro cs
      induction cs with
      | nil => intro _; exact ⟨[], rfl⟩
      | cons c cs ih =>
        intro h
        obtain ⟨bs, hbs⟩ := ih (fun x hx => h x (List.mem_cons_of_mem _ hx))
        obtain ⟨b, hb, _⟩ := hparts c (h c (List.mem_cons_self ..))
        exact ⟨b :: bs, by simp only [List.map_cons]; unfold each; rw [hbs]; simp only [id]; rw [hb]⟩
    exact this _ (fun c hc => List.mem_range.1 hc)
  obtain ⟨bs, hbs⟩ := hex
  obtain ⟨hl, hg⟩ := each_some hbs
  have hdims : dim = nc * (dim / nc) := (Nat.mul_div_cancel' (Nat.dvd_of_mod_eq_zero hm)).symm
  have hcd : 0 < dim / nc := by
    rcases Nat.eq_zero_or_pos (dim / nc) with h | h
    · rw [h] at hdims; omega
    · exact h
  have hw : ∀ b, b ∈ bs → b.length = 256 * (dim / nc) := by
    intro b hb
    obtain ⟨a, ha, hf⟩ := each_mem hbs b hb
    obtain ⟨c, hc, hca⟩ := List.mem_map.1 ha
    obtain ⟨b', hb', hlen⟩ := hparts c (List.mem_range.1 hc)
    simp only [id] at hf
    rw [← hca, hb'] at hf
    injection hf with hf
    rw [← hf]; exact hlen
  refine ⟨{ t with dim := dim, nc := nc, cd := dim / nc, gc := gc, cb := bs.flatten }, ?_, ⟨hnc, hcd, hdims, hgl, ?_⟩, rfl, rfl, rfl, rfl, rfl, hgc, ?_⟩
  · unfold Table.train
    rw [if_neg (by omega), if_neg (by omega), hgc]
    simp only
    have hre2 : residuals A data gc n dim = some (residOf A data gc n dim) := hre
    rw [hre2]
    simp only
    rw [hbs]
  · change bs.flatten.length = nc * 256 * (dim / nc)
    rw [flatten_len hw, hl, List.length_map, List.length_range, Nat.mul_assoc]
  · intro c hc
    obtain ⟨b, hb, hlen⟩ := hparts c hc
    refine ⟨b, hb, ?_⟩
    intro k hk
    have hbc : bs[c]? = some b := by
      obtain ⟨b', hb', hf⟩ := hg c (trainPart A n dim nc iters sp pick (residOf A data gc n dim) c) (map_get _ _ _ hc)
      simp only [id] at hf
      rw [hb] at hf
      injection hf with hf
      rw [hb', hf]
    have hfl := flatten_row c b hw hbc
    rw [← cen_block _ c k hk]
    change cen (dim / nc) ((bs.flatten.drop (c * 256 * (dim / nc))).take (256 * (dim / nc))) k = _
    rw [Nat.mul_assoc c 256, hfl]

end Alaya.PQ
