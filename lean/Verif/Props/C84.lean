import Verif.Lemmas.PQLloyd

/- C84: product quantisation tables. -/
namespace Alaya.PQ

open Spec (sqDist decode)

/-! ### Training -/

/-- Training data of the announced size always leads to a table of the announced shape, without a read or write outside of an array,
whatever the random numbers are; codes, number of points and the symmetric table are left as they were. -/
theorem C84_train {F : Type} (A : Ar F) (t : Table F) (data : List F) (n dim nc : Nat) (hd : data.length = n * dim) (hn : 0 < n) (hdim : 0 < dim)
    (hnc : 0 < nc) (hm : dim % nc = 0) (iters : Nat) (sp : Nat → Nat → Nat) (pick : Nat → Nat → Nat → Nat) :
    ∃ t', t.train A data n dim nc (fun res => (List.range nc).map (trainPart A n dim nc iters sp pick res)) = some (some t') ∧ Shape t' ∧
      t'.dim = dim ∧ t'.nc = nc ∧ t'.codes = t.codes ∧ t'.points = t.points ∧ t'.sym = t.sym := by
  obtain ⟨t', h1, h2, h3, h4, h5, h6, h7, _⟩ := train_some (A := A) t hd hn hdim hnc hm iters sp pick
  exact ⟨t', h1, h2, h3, h4, h5, h6, h7⟩

/-- Any number of workers, in any order, trains the same table as one. -/
theorem C84_train_workers {F : Type} (A : Ar F) (t : Table F) (data : List F) (n dim nc iters workers : Nat) (sp : Nat → Nat → Nat)
    (pick : Nat → Nat → Nat → Nat) (outs : List F → List (Option (Option (List F))))
    (hr : ∀ res, ParFor.Runs nc 1 workers (trainPart A n dim nc iters sp pick res) (outs res)) :
    t.train A data n dim nc (fun res => (outs res).map Option.join) =
      t.train A data n dim nc (fun res => (List.range nc).map (trainPart A n dim nc iters sp pick res)) := by
  congr 1
  funext res
  rw [(hr res).eq, List.map_map]
  rfl

/-- Workers never hold the same chunk or vector, and every schedule ends. -/
theorem C84_workers {β : Type} (n block workers : Nat) (f : Nat → β) (hb : 0 < block) (sched : List Nat) (s : ParFor.State β)
    (hr : (ParFor.State.init n workers).run n block f sched = some s) :
    (∀ (t u : Nat) (lt lu : List Nat) (i : Nat), s.thr[t]? = some lt → s.thr[u]? = some lu → t ≠ u → i ∈ lt → i ∉ lu) ∧ sched.length ≤ 2 * n := by
  refine ⟨fun t u lt lu i => ParFor.disjoint hr t u lt lu i, ?_⟩
  have h1 := ParFor.run_bound hb sched _ _ hr
  have h2 : (ParFor.State.init n workers : ParFor.State β).left n = 2 * n := by
    have h0 : (List.replicate workers ([] : List Nat)).flatten = [] := by
      induction workers with
      | zero => rfl
      | succ k ih => rw [List.replicate_succ, List.flatten_cons]; simp
    unfold ParFor.State.left ParFor.State.init
    simp only [h0]
    simp
  omega

theorem C84_workers_exist {β : Type} (n block workers : Nat) (f : Nat → β) (hb : 0 < block) (hw : 0 < workers) :
    ParFor.Runs n block workers f ((List.range n).map (fun i => some (f i))) := ParFor.Runs.exists n block workers f hb hw

theorem C84_train_rejects {F : Type} (A : Ar F) (t : Table F) (data : List F) (n dim nc : Nat) (blocks : List F → List (Option (List F)))
    (h : n = 0 ∨ dim = 0 ∨ nc = 0 ∨ dim % nc ≠ 0) : t.train A data n dim nc blocks = some none := by
  unfold Table.train
  by_cases h0 : n = 0 ∨ dim = 0 ∨ nc = 0
  · rw [if_pos h0]
  · rw [if_neg h0, if_pos (by omega)]

section Field
variable {F : Type} [Field F] [LinearOrder F] [IsStrictOrderedRing F]

/-- In exact arithmetic the iterations of k-means never increase the sum of the squared distances of the training vectors to their centroids. -/
theorem C84_lloyd {big : F} {cd n : Nat} {data : List F} (hd : data.length = n * cd) (hn : 0 < n) (pick : Nat → Nat → Nat) (iters : Nat)
    (cents c' : List F) (hc : cents.length = 256 * cd) (h : lloyds (exact big) cd n data pick iters cents = some c') (hb : cost big cd n data cents < big) :
    cost big cd n data c' ≤ cost big cd n data cents := lloyds_cost hd hn pick iters cents c' hc h hb

end Field

/-! ### Encoding -/

/-- Any number of workers leaves the code of vector `i` in row `i`, and the symmetric table of the codebook. -/
theorem C84_encode {F : Type} (A : Ar F) (t : Table F) (S : Shape t) (data : List F) (n workers : Nat) (hd : data.length = n * t.dim) (hn : 0 < n)
    (hroom : n * t.nc < 2 ^ 64) (out : List (Option (Option (List Nat)))) (hr : ParFor.Runs n 4096 workers (encodePart A t data) out) :
    ∃ t', t.encode A n (out.map Option.join) = some (some t') ∧ Filled t' ∧ t'.points = n ∧ t'.dim = t.dim ∧ t'.nc = t.nc ∧ t'.cd = t.cd ∧
      t'.gc = t.gc ∧ t'.cb = t.cb ∧ t'.sym = t'.symOf A ∧
      ∀ i, i < n → t.code A (vecOf data t.dim i) = some ((List.range t.nc).map (t'.at i)) := by
  have hfill := filled_rows (A := A) S n hroom (fun i => vecOf data t.dim i) (t.symOf A)
  refine ⟨_, encode_eq S hd hn hr, hfill, rfl, rfl, rfl, rfl, rfl, rfl, rfl, ?_⟩
  intro i hi
  rw [code_eq S (vecOf_len hd hi)]
  congr 1
  have hw : ∀ r, r ∈ (List.range n).map (fun i => t.codeOf A (vecOf data t.dim i)) → r.length = t.nc := by
    intro r hr
    obtain ⟨i, _, hi⟩ := List.mem_map.1 hr
    rw [← hi]; exact codeOf_len A t _
  apply List.ext_getElem?
  intro k
  by_cases hk : k < t.nc
  · rw [map_get _ _ _ hk]
    unfold Table.at
    simp only
    rw [List.getD_eq_getElem?_getD, flatten_get i k _ hw hk (map_get n i _ hi)]
    rw [getElem?_getD (by rw [codeOf_len]; exact hk) 0]
    rfl
  · rw [List.getElem?_eq_none (by rw [codeOf_len]; omega), List.getElem?_eq_none (by simp; omega)]

/-- Every code names the first of the nearest centroids of its chunk, if one of them is nearer than the largest float. -/
theorem C84_nearest {F : Type} {A : Ar F} (O : Ordered A) (t : Table F) (S : Shape t) (v : List F) (hv : v.length = t.dim) :
    ∃ code, t.code A v = some code ∧ code.length = t.nc ∧ ∀ c, c < t.nc →
      (∃ k, k < 256 ∧ A.lt (A.l2 (t.chunk (t.resid A v) c) (t.cen c k)) A.big = true) →
      Spec.FirstNearest A.lt 256 (fun k => A.l2 (t.chunk (t.resid A v) c) (t.cen c k)) (code.getD c 0) := by
  refine ⟨_, code_eq S hv, codeOf_len A t v, ?_⟩
  intro c hc ⟨k, hk, hlt⟩
  have hcode : (t.codeOf A v).getD c 0 = (best A 256 (fun k => A.l2 (t.chunk (t.resid A v) c) (t.cen c k))).2 := by
    unfold Table.codeOf
    rw [List.getD_eq_getElem?_getD, map_get _ _ _ hc]; rfl
  rw [hcode]
  rcases best_spec O (fun k => A.l2 (t.chunk (t.resid A v) c) (t.cen c k)) 256 with ⟨_, h2⟩ | ⟨h1, _, _, h4, h5⟩
  · have := h2 k hk
    rw [hlt] at this; simp at this
  · exact ⟨h1, h4, h5⟩

/-- A sequence of single updates. -/
def updates {F : Type} (A : Ar F) : List (Nat × List F) → Table F → Option (Option (Table F))
  | [], t => some (some t)
  | (id, v) :: us, t =>
    match t.encodeOne A v id with
    | none => none
    | some none => some none
    | some (some t') => updates A us t'

/-- The last vector given for an id. -/
def lastFor {F : Type} (us : List (Nat × List F)) (id : Nat) : Option (List F) := (us.reverse.find? (fun u => u.1 = id)).map Prod.snd

theorem lastFor_cons {F : Type} (u : Nat × List F) (us : List (Nat × List F)) (id : Nat) :
    lastFor (u :: us) id = (lastFor us id).or (if u.1 = id then some u.2 else none) := by
  unfold lastFor
  rw [List.reverse_cons, List.find?_append]
  cases h : us.reverse.find? (fun u => decide (u.1 = id)) with
  | some x => simp
  | none =>
    by_cases hu : u.1 = id
    · simp [List.find?, hu]
    · simp [List.find?, hu]

/-- After any sequence of single updates a row holds the code of the last vector given for it; other rows are as before, rows that were
skipped when the table grew are zero. -/
theorem C84_updates {F : Type} (A : Ar F) : ∀ (us : List (Nat × List F)) (t : Table F), Filled t → (∀ u, u ∈ us → u.2.length = t.dim ∧ (u.1 + 1) * t.nc < 2 ^ 64) →
    ∃ t', updates A us t = some (some t') ∧ Filled t' ∧ t'.gc = t.gc ∧ t'.cb = t.cb ∧ t'.sym = t.sym ∧ t'.dim = t.dim ∧ t'.nc = t.nc ∧ t'.cd = t.cd ∧
      t'.points = us.foldl (fun m u => max m (u.1 + 1)) t.points ∧
      ∀ id c, id < t'.points → c < t.nc → t'.at id c =
        ((lastFor us id).map (fun v => (t.codeOf A v).getD c 0)).getD (if id < t.points then t.at id c else 0)
  | [], t, S, _ => ⟨t, rfl, S, rfl, rfl, rfl, rfl, rfl, rfl, rfl, fun id c hid _ => by simp [lastFor, hid]⟩
  | (i, v) :: us, t, S, hu => by
    obtain ⟨hv, hi⟩ := hu (i, v) (List.mem_cons_self ..)
    obtain ⟨t1, h1, S1, e1, e2, e3, e4, e5, e6, ep, g1, g2, g3⟩ := encodeOne_eq (A := A) S hv hi
    have hu1 : ∀ u, u ∈ us → u.2.length = t1.dim ∧ (u.1 + 1) * t1.nc < 2 ^ 64 := by
      intro u hm
      rw [e1, e2]; exact hu u (List.mem_cons_of_mem _ hm)
    obtain ⟨t', h', S', f1, f2, f3, f4, f5, f6, fp, fr⟩ := C84_updates A us t1 S1 hu1
    have hsame : ∀ w, t1.codeOf A w = t.codeOf A w := by
      intro w
      unfold Table.codeOf Table.chunk Table.resid Table.cen
      rw [e1, e2, e3, e4, e5]
    refine ⟨t', ?_, S', f1.trans e4, f2.trans e5, f3.trans e6, f4.trans e1, f5.trans e2, f6.trans e3, ?_, ?_⟩
    · unfold updates; rw [h1]; exact h'
    · rw [fp, ep]; rfl
    · intro id c hid hc
      rw [fr id c hid (by rw [e2]; exact hc), lastFor_cons]
      simp only
      cases hl : lastFor us id with
      | some w => simp [hsame]
      | none =>
        simp only [Option.map_none, Option.getD_none, Option.none_or]
        by_cases hid2 : i = id
        · rw [if_pos hid2, if_pos (by rw [ep]; omega)]
          simp only [Option.map_some, Option.getD_some]
          rw [← hid2]; exact g1 c hc
        · rw [if_neg hid2]
          simp only [Option.map_none, Option.getD_none]
          by_cases hp : id < t.points
          · rw [if_pos hp, if_pos (by rw [ep]; omega)]
            exact g2 id c (fun h => hid2 h.symm) hp hc
          · rw [if_neg hp]
            split
            · rename_i hp1
              rw [ep] at hp1
              exact g3 id c (fun h => hid2 h.symm) (by omega) (by omega) hc
            · rfl

/-! ### Distances -/

/-- Queries and distances to stored points never read outside of an array; the distance is the sum over the chunks, in this order. -/
theorem C84_distance {F : Type} (A : Ar F) (t : Table F) (S : Filled t) (q : List F) (hq : q.length = t.dim) (id : Nat) (hid : id < t.points) :
    ∃ tab, t.query A q = some tab ∧ t.dist A tab id =
      some ((List.range t.nc).foldl (fun a c => A.add a (A.l2 (t.chunk (t.resid A q) c) (t.cen c (t.at id c)))) A.zero) :=
  ⟨_, query_eq S.toShape hq, dist_eq S q hid⟩

/-- The distances of a batch are those of the single calls, for any arithmetic, any number of chunks and any ids, also repeated ones. -/
theorem C84_batch {F : Type} (A : Ar F) (t : Table F) (tab : List F) (ids : List Nat) (r : List F) (h : each (t.dist A tab) ids = some r) :
    t.batch A tab ids = some r := batch_eq h

theorem C84_batch_valid {F : Type} (A : Ar F) (t : Table F) (S : Filled t) (q : List F) (hq : q.length = t.dim) (ids : List Nat)
    (hid : ∀ i, i ∈ ids → i < t.points) : ∃ tab r, t.query A q = some tab ∧ t.batch A tab ids = some r ∧ r.length = ids.length ∧
      ∀ (k i : Nat), ids[k]? = some i → ∃ x, r[k]? = some x ∧ t.dist A tab i = some x := by
  have h := each_map (f := t.dist A (t.queryOf A q)) (l := ids)
    (g := fun id => (List.range t.nc).foldl (fun a c => A.add a (A.l2 (t.chunk (t.resid A q) c) (t.cen c (t.at id c)))) A.zero)
    (fun i hi => dist_eq S q (hid i hi))
  obtain ⟨h1, h2⟩ := each_some h
  exact ⟨_, _, query_eq S.toShape hq, batch_eq h, h1, fun k i hk => h2 k i hk⟩

theorem C84_symmetric_rejects {F : Type} (A : Ar F) (t : Table F) (a b : Nat) (h : t.points ≤ a ∨ t.points ≤ b) : t.symDist A a b = some none := by
  unfold Table.symDist; rw [if_pos h]

theorem C84_symmetric_from_rejects {F : Type} (A : Ar F) (t : Table F) (code : List Nat) (b : Nat) (h : t.points ≤ b) : t.symFrom A code b = some none := by
  unfold Table.symFrom; rw [if_pos h]

/-- A codebook given by the caller is accepted exactly when its sizes fit; the table is then empty and ready for use. -/
theorem C84_from_codebook {F : Type} (A : Ar F) (dim nc : Nat) (gc cb : List F) :
    (0 < dim ∧ 0 < nc ∧ dim % nc = 0 ∧ gc.length = dim ∧ cb.length = nc * 256 * (dim / nc) →
      ∃ t, Table.fromCodebook A dim nc gc cb = some (some t) ∧ Filled t ∧ t.sym = t.symOf A ∧ t.points = 0 ∧ t.dim = dim ∧ t.nc = nc ∧ t.gc = gc ∧ t.cb = cb) ∧
    (¬ (0 < dim ∧ 0 < nc ∧ dim % nc = 0 ∧ gc.length = dim ∧ cb.length = nc * 256 * (dim / nc)) → Table.fromCodebook A dim nc gc cb = some none) := by
  constructor
  · rintro ⟨h1, h2, h3, h4, h5⟩
    have hcd : 0 < dim / nc := Nat.div_pos (Nat.le_of_dvd h1 (Nat.dvd_of_mod_eq_zero h3)) h2
    have hmul : nc * (dim / nc) = dim := Nat.mul_div_cancel' (Nat.dvd_of_mod_eq_zero h3)
    have S : Shape (⟨dim, nc, dim / nc, 0, gc, cb, [], []⟩ : Table F) := ⟨h2, hcd, hmul.symm, h4, h5⟩
    unfold Table.fromCodebook
    rw [if_neg (by omega), if_neg (by omega), if_neg (by omega)]
    simp only [symTable_eq (A := A) S]
    exact ⟨_, rfl, by constructor <;> first | exact ⟨h2, hcd, hmul.symm, h4, h5⟩ | simp, rfl, rfl, rfl, rfl, rfl, rfl⟩
  · intro h
    unfold Table.fromCodebook
    split
    · rfl
    · split
      · rfl
      · split
        · rfl
        · exfalso; apply h; omega

example : Table.fromCodebook (exact (1 : Rat)) 2 1 [0, 0] (List.replicate 511 0) = some none :=
  (C84_from_codebook (exact (1 : Rat)) 2 1 [0, 0] (List.replicate 511 0)).2 (by rw [List.length_replicate]; decide)

example : ∃ t, Table.fromCodebook (exact (1 : Rat)) 2 1 [0, 0] (List.replicate 512 0) = some (some t) ∧ Filled t := by
  obtain ⟨t, h1, h2, _⟩ := (C84_from_codebook (exact (1 : Rat)) 2 1 [0, 0] (List.replicate 512 0)).1 (by rw [List.length_replicate]; decide)
  exact ⟨t, h1, h2⟩

section Field
variable {F : Type} [Field F] [LinearOrder F] [IsStrictOrderedRing F]

/-- In exact arithmetic the distance is the squared distance of the query to the point that the code stands for. -/
theorem C84_distance_exact (big : F) (t : Table F) (S : Filled t) (q : List F) (hq : q.length = t.dim) (id : Nat) (hid : id < t.points) :
    ∃ tab, t.query (exact big) q = some tab ∧ t.dist (exact big) tab id =
      some (sqDist t.dim (fun d => q.getD d 0) (decode t.cd (fun d => t.gc.getD d 0) t.coord (t.at id))) :=
  ⟨_, query_eq S.toShape hq, dist_exact big S q hid⟩

/-- The symmetric distance is the squared distance of the points that the two codes stand for. -/
theorem C84_symmetric_exact (big : F) (t : Table F) (S : Filled t) (hs : t.symTable (exact big) = some t.sym) (a b : Nat) (ha : a < t.points) (hb : b < t.points) :
    t.symDist (exact big) a b = some (some (sqDist t.dim (decode t.cd (fun d => t.gc.getD d 0) t.coord (t.at a))
      (decode t.cd (fun d => t.gc.getD d 0) t.coord (t.at b)))) := by
  rw [symTable_eq S.toShape] at hs
  injection hs with hs
  exact sym_exact big S hs.symm ha hb

/-- A table trained with at most 256 vectors stores these without loss: after encoding them, every distance is the true one. -/
theorem C84_small_exact {big : F} (hbig : 0 < big) (t0 : Table F) (data : List F) (n dim nc workers iters : Nat) (hd : data.length = n * dim) (hn : 0 < n)
    (hn2 : n ≤ 256) (hdim : 0 < dim) (hnc : 0 < nc) (hm : dim % nc = 0) (hroom : n * nc < 2 ^ 64) (sp : Nat → Nat → Nat) (pick : Nat → Nat → Nat → Nat) :
    ∃ t1, t0.train (exact big) data n dim nc (fun res => (List.range nc).map (trainPart (exact big) n dim nc iters sp pick res)) = some (some t1) ∧
      ∀ out, ParFor.Runs n 4096 workers (encodePart (exact big) t1 data) out → ∃ t2, t1.encode (exact big) n (out.map Option.join) = some (some t2) ∧
        ∀ q : List F, q.length = dim → ∃ tab, t2.query (exact big) q = some tab ∧ ∀ i, i < n →
          t2.dist (exact big) tab i = some (sqDist dim (fun d => q.getD d 0) (fun d => data.getD (i * dim + d) 0)) := by
  obtain ⟨t1, h1, S1, hdm, hnm, _, _, _, hmean, hcb⟩ := train_some (A := exact big) t0 hd hn hdim hnc hm iters sp pick
  refine ⟨t1, h1, ?_⟩
  intro out hr
  have hd1 : data.length = n * t1.dim := by rw [hdm]; exact hd
  have hroom1 : n * t1.nc < 2 ^ 64 := by rw [hnm]; exact hroom
  have hfill := filled_rows (A := exact big) S1 n hroom1 (fun i => vecOf data t1.dim i) (t1.symOf (exact big))
  refine ⟨_, encode_eq S1 hd1 hn hr, ?_⟩
  generalize ht2 : ({ t1 with points := n, codes := ((List.range n).map (fun i => t1.codeOf (exact big) (vecOf data t1.dim i))).flatten, sym := t1.symOf (exact big) } : Table F) = t2
  rw [ht2] at hfill
  have a1 : t2.dim = t1.dim := by rw [← ht2]
  have a2 : t2.nc = t1.nc := by rw [← ht2]
  have a3 : t2.cd = t1.cd := by rw [← ht2]
  have a4 : t2.gc = t1.gc := by rw [← ht2]
  have a5 : t2.points = n := by rw [← ht2]
  have a6 : t2.coord = t1.coord := by rw [← ht2]; rfl
  have a7 : t2.codes = ((List.range n).map (fun i => t1.codeOf (exact big) (vecOf data t1.dim i))).flatten := by rw [← ht2]
  intro q hq
  refine ⟨_, query_eq hfill.toShape (by rw [a1, hdm]; exact hq), ?_⟩
  intro i hi
  rw [dist_exact big hfill q (by rw [a5]; exact hi)]
  congr 1
  rw [a1, hdm, a3, a4, a6]
  unfold sqDist
  refine sum_congr ?_
  intro d hdl
  have hdl1 : d < t1.dim := by rw [hdm]; exact hdl
  have hcode := code_exact hbig S1 (vecOf data t1.dim i) (by
    intro c hc
    refine ⟨i, by omega, ?_⟩
    intro j hj
    have hlt : c * t1.cd + j < t1.dim := by have := row_bound (w := t1.cd) hc; rw [S1.dim]; omega
    rw [vecOf_get _ _ _ _ hlt, hdm]
    exact small_cen big hm hn2 hdm hnm S1 iters sp pick hcb c i (by rw [← hnm]; exact hc) hi j hj) d hdl1
  have hrow : decode t1.cd (fun d => t1.gc.getD d 0) t1.coord (t2.at i) d =
      decode t1.cd (fun d => t1.gc.getD d 0) t1.coord (fun c => (t1.codeOf (exact big) (vecOf data t1.dim i)).getD c 0) d := by
    unfold decode
    have hc : d / t1.cd < t1.nc := by rw [S1.dim] at hdl1; exact Nat.div_lt_of_lt_mul (by rw [Nat.mul_comm]; exact hdl1)
    have : t2.at i (d / t1.cd) = (t1.codeOf (exact big) (vecOf data t1.dim i)).getD (d / t1.cd) 0 := by
      unfold Table.at
      rw [a7, a2, List.getD_eq_getElem?_getD, flatten_get (w := t1.nc) i (d / t1.cd) _ ?_ hc (map_get n i _ hi), List.getD_eq_getElem?_getD]
      intro r hr
      obtain ⟨i, _, hi⟩ := List.mem_map.1 hr
      rw [← hi]; exact codeOf_len _ t1 _
    simp only [this]
  simp only
  rw [hrow, hcode, vecOf_get _ _ _ _ hdl1, hdm]

end Field

/-! ### Files -/

/-- What was saved is what is loaded, into whatever object; the symmetric table is that of the codebook. -/
theorem C84_files {F : Type} (A : Ar F) (E : Codec F) (hE : E.Ok) (t : Table F) (S : Filled t) (hp : 0 < t.points)
    (hroom : (t.dim + t.nc * 256 * t.cd) * 4 < 2 ^ 64) : ∃ piv codes, t.save E = some (piv, codes) ∧
      ∀ t0 : Table F, t0.load A E piv codes t.points t.dim t.nc = some ({ t with sym := t.symOf A }, true) := by
  obtain ⟨p, hs⟩ : ∃ p, t.save E = some p := ⟨_, by unfold Table.save; rw [if_neg S.cb_ne]⟩
  exact ⟨p.1, p.2, hs, fun t0 => load_save hE S hp hroom hs t0⟩

/-- A load that returns has read files of exactly the announced sizes; the table can be used. -/
theorem C84_load {F : Type} (A : Ar F) (E : Codec F) (t0 t : Table F) (piv codes : List Nat) (n dim nc : Nat)
    (h : t0.load A E piv codes n dim nc = some (t, true)) (hcodes : ∀ b, b ∈ codes → b < 256) (hroom : n * nc < 2 ^ 64)
    (hroom2 : (dim + nc * 256 * (dim / nc)) * 4 < 2 ^ 64) :
    piv.length = (dim + nc * 256 * (dim / nc)) * 4 ∧ codes.length = n * nc ∧ Filled t ∧ t.sym = t.symOf A ∧ t.points = n ∧ t.dim = dim ∧ t.nc = nc ∧
      t.codes = codes := by
  obtain ⟨_, h2, h3, h4, h5, h6, h7, h8, h9⟩ := load_ok h hcodes
  unfold u64 at h7 h8
  rw [Nat.mod_eq_of_lt hroom2] at h7
  rw [Nat.mod_eq_of_lt hroom] at h8
  exact ⟨h7, h8, h9 hroom, h2, h5, h3, h4, h6⟩

/-! ### Refuted -/

/-- A table of one chunk with one point. -/
def one : Table Rat := ⟨1, 1, 1, 1, [0], List.replicate 256 0, [0], []⟩

theorem one_filled : Filled one := by
  refine ⟨⟨by decide, by decide, rfl, rfl, ?_⟩, rfl, ?_, by decide⟩
  · change (List.replicate 256 (0 : Rat)).length = _; rw [List.length_replicate]; rfl
  · intro b hb
    change b ∈ [0] at hb
    rw [List.mem_singleton] at hb
    omega

/-- Training again keeps the old codes: with another number of chunks the distance to a stored point reads outside of the codes, with the same
number the codes belong to centroids that are gone. -/
theorem C84_retrain_refuted : ∃ (t t' : Table Rat) (data : List Rat), Filled t ∧ 0 < t'.points ∧
    t.train (exact 1) data 1 2 2 (fun res => (List.range 2).map (trainPart (exact 1) 1 2 2 15 (fun _ _ => 0) (fun _ _ _ => 0) res)) = some (some t') ∧
    t'.points = t.points ∧ ∀ tab, t'.dist (exact 1) tab 0 = none := by
  obtain ⟨t', h1, h2, h3, h4, h5, h6, h7⟩ := C84_train (exact (1 : Rat)) one [0, 0] 1 2 2 rfl (by decide) (by decide) (by decide) (by decide) 15
    (fun _ _ => 0) (fun _ _ _ => 0)
  refine ⟨one, t', [0, 0], one_filled, by rw [h6]; decide, h1, h6, ?_⟩
  intro tab
  have : t'.row 0 = none := by
    unfold Table.row slice
    rw [if_neg]
    rw [h4, h5]; decide
  unfold Table.dist
  rw [this]

/-- A load that throws has already changed the object: a table that could be used before reads outside of its codes afterwards. -/
theorem C84_failed_load_refuted : ∃ (t t' : Table Rat) (E : Codec Rat) (piv codes : List Nat), Filled t ∧
    t.load (exact 1) E piv codes 1 2 2 = some (t', false) ∧ 0 < t'.points ∧ ∀ tab, t'.dist (exact 1) tab 0 = none := by
  refine ⟨one, { one with dim := 2, nc := 2, cd := 1, points := 1 }, ⟨fun _ => [0, 0, 0, 0], fun _ => 0⟩, [], [], one_filled, ?_, by decide, ?_⟩
  · unfold Table.load
    rw [if_neg (by decide)]
    simp only
    rw [if_pos (by decide)]
  · intro tab
    have : ({ one with dim := 2, nc := 2, cd := 1, points := 1 } : Table Rat).row 0 = none := by decide +kernel
    unfold Table.dist
    rw [this]

theorem decodeFloats_some {F : Type} (E : Codec F) (b : List Nat) (off n : Nat) (h : (off + n) * 4 ≤ b.length) : ∃ l, decodeFloats E b off n = some l := by
  unfold decodeFloats
  rw [each_map (g := fun i => E.dec ((b.drop ((off + i) * 4)).take 4))]
  · exact ⟨_, rfl⟩
  · intro i hi
    have hi := List.mem_range.1 hi
    rw [slice_eq (by omega)]
    rfl

/-- The number of points times the number of chunks is not checked for overflow: with 2^62 points and 4 chunks an empty file of codes is
accepted, and reading the first point is outside of the codes. -/
theorem C84_load_wraps_refuted (E : Codec Rat) (t0 : Table Rat) (piv : List Nat) (hp : piv.length = 4112) :
    ∃ t, t0.load (exact 1) E piv [] (2 ^ 62) 4 4 = some (t, true) ∧ t.points = 2 ^ 62 ∧ ∀ tab, t.dist (exact 1) tab 0 = none := by
  obtain ⟨gc, hg⟩ := decodeFloats_some E piv 0 4 (by omega)
  obtain ⟨cb, hc⟩ := decodeFloats_some E piv 4 1024 (by omega)
  have S : Shape ({ t0 with dim := 4, nc := 4, cd := 1, points := 2 ^ 62, gc := gc, cb := cb } : Table Rat) :=
    ⟨(by decide : 0 < 4), (by decide : 0 < 1), rfl, decodeFloats_len hg, by change cb.length = 4 * 256 * 1; rw [decodeFloats_len hc]⟩
  have hs := symTable_eq (A := exact (1 : Rat)) S
  generalize Table.symOf (exact (1 : Rat)) { t0 with dim := 4, nc := 4, cd := 1, points := 2 ^ 62, gc := gc, cb := cb } = sym at hs
  refine ⟨{ t0 with dim := 4, nc := 4, cd := 1, points := 2 ^ 62, gc := gc, cb := cb, codes := [], sym := sym }, ?_, rfl, ?_⟩
  · unfold Table.load
    rw [if_neg (by decide)]
    simp only
    rw [if_neg (by rw [hp]; decide)]
    have e : 4 * 256 * (4 / 4) = 1024 := by decide
    rw [e, hg, hc]
    simp only
    rw [if_neg (by decide)]
    rw [show 4 / 4 = 1 from rfl, hs]
  · intro tab
    unfold Table.dist Table.row slice
    rw [if_neg]
    change ¬ u64 (0 * 4) + 4 ≤ 0
    decide

/-- `encode_one` with the largest id writes outside of the codes. -/
theorem C84_last_id_refuted {F : Type} (A : Ar F) (t : Table F) (S : Filled t) (v : List F) (hv : v.length = t.dim) (hnc : t.nc < 2 ^ 32) :
    t.encodeOne A v (2 ^ 64 - 1) = none := by
  unfold Table.encodeOne
  rw [if_neg S.cb_ne]
  simp only
  rw [code_eq S.toShape hv, if_neg (by unfold u64; simp)]
  simp only
  have : splice t.codes (u64 ((2 ^ 64 - 1) * t.nc)) (t.codeOf A v) = none := by
    unfold splice
    rw [if_neg]
    rw [codeOf_len, S.codes]
    have h1 := S.room
    have h2 := S.nc
    have h3 : u64 ((2 ^ 64 - 1) * t.nc) = 2 ^ 64 - t.nc := by
      unfold u64
      have : (2 ^ 64 - 1) * t.nc = (2 ^ 64 - t.nc) + 2 ^ 64 * (t.nc - 1) := by omega
      rw [this, Nat.add_mul_mod_self_left, Nat.mod_eq_of_lt (by omega)]
    rw [h3]; omega
  rw [this]

/-! ### The hypotheses can be met -/

/-- Two chunks of two coordinates, three training vectors. -/
example : ∃ t1, Table.empty.train (exact (100 : Rat)) [0, 0, 1, 1, 2, 0, 1, 5, 4, 3, 1, 0] 3 4 2
    (fun res => (List.range 2).map (trainPart (exact 100) 3 4 2 15 (fun _ _ => 0) (fun _ _ _ => 0) res)) = some (some t1) ∧ Shape t1 := by
  obtain ⟨t1, h, S, _⟩ := C84_train (exact (100 : Rat)) Table.empty [0, 0, 1, 1, 2, 0, 1, 5, 4, 3, 1, 0] 3 4 2 rfl (by decide) (by decide) (by decide) (by decide) 15
    (fun _ _ => 0) (fun _ _ _ => 0)
  exact ⟨t1, h, S⟩

/-- The distance of (1, 1, 1, 1) to the third of them is 9 + 4 + 0 + 1. -/
example : sqDist 4 (fun d => ([1, 1, 1, 1] : List Rat).getD d 0) (fun d => ([0, 0, 1, 1, 2, 0, 1, 5, 4, 3, 1, 0] : List Rat).getD (2 * 4 + d) 0) = 14 := by
  decide +kernel

example : Filled one := one_filled

example : Ordered (exact (100 : Rat)) := exact_ordered 100

/-- Two workers, five iterations in blocks of two, one schedule of many. -/
example : ((ParFor.State.init 5 2).run 5 2 (fun i => i * i) [0, 1, 0, 1, 1, 1, 1, 0]).map ParFor.State.out =
    some [some 0, some 1, some 4, some 9, some 16] := by decide +kernel

/-- Updates: row 3 is written, rows 1 and 2 are skipped. -/
example : ∃ t', updates (exact 100) [(3, [7]), (0, [8])] one = some (some t') ∧ t'.points = 4 := by
  obtain ⟨t', h, _, _, _, _, _, _, _, hp, _⟩ := C84_updates (exact (100 : Rat)) [(3, [7]), (0, [8])] one one_filled (by
    intro u hu
    simp at hu
    rcases hu with rfl | rfl <;> exact ⟨rfl, by decide⟩)
  exact ⟨t', h, by rw [hp]; decide⟩

end Alaya.PQ
