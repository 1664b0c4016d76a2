import Verif.Lemmas.VamanaSegHist
import Verif.Props.C83

/-! C89: Vamana segments of a disk collection. -/
namespace Alaya.VamanaSeg
open Alaya Alaya.TopK Alaya.DiskFlat Alaya.DiskManifest Alaya.DiskColl2 Alaya.Spec

/-! ### Searching a segment -/

/-- Row `i` comes before row `j`: smaller distance, ties by row. -/
def Before (K : Kernel) (s : VSeg) (query : List Nat) (i j : Nat) : Prop :=
  K.dist .l2 query (s.row i).2 < K.dist .l2 query (s.row j).2 ∨
    (K.dist .l2 query (s.row i).2 = K.dist .l2 query (s.row j).2 ∧ i ≤ j)

/-- What is reported for row `i`. -/
def hitOf (K : Kernel) (s : VSeg) (query : List Nat) (i : Nat) : Hit := ⟨(s.row i).1, K.dist .l2 query (s.row i).2⟩

theorem reach_lt {s : VSeg} (h : VOk s) {i : Nat} (hr : Reach s.graph.graph s.graph.start i) : i < s.seg.count := by
  rw [← h.nodes]
  induction hr with
  | start => exact h.graph.startOk
  | step _ hu hm _ => exact (h.graph.nbrs _ _ hu _ hm).1

theorem search_eq {K : Kernel} {s : VSeg} (h : VOk s) {query : List Nat} (hq : ∀ x ∈ query, finite32 x = true) {topk ef : Nat}
    (hk : 0 < topk) (he : 0 < ef) {sc sc' : Pools.Scratch} (hs : Pools.ScratchOk sc) {hits : List (Nat × Int)} (extra : Nat)
    (hsearch : Pools.search s.graph.graph s.graph.start (s.dist K query) (min topk s.seg.count) (max (min ef s.seg.count) (min topk s.seg.count))
      (s.graph.graph.length + extra) sc = some (some (sc', hits)))
    (hh : ∀ x ∈ hits, x.1 < s.seg.count ∧ x.2 = s.dist K query x.1) :
    s.search K query topk ef (s.seg.count + extra) sc = some (some (sc', (hits.map Prod.fst).map (hitOf K s query))) := by
  have hcount := h.count
  unfold VSeg.search
  rw [if_neg (by omega), if_neg (by omega), if_neg (by rw [List.all_eq_true.2 hq]; simp)]
  simp only
  rw [h.nodes, Nat.mod_eq_of_lt (by omega), ← h.nodes] at *
  rw [hsearch]
  simp only
  rw [if_pos]
  · rw [labelHits_eq h hits (fun x hx => h.nodes ▸ (hh x hx).1)]
    simp only [List.map_map]
    congr 3
    refine List.map_congr_left (fun x hx => ?_)
    obtain ⟨h1, h2⟩ := hh x hx
    unfold hitOf
    simp only [Function.comp]
    rw [h2, dist_row h K query (h.nodes ▸ h1)]
  · rw [List.all_eq_true]
    intro i hi
    have hlt := search_touched h.pools h.graph.startOk (by omega) (Nat.le_max_right _ _) hs hsearch i hi
    rw [readRow_row h (h.nodes ▸ hlt)]
    rfl

/-- Searching any directory that opens ends, reads inside the files, and returns distinct rows (at most `top_k`, at most all),
each reachable from the entry point, with its label and its distance, ordered by distance and row. -/
theorem C89_search (K : Kernel) (dir : Option KV) (s : VSeg) (ho : openSeg dir = some s) (query : List Nat)
    (hq : ∀ x ∈ query, finite32 x = true) (topk ef : Nat) (hk : 0 < topk) (he : 0 < ef) (sc : Pools.Scratch) (hs : Pools.ScratchOk sc) :
    ∃ (sc' : Pools.Scratch) (rows : List Nat), (∀ extra, s.search K query topk ef (s.seg.count + extra) sc = some (some (sc', rows.map (hitOf K s query)))) ∧
      Pools.ScratchOk sc' ∧ rows.length ≤ min topk s.seg.count ∧ rows.Nodup ∧ rows.Pairwise (Before K s query) ∧
      ∀ i ∈ rows, i < s.seg.count ∧ Reach s.graph.graph s.graph.start i := by
  have h := openSeg_ok ho
  have hcount := h.count
  obtain ⟨sc', hits, e, hsc, hlen, hnd, hpw, hr⟩ := Pools.C27_search_sound s.graph.graph h.pools s.graph.start h.graph.startOk
    (s.dist K query) (min topk s.seg.count) (max (min ef s.seg.count) (min topk s.seg.count)) (by omega) (Nat.le_max_right _ _) sc hs
  have hh : ∀ x ∈ hits, x.1 < s.seg.count ∧ x.2 = s.dist K query x.1 := fun x hx => ⟨reach_lt h (hr x hx).1, (hr x hx).2⟩
  refine ⟨sc', hits.map Prod.fst, fun extra => search_eq h hq hk he hs extra (e extra) hh, hsc, by simpa using hlen, hnd, ?_, ?_⟩
  · rw [List.pairwise_map]
    refine hpw.imp_of_mem ?_
    intro a b ha hb hab
    obtain ⟨a1, a2⟩ := hh a ha
    obtain ⟨b1, b2⟩ := hh b hb
    rw [a2, b2, dist_row h K query a1, dist_row h K query b1] at hab
    exact hab
  · intro i hi
    obtain ⟨x, hx, rfl⟩ := List.mem_map.1 hi
    exact ⟨(hh x hx).1, (hr x hx).1⟩

/-- With every row reachable and `ef` at least their number the result is the exact one. -/
theorem C89_exact (K : Kernel) (dir : Option KV) (s : VSeg) (ho : openSeg dir = some s) (query : List Nat)
    (hq : ∀ x ∈ query, finite32 x = true) (topk ef : Nat) (hk : 0 < topk) (hef : s.seg.count ≤ ef) (sc : Pools.Scratch)
    (hs : Pools.ScratchOk sc) (hall : ∀ i < s.seg.count, Reach s.graph.graph s.graph.start i) :
    ∃ (sc' : Pools.Scratch) (rows : List Nat), (∀ extra, s.search K query topk ef (s.seg.count + extra) sc = some (some (sc', rows.map (hitOf K s query)))) ∧
      Best (Before K s query) topk rows (List.range s.seg.count) := by
  have h := openSeg_ok ho
  have hcount := h.count
  obtain ⟨sc', hits, e, hb⟩ := Pools.C27_exact_when_list_large s.graph.graph h.pools s.graph.start h.graph.startOk
    (s.dist K query) (min topk s.seg.count) (max (min ef s.seg.count) (min topk s.seg.count)) (by omega) (Nat.le_max_right _ _) sc hs
    (List.range s.seg.count) List.nodup_range (fun i => ⟨fun hi => hall i (List.mem_range.1 hi), fun hr => List.mem_range.2 (reach_lt h hr)⟩)
    (by rw [List.length_range]; omega)
  obtain ⟨hpw, hlen, rest, hperm, hrest⟩ := hb
  have hmem : ∀ x ∈ hits ++ rest, x.1 < s.seg.count ∧ x.2 = s.dist K query x.1 := by
    intro x hx
    obtain ⟨i, hi, rfl⟩ := List.mem_map.1 (hperm.mem_iff.2 hx)
    exact ⟨List.mem_range.1 hi, rfl⟩
  have conv : ∀ a ∈ hits ++ rest, ∀ b ∈ hits ++ rest, (a.2 < b.2 ∨ (a.2 = b.2 ∧ a.1 ≤ b.1)) → Before K s query a.1 b.1 := by
    intro a ha b hb hab
    obtain ⟨a1, a2⟩ := hmem a ha
    obtain ⟨b1, b2⟩ := hmem b hb
    rw [a2, b2, dist_row h K query a1, dist_row h K query b1] at hab
    exact hab
  refine ⟨sc', hits.map Prod.fst, fun extra =>
    search_eq h hq hk (by omega) hs extra (e extra) (fun x hx => hmem x (List.mem_append_left _ hx)), ?_, ?_, rest.map Prod.fst, ?_, ?_⟩
  · rw [List.pairwise_map]
    exact hpw.imp_of_mem (fun ha hb hab => conv _ (List.mem_append_left _ ha) _ (List.mem_append_left _ hb) hab)
  · rw [List.length_map, hlen, List.length_map, List.length_range]; omega
  · have := hperm.map Prod.fst
    rw [List.map_map, List.map_append] at this
    rw [show (Prod.fst ∘ fun i => (i, s.dist K query i)) = id from rfl, List.map_id] at this
    exact this
  · intro r hr x hx
    obtain ⟨r', hr', rfl⟩ := List.mem_map.1 hr
    obtain ⟨x', hx', rfl⟩ := List.mem_map.1 hx
    exact conv _ (List.mem_append_left _ hx') _ (List.mem_append_right _ hr') (hrest r' hr' x' hx')

/-- `top_k = 0`, `ef = 0` and queries that are not finite are refused. -/
theorem C89_refused (K : Kernel) (s : VSeg) (query : List Nat) (topk ef fuel : Nat) (sc : Pools.Scratch)
    (h : topk = 0 ∨ ef = 0 ∨ ∃ x ∈ query, finite32 x = false) : s.search K query topk ef fuel sc = some none := by
  unfold VSeg.search
  by_cases h1 : topk = 0
  · rw [if_pos h1]
  rw [if_neg h1]
  by_cases h2 : ef = 0
  · rw [if_pos h2]
  rw [if_neg h2, if_pos]
  rcases h with h | h | ⟨x, hx, hf⟩
  · exact absurd h h1
  · exact absurd h h2
  · simp only [Bool.not_eq_true', List.all_eq_false]
    exact ⟨x, hx, by simp [hf]⟩

/-! ### Histories -/

/-- Labels and components of all rows of a segment, read off its files. -/
def VSeg.rows (s : VSeg) : List (Nat × List Nat) := (List.range s.seg.count).map s.row

/-- The rows waiting to be flushed. -/
def pending (m : Mem) : List (Nat × List Nat) := m.pendL.zip (rowsOf m.man.dim m.pendL.length m.pendV)

theorem rows_pending {m : Mem} {w : VSeg} (h : w.seg = pendSeg m) (hm : PendOk m) (h32 : ∀ x ∈ m.pendV, x < 2 ^ 32) :
    w.rows = pending m := by
  obtain ⟨_, hv, hl, _⟩ := hm
  unfold VSeg.rows VSeg.row pending
  rw [h]
  show (List.range m.pendL.length).map (fileRow (pendSeg m)) = _
  rw [show (List.range m.pendL.length).map (fileRow (pendSeg m)) =
      (List.range m.pendL.length).map (fun i => (m.pendL.getD i 0, rowAt m.man.dim m.pendV i)) from
    List.map_congr_left (fun i hi => fileRow_flat _ _ _ _ hv hl h32 i (List.mem_range.1 hi))]
  rw [range_zip]; rfl

/-- What opening the collection shows: the listed segments with their rows; `none` = it cannot be opened. -/
def shows (F : FloatText) (d : Disk) : Option (List (Bytes × Option (List (Nat × List Nat)))) :=
  (openC F false d).map (fun mq => mq.1.dirs.map (fun n => (n, (openSeg (d.dir n)).map VSeg.rows)))

theorem shows_eq {F : FloatText} (hF : TextOk F) {D cap : Nat} {p : Params} (hp : ParamsOk p) (hc : cap < 2 ^ 64) {d : Disk} {m : ColMan}
    (h : DiskInv F D cap p d m) (hsz : m.save.length ≤ 2 ^ 20) :
    shows F d = some (m.segs.map (fun n => (n, (openSeg (d.dir n)).map VSeg.rows))) := by
  obtain ⟨q, _, _, e⟩ := open_eq hF hp hc h hsz false
  unfold shows
  rw [e]; rfl

/-- The manifest a flush would publish. -/
def wouldPublish (m : Mem) : ColMan := nextMan m (formatSegmentId m.man.next)

section
variable {F : FloatText} (hF : TextOk F) {D cap : Nat} (h0 : 0 < D) (hD : D < 2 ^ 32) (hc : cap < 2 ^ 64) {p : Params} (hp : ParamsOk p)
include hF h0 hD hc hp

/-- Any history (any builds, any crash, any error), then a flush hit by any fault: opening the collection afterwards shows what
it showed before, or one more segment that holds exactly the pending rows, under a new name; a flush that reports success with
rows pending shows the latter.  Missing for the full statement: manifests above 1 MiB (as for flat segments, C34). -/
theorem C89_flush_atomic_partial (ops : List Op) (ho : ∀ op ∈ ops, OpOk D op) (mm : Mem) (q : Params)
    (hm : (runOps F (start F D .l2 cap p) ops).mem = some (mm, q))
    (hopen : (shows F (runOps F (start F D .l2 cap p) ops).disk).isSome = true)
    (hsz : (wouldPublish mm).save.length ≤ 2 ^ 20) (x : Built) (mids : List Bytes) (tmp : Bytes) (f : Fault)
    (hop : OpOk D (.flush x mids tmp f)) :
    ∃ before, shows F (runOps F (start F D .l2 cap p) ops).disk = some before ∧ (∀ e ∈ before, e.2.isSome = true) ∧
      ((shows F (flush F q x mids tmp f (runOps F (start F D .l2 cap p) ops).disk mm).1 = some before ∧
          ((flush F q x mids tmp f (runOps F (start F D .l2 cap p) ops).disk mm).2.2 = .ok → mm.pendL = [])) ∨
        (mm.pendL ≠ [] ∧ ∃ name, shows F (flush F q x mids tmp f (runOps F (start F D .l2 cap p) ops).disk mm).1 =
          some (before ++ [(name, some (pending mm))]) ∧ ∀ e ∈ before, e.1 ≠ name)) := by
  obtain ⟨m, h⟩ := inv_run hF hD hc hp (U := False) ops (start_inv hF h0 hD hc hp False) ho (fun hf => hf.elim)
  generalize runOps F (start F D .l2 cap p) ops = s at *
  obtain ⟨hmm, hq, _, h32⟩ := h.mem mm q hm
  have hszm : m.save.length ≤ 2 ^ 20 := by
    obtain ⟨y, hy⟩ := Option.isSome_iff_exists.1 hopen
    unfold shows openC at hy
    rw [h.disk.man] at hy
    simp only at hy
    cases hl : ColMan.load m.save with
    | none => rw [hl] at hy; cases hy
    | some z => exact ((col_load_iff _ z).1 hl).1
  refine ⟨_, shows_eq hF hp hc h.disk hszm, ?_, ?_⟩
  · intro e he
    obtain ⟨n, hn, rfl⟩ := List.mem_map.1 he
    obtain ⟨sg, hsg⟩ := h.disk.segs n hn
    simp only; rw [hsg]; rfl
  have hpend := hmm.pendOk hD h.disk.dim
  have hout := flush_outcome hF (hq.ok hF hp) hop.2 mids hop.1 f s.disk hpend
  generalize flush F q x mids tmp f s.disk mm = r at hout
  have old : ∀ d' : Disk, d'.man = s.disk.man → (∀ n ∈ m.segs, d'.dir n = s.disk.dir n) →
      shows F d' = some (m.segs.map (fun n => (n, (openSeg (s.disk.dir n)).map VSeg.rows))) := by
    intro d' g1 g2
    rw [shows_eq hF hp hc (h.disk.same g1 g2) hszm]
    congr 1
    refine List.map_congr_left (fun n hn => ?_)
    rw [g2 n hn]
  cases hout with
  | idle hnil => exact Or.inl ⟨old _ rfl (fun _ _ => rfl), fun _ => hnil⟩
  | same d' o r hr _ _ hf => exact Or.inl ⟨old d' hf.1 (h.disk.frame_dirs hop.1 hf), fun e => absurd e hr⟩
  | built d' name sg o r hr _ pl hman _ hoth =>
    exact Or.inl ⟨old d' hman (h.disk.other_dirs hop.1 pl.fresh hoth), fun e => absurd e hr⟩
  | done d' name sg w o r _ pl hman _ hoth hw hws =>
    refine Or.inr ⟨?_, name, ?_, ?_⟩
    · intro hnil
      have := pl.two
      rw [hnil] at this
      simp at this
    · have hd := h.disk.publish hmm hop.1 pl hman hoth hw
      have hname : nextMan mm name = wouldPublish mm := by unfold wouldPublish; rw [← pl.named]
      rw [shows_eq hF hp hc hd (by rw [hname]; exact hsz)]
      have hseg : (nextMan mm name).segs = m.segs ++ [name] := by unfold nextMan; simp only; rw [hmm.manEq.2.2.2.1]
      rw [hseg, List.map_append]
      congr 2
      · refine List.map_congr_left (fun n hn => ?_)
        rw [h.disk.other_dirs hop.1 pl.fresh hoth n hn]
      · simp only [List.map_cons, List.map_nil]
        rw [hw]
        simp only [Option.map_some]
        rw [rows_pending (hws.trans pl.data) hpend h32]
    · intro e he
      obtain ⟨n, hn, rfl⟩ := List.mem_map.1 he
      intro hh
      exact h.disk.fresh_not_mem pl.fresh (hh ▸ hn)

/-- After any history, without exception, the published manifest lists only segments that open, each once. -/
theorem C89_listed_complete (ops : List Op) (ho : ∀ op ∈ ops, OpOk D op) :
    ∃ m : ColMan, m.Valid ∧ (runOps F (start F D .l2 cap p) ops).disk.man = some m.save ∧ m.segs.Nodup ∧
      ∀ n ∈ m.segs, ∃ s, openSeg ((runOps F (start F D .l2 cap p) ops).disk.dir n) = some s := by
  obtain ⟨m, h⟩ := inv_run hF hD hc hp (U := False) ops (start_inv hF h0 hD hc hp False) ho (fun hf => hf.elim)
  exact ⟨m, h.disk.valid, h.disk.man, h.disk.nodup, h.disk.segs⟩

/-- No label occurs twice in the published segments.  Missing for the full statement: the two `push_back` calls after
publication failing (as for flat segments, C33). -/
theorem C89_labels_unique_partial (ops : List Op) (ho : ∀ op ∈ ops, OpOk D op) (hn : ∀ op ∈ ops, NoPush op)
    (m : ColMan) (hv : m.Valid) (hman : (runOps F (start F D .l2 cap p) ops).disk.man = some m.save) :
    (published (runOps F (start F D .l2 cap p) ops).disk m).Nodup := by
  obtain ⟨m', h⟩ := inv_run hF hD hc hp (U := True) ops (start_inv hF h0 hD hc hp True) ho (fun _ => hn)
  have e := h.disk.man
  rw [hman] at e
  injection e with e
  have := save_inj hv h.disk.valid e
  subst this
  exact h.uniq trivial

/-- No step ever changes a segment directory that exists, listed or orphaned. -/
theorem C89_never_overwritten (ops : List Op) (ho : ∀ op ∈ ops, OpOk D op) (op : Op) (hop : OpOk D op) (n : Bytes) (hn : SegName n)
    (c : KV) (hd : (runOps F (start F D .l2 cap p) ops).disk.dir n = some c) :
    (step F (runOps F (start F D .l2 cap p) ops) op).disk.dir n = some c := by
  obtain ⟨m, h⟩ := inv_run hF hD hc hp (U := False) ops (start_inv hF h0 hD hc hp False) ho (fun hf => hf.elim)
  generalize runOps F (start F D .l2 cap p) ops = s at *
  cases op with
  | add v l a =>
    simp only [step]
    cases hm : s.mem with
    | none => exact hd
    | some mq => simp only; cases addBatch mq.1 l.length v l a <;> exact hd
  | reopen sf => exact hd
  | flush x mids tmp f =>
    simp only [step]
    cases hm : s.mem with
    | none => exact hd
    | some mq =>
      obtain ⟨mm, q⟩ := mq
      simp only
      obtain ⟨hmm, hq, _⟩ := h.mem mm q hm
      have hout := flush_outcome hF (hq.ok hF hp) hop.2 mids hop.1 f s.disk (hmm.pendOk hD h.disk.dim)
      generalize flush F q x mids tmp f s.disk mm = r at hout
      have hnt : n ≠ tmp := fun e => hop.1 (e ▸ hn)
      have other : ∀ (d' : Disk) (name : Bytes), s.disk.dir name = none → (∀ x, x ≠ tmp → x ≠ name → d'.dir x = s.disk.dir x) →
          d'.dir n = some c := by
        intro d' name hf ho
        exact (ho n hnt (fun e => by rw [e, hf] at hd; cases hd)).trans hd
      cases hout with
      | idle _ => exact hd
      | same d' o r _ _ _ hf => exact (hf.2 n hnt).trans hd
      | built d' name sg o r _ _ pl _ _ hoth => exact other d' name pl.fresh hoth
      | done d' name sg w o r _ pl _ _ hoth _ _ => exact other d' name pl.fresh hoth

/-- Reopening brings back the parameters, `alpha` as its six-decimal text reads. -/
theorem C89_reopen (ops : List Op) (ho : ∀ op ∈ ops, OpOk D op) (sf : Bool) (mm : Mem) (q : Params)
    (hm : (runOps F (start F D .l2 cap p) (ops ++ [.reopen sf])).mem = some (mm, q)) :
    q.R = p.R ∧ q.L = p.L ∧ q.seed = p.seed ∧ q.threads = p.threads ∧ F.parse (F.print p.alpha) = some q.alpha ∧ mm.pendL = [] ∧
      mm.cap = cap := by
  obtain ⟨m, h⟩ := inv_run hF hD hc hp (U := False) ops (start_inv hF h0 hD hc hp False) ho (fun hf => hf.elim)
  unfold runOps at hm h
  rw [List.foldl_append] at hm
  generalize ops.foldl (step F) (start F D .l2 cap p) = s at *
  have hm : openC F sf s.disk = some (mm, q) := hm
  have hsz : m.save.length ≤ 2 ^ 20 := by
    have ho := hm
    unfold openC at ho
    rw [h.disk.man] at ho
    simp only at ho
    cases hl : ColMan.load m.save with
    | none => rw [hl] at ho; cases ho
    | some x => exact ((col_load_iff _ x).1 hl).1
  obtain ⟨q', hq, ha, e⟩ := open_eq hF hp hc h.disk hsz sf
  rw [hm] at e
  injection e with e
  injection e with e1 e2
  subst e2
  rw [e1]
  exact ⟨hq.1, hq.2.1, hq.2.2.1, hq.2.2.2.1, ha, rfl, rfl⟩

/-- A flush of at least two finite rows with new labels succeeds and publishes exactly them with the graph of the build, if the
build ended with a graph as the reader wants it. -/
theorem C89_flush (ops : List Op) (ho : ∀ op ∈ ops, OpOk D op) (hnp : ∀ op ∈ ops, NoPush op) (mm : Mem) (q : Params)
    (hm : (runOps F (start F D .l2 cap p) ops).mem = some (mm, q)) (m : ColMan) (hv : m.Valid)
    (hman : (runOps F (start F D .l2 cap p) ops).disk.man = some m.save)
    (hnd : (published (runOps F (start F D .l2 cap p) ops).disk m ++ mm.pendL).Nodup) (h2 : 2 ≤ mm.pendL.length)
    (h32 : mm.pendL.length < 2 ^ 32) (hfin : ∀ x ∈ mm.pendV, finite32 x = true) (hnext : mm.man.next < 10 ^ 8)
    (hfree : (runOps F (start F D .l2 cap p) ops).disk.dir (formatSegmentId mm.man.next) = none) (x : Built) (mids : List Bytes) (tmp : Bytes)
    (ht : ¬ SegName tmp) (hg : Vamana.GraphOk x.graph q.R x.medoid) (hlen : x.graph.length = mm.pendL.length)
    (hsz : (Vamana.saveGraph x.graph q.R x.medoid 0).length < 2 ^ 64) :
    ∃ d' w, flush F q x mids tmp .none (runOps F (start F D .l2 cap p) ops).disk mm =
        (d', some (committed mm (formatSegmentId mm.man.next)), .ok) ∧
      d'.man = some (wouldPublish mm).save ∧ openSeg (d'.dir (formatSegmentId mm.man.next)) = some w ∧ w.rows = pending mm ∧
      w.graph = ⟨q.R, x.medoid, x.graph⟩ := by
  obtain ⟨m', h⟩ := inv_run hF hD hc hp (U := True) ops (start_inv hF h0 hD hc hp True) ho (fun _ => hnp)
  generalize runOps F (start F D .l2 cap p) ops = s at *
  have e := h.disk.man
  rw [hman] at e
  injection e with e
  have := save_inj hv h.disk.valid e
  subst this
  obtain ⟨hmm, hq, hdirs, hv32⟩ := h.mem mm q hm
  have hpend := hmm.pendOk hD h.disk.dim
  have hl2 : mm.man.metric = .l2 := hmm.manEq.2.1.trans h.disk.metric
  have hplan := plan_ok hpend (by rw [hmm.manEq.1, h.disk.dim]; omega) (by rw [hdirs trivial]; exact allIds_eq _ h.disk.segs)
    hnd h2 hfin hl2 hnext hfree
  have pl := plan_some hpend hplan
  have hmed : x.medoid < 2 ^ 32 := by have := hg.startOk; have := hg.nodes; omega
  have hne : tmp ≠ formatSegmentId mm.man.next := fun e => ht (e ▸ pl.valid)
  have hseg := run_seg F q x mids s.disk tmp _ (pendSeg mm) hne pl.fresh
  have hall := run_all F q x mids s.disk tmp _ (pendSeg mm) (wouldPublish mm).save hne pl.fresh
  have hopen := open_complete hF (hq.ok hF hp) hmed hseg.2.1 pl.valid pl.opens rfl h32
  have hopen' := open_complete hF (hq.ok hF hp) hmed hall.2.1 pl.valid pl.opens rfl h32
  rw [Vamana.C61_load_save x.graph q.R x.medoid hg hsz] at hopen hopen'
  simp only [Option.bind_some] at hopen hopen'
  rw [if_neg (by show ¬ mm.pendL.length ≠ x.graph.length; omega)] at hopen hopen'
  refine ⟨_, _, ?_, hall.1, hopen', ?_, rfl⟩
  · unfold flush
    rw [if_neg (by intro hn; rw [hn] at h2; simp at h2), hplan]
    simp only
    rw [hopen]
    rfl
  · exact rows_pending rfl hpend hv32

end

/-! ### Builds -/

/-- Where the graph comes from a finished construction by any number of threads (C83), the condition of `C89_flush` is that the
entry point has a neighbour. -/
theorem C89_built (c : VBuild.Cfg) (hc : c.Ok) (threads : Nat) (s : VBuild.State) (h : VBuild.Reached c threads s) (hf : s.stage = .fin)
    (hn : c.n < 2 ^ 32) (hR : c.R < 2 ^ 32) : s.g.length = c.n ∧ (Vamana.GraphOk s.g c.R c.medoid ↔ s.g[c.medoid]? ≠ some []) := by
  obtain ⟨hlen, hg⟩ := VBuild.C83_graph c hc threads s h hf
  have hmed := hc.n
  refine ⟨hlen, ?_, ?_⟩
  · intro hok he
    have := (hok.deg _ _ he).1
    simp at this
  · intro hm
    refine ⟨by omega, by omega, hc.R, hR, by omega, ?_, ?_⟩
    · intro i a ha
      obtain ⟨_, _, _, h4, h5⟩ := hg i a ha
      refine ⟨List.length_pos_iff.mpr ?_, h4⟩
      by_cases hi : i = c.medoid
      · rintro rfl
        rw [hi] at ha
        exact hm ha
      · exact h5 hi
    · intro i a ha x hx
      obtain ⟨_, h2, h3, _, _⟩ := hg i a ha
      exact ⟨by rw [hlen]; exact h3 x hx, fun e => h2 (e ▸ hx)⟩

/-! ### What does not hold -/

/-- A text for `alpha` for examples: the bit pattern in decimal. -/
def text0 : FloatText := ⟨decStr, stoull10⟩

theorem text0_ok : TextOk text0 := by
  have lt : ∀ a, alphaOk a = true → a < 2 ^ 64 := by
    intro a ha
    unfold alphaOk at ha
    simp only [Bool.and_eq_true, decide_eq_true_eq] at ha
    omega
  exact ⟨fun a ha => dec_line (lt a ha), fun a ha => ⟨a, stoull10_decStr (lt a ha), ha⟩⟩

/-- No reopening. -/
def NoReopen : Op → Prop
  | .reopen _ => False
  | _ => True

/-- While a directory with the next id is there, no flush of the open collection can succeed, whatever is added and whatever
the builds: nothing on disk changes, the rows stay pending. -/
theorem C89_stuck (F : FloatText) : ∀ (ops : List Op) (s : St) (m : Mem) (q : Params), s.mem = some (m, q) → m.pendL ≠ [] →
    (s.disk.dir (formatSegmentId m.man.next)).isSome = true → (∀ op ∈ ops, NoReopen op) →
    ∃ m', runOps F s ops = ⟨s.disk, some (m', q)⟩ ∧ m'.pendL ≠ [] ∧ m'.man = m.man ∧
      ∀ x mids tmp f, flush F q x mids tmp f s.disk m' = (s.disk, some m', .err) := by
  have stuck : ∀ (d : Disk) (m : Mem) (q : Params), m.pendL ≠ [] → (d.dir (formatSegmentId m.man.next)).isSome = true →
      ∀ x mids tmp f, flush F q x mids tmp f d m = (d, some m, .err) := by
    intro d m q hne hd x mids tmp f
    have hplan : plan d m = none := by
      unfold plan
      split
      · rfl
      · split
        · rfl
        · split
          · rfl
          · split
            · rfl
            · simp only
              split
              · rfl
              · split
                · rfl
                · split
                  · rfl
                  · split
                    · rfl
                    · rfl
    unfold flush
    rw [if_neg hne, hplan]
  intro ops
  induction ops with
  | nil =>
    intro s m q hm hne hd _
    refine ⟨m, ?_, hne, rfl, stuck _ _ _ hne hd⟩
    show s = _
    rw [← hm]
  | cons op ops ih =>
    intro s m q hm hne hd hnr
    have hr : ∀ o ∈ ops, NoReopen o := fun o ho => hnr o (List.mem_cons_of_mem _ ho)
    show ∃ m', runOps F (step F s op) ops = _ ∧ _
    cases op with
    | reopen sf => exact absurd (hnr _ List.mem_cons_self) id
    | flush x mids tmp f =>
      have : step F s (.flush x mids tmp f) = s := by
        unfold step
        rw [hm]
        simp only
        rw [stuck _ _ _ hne hd]
        simp only [Option.map_some]
        rw [← hm]
      rw [this]
      exact ih s m q hm hne hd hr
    | add v l a =>
      cases ha : addBatch m l.length v l a with
      | none =>
        have : step F s (.add v l a) = s := by
          unfold step
          rw [hm]
          simp only
          rw [ha]
        rw [this]
        exact ih s m q hm hne hd hr
      | some m1 =>
        have e : step F s (.add v l a) = ⟨s.disk, some (m1, q)⟩ := by
          unfold step
          rw [hm]
          simp only
          rw [ha]
        obtain ⟨k1, k2, k3⟩ := addBatch_keeps ha
        have hp : m1.pendL ≠ [] := by
          have key : ∃ t, m1.pendL = m.pendL ++ t := by
            unfold addBatch at ha
            simp only at ha
            repeat' split at ha
            all_goals first
              | (cases ha; done)
              | (injection ha with ha; subst ha; exact ⟨[], (List.append_nil _).symm⟩)
              | (injection ha with ha; subst ha; exact ⟨_, rfl⟩)
          obtain ⟨t, ht⟩ := key
          rw [ht]
          intro hn
          exact hne (List.append_eq_nil_iff.1 hn).1
        rw [e]
        obtain ⟨m', g1, g2, g3, g4⟩ := ih ⟨s.disk, some (m1, q)⟩ m1 q rfl hp (by rw [k1]; exact hd) hr
        exact ⟨m', g1, g2, g3.trans k1, g4⟩

/-- R = L = 1. -/
def one : Params := ⟨1, 1, 0x3F99999A, 1234, 1⟩

/-- The vectors 0, 4 and 2. -/
def addThree : Op := .add [0, 0x40800000, 0x40000000] [10, 11, 12] false

/-- The construction for them, as in C83. -/
def cfg3 : VBuild.Cfg := VBuild.line [0, 4, 2] 1 1 2

def fin3 : VBuild.State := VBuild.solo cfg3 60 (.init cfg3 1)

def flush3 : Op := .flush ⟨fin3.g, 2⟩ [] (str ".tmp_1") .none

/-- Retrying a flush does not help in general: with L = R = 1, which the checks allow, three vectors and one thread, the build
ends with an entry point without neighbours.  The flush puts the segment directory into place, then refuses to open it and
throws without taking the next id.  Nothing that is done with the open collection afterwards publishes the rows (C89_stuck), and
opening it again loses them. -/
theorem C89_retry_refuted : one.ok = true ∧ VBuild.Reached cfg3 1 fin3 ∧ fin3.stage = .fin ∧
    ∃ s m, runOps text0 (start text0 1 .l2 1000 one) [addThree, flush3] = s ∧ s.mem = some (m, one) ∧ m.pendL = [10, 11, 12] ∧
      s.disk.man = (start text0 1 .l2 1000 one).disk.man ∧
      (∀ ops, (∀ op ∈ ops, NoReopen op) → ∃ m', runOps text0 s ops = ⟨s.disk, some (m', one)⟩ ∧
        ∀ x mids tmp f, (flush text0 one x mids tmp f s.disk m').2.2 = .err) ∧
      ∃ m', (runOps text0 s [.reopen false]).mem = some (m', one) ∧ m'.pendL = [] ∧ m'.dirs = [] := by
  refine ⟨by decide, VBuild.solo_reached 60 _ .init, by decide +kernel,
    runOps text0 (start text0 1 .l2 1000 one) [addThree, flush3],
    ⟨man0 text0 1 .l2 1000 one, [], [0, 0x40800000, 0x40000000], [10, 11, 12], 1000⟩, rfl, by decide +kernel, rfl, by decide +kernel, ?_, ?_⟩
  · intro ops hops
    obtain ⟨m', h1, _, _, h4⟩ := C89_stuck text0 ops (runOps text0 (start text0 1 .l2 1000 one) [addThree, flush3])
      ⟨man0 text0 1 .l2 1000 one, [], [0, 0x40800000, 0x40000000], [10, 11, 12], 1000⟩ one (by decide +kernel) (by decide) (by decide +kernel) hops
    exact ⟨m', h1, fun x mids tmp f => by rw [h4]⟩
  · exact ⟨⟨{ man0 text0 1 .l2 1000 one with next := 2 }, [], [], [], 1000⟩, by decide +kernel, rfl, rfl⟩

theorem man0_valid {F : FloatText} (hF : TextOk F) {D : Nat} (h0 : 0 < D) (hD : D < 2 ^ 32) (metric : Metric) (cap : Nat) {p : Params}
    (ha : alphaOk p.alpha = true) : (man0 F D metric cap p).Valid := by
  have hx : (extrasOf F cap p).Pairwise (fun a b => a.1 < b.1) ∧ ∀ e ∈ extrasOf F cap p, ExtKey e.1 ∧ LineValue e.2 :=
    extras_valid' hF ha cap
  exact {
    version := rfl
    dim := ⟨h0, by show D < 2 ^ 64; omega⟩
    next := by show 1 < 2 ^ 64; decide
    segNames := by intro n hn; cases hn
    extrasAsc := hx.1
    extras := hx.2 }

theorem openC_none {F : FloatText} {d : Disk} {t : Bytes} (hd : d.man = some t)
    (h : ∀ man, ColMan.load t = some man → loadParams F man.extras = none) (sf : Bool) : openC F sf d = none := by
  unfold openC
  rw [hd]
  simp only
  cases hm : ColMan.load t with
  | none => rfl
  | some man =>
    simp only
    rw [h man hm]
    split
    · rfl
    · split <;> rfl

/-! ### Parameters -/

/-- Sensible parameters: `1 ≤ R ≤ L`, and `alpha` is a float from 1 (bits 0x3F800000) to the largest one (0x7F7FFFFF). -/
def Sensible (p : Params) : Prop := 1 ≤ p.R ∧ p.R ≤ p.L ∧ 1065353216 ≤ p.alpha ∧ p.alpha ≤ 2139095039

theorem sensible_iff (p : Params) : p.ok = true ↔ Sensible p := by
  unfold Params.ok alphaOk Sensible
  simp only [Bool.and_eq_true, decide_eq_true_eq]
  omega

/-- A collection is created for exactly the sensible parameters and a positive dimension. -/
theorem C89_params (F : FloatText) (dim : Nat) (metric : Metric) (cap : Nat) (p : Params) :
    (create F dim metric cap p).isSome = true ↔ 0 < dim ∧ Sensible p := by
  rw [← sensible_iff]
  unfold create
  by_cases h0 : dim = 0
  · rw [if_pos h0]; simp [h0]
  · rw [if_neg h0]
    cases hp : p.ok <;> simp <;> omega

/-- What can be opened has sensible parameters. -/
theorem C89_params_open (F : FloatText) (sf : Bool) (d : Disk) (m : Mem) (p : Params) (h : openC F sf d = some (m, p)) :
    Sensible p ∧ m.man.metric = .l2 ∧ m.man.engine = .vamana := by
  unfold openC at h
  split at h
  · cases h
  · split at h
    · cases h
    · split at h
      · cases h
      · rename_i he
        split at h
        · cases h
        · split at h
          · cases h
          · split at h
            · cases h
            · rename_i hm
              split at h
              · cases h
              · rename_i hp
                split at h
                · cases h
                · cases h
                  refine ⟨(sensible_iff _).mp (by simpa using hp), ?_, ?_⟩
                  · simpa using hm
                  · simpa using he

/-- A stored number that contains anything but digits, signs and white space, or that does not fit 32 bits, is not replaced by
anything: opening fails. -/
theorem C89_params_damaged (F : FloatText) (sf : Bool) (d : Disk) (t : Bytes) (hd : d.man = some t) (man : ColMan) (hm : ColMan.load t = some man)
    (key : Bytes) (hk : key = str "x_vamana_R" ∨ key = str "x_vamana_L" ∨ key = str "x_vamana_seed" ∨ key = str "x_vamana_num_threads")
    (v : Bytes) (hv : man.extras.get key = some v)
    (hbad : v = [] ∨ (∃ c ∈ v, ¬ (48 ≤ c.toNat ∧ c.toNat ≤ 57) ∧ c ∉ str "+-" ∧ c ≠ 32 ∧ ¬ (9 ≤ c.toNat ∧ c.toNat ≤ 13)) ∨
      ∃ n, IsDecimal v n ∧ 4294967296 ≤ n) : openC F sf d = none := by
  refine openC_none hd (fun man' hm' => ?_) sf
  rw [hm] at hm'
  cases hm'
  have hu : ∀ fb, u32Extra man.extras key fb = none := by
    intro fb
    unfold u32Extra
    rw [hv]
    simp only
    cases hx : stoullAll v with
    | none => rfl
    | some k =>
      simp only
      rw [if_neg]
      intro hle
      obtain ⟨k1, k2⟩ := stoullAll_chars hx
      rcases hbad with hbad | ⟨c, hc, b1, b2, b3, b4⟩ | ⟨n, hn, hbig⟩
      · exact k1 hbad
      · have e43 : c ≠ 43 := fun e => b2 (e ▸ by decide)
        have e45 : c ≠ 45 := fun e => b2 (e ▸ by decide)
        rcases k2 c hc with h | h | h | h
        · unfold isSpace at h
          simp [b3] at h
          exact b4 h
        · exact e43 h
        · exact e45 h
        · exact b1 h
      · rw [stoullAll_decimal hn] at hx
        split at hx
        · injection hx with hx; omega
        · cases hx
  unfold loadParams
  rcases hk with rfl | rfl | rfl | rfl <;> rw [hu]
  · cases u32Extra man.extras (str "x_vamana_R") defaultParams.R <;> simp
  · cases u32Extra man.extras (str "x_vamana_R") defaultParams.R <;>
      cases u32Extra man.extras (str "x_vamana_L") defaultParams.L <;> simp
  · cases u32Extra man.extras (str "x_vamana_R") defaultParams.R <;>
      cases u32Extra man.extras (str "x_vamana_L") defaultParams.L <;>
      cases u32Extra man.extras (str "x_vamana_seed") defaultParams.seed <;> simp

example : Sensible ⟨64, 200, 0x3F99999A, 1234, 0⟩ ∧ ¬ Sensible ⟨64, 63, 0x3F99999A, 1234, 0⟩ ∧ ¬ Sensible ⟨1, 1, 0x3F7FFFFF, 0, 0⟩ ∧ ¬ Sensible ⟨1, 1, 0x7F800000, 0, 0⟩ := by
  unfold Sensible; decide

/-- A negative number is read modulo 2^64: this text is taken for 64. -/
theorem C89_negative_refuted : u32Extra [(str "x_vamana_R", str "-18446744073709551552")] (str "x_vamana_R") 1 = some 64 := by
  decide +kernel

/-- A collection created in C++ with a seed of more than 32 bits, which is stored, can never be opened again. -/
theorem C89_large_seed_refuted {F : FloatText} (hF : TextOk F) (D : Nat) (h0 : 0 < D) (hD : D < 2 ^ 32) (metric : Metric) (cap : Nat)
    (p : Params) (hp : p.ok = true) (hs : 2 ^ 32 ≤ p.seed) (hs' : p.seed < 2 ^ 64) :
    ∃ d m, create F D metric cap p = some (d, m) ∧ ∀ sf, openC F sf d = none := by
  refine ⟨_, _, create_eq F h0 metric cap hp, ?_⟩
  have ha : alphaOk p.alpha = true := by
    unfold Params.ok at hp
    simp only [Bool.and_eq_true] at hp
    exact hp.2
  have hv := man0_valid hF h0 hD metric cap ha
  have hl : loadParams F (extrasOf F cap p) = none := by
    have hu : u32Extra (extrasOf F cap p) (str "x_vamana_seed") defaultParams.seed = none := by
      unfold u32Extra
      rw [(extras_get F cap p).2.2.2.2.1]
      simp only [stoullAll_decStr hs']
      rw [if_neg (by omega)]
    unfold loadParams
    rw [hu]
    cases u32Extra (extrasOf F cap p) (str "x_vamana_R") defaultParams.R <;>
    cases u32Extra (extrasOf F cap p) (str "x_vamana_L") defaultParams.L <;> simp
  intro sf
  refine openC_none rfl (fun man hm => ?_) sf
  have e : man = man0 F D metric cap p := by
    have := C36_collection_roundtrip_partial _ hv ((col_load_iff _ man).1 hm).1
    rw [hm] at this
    injection this
  rw [e]
  exact hl

/-- The constructor accepts every metric; with another than L2 no flush ever succeeds. -/
theorem C89_metric_refuted (F : FloatText) (D : Nat) (h0 : 0 < D) (metric : Metric) (hmet : metric ≠ .l2) (cap : Nat)
    (p : Params) (hp : p.ok = true) :
    create F D metric cap p = some ((start F D metric cap p).disk, ⟨man0 F D metric cap p, [], [], [], cap⟩) ∧
    ∀ (d : Disk) (m : Mem) (q : Params) (x : Built) (mids : List Bytes) (tmp : Bytes) (f : Fault), m.man.metric = metric → m.pendL ≠ [] →
      flush F q x mids tmp f d m = (d, some m, .err) := by
  refine ⟨create_eq F h0 metric cap hp, ?_⟩
  intro d m q x mids tmp f hm hne
  have hplan : plan d m = none := by
    unfold plan
    split
    · rfl
    · split
      · rfl
      · split
        · rfl
        · split
          · rfl
          · simp only
            split
            · rfl
            · split
              · rfl
              · rw [if_pos (by rw [hm]; exact hmet)]
  unfold flush
  rw [if_neg hne, hplan]

/-- `alpha` is stored with six decimals: of two values with the same text (1 and the next float, both "1.000000") reopening
changes one, and segments built afterwards are built with another `alpha`. -/
theorem C89_alpha_refuted {F : FloatText} (hF : TextOk F) (D cap : Nat) (h0 : 0 < D) (hD : D < 2 ^ 32) (hc : cap < 2 ^ 64) (p : Params)
    (hp : ParamsOk p) (b : Nat) (hb : alphaOk b = true) (hne : b ≠ p.alpha) (htext : F.print b = F.print p.alpha) :
    (∀ mm q, (runOps F (start F D .l2 cap p) [.reopen false]).mem = some (mm, q) → q.alpha ≠ p.alpha) ∨
    (∀ mm q, (runOps F (start F D .l2 cap { p with alpha := b }) [.reopen false]).mem = some (mm, q) → q.alpha ≠ b) := by
  have hp' : ParamsOk { p with alpha := b } := by
    have := hp.ok
    refine ⟨?_, hp.R, hp.L, hp.seed, hp.threads⟩
    unfold Params.ok at this ⊢
    simp only [Bool.and_eq_true] at this ⊢
    exact ⟨this.1, hb⟩
  obtain ⟨a, ha, _⟩ := hF.back p.alpha hp.alpha
  by_cases e : a = p.alpha
  · refine Or.inr (fun mm q h => ?_)
    have := (C89_reopen hF h0 hD hc hp' [] (by simp) false mm q h).2.2.2.2.1
    rw [show ({ p with alpha := b } : Params).alpha = b from rfl, htext, ha] at this
    injection this with this
    rw [← this, e]
    exact fun h => hne h.symm
  · refine Or.inl (fun mm q h => ?_)
    have := (C89_reopen hF h0 hD hc hp [] (by simp) false mm q h).2.2.2.2.1
    rw [ha] at this
    injection this with this
    rw [← this]
    exact e

/-- Rows at the same distance are cut by row, not by label (flat segments cut by label): one of two equal rows with the labels
9 and 5 is reported as 9. -/
theorem C89_tie_refuted : ∃ (K : Kernel) (s : VSeg) (sc : Pools.Scratch), VOk s ∧ Pools.ScratchOk sc ∧ s.seg.labels = [9, 5] ∧
    (s.search K [0] 1 2 2 sc).map (Option.map Prod.snd) = some (some [⟨9, 0⟩]) := by
  refine ⟨⟨fun r => r, fun _ _ _ => 0⟩, ⟨⟨1, 2, .l2, [9, 5].flatMap (leBytes 8), [0, 0].flatMap (leBytes 4)⟩, ⟨1, 0, [[1], [0]]⟩⟩,
    ⟨[], [], Pools.NPQ.new 2⟩, ?_, ?_, by decide +kernel, by decide +kernel⟩
  · refine ⟨by decide, by decide, rfl, by decide, by decide, rfl, by decide, by decide, by decide, by decide, by decide, ?_, ?_⟩
    · intro i a ha
      match i, ha with
      | 0, ha => injection ha with ha; subst ha; decide
      | 1, ha => injection ha with ha; subst ha; decide
      | _ + 2, ha => cases ha
    · intro i a ha
      match i, ha with
      | 0, ha => injection ha with ha; subst ha; decide
      | 1, ha => injection ha with ha; subst ha; decide
      | _ + 2, ha => cases ha
  · refine ⟨by simp, ?_⟩
    intro i hi
    cases hi

/-! ### Cases that meet the hypotheses -/

def two : Params := ⟨2, 2, 0x3F99999A, 1234, 1⟩

theorem two_ok : ParamsOk two := ⟨by decide, by decide, by decide, by decide, by decide⟩

/-- Two flushes with a crash and a reopen between them. -/
def ops0 : List Op :=
  [.add [0, 0x3F800000] [7, 8] false, .flush ⟨[[1], [0]], 0⟩ [[1, 2, 3]] (str ".tmp_1") .none, .add [0, 0x40000000] [4, 5] false,
    .flush ⟨[[1], [0]], 0⟩ [] (str ".tmp_2") (.crash 8), .reopen false, .add [0, 0x40000000] [4, 5] false,
    .flush ⟨[[1], [0]], 1⟩ [] (str ".tmp_3") .none, .add [0x40000000, 0] [1, 2] false]

set_option synthInstance.maxSize 2000 in
set_option synthInstance.maxHeartbeats 200000 in
example : (∀ op ∈ ops0, OpOk 1 op) ∧ (∀ op ∈ ops0, NoPush op) ∧
    shows text0 (runOps text0 (start text0 1 .l2 1000 two) ops0).disk =
      some [(formatSegmentId 1, some [(7, [0]), (8, [0x3F800000])]), (formatSegmentId 2, some [(4, [0]), (5, [0x40000000])])] ∧
    ∃ mm, (runOps text0 (start text0 1 .l2 1000 two) ops0).mem = some (mm, two) ∧ pending mm = [(1, [0x40000000]), (2, [0])] ∧
      (wouldPublish mm).save.length ≤ 2 ^ 20 := by
  refine ⟨?_, ?_, by decide +kernel, ⟨{ man0 text0 1 .l2 1000 two with next := 3, segs := [formatSegmentId 1, formatSegmentId 2] },
    [formatSegmentId 1, formatSegmentId 2], [0x40000000, 0], [1, 2], 1000⟩, by decide +kernel, by decide +kernel, by decide +kernel⟩
  · intro op hop
    simp only [ops0, List.mem_cons, List.not_mem_nil, or_false] at hop
    have nt : ∀ t, validSegmentId t = false → ¬ SegName t := fun t h hs => by rw [(validSegmentId_iff t).2 hs] at h; cases h
    rcases hop with rfl | rfl | rfl | rfl | rfl | rfl | rfl | rfl
    · exact ⟨by decide, by decide, by decide, by decide⟩
    · exact ⟨nt _ (by decide), by decide⟩
    · exact ⟨by decide, by decide, by decide, by decide⟩
    · exact ⟨nt _ (by decide), by decide⟩
    · trivial
    · exact ⟨by decide, by decide, by decide, by decide⟩
    · exact ⟨nt _ (by decide), by decide⟩
    · exact ⟨by decide, by decide, by decide, by decide⟩
  · intro op hop
    simp only [ops0, List.mem_cons, List.not_mem_nil, or_false] at hop
    rcases hop with rfl | rfl | rfl | rfl | rfl | rfl | rfl | rfl <;> trivial

/-- The state after `ops0` also meets the hypotheses of `C89_flush`. -/
example : ∃ mm m, (runOps text0 (start text0 1 .l2 1000 two) ops0).mem = some (mm, two) ∧
    (runOps text0 (start text0 1 .l2 1000 two) ops0).disk.man = some m.save ∧
    (published (runOps text0 (start text0 1 .l2 1000 two) ops0).disk m ++ mm.pendL) = [7, 8, 4, 5, 1, 2] ∧
    (∀ x ∈ mm.pendV, finite32 x = true) ∧
    (runOps text0 (start text0 1 .l2 1000 two) ops0).disk.dir (formatSegmentId mm.man.next) = none ∧
    Vamana.GraphOk [[1], [0]] 2 1 := by
  refine ⟨⟨{ man0 text0 1 .l2 1000 two with next := 3, segs := [formatSegmentId 1, formatSegmentId 2] },
    [formatSegmentId 1, formatSegmentId 2], [0x40000000, 0], [1, 2], 1000⟩,
    { man0 text0 1 .l2 1000 two with next := 3, segs := [formatSegmentId 1, formatSegmentId 2] },
    by decide +kernel, by decide +kernel, by decide +kernel, by decide, by decide +kernel, by decide, by decide, by decide, by decide,
    by decide, ?_, ?_⟩
  · intro i a ha
    match i, ha with
    | 0, ha => injection ha with ha; subst ha; decide
    | 1, ha => injection ha with ha; subst ha; decide
    | _ + 2, ha => cases ha
  · intro i a ha
    match i, ha with
    | 0, ha => injection ha with ha; subst ha; decide
    | 1, ha => injection ha with ha; subst ha; decide
    | _ + 2, ha => cases ha

/-- The first segment after `ops0` opens, and all its rows are reachable. -/
example : ∃ s, openSeg ((runOps text0 (start text0 1 .l2 1000 two) ops0).disk.dir (formatSegmentId 1)) = some s ∧
    ∀ i < s.seg.count, Reach s.graph.graph s.graph.start i := by
  refine ⟨⟨⟨1, 2, .l2, [7, 8].flatMap (leBytes 8), [0, 0x3F800000].flatMap (leBytes 4)⟩, ⟨2, 0, [[1], [0]]⟩⟩, by decide +kernel, ?_⟩
  intro i hi
  have hi : i < 2 := hi
  match i, hi with
  | 0, _ => exact .start
  | 1, _ => exact .step (u := 0) (nbrs := [1]) .start rfl (by decide)

end Alaya.VamanaSeg
