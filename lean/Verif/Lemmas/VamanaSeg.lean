import Verif.Model.VamanaSeg
import Verif.Lemmas.DiskCollectionHist
import Verif.Props.C27
import Verif.Props.C61
import Verif.Props.C30

/-! Lemmas about Vamana segments: what opening checks, the steps of a flush, its outcomes. -/
namespace Alaya.VamanaSeg
open Alaya Alaya.TopK Alaya.DiskFlat Alaya.DiskManifest Alaya.DiskColl2

/-! ### What an open segment satisfies -/

structure VOk (s : VSeg) : Prop where
  dim : 0 < s.seg.dim ∧ s.seg.dim < 2 ^ 32
  count : 0 < s.seg.count ∧ s.seg.count < 2 ^ 32
  metric : s.seg.metric = .l2
  ids : s.seg.ids.length = s.seg.count * 8
  vectors : s.seg.vectors.length = s.seg.count * s.seg.dim * 4
  nodes : s.graph.graph.length = s.seg.count
  graph : Vamana.GraphOk s.graph.graph s.graph.maxDegree s.graph.start

theorem openSeg_ok {dir : Option KV} {s : VSeg} (h : openSeg dir = some s) : VOk s := by
  unfold openSeg at h
  cases dir with
  | none => cases h
  | some files =>
  simp only at h
  cases h1 : files.get manName with
  | none => rw [h1] at h; cases h
  | some t =>
  rw [h1] at h
  simp only at h
  cases h2 : SegMan.load t with
  | none => rw [h2] at h; cases h
  | some sm =>
  rw [h2] at h
  simp only at h
  by_cases c1 : sm.engine ≠ .vamana
  · rw [if_pos c1] at h; cases h
  rw [if_neg c1] at h
  by_cases hdc : sm.dim = 0 ∨ sm.count = 0
  · rw [if_pos hdc] at h; cases h
  rw [if_neg hdc] at h
  by_cases hdm : sm.dim > 4294967295
  · rw [if_pos hdm] at h; cases h
  rw [if_neg hdm] at h
  by_cases hcm : sm.count > 4294967295
  · rw [if_pos hcm] at h; cases h
  rw [if_neg hcm] at h
  by_cases hl2 : sm.metric ≠ .l2
  · rw [if_pos hl2] at h; cases h
  rw [if_neg hl2] at h
  by_cases c6 : U64 ≤ sm.count * sm.dim
  · rw [if_pos c6] at h; cases h
  rw [if_neg c6] at h
  by_cases c7 : U64 ≤ sm.count * sm.dim * 4
  · rw [if_pos c7] at h; cases h
  rw [if_neg c7] at h
  by_cases c8 : U64 ≤ sm.count * 8
  · rw [if_pos c8] at h; cases h
  rw [if_neg c8] at h
  by_cases c9 : sm.vectorsFile = []
  · rw [if_pos c9] at h; cases h
  rw [if_neg c9] at h
  cases hv : files.get sm.vectorsFile with
  | none => rw [hv] at h; cases h
  | some v =>
  rw [hv] at h
  simp only at h
  by_cases hvl : v.length ≠ sm.count * sm.dim * 4
  · rw [if_pos hvl] at h; cases h
  rw [if_neg hvl] at h
  cases hi : files.get sm.idsFile with
  | none => rw [hi] at h; cases h
  | some i =>
  rw [hi] at h
  simp only at h
  by_cases hil : i.length ≠ sm.count * 8
  · rw [if_pos hil] at h; cases h
  rw [if_neg hil] at h
  cases hx : sm.extras.get (str "x_graph_file") with
  | none => rw [hx] at h; cases h
  | some gf =>
  rw [hx] at h
  simp only at h
  by_cases c10 : gf = []
  · rw [if_pos c10] at h; cases h
  rw [if_neg c10] at h
  by_cases c11 : (!(validBasename gf)) = true
  · rw [if_pos c11] at h; cases h
  rw [if_neg c11] at h
  cases hgb : files.get gf with
  | none => rw [hgb] at h; cases h
  | some gb =>
  rw [hgb] at h
  simp only at h
  cases hg : Vamana.readGraph gb with
  | none => rw [hg] at h; cases h
  | some g =>
  rw [hg] at h
  simp only at h
  by_cases hn : sm.count ≠ g.graph.length
  · rw [if_pos hn] at h; cases h
  rw [if_neg hn] at h
  injection h with h
  subst h
  have hn' : sm.count = g.graph.length := by
    by_cases e : sm.count = g.graph.length
    · exact e
    · exact absurd e hn
  exact {
    dim := by show 0 < sm.dim ∧ sm.dim < 2 ^ 32; omega
    count := by show 0 < sm.count ∧ sm.count < 2 ^ 32; omega
    metric := by show sm.metric = .l2; simpa using hl2
    ids := by show i.length = sm.count * 8; omega
    vectors := by show v.length = sm.count * sm.dim * 4; simpa using hvl
    nodes := hn'.symm
    graph := (Vamana.C61_load_sound gb g hg (by omega)).2 }

theorem openSeg_dir {d : Disk} {n : Bytes} {s : VSeg} (h : openSeg (d.dir n) = some s) : (d.dir n).isSome = true := by
  cases hd : d.dir n with
  | none => rw [hd] at h; cases h
  | some _ => rfl

/-- The ids view agrees with the searcher. -/
theorem idsView_of_open {dir : Option KV} {s : VSeg} (h : openSeg dir = some s) : idsView dir = some s.seg.labels := by
  unfold openSeg at h
  unfold idsView
  cases dir with
  | none => cases h
  | some files =>
  simp only at h ⊢
  cases h1 : files.get manName with
  | none => rw [h1] at h; cases h
  | some t =>
  rw [h1] at h
  simp only at h ⊢
  cases h2 : SegMan.load t with
  | none => rw [h2] at h; cases h
  | some sm =>
  rw [h2] at h
  simp only at h ⊢
  by_cases c1 : sm.engine ≠ .vamana
  · rw [if_pos c1] at h; cases h
  rw [if_neg c1] at h
  by_cases hdc : sm.dim = 0 ∨ sm.count = 0
  · rw [if_pos hdc] at h; cases h
  rw [if_neg hdc] at h
  by_cases hdm : sm.dim > 4294967295
  · rw [if_pos hdm] at h; cases h
  rw [if_neg hdm] at h
  by_cases hcm : sm.count > 4294967295
  · rw [if_pos hcm] at h; cases h
  rw [if_neg hcm] at h
  by_cases hl2 : sm.metric ≠ .l2
  · rw [if_pos hl2] at h; cases h
  rw [if_neg hl2] at h
  by_cases c6 : U64 ≤ sm.count * sm.dim
  · rw [if_pos c6] at h; cases h
  rw [if_neg c6] at h
  by_cases c7 : U64 ≤ sm.count * sm.dim * 4
  · rw [if_pos c7] at h; cases h
  rw [if_neg c7] at h
  by_cases c8 : U64 ≤ sm.count * 8
  · rw [if_pos c8] at h; cases h
  rw [if_neg c8] at h
  by_cases c9 : sm.vectorsFile = []
  · rw [if_pos c9] at h; cases h
  rw [if_neg c9] at h
  cases hv : files.get sm.vectorsFile with
  | none => rw [hv] at h; cases h
  | some v =>
  rw [hv] at h
  simp only at h
  by_cases hvl : v.length ≠ sm.count * sm.dim * 4
  · rw [if_pos hvl] at h; cases h
  rw [if_neg hvl] at h
  cases hi : files.get sm.idsFile with
  | none => rw [hi] at h; cases h
  | some i =>
  rw [hi] at h
  simp only at h ⊢
  by_cases hil : i.length ≠ sm.count * 8
  · rw [if_pos hil] at h; cases h
  rw [if_neg hil] at h
  cases hx : sm.extras.get (str "x_graph_file") with
  | none => rw [hx] at h; cases h
  | some gf =>
  rw [hx] at h
  simp only at h
  by_cases c10 : gf = []
  · rw [if_pos c10] at h; cases h
  rw [if_neg c10] at h
  by_cases c11 : (!(validBasename gf)) = true
  · rw [if_pos c11] at h; cases h
  rw [if_neg c11] at h
  cases hgb : files.get gf with
  | none => rw [hgb] at h; cases h
  | some gb =>
  rw [hgb] at h
  simp only at h
  cases hg : Vamana.readGraph gb with
  | none => rw [hg] at h; cases h
  | some g =>
  rw [hg] at h
  simp only at h
  by_cases hn : sm.count ≠ g.graph.length
  · rw [if_pos hn] at h; cases h
  rw [if_neg hn] at h
  rw [if_pos (by simpa using hil)]
  injection h with h
  subst h
  rfl

/-! ### The greedy search never leaves the graph -/

theorem search_touched {g : Pools.Graph} (hg : Pools.GraphOk g) {start : Nat} (hst : start < g.length) {dist : Nat → Int}
    {topK list : Nat} (hk : 0 < topK) (hl : topK ≤ list) {s : Pools.Scratch} (hs : Pools.ScratchOk s) {extra : Nat} {s2 : Pools.Scratch}
    {hits : List (Nat × Int)} (h : Pools.search g start dist topK list (g.length + extra) s = some (some (s2, hits))) :
    ∀ t ∈ s2.touched, t < g.length := by
  obtain ⟨s0, s1, s2', popped, e0, e1, e2, hi, _, _⟩ := Pools.search_run g hg start hst dist list s hs
  unfold Pools.search at h
  rw [if_neg (by omega), if_neg (by omega), if_neg (by omega), e0] at h
  simp only at h
  rw [e1] at h
  simp only at h
  rw [e2 extra] at h
  simp only at h
  injection h with h
  injection h with h
  injection h with h _
  subst h
  exact hi.tlt

/-- The label and the components of row `i`, read off the files. -/
def VSeg.row (s : VSeg) (i : Nat) : Nat × List Nat := fileRow s.seg i

theorem readRow_row {s : VSeg} (h : VOk s) {i : Nat} (hi : i < s.seg.count) :
    readRow s.seg.vectors (i * s.seg.dim * 4) s.seg.dim = some (s.row i).2 := by
  have : (i + 1) * s.seg.dim ≤ s.seg.count * s.seg.dim := Nat.mul_le_mul_right _ hi
  rw [Nat.succ_mul] at this
  rw [readRow_eq _ _ _ (by rw [h.vectors]; omega)]
  rfl

theorem dist_row {s : VSeg} (h : VOk s) (K : Kernel) (q : List Nat) {i : Nat} (hi : i < s.seg.count) :
    s.dist K q i = K.dist .l2 q (s.row i).2 := by
  unfold VSeg.dist
  rw [readRow_row h hi]
  rfl

theorem labelHits_eq {s : VSeg} (h : VOk s) : ∀ (hits : List (Nat × Int)), (∀ x ∈ hits, x.1 < s.seg.count) →
    labelHits s hits = some (hits.map (fun x => ⟨(s.row x.1).1, x.2⟩))
  | [], _ => rfl
  | x :: hits, hh => by
    have hx := hh x (by simp)
    unfold labelHits
    rw [readAt_eq (by rw [h.ids]; omega), labelHits_eq h hits (fun y hy => hh y (by simp [hy]))]
    rfl

theorem VOk.pools {s : VSeg} (h : VOk s) : Pools.GraphOk s.graph.graph := by
  intro nbrs hn m hm
  obtain ⟨i, hi⟩ := List.mem_iff_getElem?.mp hn
  exact (h.graph.nbrs i nbrs hi m hm).1

/-! ### The steps of a flush -/

/-- The four files of a published segment. -/
def Complete (F : FloatText) (p : Params) (x : Built) (d : Disk) (name : Bytes) (s : Segment) : Prop :=
  ∃ files, d.dir name = some files ∧ files.get idsName = some s.ids ∧ files.get vecName = some s.vectors ∧
    files.get graphName = some (Vamana.saveGraph x.graph p.R x.medoid 0) ∧ files.get manName = some (manOf F p name s x.medoid).save

theorem puts_tmp (tmp f : Bytes) (l : List Bytes) : ∀ s ∈ l.map (fun c => FStep.put tmp f c), TmpStep tmp s := by
  intro s hs
  obtain ⟨c, _, rfl⟩ := List.mem_map.1 hs
  exact Or.inr ⟨_, _, rfl⟩

theorem run_puts {d : Disk} {n f : Bytes} {files : KV} (h : d.dir n = some files) (l : List Bytes) (c : Bytes) :
    ∃ files', (d.run ((l ++ [c]).map (fun c => FStep.put n f c))).dir n = some files' ∧ files'.get f = some c ∧
      ∀ g, g ≠ f → files'.get g = files.get g := by
  induction l generalizing d files with
  | nil =>
    refine ⟨files.put f c, ?_, ?_, ?_⟩
    · show (d.apply (.put n f c)).dir n = _
      unfold Disk.apply
      simp only [h]
      rw [dir_set, if_pos rfl]
    · rw [kv_get_put, if_pos rfl]
    · intro g hg; rw [kv_get_put, if_neg hg]
  | cons a l ih =>
    have h1 : (d.apply (.put n f a)).dir n = some (files.put f a) := by
      unfold Disk.apply
      simp only [h]
      rw [dir_set, if_pos rfl]
    obtain ⟨fs, e1, e2, e3⟩ := ih h1
    refine ⟨fs, e1, e2, ?_⟩
    intro g hg
    rw [e3 g hg, kv_get_put, if_neg hg]

theorem preSteps_tmp (F : FloatText) (p : Params) (x : Built) (mids : List Bytes) (tmp name : Bytes) (s : Segment) :
    ∀ y ∈ preSteps F p x mids tmp name s, TmpStep tmp y := by
  intro y hy
  unfold preSteps at hy
  rcases List.mem_cons.1 hy with rfl | hy
  · exact Or.inl rfl
  · rcases List.mem_append.1 hy with hy | hy
    · rcases List.mem_append.1 hy with hy | hy
      · rcases List.mem_append.1 hy with hy | hy
        · exact writeSteps_tmp _ _ _ y hy
        · exact writeSteps_tmp _ _ _ y hy
      · exact puts_tmp _ _ _ y hy
    · exact writeSteps_tmp _ _ _ y hy

theorem pre_files (F : FloatText) (p : Params) (x : Built) (mids : List Bytes) (d : Disk) (tmp name : Bytes) (s : Segment) :
    ∃ files, (d.run (preSteps F p x mids tmp name s)).dir tmp = some files ∧
    files.get idsName = some s.ids ∧ files.get vecName = some s.vectors ∧
    files.get graphName = some (Vamana.saveGraph x.graph p.R x.medoid 0) ∧ files.get manName = some (manOf F p name s x.medoid).save := by
  unfold preSteps
  rw [← List.singleton_append, run_append, run_append, run_append, run_append]
  have h0 : ∃ f0, (d.run [.mkdir tmp]).dir tmp = some f0 := by
    show ∃ f0, (d.apply (.mkdir tmp)).dir tmp = some f0
    unfold Disk.apply
    simp only
    split
    · next h => exact Option.isSome_iff_exists.1 h
    · exact ⟨[], by rw [dir_set, if_pos rfl]⟩
  obtain ⟨f0, h0⟩ := h0
  obtain ⟨f1, h1, a1, b1⟩ := run_write (f := idsName) (c := s.ids) h0
  obtain ⟨f2, h2, a2, b2⟩ := run_write (f := vecName) (c := s.vectors) h1
  obtain ⟨f3, h3, a3, b3⟩ := run_puts (f := graphName) h2 mids (Vamana.saveGraph x.graph p.R x.medoid 0)
  obtain ⟨f4, h4, a4, b4⟩ := run_write (f := manName) (c := (manOf F p name s x.medoid).save) h3
  refine ⟨f4, h4, ?_, ?_, ?_, a4⟩
  · rw [b4 _ (by decide), b3 _ (by decide), b2 _ (by decide), a1]
  · rw [b4 _ (by decide), b3 _ (by decide), a2]
  · rw [b4 _ (by decide), a3]

theorem run_seg (F : FloatText) (p : Params) (x : Built) (mids : List Bytes) (d : Disk) (tmp name : Bytes) (s : Segment) (hne : tmp ≠ name)
    (hn : d.dir name = none) :
    (d.run (segSteps F p x mids tmp name s)).man = d.man ∧ Complete F p x (d.run (segSteps F p x mids tmp name s)) name s ∧
    ∀ y, y ≠ tmp → y ≠ name → (d.run (segSteps F p x mids tmp name s)).dir y = d.dir y := by
  unfold segSteps
  rw [run_append]
  have hf := frame_run (preSteps F p x mids tmp name s) d (preSteps_tmp F p x mids tmp name s)
  obtain ⟨files, h1, h2⟩ := pre_files F p x mids d tmp name s
  generalize d.run (preSteps F p x mids tmp name s) = d1 at *
  have hb : d1.dir name = none := by rw [hf.2 name (Ne.symm hne)]; exact hn
  obtain ⟨e1, e2⟩ := mv_result h1 hb
  show (d1.apply (.mv tmp name)).man = _ ∧ Complete F p x (d1.apply (.mv tmp name)) name s ∧
    ∀ y, y ≠ tmp → y ≠ name → (d1.apply (.mv tmp name)).dir y = d.dir y
  refine ⟨e1.trans hf.1, ⟨files, ?_, h2⟩, ?_⟩
  · rw [e2, if_pos rfl]
  · intro y hy hy'
    rw [e2, if_neg hy', if_neg hy, hf.2 y hy]

/-- Any prefix of the steps of a flush. -/
inductive Reached (F : FloatText) (p : Params) (x : Built) (tmp name : Bytes) (s : Segment) (man' : Bytes) (d d' : Disk) : Prop where
  | none : Frame tmp d d' → Reached F p x tmp name s man' d d'
  | built : d'.man = d.man → Complete F p x d' name s → (∀ y, y ≠ tmp → y ≠ name → d'.dir y = d.dir y) →
      Reached F p x tmp name s man' d d'
  | published : d'.man = some man' → Complete F p x d' name s → (∀ y, y ≠ tmp → y ≠ name → d'.dir y = d.dir y) →
      Reached F p x tmp name s man' d d'

theorem run_all (F : FloatText) (p : Params) (x : Built) (mids : List Bytes) (d : Disk) (tmp name : Bytes) (s : Segment) (c : Bytes)
    (hne : tmp ≠ name) (hn : d.dir name = none) :
    (d.run (segSteps F p x mids tmp name s ++ [FStep.tmpMan, FStep.pub c])).man = some c ∧
    Complete F p x (d.run (segSteps F p x mids tmp name s ++ [FStep.tmpMan, FStep.pub c])) name s ∧
    ∀ y, y ≠ tmp → y ≠ name → (d.run (segSteps F p x mids tmp name s ++ [FStep.tmpMan, FStep.pub c])).dir y = d.dir y := by
  obtain ⟨_, h2, h3⟩ := run_seg F p x mids d tmp name s hne hn
  rw [run_append]
  generalize d.run (segSteps F p x mids tmp name s) = d1 at *
  obtain ⟨e1, e2⟩ := run_pub d1 c
  refine ⟨e1, ?_, fun y hy hy' => (e2 y).trans (h3 y hy hy')⟩
  unfold Complete at *
  rw [e2]; exact h2

theorem seg_prefix (F : FloatText) (p : Params) (x : Built) (mids : List Bytes) (d : Disk) (tmp name : Bytes) (s : Segment) (i : Nat) :
    Frame tmp d (d.run ((segSteps F p x mids tmp name s).take i)) ∨
      (segSteps F p x mids tmp name s).length ≤ i := by
  by_cases h : i ≤ (preSteps F p x mids tmp name s).length
  · left
    unfold segSteps
    rw [List.take_append, show i - (preSteps F p x mids tmp name s).length = 0 by omega, List.take_zero, List.append_nil]
    exact frame_run _ d (fun y hy => preSteps_tmp F p x mids tmp name s y (List.mem_of_mem_take hy))
  · right
    unfold segSteps
    simp only [List.length_append, List.length_cons, List.length_nil]
    omega

theorem run_prefix (F : FloatText) (p : Params) (x : Built) (mids : List Bytes) (d : Disk) (tmp name : Bytes) (s : Segment) (c : Bytes)
    (hne : tmp ≠ name) (hn : d.dir name = none) (i : Nat) :
    Reached F p x tmp name s c d (d.run ((segSteps F p x mids tmp name s ++ [FStep.tmpMan, FStep.pub c]).take i)) := by
  obtain ⟨a1, a2, a3⟩ := run_seg F p x mids d tmp name s hne hn
  have hall := run_all F p x mids d tmp name s c hne hn
  by_cases h : (segSteps F p x mids tmp name s).length ≤ i
  · have htake : (segSteps F p x mids tmp name s ++ [FStep.tmpMan, FStep.pub c]).take i =
        segSteps F p x mids tmp name s ++ [FStep.tmpMan, FStep.pub c].take (i - (segSteps F p x mids tmp name s).length) := by
      rw [List.take_append, List.take_of_length_le (by omega)]
    rw [htake, run_append]
    rw [run_append] at hall
    generalize i - (segSteps F p x mids tmp name s).length = j
    match j with
    | 0 => exact .built a1 a2 a3
    | 1 => exact .built a1 a2 a3
    | j + 2 =>
      rw [show List.take (j + 2) [FStep.tmpMan, FStep.pub c] = [FStep.tmpMan, FStep.pub c] by simp]
      exact .published hall.1 hall.2.1 hall.2.2
  · rcases seg_prefix F p x mids d tmp name s i with hf | hf
    · rw [List.take_append, show i - (segSteps F p x mids tmp name s).length = 0 by omega, List.take_zero, List.append_nil]
      exact .none hf
    · exact absurd hf h

/-! ### What was built, opened -/

/-- What the C library guarantees about the text of `alpha` (to_string writes digits and a point, at most 46 of them, and
what it writes for a number that is at least 1 is read back as such a number). -/
structure TextOk (F : FloatText) : Prop where
  line : ∀ a, alphaOk a = true → LineValue (F.print a) ∧ (F.print a).length ≤ 64
  back : ∀ a, alphaOk a = true → ∃ a', F.parse (F.print a) = some a' ∧ alphaOk a' = true

/-- Parameters in the ranges of their fields on disk. -/
structure ParamsOk (p : Params) : Prop where
  ok : p.ok = true
  R : p.R < 2 ^ 32
  L : p.L < 2 ^ 32
  seed : p.seed < 2 ^ 32
  threads : p.threads < 2 ^ 32

theorem ParamsOk.alpha {p : Params} (h : ParamsOk p) : alphaOk p.alpha = true := by
  have := h.ok
  unfold Params.ok at this
  simp only [Bool.and_eq_true] at this
  exact this.2

theorem dec_line {n : Nat} (h : n < 2 ^ 64) : LineValue (decStr n) ∧ (decStr n).length ≤ 64 :=
  ⟨decStr_lineValue n, Nat.le_trans (decStr_len20 h) (by decide)⟩

theorem man_extras {F : FloatText} (hF : TextOk F) {p : Params} (hp : ParamsOk p) {name : Bytes} {s : Segment} {medoid : Nat}
    (hm : medoid < 2 ^ 32) : ∀ e ∈ (manOf F p name s medoid).extras, ExtKey e.1 ∧ e.1.length ≤ 20 ∧ LineValue e.2 ∧ e.2.length ≤ 64 := by
  have key : ∀ k : Bytes, k ∈ [str "x_L", str "x_R", str "x_alpha", str "x_graph_file", str "x_medoid", str "x_seed"] →
      isExt k = true ∧ LineValue k ∧ 61 ∉ k ∧ k.length ≤ 20 := by decide
  have hv := hF.line p.alpha hp.alpha
  have hR := hp.R
  have hL := hp.L
  have hs := hp.seed
  have h1 := dec_line (show p.L < 2 ^ 64 by omega)
  have h2 := dec_line (show p.R < 2 ^ 64 by omega)
  have h3 := dec_line (show medoid < 2 ^ 64 by omega)
  have h4 := dec_line (show p.seed < 2 ^ 64 by omega)
  have h5 : LineValue graphName ∧ graphName.length ≤ 64 := by decide
  intro e he
  have : e.1 ∈ [str "x_L", str "x_R", str "x_alpha", str "x_graph_file", str "x_medoid", str "x_seed"] ∧ LineValue e.2 ∧ e.2.length ≤ 64 := by
    unfold manOf at he
    simp only [List.mem_cons, List.not_mem_nil, or_false] at he
    rcases he with rfl | rfl | rfl | rfl | rfl | rfl
    · exact ⟨by simp, h1⟩
    · exact ⟨by simp, h2⟩
    · exact ⟨by simp, hv⟩
    · exact ⟨by simp, h5⟩
    · exact ⟨by simp, h3⟩
    · exact ⟨by simp, h4⟩
  obtain ⟨k1, k2, k3, k4⟩ := key e.1 this.1
  exact ⟨⟨(isExt_iff _).1 k1, k2, k3⟩, k4, this.2⟩

theorem man_valid {F : FloatText} (hF : TextOk F) {p : Params} (hp : ParamsOk p) {name : Bytes} {s : Segment} {medoid : Nat}
    (hm : medoid < 2 ^ 32) (hn : SegName name) (ho : s.opens = true) : (manOf F p name s medoid).Valid := by
  have hv := segMan_valid hn ho
  exact {
    version := rfl
    segmentName := hn
    dim := hv.dim
    count := hv.count
    idsName := idsFile_ok
    vectorsName := Or.inr vecFile_ok
    extrasAsc := by
      have : ((manOf F p name s medoid).extras.map (·.1)).Pairwise (· < ·) := by
        show ([str "x_L", str "x_R", str "x_alpha", str "x_graph_file", str "x_medoid", str "x_seed"] : List Bytes).Pairwise (· < ·)
        decide
      exact List.pairwise_map.1 this
    extras := fun e he => ⟨(man_extras hF hp hm e he).1, (man_extras hF hp hm e he).2.2.1⟩ }

theorem lines_length : ∀ (l : List (Bytes × Bytes)), (∀ e ∈ l, e.1.length ≤ 20 ∧ e.2.length ≤ 64) →
    (l.flatMap (fun e => line e.1 e.2)).length ≤ 86 * l.length
  | [], _ => by simp
  | e :: l, h => by
    have h1 := h e (by simp)
    have h2 := lines_length l (fun x hx => h x (by simp [hx]))
    rw [List.flatMap_cons, List.length_append, line_length, List.length_cons]
    omega

theorem man_size {F : FloatText} (hF : TextOk F) {p : Params} (hp : ParamsOk p) {name : Bytes} {s : Segment} {medoid : Nat}
    (hm : medoid < 2 ^ 32) (hn : SegName name) (ho : s.opens = true) : (manOf F p name s medoid).save.length ≤ 2 ^ 20 := by
  have hv := man_valid hF hp hm hn ho
  have hx := man_extras (name := name) (s := s) hF hp hm
  rw [SegMan.save_eq]
  refine Nat.le_trans (lines_length _ ?_) ?_
  · intro e he
    unfold SegMan.entries at he
    rcases List.mem_append.1 he with he | he
    · have h1 := decStr_len20 hv.dim.2
      have h2 := decStr_len20 hv.count.2
      have h3 : ∀ m : Metric, (metricName m).length ≤ 20 := by intro m; cases m <;> decide
      have h4 := SegName.length hn
      have e1 : (decStr (manOf F p name s medoid).version).length ≤ 20 := decStr_len20 (by show 1 < 2 ^ 64; decide)
      have e3 : (Engine.name .vamana).length ≤ 20 := by decide
      have e4 : idsName.length ≤ 20 := by decide
      have e5 : vecName.length ≤ 20 := by decide
      simp only [List.mem_cons, List.not_mem_nil, or_false] at he
      rcases he with rfl | rfl | rfl | rfl | rfl | rfl | rfl | rfl
      · exact ⟨(by decide : (str "version").length ≤ 20), by simp only; omega⟩
      · exact ⟨(by decide : (str "segment_id").length ≤ 20), by show name.length ≤ 64; omega⟩
      · exact ⟨(by decide : (str "index_type").length ≤ 20), by show (Engine.name .vamana).length ≤ 64; omega⟩
      · exact ⟨(by decide : (str "metric").length ≤ 20), Nat.le_trans (h3 _) (by decide)⟩
      · exact ⟨(by decide : (str "dim").length ≤ 20), by simp only; omega⟩
      · exact ⟨(by decide : (str "count").length ≤ 20), by simp only; omega⟩
      · exact ⟨(by decide : (str "ids_file").length ≤ 20), by show idsName.length ≤ 64; omega⟩
      · exact ⟨(by decide : (str "vectors_file").length ≤ 20), by show vecName.length ≤ 64; omega⟩
    · exact ⟨(hx e he).2.1, (hx e he).2.2.2⟩
  · unfold SegMan.entries
    have : (manOf F p name s medoid).extras.length = 6 := rfl
    simp only [List.length_append, List.length_cons, List.length_nil, this]
    decide

theorem openSeg_run {files : KV} {t : Bytes} {sm : SegMan} {i v gf gb : Bytes} (h1 : files.get manName = some t)
    (h2 : SegMan.load t = some sm) (he : sm.engine = .vamana) (hd : 0 < sm.dim ∧ sm.dim < 2 ^ 32) (hc : 0 < sm.count ∧ sm.count < 2 ^ 32)
    (hm : sm.metric = .l2) (hs : sm.count * sm.dim * 4 < U64) (hs8 : sm.count * 8 < U64) (hvf : sm.vectorsFile ≠ [])
    (hv : files.get sm.vectorsFile = some v) (hvl : v.length = sm.count * sm.dim * 4) (hi : files.get sm.idsFile = some i)
    (hil : i.length = sm.count * 8) (hx : sm.extras.get (str "x_graph_file") = some gf) (hg0 : gf ≠ []) (hgv : validBasename gf = true)
    (hg : files.get gf = some gb) :
    openSeg (some files) = (Vamana.readGraph gb).bind
      (fun g => if sm.count ≠ g.graph.length then none else some ⟨⟨sm.dim, sm.count, sm.metric, i, v⟩, g⟩) := by
  have c6 : ¬ U64 ≤ sm.count * sm.dim := by omega
  have c7 : ¬ U64 ≤ sm.count * sm.dim * 4 := by omega
  have c8 : ¬ U64 ≤ sm.count * 8 := by omega
  unfold openSeg
  simp only [h1, h2]
  rw [if_neg (by rw [he]; simp), if_neg (by omega), if_neg (by omega), if_neg (by omega), if_neg (by rw [hm]; simp), if_neg c6,
    if_neg c7, if_neg c8, if_neg hvf]
  simp only [hv]
  rw [if_neg (by simp [hvl])]
  simp only [hi]
  rw [if_neg (by simp [hil])]
  simp only [hx]
  rw [if_neg hg0, if_neg (by simp [hgv])]
  simp only [hg]
  cases Vamana.readGraph gb <;> rfl

/-- The rows of an open segment are the files its manifest names. -/
theorem openSeg_seg {files : KV} {t : Bytes} {sm : SegMan} {i v : Bytes} {w : VSeg} (h1 : files.get manName = some t)
    (h2 : SegMan.load t = some sm) (hv' : files.get sm.vectorsFile = some v) (hi' : files.get sm.idsFile = some i)
    (h : openSeg (some files) = some w) : w.seg = ⟨sm.dim, sm.count, sm.metric, i, v⟩ := by
  unfold openSeg at h
  simp only [h1, h2] at h
  by_cases c1 : sm.engine ≠ .vamana
  · rw [if_pos c1] at h; cases h
  rw [if_neg c1] at h
  by_cases hdc : sm.dim = 0 ∨ sm.count = 0
  · rw [if_pos hdc] at h; cases h
  rw [if_neg hdc] at h
  by_cases hdm : sm.dim > 4294967295
  · rw [if_pos hdm] at h; cases h
  rw [if_neg hdm] at h
  by_cases hcm : sm.count > 4294967295
  · rw [if_pos hcm] at h; cases h
  rw [if_neg hcm] at h
  by_cases hl2 : sm.metric ≠ .l2
  · rw [if_pos hl2] at h; cases h
  rw [if_neg hl2] at h
  by_cases c6 : U64 ≤ sm.count * sm.dim
  · rw [if_pos c6] at h; cases h
  rw [if_neg c6] at h
  by_cases c7 : U64 ≤ sm.count * sm.dim * 4
  · rw [if_pos c7] at h; cases h
  rw [if_neg c7] at h
  by_cases c8 : U64 ≤ sm.count * 8
  · rw [if_pos c8] at h; cases h
  rw [if_neg c8] at h
  by_cases c9 : sm.vectorsFile = []
  · rw [if_pos c9] at h; cases h
  rw [if_neg c9] at h
  cases hv : files.get sm.vectorsFile with
  | none => rw [hv] at h; cases h
  | some v2 =>
  rw [hv] at h
  simp only at h
  by_cases hvl : v2.length ≠ sm.count * sm.dim * 4
  · rw [if_pos hvl] at h; cases h
  rw [if_neg hvl] at h
  cases hi : files.get sm.idsFile with
  | none => rw [hi] at h; cases h
  | some i2 =>
  rw [hi] at h
  simp only at h
  by_cases hil : i2.length ≠ sm.count * 8
  · rw [if_pos hil] at h; cases h
  rw [if_neg hil] at h
  cases hx : sm.extras.get (str "x_graph_file") with
  | none => rw [hx] at h; cases h
  | some gf =>
  rw [hx] at h
  simp only at h
  by_cases c10 : gf = []
  · rw [if_pos c10] at h; cases h
  rw [if_neg c10] at h
  by_cases c11 : (!(validBasename gf)) = true
  · rw [if_pos c11] at h; cases h
  rw [if_neg c11] at h
  cases hgb : files.get gf with
  | none => rw [hgb] at h; cases h
  | some gb =>
  rw [hgb] at h
  simp only at h
  cases hg : Vamana.readGraph gb with
  | none => rw [hg] at h; cases h
  | some g =>
  rw [hg] at h
  simp only at h
  by_cases hn : sm.count ≠ g.graph.length
  · rw [if_pos hn] at h; cases h
  rw [if_neg hn] at h
  rw [hv] at hv'
  rw [hi] at hi'
  injection hv' with hv'
  injection hi' with hi'
  injection h with h
  rw [← h, ← hv', ← hi']

theorem graphFile_key (F : FloatText) (p : Params) (name : Bytes) (s : Segment) (medoid : Nat) :
    (manOf F p name s medoid).extras.get (str "x_graph_file") = some graphName := by
  unfold manOf
  simp only
  generalize decStr p.L = a
  generalize decStr p.R = b
  generalize F.print p.alpha = c
  generalize decStr medoid = e
  generalize decStr p.seed = f
  rfl

/-- What the searcher makes of a complete segment: its rows, and the graph if the reader takes it. -/
theorem open_complete {F : FloatText} (hF : TextOk F) {p : Params} (hp : ParamsOk p) {x : Built} (hm : x.medoid < 2 ^ 32) {d : Disk}
    {name : Bytes} {s : Segment} (h : Complete F p x d name s) (hn : SegName name) (ho : s.opens = true) (hl2 : s.metric = .l2)
    (hc : s.count < 2 ^ 32) :
    openSeg (d.dir name) = (Vamana.readGraph (Vamana.saveGraph x.graph p.R x.medoid 0)).bind
      (fun g => if s.count ≠ g.graph.length then none else some ⟨s, g⟩) := by
  obtain ⟨files, h1, h2, h3, h4, h5⟩ := h
  have hl := C36_segment_roundtrip_partial _ (man_valid hF hp hm hn ho) (man_size hF hp hm hn ho)
  unfold Segment.opens at ho
  simp only [Bool.and_eq_true, decide_eq_true_eq] at ho
  obtain ⟨⟨⟨⟨⟨⟨⟨o1, o2⟩, o3⟩, o4⟩, o5⟩, o6⟩, o7⟩, o8⟩ := ho
  rw [h1]
  exact openSeg_run (sm := manOf F p name s x.medoid) h5 hl rfl ⟨Nat.pos_of_ne_zero o1, o6⟩ ⟨Nat.pos_of_ne_zero o2, hc⟩ hl2 o4 o5
    (by show vecName ≠ []; decide) h3 o8 h2 o7 (graphFile_key F p name s x.medoid) (by decide) (by decide) h4

theorem complete_seg {F : FloatText} (hF : TextOk F) {p : Params} (hp : ParamsOk p) {x : Built} (hm : x.medoid < 2 ^ 32) {d : Disk}
    {name : Bytes} {s : Segment} (h : Complete F p x d name s) (hn : SegName name) (ho : s.opens = true) {w : VSeg}
    (hw : openSeg (d.dir name) = some w) : w.seg = s := by
  obtain ⟨files, h1, h2, h3, h4, h5⟩ := h
  have hl := C36_segment_roundtrip_partial _ (man_valid hF hp hm hn ho) (man_size hF hp hm hn ho)
  rw [h1] at hw
  exact openSeg_seg (sm := manOf F p name s x.medoid) h5 hl h3 h2 hw

end Alaya.VamanaSeg
