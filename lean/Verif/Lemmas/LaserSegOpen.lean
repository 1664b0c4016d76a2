import Verif.Lemmas.LaserSeg

/-! What opening a LASER segment checks, and what the steps of an import leave on disk. -/
namespace Alaya.LaserSeg
open Alaya Alaya.DiskFlat Alaya.DiskManifest Alaya.DiskColl2

/-! ### Opening -/

/-- The checks before the native index is loaded. -/
structure Checks (E : Env) (files : KV) (sm : SegMan) (pre : Bytes) (R md b : Nat) : Prop where
  man : ∃ t, files.get manName = some t ∧ SegMan.load t = some sm
  engine : sm.engine = .laser
  dim : 0 < sm.dim ∧ sm.dim < 2 ^ 32
  count : 0 < sm.count ∧ sm.count < 2 ^ 32
  metric : sm.metric = .l2
  hPre : reqExtra sm.extras (str "x_laser_filename_prefix") = some pre
  preName : validBasename pre = true
  hR : u32Req sm.extras (str "x_R") = some R
  hMd : u32Req sm.extras (str "x_main_dim") = some md
  index : reqExtra sm.extras (str "x_laser_index_file") = some (indexName pre R md)
  indexOk : validBasename (indexName pre R md) = true
  head : headCount (files.get (indexName pre R md)) = some sm.count
  arts : artKeys.all (fun a => artOk files sm.extras a.1 a.2) = true
  budget : budgetOf E sm.extras = some b

/-- The rest of the constructor. -/
def tailOf (E : Env) (files : KV) (sm : SegMan) (pre : Bytes) (R md b : Nat) : Option (Option LSeg) :=
  match loadNative E files pre R md sm.dim sm.count b with
  | none => none
  | some none => some none
  | some (some nat) =>
  match files.get sm.idsFile with
  | none => some none
  | some i => if i.length ≠ sm.count * 8 then some none else some (some ⟨sm.dim, sm.count, R, md, i, nat⟩)

theorem openSeg_eq {E : Env} {files : KV} {sm : SegMan} {pre : Bytes} {R md b : Nat} (h : Checks E files sm pre R md b) :
    openSeg E (some files) = tailOf E files sm pre R md b := by
  obtain ⟨t, h1, h2⟩ := h.man
  have hd := h.dim
  have hc := h.count
  unfold openSeg
  simp only [h1, h2]
  rw [if_neg (by rw [h.engine]; simp), if_neg (by omega), if_neg (by omega), if_neg (by omega), if_neg (by rw [h.metric]; simp)]
  simp only [h.hPre, h.hR, h.hMd, h.index]
  rw [if_neg (by rw [h.preName]; simp), if_neg (by rw [h.indexOk]; simp), if_neg (by simp), if_neg (by rw [h.head]; simp),
    if_neg (by rw [h.arts]; simp)]
  simp only [h.budget]
  rfl

theorem openSeg_cases (E : Env) (dir : Option KV) : openSeg E dir = some none ∨
    ∃ files sm pre R md b, dir = some files ∧ Checks E files sm pre R md b := by
  by_cases hne : openSeg E dir = some none
  · exact Or.inl hne
  refine Or.inr ?_
  unfold openSeg at hne
  cases dir with
  | none => exact absurd rfl hne
  | some files =>
  simp only at hne
  cases h1 : files.get manName with
  | none => rw [h1] at hne; exact absurd rfl hne
  | some t =>
  rw [h1] at hne
  simp only at hne
  cases h2 : SegMan.load t with
  | none => rw [h2] at hne; exact absurd rfl hne
  | some sm =>
  rw [h2] at hne
  simp only at hne
  by_cases c1 : sm.engine ≠ .laser
  · rw [if_pos c1] at hne; exact absurd rfl hne
  rw [if_neg c1] at hne
  by_cases c2 : sm.dim = 0 ∨ sm.count = 0
  · rw [if_pos c2] at hne; exact absurd rfl hne
  rw [if_neg c2] at hne
  by_cases c3 : sm.dim > 4294967295
  · rw [if_pos c3] at hne; exact absurd rfl hne
  rw [if_neg c3] at hne
  by_cases c4 : sm.count > 4294967295
  · rw [if_pos c4] at hne; exact absurd rfl hne
  rw [if_neg c4] at hne
  by_cases c5 : sm.metric ≠ .l2
  · rw [if_pos c5] at hne; exact absurd rfl hne
  rw [if_neg c5] at hne
  cases h3 : reqExtra sm.extras (str "x_laser_filename_prefix") with
  | none => rw [h3] at hne; exact absurd rfl hne
  | some pre =>
  rw [h3] at hne
  simp only at hne
  by_cases c6 : (!(validBasename pre)) = true
  · rw [if_pos c6] at hne; exact absurd rfl hne
  rw [if_neg c6] at hne
  cases h4 : u32Req sm.extras (str "x_R") with
  | none => rw [h4] at hne; exact absurd rfl hne
  | some R =>
  rw [h4] at hne
  simp only at hne
  cases h5 : u32Req sm.extras (str "x_main_dim") with
  | none => rw [h5] at hne; exact absurd rfl hne
  | some md =>
  rw [h5] at hne
  simp only at hne
  cases h6 : reqExtra sm.extras (str "x_laser_index_file") with
  | none => rw [h6] at hne; exact absurd rfl hne
  | some ix =>
  rw [h6] at hne
  simp only at hne
  by_cases c7 : (!(validBasename ix)) = true
  · rw [if_pos c7] at hne; exact absurd rfl hne
  rw [if_neg c7] at hne
  by_cases c8 : indexName pre R md ≠ ix
  · rw [if_pos c8] at hne; exact absurd rfl hne
  rw [if_neg c8] at hne
  by_cases c9 : headCount (files.get ix) ≠ some sm.count
  · rw [if_pos c9] at hne; exact absurd rfl hne
  rw [if_neg c9] at hne
  by_cases c10 : (!(artKeys.all (fun a => artOk files sm.extras a.1 a.2))) = true
  · rw [if_pos c10] at hne; exact absurd rfl hne
  rw [if_neg c10] at hne
  cases h7 : budgetOf E sm.extras with
  | none => rw [h7] at hne; exact absurd rfl hne
  | some b =>
  have e8 : indexName pre R md = ix := Classical.not_not.1 c8
  subst e8
  exact ⟨files, sm, pre, R, md, b, rfl, {
    man := ⟨t, h1, h2⟩
    engine := Classical.not_not.1 c1
    dim := by omega
    count := by omega
    metric := Classical.not_not.1 c5
    hPre := h3
    preName := by simpa using c6
    hR := h4
    hMd := h5
    index := h6
    indexOk := by simpa using c7
    head := Classical.not_not.1 c9
    arts := by simpa using c10
    budget := h7 }⟩

/-- An open segment, and where its parts come from. -/
theorem openSeg_some {E : Env} {dir : Option KV} {s : LSeg} (h : openSeg E dir = some (some s)) :
    ∃ files sm pre b, dir = some files ∧ Checks E files sm pre s.R s.mainDim b ∧ s.dim = sm.dim ∧ s.count = sm.count ∧
      files.get sm.idsFile = some s.ids ∧ s.ids.length = s.count * 8 ∧
      loadNative E files pre s.R s.mainDim s.dim s.count b = some (some s.nat) := by
  rcases openSeg_cases E dir with hc | ⟨files, sm, pre, R, md, b, hd, hc⟩
  · rw [h] at hc; cases hc
  · subst hd
    rw [openSeg_eq hc] at h
    unfold tailOf at h
    cases hn : loadNative E files pre R md sm.dim sm.count b with
    | none => rw [hn] at h; cases h
    | some o =>
      rw [hn] at h
      cases o with
      | none => cases h
      | some nat =>
        simp only at h
        cases hi : files.get sm.idsFile with
        | none => rw [hi] at h; cases h
        | some i =>
          rw [hi] at h
          simp only at h
          by_cases hl : i.length ≠ sm.count * 8
          · rw [if_pos hl] at h; cases h
          · rw [if_neg hl] at h
            injection h with h
            injection h with h
            subst h
            exact ⟨files, sm, pre, b, rfl, hc, rfl, rfl, hi, Classical.not_not.1 hl, hn⟩

theorem openSeg_dir {E : Env} {d : Disk} {n : Bytes} {s : LSeg} (h : openSeg E (d.dir n) = some (some s)) : (d.dir n).isSome = true := by
  obtain ⟨files, _, _, _, e, _⟩ := openSeg_some h
  rw [e]; rfl

/-- The ids view agrees with the searcher. -/
theorem idsView_of_open {E : Env} {dir : Option KV} {s : LSeg} (h : openSeg E dir = some (some s)) : idsView dir = some s.labels := by
  obtain ⟨files, sm, pre, b, rfl, hc, e1, e2, e3, e4, _⟩ := openSeg_some h
  obtain ⟨t, h1, h2⟩ := hc.man
  unfold idsView
  simp only [h1, h2, e3]
  rw [e2] at e4
  rw [if_pos e4]
  unfold LSeg.labels
  rw [e2]

/-- Loading depends only on the seven files. -/
theorem loadNative_congr {E : Env} {f g : KV} {pre : Bytes} {R md : Nat} (dim count b : Nat)
    (h : ∀ a ∈ required (indexName pre R md) ++ optional pre, f.get a.1 = g.get a.1) :
    loadNative E f pre R md dim count b = loadNative E g pre R md dim count b := by
  unfold required optional at h
  simp only [List.cons_append, List.nil_append, List.mem_cons, List.not_mem_nil, or_false, forall_eq_or_imp, forall_eq] at h
  obtain ⟨h1, h2, h3, h4, h5, h6, h7⟩ := h
  unfold loadNative loadMedoids loadPca loadCache
  simp only [h1, h2, h3, h4, h5, h6, h7]

/-! ### The steps of an import -/

/-- What the files of an imported segment are. -/
def wanted (q : Plan) (g : Bytes) : Option Bytes :=
  if g = manName then some q.man.save else if g = idsName then some q.ids else (kvOf q.arts).get g

/-- A complete imported segment. -/
def Complete (q : Plan) (d : Disk) : Prop := ∃ files, d.dir q.name = some files ∧ ∀ g, files.get g = wanted q g

theorem artSteps_tmp (copy : Bool) (tmp : Bytes) (e : Bytes × Bytes) : ∀ y ∈ artSteps copy tmp e, TmpStep tmp y := by
  intro y hy
  unfold artSteps at hy
  split at hy
  · exact writeSteps_tmp _ _ _ y hy
  · rw [List.mem_singleton.1 hy]; exact Or.inr ⟨_, _, rfl⟩

theorem preSteps_tmp (tmp : Bytes) (q : Plan) : ∀ y ∈ preSteps tmp q, TmpStep tmp y := by
  intro y hy
  unfold preSteps at hy
  rcases List.mem_cons.1 hy with rfl | hy
  · exact Or.inl rfl
  · rcases List.mem_append.1 hy with hy | hy
    · rcases List.mem_append.1 hy with hy | hy
      · obtain ⟨e, _, he⟩ := List.mem_flatMap.1 hy
        exact artSteps_tmp _ _ _ y he
      · exact writeSteps_tmp _ _ _ y hy
    · exact writeSteps_tmp _ _ _ y hy

theorem run_art {d : Disk} {n : Bytes} {files : KV} (h : d.dir n = some files) (copy : Bool) (e : Bytes × Bytes) :
    ∃ files', (d.run (artSteps copy n e)).dir n = some files' ∧ files'.get e.1 = some e.2 ∧
      ∀ g, g ≠ e.1 → files'.get g = files.get g := by
  unfold artSteps
  split
  · exact run_write h
  · exact VamanaSeg.run_puts h [] e.2

theorem run_arts (copy : Bool) (n : Bytes) (l : List (Bytes × Bytes)) : ∀ {d : Disk} {files : KV}, d.dir n = some files →
    (∀ g, files.get g = none) →
    ∃ files', (d.run (l.flatMap (artSteps copy n))).dir n = some files' ∧ ∀ g, files'.get g = (kvOf l).get g := by
  induction l using rev_rec with
  | h0 => intro d files h h0; exact ⟨files, h, fun g => (h0 g).trans rfl⟩
  | h1 l e ih =>
    intro d files h h0
    obtain ⟨f1, a1, b1⟩ := ih h h0
    rw [List.flatMap_append, run_append]
    obtain ⟨f2, a2, b2, c2⟩ := run_art a1 copy e
    refine ⟨f2, by simpa using a2, fun g => ?_⟩
    rw [kvOf_append, KV.get_put]
    by_cases hg : e.1 = g
    · rw [if_pos hg, ← hg, b2]
    · rw [if_neg hg, c2 g (Ne.symm hg), b1]

theorem pre_files (d : Disk) (tmp : Bytes) (ht : d.dir tmp = none) (q : Plan) :
    ∃ files, (d.run (preSteps tmp q)).dir tmp = some files ∧ ∀ g, files.get g = wanted q g := by
  unfold preSteps
  rw [← List.singleton_append, run_append, run_append, run_append]
  have h0 : (d.run [.mkdir tmp]).dir tmp = some [] := by
    show (d.apply (.mkdir tmp)).dir tmp = some []
    unfold Disk.apply
    simp only
    rw [if_neg (by rw [ht]; simp), dir_set, if_pos rfl]
  obtain ⟨f1, h1, a1⟩ := run_arts q.copy tmp q.arts h0 (fun _ => rfl)
  obtain ⟨f2, h2, a2, b2⟩ := run_write (f := idsName) (c := q.ids) h1
  obtain ⟨f3, h3, a3, b3⟩ := run_write (f := manName) (c := q.man.save) h2
  refine ⟨f3, h3, fun g => ?_⟩
  unfold wanted
  by_cases e1 : g = manName
  · rw [if_pos e1, e1, a3]
  · rw [if_neg e1, b3 g e1]
    by_cases e2 : g = idsName
    · rw [if_pos e2, e2, a2]
    · rw [if_neg e2, b2 g e2, a1]

theorem run_seg (d : Disk) (tmp : Bytes) (ht : d.dir tmp = none) (q : Plan) (hne : tmp ≠ q.name) (hn : d.dir q.name = none) :
    (d.run (segSteps tmp q)).man = d.man ∧ Complete q (d.run (segSteps tmp q)) ∧
    ∀ y, y ≠ tmp → y ≠ q.name → (d.run (segSteps tmp q)).dir y = d.dir y := by
  unfold segSteps
  rw [run_append]
  have hf := frame_run (preSteps tmp q) d (preSteps_tmp tmp q)
  obtain ⟨files, h1, h2⟩ := pre_files d tmp ht q
  generalize d.run (preSteps tmp q) = d1 at *
  have hb : d1.dir q.name = none := by rw [hf.2 q.name (Ne.symm hne)]; exact hn
  obtain ⟨e1, e2⟩ := mv_result h1 hb
  show (d1.apply (.mv tmp q.name)).man = _ ∧ Complete q (d1.apply (.mv tmp q.name)) ∧
    ∀ y, y ≠ tmp → y ≠ q.name → (d1.apply (.mv tmp q.name)).dir y = d.dir y
  refine ⟨e1.trans hf.1, ⟨files, ?_, h2⟩, ?_⟩
  · rw [e2, if_pos rfl]
  · intro y hy hy'
    rw [e2, if_neg hy', if_neg hy, hf.2 y hy]

theorem seg_prefix (d : Disk) (tmp : Bytes) (q : Plan) (i : Nat) :
    Frame tmp d (d.run ((segSteps tmp q).take i)) ∨ (segSteps tmp q).length ≤ i := by
  by_cases h : i ≤ (preSteps tmp q).length
  · left
    unfold segSteps
    rw [List.take_append, show i - (preSteps tmp q).length = 0 by omega, List.take_zero, List.append_nil]
    exact frame_run _ d (fun y hy => preSteps_tmp tmp q y (List.mem_of_mem_take hy))
  · right
    unfold segSteps
    simp only [List.length_append, List.length_cons, List.length_nil]
    omega

/-! ### Plans -/

/-- Everything that is checked before the first file is written. -/
structure Planned (E : Env) (src : KV) (labels : List Nat) (tmp : Bytes) (d : Disk) (m : Mem) (p : Params) : Prop where
  engine : m.man.engine = .laser
  ne : labels ≠ []
  nodup : labels.Nodup
  ids : ∃ ls, allIds d m.dirs = some ls ∧ ∀ x ∈ labels, x ∉ ls
  params : loadParams E m.man.extras = some p
  pow : pow2 (m.man.dim % 4294967296) = true
  dim : 128 ≤ m.man.dim % 4294967296
  mainDim : p.mainDim = 0 ∨ p.mainDim = m.man.dim % 4294967296
  valid : SegName (formatSegmentId m.man.next)
  fresh : d.dir (formatSegmentId m.man.next) = none
  metric : m.man.metric = .l2
  size : labels.length * 8 < U64
  files : ∀ a ∈ required (indexName (prefixOf (formatSegmentId m.man.next)) p.R (m.man.dim % 4294967296)),
    ∃ c, src.get a.1 = some c ∧ c ≠ []
  head : headCount (src.get (indexName (prefixOf (formatSegmentId m.man.next)) p.R (m.man.dim % 4294967296))) = some labels.length
  tmp : d.dir tmp = none

/-- The plan for an import. -/
def planOf (E : Env) (src : KV) (labels : List Nat) (m : Mem) (p : Params) : Plan :=
  ⟨formatSegmentId m.man.next, copied src (prefixOf (formatSegmentId m.man.next))
      (indexName (prefixOf (formatSegmentId m.man.next)) p.R (m.man.dim % 4294967296)), labels.flatMap (leBytes 8),
    manOf E p src (formatSegmentId m.man.next) (m.man.dim % 4294967296) labels.length, p.copy⟩

theorem files_iff (src : KV) (l : List (Bytes × Bytes)) : (l.all (fun a => nonEmpty (src.get a.1))) = true ↔ ∀ a ∈ l, ∃ c, src.get a.1 = some c ∧ c ≠ [] := by
  rw [List.all_eq_true]
  refine forall_congr' (fun a => forall_congr' (fun ha => ?_))
  cases src.get a.1 with
  | none => simp [nonEmpty]
  | some c => simp [nonEmpty]

theorem dir_none_iff (d : Disk) (n : Bytes) : ¬ (d.dir n).isSome = true ↔ d.dir n = none := by
  cases d.dir n <;> simp

theorem plan_iff (E : Env) (src : KV) (labels : List Nat) (tmp : Bytes) (d : Disk) (m : Mem) (q : Plan) :
    plan E src labels tmp d m = some q ↔ ∃ p, Planned E src labels tmp d m p ∧ q = planOf E src labels m p := by
  constructor
  · intro h
    unfold plan at h
    by_cases c1 : m.man.engine ≠ .laser
    · rw [if_pos c1] at h; cases h
    rw [if_neg c1] at h
    by_cases c2 : labels = []
    · rw [if_pos c2] at h; cases h
    rw [if_neg c2] at h
    by_cases c3 : (!(decide labels.Nodup)) = true
    · rw [if_pos c3] at h; cases h
    rw [if_neg c3] at h
    cases h1 : allIds d m.dirs with
    | none => rw [h1] at h; cases h
    | some ls =>
    rw [h1] at h
    simp only at h
    by_cases c4 : labels.any (fun l => ls.contains l) = true
    · rw [if_pos c4] at h; cases h
    rw [if_neg c4] at h
    cases h2 : loadParams E m.man.extras with
    | none => rw [h2] at h; cases h
    | some p =>
    rw [h2] at h
    simp only at h
    by_cases c5 : m.man.dim % 4294967296 = 0
    · rw [if_pos c5] at h; cases h
    rw [if_neg c5] at h
    by_cases c6 : (!(pow2 (m.man.dim % 4294967296))) = true
    · rw [if_pos c6] at h; cases h
    rw [if_neg c6] at h
    by_cases c7 : m.man.dim % 4294967296 < 128
    · rw [if_pos c7] at h; cases h
    rw [if_neg c7] at h
    by_cases c8 : p.mainDim ≠ 0 ∧ p.mainDim ≠ m.man.dim % 4294967296
    · rw [if_pos c8] at h; cases h
    rw [if_neg c8] at h
    by_cases c9 : (!(validSegmentId (formatSegmentId m.man.next))) = true
    · rw [if_pos c9] at h; cases h
    rw [if_neg c9] at h
    by_cases c10 : (d.dir (formatSegmentId m.man.next)).isSome = true
    · rw [if_pos c10] at h; cases h
    rw [if_neg c10] at h
    by_cases c11 : m.man.metric ≠ .l2
    · rw [if_pos c11] at h; cases h
    rw [if_neg c11] at h
    by_cases c12 : U64 ≤ labels.length * 8
    · rw [if_pos c12] at h; cases h
    rw [if_neg c12] at h
    by_cases c13 : (!((required (indexName (prefixOf (formatSegmentId m.man.next)) p.R (m.man.dim % 4294967296))).all
        (fun a => nonEmpty (src.get a.1)))) = true
    · rw [if_pos c13] at h; cases h
    rw [if_neg c13] at h
    by_cases c14 : headCount (src.get (indexName (prefixOf (formatSegmentId m.man.next)) p.R (m.man.dim % 4294967296))) ≠ some labels.length
    · rw [if_pos c14] at h; cases h
    rw [if_neg c14] at h
    by_cases c15 : (d.dir tmp).isSome = true
    · rw [if_pos c15] at h; cases h
    rw [if_neg c15] at h
    injection h with h
    refine ⟨p, {
      engine := Classical.not_not.1 c1
      ne := c2
      nodup := by simpa using c3
      ids := ⟨ls, h1, fun x hx hc => c4 (List.any_eq_true.2 ⟨x, hx, by simpa using hc⟩)⟩
      params := h2
      pow := by simpa using c6
      dim := by omega
      mainDim := by omega
      valid := (validSegmentId_iff _).1 (by simpa using c9)
      fresh := (dir_none_iff _ _).1 c10
      metric := Classical.not_not.1 c11
      size := by omega
      files := (files_iff src _).1 (by simpa using c13)
      head := Classical.not_not.1 c14
      tmp := (dir_none_iff _ _).1 c15 }, h.symm⟩
  · rintro ⟨p, h, rfl⟩
    obtain ⟨ls, h1, h2⟩ := h.ids
    have hdim := h.dim
    have hsz := h.size
    unfold plan
    rw [if_neg (by rw [h.engine]; simp), if_neg h.ne, if_neg (by simp [h.nodup]), h1]
    simp only
    rw [if_neg]
    · simp only [h.params]
      rw [if_neg (by omega), if_neg (by rw [h.pow]; simp), if_neg (by omega), if_neg (by have := h.mainDim; omega),
        if_neg (by rw [(validSegmentId_iff _).2 h.valid]; simp), if_neg ((dir_none_iff _ _).2 h.fresh), if_neg (by rw [h.metric]; simp),
        if_neg (by omega), if_neg (by rw [(files_iff src _).2 h.files]; simp), if_neg (by rw [h.head]; simp),
        if_neg ((dir_none_iff _ _).2 h.tmp)]
      rfl
    · intro hc
      obtain ⟨x, hx, hh⟩ := List.any_eq_true.1 hc
      exact h2 x hx (List.contains_iff_mem.1 hh)

theorem u32Of_lt {kv : KV} {key : Bytes} {fb n : Nat} (hf : fb < 2 ^ 32) (h : u32Of kv key fb = some n) : n < 2 ^ 32 := by
  unfold u32Of at h
  split at h
  · injection h with h; omega
  · split at h
    · cases h
    · split at h
      · cases h
      · split at h
        · injection h with h; omega
        · cases h

theorem loadParams_ok {E : Env} {kv : KV} {p : Params} (h : loadParams E kv = some p) : ParamsOk p := by
  unfold loadParams at h
  split at h
  · rename_i h1 h2 h3 h4 h5 h6
    injection h with h
    subst h
    exact ⟨u32Of_lt (by decide) h1, u32Of_lt (by decide) h3, u32Of_lt (by decide) h4⟩
  · cases h

/-! ### Opening what was imported -/

/-- The optional files that are there are not empty. -/
def OptionalOk (src : KV) (pre : Bytes) : Prop := ∀ a ∈ optional pre, src.get a.1 ≠ some []

theorem man_extras (E : Env) (p : Params) (src : KV) (name : Bytes) (dim n : Nat) : (manOf E p src name dim n).extras =
    kvOf (extraList E p src (prefixOf name) (indexName (prefixOf name) p.R dim) dim) := by
  unfold manOf
  rfl

theorem man_get {E : Env} {p : Params} {src : KV} {name : Bytes} {dim n : Nat} {k v : Bytes}
    (h : (k, v) ∈ extraList E p src (prefixOf name) (indexName (prefixOf name) p.R dim) dim) :
    (manOf E p src name dim n).extras.get k = some v := by
  rw [man_extras]
  exact extras_get h

theorem man_req {E : Env} {p : Params} {src : KV} {name : Bytes} {dim n : Nat} :
    ∀ a ∈ required (indexName (prefixOf name) p.R dim), (manOf E p src name dim n).extras.get a.2 = some a.1 := by
  intro a ha
  refine man_get ?_
  unfold extraList
  exact List.mem_append.2 (Or.inl (List.mem_append.2 (Or.inl (List.mem_append.2 (Or.inr (List.mem_map.2 ⟨a, ha, rfl⟩))))))

theorem man_opt {E : Env} {p : Params} {src : KV} {name : Bytes} {dim n : Nat} :
    ∀ a ∈ optional (prefixOf name), (src.get a.1).isSome = true → (manOf E p src name dim n).extras.get a.2 = some a.1 := by
  intro a ha hs
  refine man_get ?_
  unfold extraList
  exact List.mem_append.2 (Or.inl (List.mem_append.2 (Or.inr (List.mem_map.2 ⟨a, List.mem_filter.2 ⟨ha, hs⟩, rfl⟩))))

theorem opt_keys (pre : Bytes) : (optional pre).map (·.2) =
    [str "x_laser_medoids_file", str "x_laser_medoids_indices_file", str "x_laser_pca_file"] := rfl

theorem req_keys (idx : Bytes) : ((required idx).map (fun a => (a.2, a.1))).map (·.1) =
    [str "x_laser_index_file", str "x_laser_rotator_file", str "x_laser_cache_ids_file", str "x_laser_cache_nodes_file"] := rfl

theorem opt_other : ∀ k ∈ [str "x_laser_medoids_file", str "x_laser_medoids_indices_file", str "x_laser_pca_file"],
    k ∉ [str "x_laser_filename_prefix"] ∧
    k ∉ [str "x_laser_index_file", str "x_laser_rotator_file", str "x_laser_cache_ids_file", str "x_laser_cache_nodes_file"] ∧
    k ∉ [str "x_R", str "x_main_dim", str "x_default_ef", str "x_default_beam_width", str "x_laser_native_format_version",
      str "x_platform_requires", str "x_laser_search_dram_budget_gb", str "x_laser_distance_field_supported"] := by decide

theorem key_inj : ∀ {l : List (Bytes × Bytes)}, (l.map (·.2)).Nodup → ∀ {a b : Bytes × Bytes}, a ∈ l → b ∈ l → a.2 = b.2 → a = b
  | [], _, _, _, ha, _, _ => by cases ha
  | x :: l, h, a, b, ha, hb, e => by
    rw [List.map_cons, List.nodup_cons] at h
    rcases List.mem_cons.1 ha with ea | ha'
    · rcases List.mem_cons.1 hb with eb | hb'
      · rw [ea, eb]
      · exact absurd (List.mem_map.2 ⟨b, hb', by rw [← e, ea]⟩) h.1
    · rcases List.mem_cons.1 hb with eb | hb'
      · exact absurd (List.mem_map.2 ⟨a, ha', by rw [e, eb]⟩) h.1
      · exact key_inj h.2 ha' hb' e

theorem man_opt_none {E : Env} {p : Params} {src : KV} {name : Bytes} {dim n : Nat} :
    ∀ a ∈ optional (prefixOf name), src.get a.1 = none → (manOf E p src name dim n).extras.get a.2 = none := by
  intro a ha hs
  rw [man_extras]
  refine kvOf_get_none (fun hc => ?_)
  unfold extraList at hc
  rw [List.map_append, List.map_append, List.map_append, req_keys] at hc
  have hk : a.2 ∈ (optional (prefixOf name)).map (·.2) := List.mem_map.2 ⟨a, ha, rfl⟩
  rw [opt_keys] at hk
  obtain ⟨d1, d2, d3⟩ := opt_other _ hk
  rcases List.mem_append.1 hc with hc | hc
  · rcases List.mem_append.1 hc with hc | hc
    · rcases List.mem_append.1 hc with hc | hc
      · exact d1 hc
      · exact d2 hc
    · rw [List.map_map] at hc
      obtain ⟨a', ha', e⟩ := List.mem_map.1 hc
      obtain ⟨hm', hs'⟩ := List.mem_filter.1 ha'
      have e : a'.2 = a.2 := e
      have huniq : ((optional (prefixOf name)).map (·.2)).Nodup := by rw [opt_keys]; decide
      have : a' = a := key_inj huniq hm' ha e
      subst this
      rw [hs] at hs'
      cases hs'
  · exact d3 hc

theorem man_nums {E : Env} {p : Params} {src : KV} {name : Bytes} {dim n : Nat} :
    (manOf E p src name dim n).extras.get (str "x_laser_filename_prefix") = some (prefixOf name) ∧
    (manOf E p src name dim n).extras.get (str "x_R") = some (decStr p.R) ∧
    (manOf E p src name dim n).extras.get (str "x_main_dim") = some (decStr dim) ∧
    (manOf E p src name dim n).extras.get (str "x_laser_search_dram_budget_gb") = some (E.print p.budget) := by
  refine ⟨man_get ?_, man_get ?_, man_get ?_, man_get ?_⟩ <;> unfold extraList
  · exact List.mem_append.2 (Or.inl (List.mem_append.2 (Or.inl (List.mem_append.2 (Or.inl (List.Mem.head _))))))
  · exact List.mem_append.2 (Or.inr (List.Mem.head _))
  · exact List.mem_append.2 (Or.inr (List.Mem.tail _ (List.Mem.head _)))
  · exact List.mem_append.2 (Or.inr (List.Mem.tail _ (List.Mem.tail _ (List.Mem.tail _ (List.Mem.tail _ (List.Mem.tail _ (List.Mem.tail _ (List.Mem.head _))))))))

theorem reqExtra_eq {kv : KV} {k v : Bytes} (h1 : kv.get k = some v) (h2 : v ≠ []) : reqExtra kv k = some v := by
  unfold reqExtra
  rw [h1]
  simp only
  rw [if_neg h2]

theorem u32Req_eq {kv : KV} {k : Bytes} {n : Nat} (h1 : kv.get k = some (decStr n)) (h2 : n ≠ 0) (h3 : n < 2 ^ 32) : u32Req kv k = some n := by
  unfold u32Req
  rw [reqExtra_eq h1 (decStr_ne_nil n)]
  simp only
  rw [(parse_dec_iff _ n).2 ⟨decStr_isDecimal n, by omega⟩]
  simp only
  rw [if_neg (by omega)]

theorem artOk_eq {files kv : KV} {k v c : Bytes} (h1 : kv.get k = some v) (hb : BaseName v) (h2 : files.get v = some c) (h3 : c ≠ []) (r : Bool) :
    artOk files kv k r = true := by
  unfold artOk
  rw [h1]
  simp only
  rw [h2, (validBasename_iff _).2 hb]
  have := hb.1
  simp [this, h3, nonEmpty]

theorem artKeys_split (idx pre : Bytes) : ∀ a ∈ artKeys, (∃ x ∈ required idx, a = (x.2, true)) ∨ (∃ x ∈ optional pre, a = (x.2, false)) := by
  intro a ha
  unfold artKeys at ha
  unfold required optional
  simp only [List.mem_cons, List.not_mem_nil, or_false, exists_eq_or_imp, exists_eq_left] at ha ⊢
  rcases ha with h | h | h | h | h | h | h
  · exact Or.inl (Or.inl h)
  · exact Or.inl (Or.inr (Or.inl h))
  · exact Or.inl (Or.inr (Or.inr (Or.inl h)))
  · exact Or.inl (Or.inr (Or.inr (Or.inr h)))
  · exact Or.inr (Or.inl h)
  · exact Or.inr (Or.inr (Or.inl h))
  · exact Or.inr (Or.inr (Or.inr h))

/-- The checks hold for the files of an import. -/
theorem import_checks {E : Env} (hE : TextOk E) {src files : KV} {p : Params} (hp : ParamsOk p) {name : Bytes} (hvalid : SegName name)
    {dim n : Nat} (hdim : 0 < dim ∧ dim < 2 ^ 32) (hn : 0 < n ∧ n < 2 ^ 32) (hR : p.R ≠ 0) (ho : OptionalOk src (prefixOf name))
    {b : Nat} (hb : E.parse (E.print p.budget) = some b)
    (hfile : ∀ a ∈ required (indexName (prefixOf name) p.R dim) ++ optional (prefixOf name), files.get a.1 = src.get a.1)
    (hsrc : ∀ a ∈ required (indexName (prefixOf name) p.R dim), ∃ c, src.get a.1 = some c ∧ c ≠ [])
    (hhead : headCount (src.get (indexName (prefixOf name) p.R dim)) = some n)
    (hgm : files.get manName = some (manOf E p src name dim n).save) :
    Checks E files (manOf E p src name dim n) (prefixOf name) p.R dim b := by
  have hpre := prefix_plain hvalid
  have hidx := index_plain hpre p.R dim
  have hnames := names_plain hpre hidx
  have hload := man_load hE hp src hvalid hdim ⟨hn.1, Nat.lt_trans hn.2 (by decide)⟩
  obtain ⟨gp, gR, gM, gB⟩ := man_nums (E := E) (p := p) (src := src) (name := name) (dim := dim) (n := n)
  have hreq := man_req (E := E) (p := p) (src := src) (name := name) (dim := dim) (n := n)
  have hopt := man_opt (E := E) (p := p) (src := src) (name := name) (dim := dim) (n := n)
  have hoptn := man_opt_none (E := E) (p := p) (src := src) (name := name) (dim := dim) (n := n)
  have hm : (indexName (prefixOf name) p.R dim, str "x_laser_index_file") ∈ required (indexName (prefixOf name) p.R dim) := List.Mem.head _
  have gi := hreq _ hm
  have e1 : (manOf E p src name dim n).dim = dim := rfl
  have e2 : (manOf E p src name dim n).count = n := rfl
  have e3 : (manOf E p src name dim n).engine = .laser := rfl
  have e4 : (manOf E p src name dim n).metric = .l2 := rfl
  generalize manOf E p src name dim n = sm at *
  exact {
    man := ⟨_, hgm, hload⟩
    engine := e3
    dim := by rw [e1]; exact hdim
    count := by rw [e2]; exact hn
    metric := e4
    hPre := reqExtra_eq gp hpre.base.1
    preName := (validBasename_iff _).2 hpre.base
    hR := u32Req_eq gR hR hp.R
    hMd := u32Req_eq gM (by omega) hdim.2
    index := reqExtra_eq gi hidx.base.1
    indexOk := (validBasename_iff _).2 hidx.base
    head := by
      have := hfile _ (List.mem_append.2 (Or.inl hm))
      rw [this, e2]
      exact hhead
    arts := by
      rw [List.all_eq_true]
      intro a ha
      rcases artKeys_split (indexName (prefixOf name) p.R dim) (prefixOf name) a ha with ⟨x, hx', rfl⟩ | ⟨x, hx', rfl⟩
      · obtain ⟨c, h1, h2⟩ := hsrc x hx'
        have hm' := List.mem_append.2 (Or.inl hx' : x ∈ required (indexName (prefixOf name) p.R dim) ∨ x ∈ optional (prefixOf name))
        exact artOk_eq (hreq x hx') (hnames x hm').base ((hfile x hm').trans h1) h2 true
      · have hm' := List.mem_append.2 (Or.inr hx' : x ∈ required (indexName (prefixOf name) p.R dim) ∨ x ∈ optional (prefixOf name))
        cases hs : src.get x.1 with
        | none =>
          unfold artOk
          simp only
          rw [hoptn x hx' hs]
          rfl
        | some c =>
          refine artOk_eq (hopt x hx' (by rw [hs]; rfl)) (hnames x hm').base ((hfile x hm').trans hs) ?_ false
          rintro rfl
          exact ho x hx' hs
    budget := by
      unfold budgetOf
      rw [gB]
      simp only
      rw [if_neg (hE.line p.budget).2.2, hb] }

/-- The files of an import agree with the source. -/
theorem complete_files {E : Env} {src : KV} {labels : List Nat} {d' : Disk} {m : Mem} {p : Params}
    (hv : SegName (formatSegmentId m.man.next)) (hc : Complete (planOf E src labels m p) d') :
    ∃ files, d'.dir (formatSegmentId m.man.next) = some files ∧
      files.get manName = some (manOf E p src (formatSegmentId m.man.next) (m.man.dim % 4294967296) labels.length).save ∧
      files.get idsName = some (labels.flatMap (leBytes 8)) ∧
      ∀ a ∈ required (indexName (prefixOf (formatSegmentId m.man.next)) p.R (m.man.dim % 4294967296)) ++
        optional (prefixOf (formatSegmentId m.man.next)), files.get a.1 = src.get a.1 := by
  obtain ⟨files, hd, hg⟩ := hc
  refine ⟨files, hd, ?_, ?_, ?_⟩
  · rw [hg]; unfold wanted; rw [if_pos rfl]; rfl
  · rw [hg]; unfold wanted; rw [if_neg (by decide), if_pos rfl]; rfl
  · intro a ha
    have hpre := prefix_plain hv
    obtain ⟨⟨t, ht⟩, _⟩ := names_plain hpre (index_plain hpre _ _) a ha
    rw [hg]; unfold wanted
    rw [if_neg, if_neg]
    · show (kvOf (copied src _ _)).get a.1 = _
      unfold copied
      rw [kvOf_copied, if_pos (List.mem_map.2 ⟨a, ha, rfl⟩)]
    · rw [ht]; simp [idsName, str]
    · rw [ht]; simp [manName, str]

/-- The searcher on a complete import. -/
theorem open_built {E : Env} (hE : TextOk E) {src : KV} {labels : List Nat} {tmp : Bytes} {d d' : Disk} {m : Mem} {p : Params}
    (h : Planned E src labels tmp d m p) (hc : Complete (planOf E src labels m p) d') (hl : labels.length < 2 ^ 32) (hR : p.R ≠ 0)
    (ho : OptionalOk src (prefixOf (formatSegmentId m.man.next))) {b : Nat} (hb : E.parse (E.print p.budget) = some b) :
    openSeg E (d'.dir (formatSegmentId m.man.next)) =
      (loadNative E src (prefixOf (formatSegmentId m.man.next)) p.R (m.man.dim % 4294967296) (m.man.dim % 4294967296) labels.length b).map
        (Option.map (fun nat => ⟨m.man.dim % 4294967296, labels.length, p.R, m.man.dim % 4294967296, labels.flatMap (leBytes 8), nat⟩)) := by
  obtain ⟨files, hd, hgm, hgi, hfile⟩ := complete_files h.valid hc
  have hdim := h.dim
  have hck := import_checks (src := src) (dim := m.man.dim % 4294967296) (n := labels.length) hE (loadParams_ok h.params) h.valid
    ⟨by omega, Nat.mod_lt _ (by decide)⟩ ⟨List.length_pos_iff.2 h.ne, hl⟩ hR ho hb hfile
    h.files h.head hgm
  rw [hd, openSeg_eq hck]
  unfold tailOf
  rw [loadNative_congr _ _ _ hfile]
  show (match loadNative E src (prefixOf (formatSegmentId m.man.next)) p.R (m.man.dim % 4294967296) (m.man.dim % 4294967296) labels.length b with
    | none => none
    | some none => some none
    | some (some nat) => match files.get idsName with
      | none => some none
      | some i => if i.length ≠ labels.length * 8 then some none
          else some (some (LSeg.mk (m.man.dim % 4294967296) labels.length p.R (m.man.dim % 4294967296) i nat))) = _
  generalize loadNative E src (prefixOf (formatSegmentId m.man.next)) p.R (m.man.dim % 4294967296) (m.man.dim % 4294967296) labels.length b = o
  match o with
  | none => rfl
  | some none => rfl
  | some (some nat) =>
    simp only [hgi]
    rw [if_neg (by rw [flatMap_le_length]; simp)]
    rfl

/-- Conversely, what the searcher needs. -/
theorem open_needs {E : Env} (hE : TextOk E) {src : KV} {labels : List Nat} {tmp : Bytes} {d d' : Disk} {m : Mem} {p : Params}
    (h : Planned E src labels tmp d m p) (hc : Complete (planOf E src labels m p) d')
    (hne : openSeg E (d'.dir (formatSegmentId m.man.next)) ≠ some none) :
    labels.length < 2 ^ 32 ∧ p.R ≠ 0 ∧ OptionalOk src (prefixOf (formatSegmentId m.man.next)) ∧ ∃ b, E.parse (E.print p.budget) = some b := by
  obtain ⟨files, hd, hgm, hgi, hfile⟩ := complete_files h.valid hc
  have hdim := h.dim
  have hlen := List.length_pos_iff.2 h.ne
  have hload := man_load hE (loadParams_ok h.params) src h.valid (dim := m.man.dim % 4294967296) (n := labels.length)
    ⟨by omega, Nat.mod_lt _ (by decide)⟩ ⟨hlen, by have := h.size; rw [U64_eq] at this; omega⟩
  obtain ⟨gp, gR, gM, gB⟩ := man_nums (E := E) (p := p) (src := src) (name := formatSegmentId m.man.next) (dim := m.man.dim % 4294967296)
    (n := labels.length)
  have hopt := man_opt (E := E) (p := p) (src := src) (name := formatSegmentId m.man.next) (dim := m.man.dim % 4294967296) (n := labels.length)
  have e2 : (manOf E p src (formatSegmentId m.man.next) (m.man.dim % 4294967296) labels.length).count = labels.length := rfl
  rcases openSeg_cases E (d'.dir (formatSegmentId m.man.next)) with hn | ⟨f', sm, pre, R, md, b, hd', hck⟩
  · exact absurd hn hne
  rw [hd] at hd'
  injection hd' with hd'
  subst hd'
  obtain ⟨t, t1, t2⟩ := hck.man
  rw [hgm] at t1
  injection t1 with t1
  subst t1
  rw [hload] at t2
  injection t2 with t2
  rw [t2] at e2 gR gB hopt
  clear t2 hload hgm
  refine ⟨e2 ▸ hck.count.2, ?_, ?_, ?_⟩
  · rintro hR
    have := hck.hR
    unfold u32Req at this
    rw [reqExtra_eq gR (decStr_ne_nil _)] at this
    simp only at this
    rw [(parse_dec_iff _ p.R).2 ⟨decStr_isDecimal _, by rw [hR]; decide⟩] at this
    simp only at this
    rw [if_pos (Or.inl hR)] at this
    cases this
  · intro a ha he
    have hk := hopt a ha (by rw [he]; rfl)
    have hall := List.all_eq_true.1 hck.arts
    have hin : (a.2, false) ∈ artKeys := by
      unfold optional at ha
      simp only [List.mem_cons, List.not_mem_nil, or_false] at ha
      rcases ha with rfl | rfl | rfl <;> (unfold artKeys; simp)
    have := hall _ hin
    unfold artOk at this
    simp only at this
    rw [hk] at this
    simp only at this
    rw [hfile a (List.mem_append.2 (Or.inr ha)), he] at this
    simp [nonEmpty] at this
  · have := hck.budget
    unfold budgetOf at this
    rw [gB] at this
    simp only at this
    rw [if_neg (hE.line p.budget).2.2] at this
    exact ⟨b, this⟩

end Alaya.LaserSeg
