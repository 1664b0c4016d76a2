import Verif.Lemmas.VamanaSeg

/-! The invariant of Vamana collections over histories. -/
namespace Alaya.VamanaSeg
open Alaya Alaya.TopK Alaya.DiskFlat Alaya.DiskManifest Alaya.DiskColl2

/-- The files of the pending rows. -/
def pendSeg (m : Mem) : Segment :=
  ⟨m.man.dim, m.pendL.length, .l2, m.pendL.flatMap (leBytes 8), m.pendV.flatMap (leBytes 4)⟩

/-- A plan that succeeded. -/
structure Planned (d : Disk) (m : Mem) (name : Bytes) (s : Segment) : Prop where
  nodup : m.pendL.Nodup
  ids : ∃ ls, allIds d m.dirs = some ls ∧ ∀ x ∈ m.pendL, x ∉ ls
  two : 2 ≤ m.pendL.length
  finite : ∀ v ∈ m.pendV, finite32 v = true
  named : name = formatSegmentId m.man.next
  valid : SegName name
  fresh : d.dir name = none
  metric : m.man.metric = .l2
  data : s = pendSeg m
  opens : s.opens = true
  labels : s.labels = m.pendL

theorem plan_some {d : Disk} {m : Mem} {name : Bytes} {s : Segment} (hm : PendOk m) (h : plan d m = some (name, s)) :
    Planned d m name s := by
  obtain ⟨hd, hv, hl, hacc⟩ := hm
  unfold plan at h
  by_cases h1 : m.pendL.Nodup
  case neg => rw [if_pos (by simp [h1])] at h; cases h
  rw [if_neg (by simp [h1])] at h
  cases h2 : allIds d m.dirs with
  | none => rw [h2] at h; cases h
  | some ls =>
    rw [h2] at h
    simp only at h
    by_cases h3 : m.pendL.any (fun l => ls.contains l) = true
    · rw [if_pos h3] at h; cases h
    rw [if_neg h3] at h
    by_cases htwo : m.pendL.length < 2
    · rw [if_pos htwo] at h; cases h
    rw [if_neg htwo] at h
    have hmod : m.man.dim % 4294967296 = m.man.dim := Nat.mod_eq_of_lt (by omega)
    rw [hmod] at h
    by_cases h4 : m.man.dim = 0
    · rw [if_pos h4] at h; cases h
    rw [if_neg h4] at h
    cases h5 : Builder.addBatch ⟨m.man.dim, m.man.metric, [], [], false⟩ m.pendV m.pendL with
    | none => rw [h5] at h; cases h
    | some b' =>
      rw [h5] at h
      simp only at h
      by_cases hmet : m.man.metric ≠ .l2
      · rw [if_pos hmet] at h; cases h
      rw [if_neg hmet] at h
      by_cases h6 : validSegmentId (formatSegmentId m.man.next) = true
      case neg => rw [if_pos (by simp [h6])] at h; cases h
      rw [if_neg (by simp [h6])] at h
      by_cases h7 : (d.dir (formatSegmentId m.man.next)).isSome = true
      · rw [if_pos h7] at h; cases h
      rw [if_neg h7] at h
      injection h with h
      injection h with e1 e2
      have hl2 : m.man.metric = .l2 := by simpa using hmet
      have hb : b' = ⟨m.man.dim, m.man.metric, m.pendV, m.pendL, false⟩ ∧ m.pendV.all finite32 = true := by
        unfold Builder.addBatch at h5
        simp only at h5
        rw [if_neg (by simp), if_neg (by omega)] at h5
        by_cases h9 : U64 ≤ m.pendL.length * m.man.dim
        · rw [if_pos h9] at h5; cases h5
        rw [if_neg h9] at h5
        by_cases h10 : m.pendV.all finite32 = true
        · rw [if_pos h10] at h5
          injection h5 with h5
          exact ⟨by rw [← h5]; simp, h10⟩
        · rw [if_neg h10] at h5; cases h5
      obtain ⟨hb, hfin⟩ := hb
      have hs : s = pendSeg m := by
        rw [← e2, hb]
        unfold dataOf pendSeg
        simp only [hl2]
      have hexp : accounted m.man.dim m.pendL.length = 8 * (m.pendL.length * m.man.dim) + 16 * m.pendL.length := by
        unfold accounted
        rw [Nat.mul_add, Nat.mul_assoc, Nat.mul_left_comm m.pendL.length 4, ← Nat.mul_assoc]
        omega
      rw [hexp] at hacc
      refine { nodup := h1, ids := ⟨ls, h2, ?_⟩, two := by omega, finite := List.all_eq_true.1 hfin, named := e1.symm, valid := ?_,
               fresh := ?_, metric := hl2, data := hs, opens := ?_, labels := ?_ }
      · intro x hx hc
        refine h3 (List.any_eq_true.2 ⟨x, hx, ?_⟩)
        simpa using hc
      · rw [← e1]; exact (validSegmentId_iff _).1 h6
      · rw [← e1]
        cases hd : d.dir (formatSegmentId m.man.next) with
        | none => rfl
        | some _ => rw [hd] at h7; exact absurd rfl h7
      · rw [hs]
        unfold pendSeg Segment.opens
        simp only [Bool.and_eq_true, decide_eq_true_eq]
        rw [flatMap_le_length, flatMap_le_length, U64_eq, hv]
        refine ⟨⟨⟨⟨⟨⟨⟨h4, by omega⟩, ?_⟩, ?_⟩, ?_⟩, hd⟩, rfl⟩, rfl⟩ <;> omega
      · rw [hs]
        unfold pendSeg Segment.labels
        exact labelsOf_flatMap _ hl

/-- When a plan succeeds. -/
theorem plan_ok {d : Disk} {m : Mem} (hm : PendOk m) (h0 : m.man.dim ≠ 0) {ls : List Nat} (hls : allIds d m.dirs = some ls)
    (hnd : (ls ++ m.pendL).Nodup) (h2 : 2 ≤ m.pendL.length) (hfin : ∀ x ∈ m.pendV, finite32 x = true) (hl2 : m.man.metric = .l2)
    (hn : m.man.next < 10 ^ 8) (hfree : d.dir (formatSegmentId m.man.next) = none) :
    plan d m = some (formatSegmentId m.man.next, pendSeg m) := by
  obtain ⟨hd, hv, hl, hacc⟩ := hm
  rw [List.nodup_append] at hnd
  have hexp : accounted m.man.dim m.pendL.length = 8 * (m.pendL.length * m.man.dim) + 16 * m.pendL.length := by
    unfold accounted
    rw [Nat.mul_add, Nat.mul_assoc, Nat.mul_left_comm m.pendL.length 4, ← Nat.mul_assoc]
    omega
  rw [hexp] at hacc
  unfold plan
  rw [if_neg (by simp [hnd.2.1]), hls]
  simp only
  rw [if_neg, if_neg (by omega), show m.man.dim % 4294967296 = m.man.dim from Nat.mod_eq_of_lt (by omega), if_neg h0]
  · have : Builder.addBatch ⟨m.man.dim, m.man.metric, [], [], false⟩ m.pendV m.pendL =
        some ⟨m.man.dim, m.man.metric, m.pendV, m.pendL, false⟩ := by
      unfold Builder.addBatch
      simp only
      rw [if_neg (by simp), if_neg (by omega), if_neg (by rw [U64_eq]; omega), if_pos (List.all_eq_true.2 hfin)]
      simp
    rw [this]
    simp only
    rw [if_neg (by simp [hl2]), if_neg (by rw [(validSegmentId_iff _).2 (formatSegmentId_name hn)]; simp), if_neg (by rw [hfree]; simp)]
    unfold dataOf pendSeg
    rw [hl2]
  · intro hc
    obtain ⟨x, hx, hh⟩ := List.any_eq_true.1 hc
    exact hnd.2.2 x (List.contains_iff_mem.1 hh) x hx rfl

/-- Outcomes of a flush. -/
inductive Outcome (F : FloatText) (p : Params) (x : Built) (tmp : Bytes) (f : Fault) (d : Disk) (m : Mem) :
    Disk × Option Mem × Res → Prop where
  | idle : m.pendL = [] → Outcome F p x tmp f d m (d, some m, .ok)
  | same (d' : Disk) (o : Option Mem) (r : Res) : r ≠ .ok → (o = some m ∨ o = none) → m.pendL ≠ [] → Frame tmp d d' →
      Outcome F p x tmp f d m (d', o, r)
  | built (d' : Disk) (name : Bytes) (s : Segment) (o : Option Mem) (r : Res) : r ≠ .ok →
      (o = some m ∨ o = none ∨ o = some { m with man := { m.man with next := m.man.next + 1 } }) → Planned d m name s →
      d'.man = d.man → Complete F p x d' name s → (∀ y, y ≠ tmp → y ≠ name → d'.dir y = d.dir y) →
      Outcome F p x tmp f d m (d', o, r)
  | done (d' : Disk) (name : Bytes) (s : Segment) (w : VSeg) (o : Option Mem) (r : Res) :
      ((o = some (committed m name) ∧ r = .ok) ∨ (r ≠ .ok ∧ (o = none ∨ (o = some { m with man := nextMan m name } ∧ ∃ i, f = .push i)))) →
      Planned d m name s → d'.man = some (nextMan m name).save → Complete F p x d' name s →
      (∀ y, y ≠ tmp → y ≠ name → d'.dir y = d.dir y) → openSeg (d'.dir name) = some w → w.seg = s →
      Outcome F p x tmp f d m (d', o, r)

theorem flush_outcome {F : FloatText} (hF : TextOk F) {p : Params} (hp : ParamsOk p) {x : Built} (hx : x.medoid < 2 ^ 32) (mids : List Bytes)
    {tmp : Bytes} (ht : ¬ SegName tmp) (f : Fault) (d : Disk) {m : Mem} (hm : PendOk m) :
    Outcome F p x tmp f d m (flush F p x mids tmp f d m) := by
  unfold flush
  by_cases h0 : m.pendL = []
  · rw [if_pos h0]; exact .idle h0
  rw [if_neg h0]
  cases hpl : plan d m with
  | none => exact .same d _ _ (by simp) (Or.inl rfl) h0 (Frame.refl _ _)
  | some q =>
    obtain ⟨name, s⟩ := q
    have pl := plan_some hm hpl
    have hne : tmp ≠ name := fun e => ht (e ▸ pl.valid)
    have hseg := run_seg F p x mids d tmp name s hne pl.fresh
    have hall := run_all F p x mids d tmp name s (nextMan m name).save hne pl.fresh
    have hpre := run_prefix F p x mids d tmp name s (nextMan m name).save hne pl.fresh
    have hsp := seg_prefix F p x mids d tmp name s
    have hpub : ∀ k, k ≤ 1 → ∀ c, (d.run (segSteps F p x mids tmp name s)).run ([FStep.tmpMan, FStep.pub c].take k) =
        d.run (segSteps F p x mids tmp name s) := by
      intro k hk c
      match k, hk with
      | 0, _ => rfl
      | 1, _ => rfl
    have hdir : (d.run (segSteps F p x mids tmp name s ++ [FStep.tmpMan, FStep.pub (nextMan m name).save])).dir name =
        (d.run (segSteps F p x mids tmp name s)).dir name := by
      rw [run_append]
      exact (run_pub _ _).2 name
    simp only
    generalize segSteps F p x mids tmp name s = a at *
    -- the segment is there but refused
    have notOpen : ∀ r : Res, r ≠ .ok → Outcome F p x tmp f d m (d.run a, some m, r) := fun r hr =>
      .built _ name s _ _ hr (Or.inl rfl) pl hseg.1 hseg.2.1 hseg.2.2
    -- everything went well
    have fin : (openSeg ((d.run a).dir name)).isSome = true → ∀ (o : Option Mem) (r : Res),
        ((o = some (committed m name) ∧ r = .ok) ∨ (r ≠ .ok ∧ (o = none ∨ (o = some { m with man := nextMan m name } ∧ ∃ i, f = .push i)))) →
        Outcome F p x tmp f d m (d.run (a ++ [FStep.tmpMan, FStep.pub (nextMan m name).save]), o, r) := by
      intro ho o r hr
      obtain ⟨w, hw⟩ := Option.isSome_iff_exists.1 ho
      rw [← hdir] at hw
      exact .done _ name s w o r hr pl hall.1 hall.2.1 hall.2.2 hw (complete_seg hF hp hx hall.2.1 pl.valid pl.opens hw)
    cases f with
    | none =>
      simp only
      split
      · exact fin (by assumption) _ _ (Or.inl ⟨rfl, rfl⟩)
      · exact notOpen _ (by simp)
    | crash i =>
      simp only
      split
      · rename_i ho
        have hr := hpre i
        rcases hr with hf | ⟨b1, b2, b3⟩ | ⟨b1, b2, b3⟩
        · exact .same _ _ _ (by simp) (Or.inr rfl) h0 hf
        · exact .built _ name s _ _ (by simp) (Or.inr (Or.inl rfl)) pl b1 b2 b3
        · obtain ⟨w, hw⟩ := Option.isSome_iff_exists.1 ho
          have hsame : (d.run ((a ++ [FStep.tmpMan, FStep.pub (nextMan m name).save]).take i)).dir name = (d.run a).dir name := by
            by_cases hi : a.length ≤ i
            · rw [List.take_append, List.take_of_length_le hi, run_append]
              generalize i - a.length = j
              match j with
              | 0 => rfl
              | 1 => rfl
              | j + 2 =>
                rw [show List.take (j + 2) [FStep.tmpMan, FStep.pub (nextMan m name).save] = [FStep.tmpMan, FStep.pub (nextMan m name).save] by simp]
                exact (run_pub _ _).2 name
            · exfalso
              rcases hsp i with hf | hf
              · rw [List.take_append, show i - a.length = 0 by omega, List.take_zero, List.append_nil] at b2
                obtain ⟨files, g, _⟩ := b2
                rw [hf.2 name (Ne.symm hne), pl.fresh] at g
                cases g
              · exact hi hf
          rw [← hsame] at hw
          exact .done _ name s w _ _ (Or.inr ⟨by simp, Or.inl rfl⟩) pl b1 b2 b3 hw (complete_seg hF hp hx b2 pl.valid pl.opens hw)
      · rcases hsp i with hf | hf
        · exact .same _ _ _ (by simp) (Or.inr rfl) h0 hf
        · rw [List.take_of_length_le hf]
          exact .built _ name s _ _ (by simp) (Or.inr (Or.inl rfl)) pl hseg.1 hseg.2.1 hseg.2.2
    | seg i left =>
      simp only
      split
      · rename_i hi
        rcases hsp i with hf | hf
        · exact .same _ _ _ (by simp) (Or.inl rfl) h0 (Frame.trans hf (frame_leave tmp _ left))
        · omega
      · split
        · exact fin (by assumption) _ _ (Or.inl ⟨rfl, rfl⟩)
        · exact notOpen _ (by simp)
    | searcher => exact notOpen _ (by simp)
    | publish i =>
      simp only
      split
      · rw [run_append, hpub _ (Nat.min_le_right i 1)]
        exact .built _ name s _ _ (by simp) (Or.inr (Or.inr rfl)) pl hseg.1 hseg.2.1 hseg.2.2
      · exact notOpen _ (by simp)
    | push i =>
      simp only
      split
      · exact fin (by assumption) _ _ (Or.inr ⟨by simp, Or.inr ⟨rfl, i, rfl⟩⟩)
      · exact notOpen _ (by simp)

/-! ### The invariant -/

/-- The labels stored in the files of a segment directory. -/
def segLabels (d : Disk) (n : Bytes) : List Nat := ((openSeg (d.dir n)).map (fun v => v.seg.labels)).getD []

/-- All labels of the segments a manifest lists. -/
def published (d : Disk) (m : ColMan) : List Nat := m.segs.flatMap (segLabels d)

/-- The published manifest and the listed segments. -/
structure DiskInv (F : FloatText) (D cap : Nat) (p : Params) (d : Disk) (m : ColMan) : Prop where
  man : d.man = some m.save
  valid : m.Valid
  engine : m.engine = .vamana
  metric : m.metric = .l2
  dim : m.dim = D
  extras : m.extras = extrasOf F cap p
  next : m.next ≤ 10 ^ 8
  nodup : m.segs.Nodup
  segs : ∀ n ∈ m.segs, ∃ v, openSeg (d.dir n) = some v

/-- The parameters of an open collection are the stored ones; `alpha` may have gone through its text. -/
def ParamsOf (F : FloatText) (p q : Params) : Prop :=
  q.R = p.R ∧ q.L = p.L ∧ q.seed = p.seed ∧ q.threads = p.threads ∧ (q.alpha = p.alpha ∨ F.parse (F.print p.alpha) = some q.alpha)

theorem ParamsOf.ok {F : FloatText} (hF : TextOk F) {p q : Params} (hp : ParamsOk p) (h : ParamsOf F p q) : ParamsOk q := by
  obtain ⟨h1, h2, h3, h4, h5⟩ := h
  have ha : alphaOk q.alpha = true := by
    rcases h5 with h5 | h5
    · rw [h5]; exact hp.alpha
    · obtain ⟨a, e, ho⟩ := hF.back _ hp.alpha
      rw [h5] at e
      injection e with e
      rw [e]; exact ho
  have := hp.ok
  refine ⟨?_, by rw [h1]; exact hp.R, by rw [h2]; exact hp.L, by rw [h3]; exact hp.seed, by rw [h4]; exact hp.threads⟩
  unfold Params.ok at this ⊢
  rw [h1, h2, ha]
  simp only [Bool.and_eq_true] at this ⊢
  exact ⟨this.1, trivial⟩

theorem DiskInv.same {F : FloatText} {D cap : Nat} {p : Params} {d d' : Disk} {m : ColMan} (h : DiskInv F D cap p d m)
    (hm : d'.man = d.man) (hs : ∀ n ∈ m.segs, d'.dir n = d.dir n) : DiskInv F D cap p d' m :=
  { man := hm.trans h.man, valid := h.valid, engine := h.engine, metric := h.metric, dim := h.dim, extras := h.extras, next := h.next,
    nodup := h.nodup, segs := fun n hn => by rw [hs n hn]; exact h.segs n hn }

theorem DiskInv.frame_dirs {F : FloatText} {D cap : Nat} {p : Params} {d d' : Disk} {m : ColMan} {tmp : Bytes}
    (h : DiskInv F D cap p d m) (ht : ¬ SegName tmp) (hf : Frame tmp d d') : ∀ n ∈ m.segs, d'.dir n = d.dir n := by
  intro n hn
  exact hf.2 n (fun e => ht (e ▸ h.valid.segNames n hn))

theorem DiskInv.fresh_not_mem {F : FloatText} {D cap : Nat} {p : Params} {d : Disk} {m : ColMan} {name : Bytes}
    (h : DiskInv F D cap p d m) (hn : d.dir name = none) : name ∉ m.segs := by
  intro hm
  obtain ⟨s, hs⟩ := h.segs name hm
  have := openSeg_dir hs
  rw [hn] at this; cases this

theorem DiskInv.other_dirs {F : FloatText} {D cap : Nat} {p : Params} {d d' : Disk} {m : ColMan} {tmp name : Bytes}
    (h : DiskInv F D cap p d m) (ht : ¬ SegName tmp) (hn : d.dir name = none)
    (hf : ∀ x, x ≠ tmp → x ≠ name → d'.dir x = d.dir x) : ∀ n ∈ m.segs, d'.dir n = d.dir n := by
  intro n hm
  exact hf n (fun e => ht (e ▸ h.valid.segNames n hm)) (fun e => h.fresh_not_mem hn (e ▸ hm))

theorem DiskInv.publish {F : FloatText} {D cap : Nat} {p : Params} {d d' : Disk} {m : ColMan} {mm : Mem} {tmp name : Bytes}
    {s : Segment} {w : VSeg} (h : DiskInv F D cap p d m) (hmm : MemInv D m mm) (ht : ¬ SegName tmp) (pl : Planned d mm name s)
    (hman : d'.man = some (nextMan mm name).save) (hoth : ∀ y, y ≠ tmp → y ≠ name → d'.dir y = d.dir y)
    (hw : openSeg (d'.dir name) = some w) : DiskInv F D cap p d' (nextMan mm name) := by
  obtain ⟨e1, e2, e3, e4, e5, e6⟩ := hmm.manEq
  have hlt : mm.man.next < 10 ^ 8 := next_lt (pl.named ▸ pl.valid)
  have hseg : (nextMan mm name).segs = m.segs ++ [name] := by unfold nextMan; simp only; rw [e4]
  exact {
    man := hman
    valid := {
      version := by unfold nextMan; simp only; rw [e6]; exact h.valid.version
      dim := by unfold nextMan; simp only; rw [e1]; exact h.valid.dim
      next := by unfold nextMan; simp only; omega
      segNames := by
        intro n hn
        rw [hseg] at hn
        rcases List.mem_append.1 hn with hn | hn
        · exact h.valid.segNames n hn
        · rw [List.mem_singleton.1 hn]; exact pl.valid
      extrasAsc := by unfold nextMan; simp only; rw [e5]; exact h.valid.extrasAsc
      extras := by unfold nextMan; simp only; rw [e5]; exact h.valid.extras }
    engine := by unfold nextMan; simp only; rw [e3]; exact h.engine
    metric := by unfold nextMan; simp only; rw [e2]; exact h.metric
    dim := by unfold nextMan; simp only; rw [e1]; exact h.dim
    extras := by unfold nextMan; simp only; rw [e5]; exact h.extras
    next := by unfold nextMan; simp only; omega
    nodup := by
      rw [hseg, List.nodup_append]
      refine ⟨h.nodup, by simp, ?_⟩
      intro a ha b hb e
      rw [List.mem_singleton] at hb
      subst hb; subst e
      exact h.fresh_not_mem pl.fresh ha
    segs := by
      intro n hn
      rw [hseg] at hn
      rcases List.mem_append.1 hn with hn | hn
      · rw [h.other_dirs ht pl.fresh hoth n hn]; exact h.segs n hn
      · rw [List.mem_singleton.1 hn]; exact ⟨w, hw⟩ }

/-! ### Opening -/

/-- The stored texts that are read again. -/
theorem extras_get (F : FloatText) (cap : Nat) (p : Params) :
    (extrasOf F cap p).get (str "x_max_pending_bytes") = some (decStr cap) ∧ (extrasOf F cap p).get (str "x_vamana_R") = some (decStr p.R) ∧
    (extrasOf F cap p).get (str "x_vamana_L") = some (decStr p.L) ∧ (extrasOf F cap p).get (str "x_vamana_alpha") = some (F.print p.alpha) ∧
    (extrasOf F cap p).get (str "x_vamana_seed") = some (decStr p.seed) ∧
    (extrasOf F cap p).get (str "x_vamana_num_threads") = some (decStr p.threads) := by
  have pos : ∀ (k v : Bytes) (l : KV), KV.get ((k, v) :: l) k = some v := by
    intro k v l; show (if k = k then some v else KV.get l k) = some v; exact if_pos rfl
  have neg : ∀ (k v : Bytes) (l : KV) (k' : Bytes), k ≠ k' → KV.get ((k, v) :: l) k' = KV.get l k' := by
    intro k v l k' h; show (if k = k' then some v else KV.get l k') = _; exact if_neg h
  unfold extrasOf
  refine ⟨pos _ _ _, ?_, ?_, ?_, ?_, ?_⟩
  · rw [neg _ _ _ _ (by decide), neg _ _ _ _ (by decide), pos]
  · rw [neg _ _ _ _ (by decide), pos]
  · rw [neg _ _ _ _ (by decide), neg _ _ _ _ (by decide), neg _ _ _ _ (by decide), pos]
  · rw [neg _ _ _ _ (by decide), neg _ _ _ _ (by decide), neg _ _ _ _ (by decide), neg _ _ _ _ (by decide), neg _ _ _ _ (by decide), pos]
  · rw [neg _ _ _ _ (by decide), neg _ _ _ _ (by decide), neg _ _ _ _ (by decide), neg _ _ _ _ (by decide), pos]

theorem u32Extra_dec {kv : KV} {key : Bytes} {n fb : Nat} (h : kv.get key = some (decStr n)) (hn : n < 2 ^ 32) :
    u32Extra kv key fb = some n := by
  unfold u32Extra
  rw [h]
  simp only [stoullAll_decStr (show n < 2 ^ 64 by omega)]
  rw [if_pos (by omega)]

theorem loadParams_extras {F : FloatText} {cap : Nat} {p : Params} (hp : ParamsOk p) {a : Nat}
    (ha : F.parse (F.print p.alpha) = some a) : loadParams F (extrasOf F cap p) = some ⟨p.R, p.L, a, p.seed, p.threads⟩ := by
  obtain ⟨_, g1, g2, g3, g4, g5⟩ := extras_get F cap p
  unfold loadParams
  rw [u32Extra_dec g1 hp.R, u32Extra_dec g2 hp.L, u32Extra_dec g4 hp.seed, u32Extra_dec g5 hp.threads, g3]
  simp only [ha]

theorem open_eq {F : FloatText} (hF : TextOk F) {D cap : Nat} {p : Params} (hp : ParamsOk p) (hc : cap < 2 ^ 64) {d : Disk} {m : ColMan}
    (h : DiskInv F D cap p d m) (hsz : m.save.length ≤ 2 ^ 20) (sf : Bool) :
    ∃ q, ParamsOf F p q ∧ F.parse (F.print p.alpha) = some q.alpha ∧ openC F sf d = some (opened sf d m cap, q) := by
  obtain ⟨a, ha, hok⟩ := hF.back _ hp.alpha
  have hq : ParamsOf F p ⟨p.R, p.L, a, p.seed, p.threads⟩ := ⟨rfl, rfl, rfl, rfl, Or.inr ha⟩
  refine ⟨_, hq, ha, ?_⟩
  unfold openC
  rw [h.man]
  simp only [C36_collection_roundtrip_partial m h.valid hsz]
  rw [if_neg (by rw [h.engine]; simp), h.extras, (extras_get F cap p).1]
  simp only [stoullAll_decStr hc, loadParams_extras hp ha]
  rw [if_neg (by rw [h.metric]; simp), if_neg (by rw [(hq.ok hF hp).ok]; simp), if_neg]
  · rw [← h.extras]; rfl
  · rw [show m.segs.all (fun s => (openSeg (d.dir s)).isSome) = true from ?_]
    · simp
    · rw [List.all_eq_true]
      intro n hn
      obtain ⟨s, hs⟩ := h.segs n hn
      rw [hs]; rfl

theorem open_some {F : FloatText} (hF : TextOk F) {D cap : Nat} {p : Params} (hp : ParamsOk p) (hc : cap < 2 ^ 64) {d : Disk} {m : ColMan}
    (h : DiskInv F D cap p d m) {sf : Bool} {mm : Mem} {q : Params} (ho : openC F sf d = some (mm, q)) :
    ParamsOf F p q ∧ mm = opened sf d m cap := by
  have hsz : m.save.length ≤ 2 ^ 20 := by
    unfold openC at ho
    rw [h.man] at ho
    simp only at ho
    cases hl : ColMan.load m.save with
    | none => rw [hl] at ho; cases ho
    | some x => exact ((col_load_iff _ x).1 hl).1
  obtain ⟨q', hq, _, e⟩ := open_eq hF hp hc h hsz sf
  rw [e] at ho
  injection ho with ho
  injection ho with e1 e2
  exact ⟨e2 ▸ hq, e1.symm⟩

theorem open_memInv {D : Nat} {d : Disk} {m : ColMan} (hn : m.next ≤ 10 ^ 8) (sf : Bool) {cap : Nat} (hc : cap < 2 ^ 64) :
    MemInv D m (opened sf d m cap) := by
  have := maxOnDisk_lt d
  exact {
    man := rfl
    next := by
      unfold opened
      simp only
      split
      · exact hn
      · omega
    dirs := fun x hx => hx
    vlen := by simp [opened]
    labs := by intro x hx; cases hx
    cap := hc
    acc := Or.inr rfl }

/-! ### Histories -/

/-- Arguments the C++ types allow; the entry point of a build is a 32-bit id. -/
def OpOk (D : Nat) : Op → Prop
  | .add v l _ => v.length = l.length * D ∧ (∀ x ∈ l, x < 2 ^ 64) ∧ l.length < 2 ^ 64 ∧ ∀ x ∈ v, x < 2 ^ 32
  | .flush x _ tmp _ => ¬ SegName tmp ∧ x.medoid < 2 ^ 32
  | .reopen _ => True

/-- No allocation failure in the two `push_back` calls after publication. -/
def NoPush : Op → Prop
  | .flush _ _ _ (.push _) => False
  | _ => True

/-- The invariant, with the published manifest; unique labels while `U`. -/
structure Inv (F : FloatText) (D cap : Nat) (p : Params) (U : Prop) (s : St) (m : ColMan) : Prop where
  disk : DiskInv F D cap p s.disk m
  mem : ∀ mm q, s.mem = some (mm, q) → MemInv D m mm ∧ ParamsOf F p q ∧ (U → mm.dirs = m.segs) ∧ ∀ x ∈ mm.pendV, x < 2 ^ 32
  uniq : U → (published s.disk m).Nodup

theorem add_memInv {D : Nat} {m : ColMan} {mm mm' : Mem} {v l : List Nat} {a : Bool} (hD : D < 2 ^ 32) (hdim : m.dim = D)
    (hm : MemInv D m mm) (hop : OpOk D (.add v l a)) (ha : addBatch mm l.length v l a = some mm') :
    MemInv D m mm' ∧ mm'.dirs = mm.dirs ∧ ∀ x ∈ mm'.pendV, x ∈ mm.pendV ∨ x ∈ v := by
  obtain ⟨k1, k2, k3⟩ := addBatch_keeps ha
  by_cases h0 : l.length = 0
  · rw [h0] at ha
    rw [C35_empty mm mm' v l a ha]; exact ⟨hm, rfl, fun x hx => Or.inl hx⟩
  · have hd : mm.man.dim = D := hm.manEq.1.trans hdim
    obtain ⟨o1, o2, o3, _⟩ := hop
    obtain ⟨_, _, g3, g4⟩ := (C35_add_batch_exact_partial mm mm' l.length v l a (by omega) o3 (by omega) hm.cap rfl
      (by rw [hd]; exact o1)).1 ha
    refine ⟨?_, k3, fun x hx => List.mem_append.1 (by rw [g4] at hx; exact hx)⟩
    have hp : mm'.pendL = mm.pendL ++ l := by rw [g4]
    have hv : mm'.pendV = mm.pendV ++ v := by rw [g4]
    exact {
      man := by rw [k1]; exact hm.man
      next := by rw [k1]; exact hm.next
      dirs := by rw [k3]; exact hm.dirs
      vlen := by rw [hp, hv, List.length_append, List.length_append, hm.vlen, o1, Nat.add_mul]
      labs := by
        intro x hx
        rw [hp] at hx
        rcases List.mem_append.1 hx with hx | hx
        · exact hm.labs x hx
        · exact o2 x hx
      cap := by rw [k2]; exact hm.cap
      acc := by left; rw [hp, k2, List.length_append, ← hd]; exact g3 }

theorem published_same {d d' : Disk} {m : ColMan} (h : ∀ n ∈ m.segs, d'.dir n = d.dir n) : published d' m = published d m := by
  unfold published
  rw [List.flatMap_def, List.flatMap_def]
  refine congrArg List.flatten (List.map_congr_left (fun n hn => ?_))
  unfold segLabels; rw [h n hn]

theorem allIds_eq {d : Disk} : ∀ (ns : List Bytes), (∀ n ∈ ns, ∃ s, openSeg (d.dir n) = some s) →
    allIds d ns = some (ns.flatMap (segLabels d))
  | [], _ => rfl
  | n :: ns, h => by
    obtain ⟨s, hs⟩ := h n (by simp)
    have ih := allIds_eq ns (fun x hx => h x (by simp [hx]))
    unfold allIds
    rw [idsView_of_open hs, ih]
    simp only [List.flatMap_cons]
    unfold segLabels
    rw [hs]; rfl

theorem publish_labels {F : FloatText} {D cap : Nat} {p : Params} {d d' : Disk} {m : ColMan} {mm : Mem} {tmp name : Bytes}
    {s : Segment} {w : VSeg} (h : DiskInv F D cap p d m) (hmm : MemInv D m mm) (ht : ¬ SegName tmp) (pl : Planned d mm name s)
    (hoth : ∀ y, y ≠ tmp → y ≠ name → d'.dir y = d.dir y) (hw : openSeg (d'.dir name) = some w) (hs : w.seg = s) :
    published d' (nextMan mm name) = published d m ++ mm.pendL := by
  have hseg : (nextMan mm name).segs = m.segs ++ [name] := by unfold nextMan; simp only; rw [hmm.manEq.2.2.2.1]
  unfold published
  rw [hseg, List.flatMap_append]
  have e1 : m.segs.flatMap (segLabels d') = m.segs.flatMap (segLabels d) := published_same (h.other_dirs ht pl.fresh hoth)
  rw [e1]
  congr 1
  simp only [List.flatMap_cons, List.flatMap_nil, List.append_nil]
  unfold segLabels
  rw [hw]
  simp only [Option.map_some, Option.getD_some]
  rw [hs]; exact pl.labels

theorem publish_uniq {F : FloatText} {D cap : Nat} {p : Params} {d d' : Disk} {m : ColMan} {mm : Mem} {tmp name : Bytes}
    {s : Segment} {w : VSeg} (h : DiskInv F D cap p d m) (hmm : MemInv D m mm) (hdirs : mm.dirs = m.segs)
    (hu : (published d m).Nodup) (ht : ¬ SegName tmp) (pl : Planned d mm name s)
    (hoth : ∀ y, y ≠ tmp → y ≠ name → d'.dir y = d.dir y) (hw : openSeg (d'.dir name) = some w) (hs : w.seg = s) :
    (published d' (nextMan mm name)).Nodup := by
  rw [publish_labels h hmm ht pl hoth hw hs, List.nodup_append]
  refine ⟨hu, pl.nodup, ?_⟩
  intro a ha b hb hab
  subst hab
  obtain ⟨ls, hls, hdis⟩ := pl.ids
  rw [hdirs, allIds_eq _ h.segs] at hls
  injection hls with hls
  exact hdis a hb (hls ▸ ha)

theorem advanced_memInv {D : Nat} {m : ColMan} {mm : Mem} (h : MemInv D m mm) (hlt : mm.man.next < 10 ^ 8) :
    MemInv D m { mm with man := { mm.man with next := mm.man.next + 1 } } :=
  { man := by
      have := h.man
      show { mm.man with next := mm.man.next + 1 } = _
      rw [this]
    next := by show mm.man.next + 1 ≤ 10 ^ 8; omega
    dirs := h.dirs
    vlen := h.vlen
    labs := h.labs
    cap := h.cap
    acc := h.acc }

theorem committed_memInv {D : Nat} {m : ColMan} {mm : Mem} {name : Bytes} (h : MemInv D m mm) (hlt : mm.man.next < 10 ^ 8) :
    MemInv D (nextMan mm name) (committed mm name) :=
  { man := rfl
    next := by show mm.man.next + 1 ≤ 10 ^ 8; omega
    dirs := by
      intro x hx
      show x ∈ mm.man.segs ++ [name]
      rw [h.manEq.2.2.2.1]
      rcases List.mem_append.1 (show x ∈ mm.dirs ++ [name] from hx) with hx | hx
      · exact List.mem_append.2 (Or.inl (h.dirs x hx))
      · exact List.mem_append.2 (Or.inr hx)
    vlen := by simp [committed]
    labs := by intro x hx; cases hx
    cap := h.cap
    acc := Or.inr rfl }

theorem pushed_memInv {D : Nat} {m : ColMan} {mm : Mem} {name : Bytes} (h : MemInv D m mm) (hlt : mm.man.next < 10 ^ 8) :
    MemInv D (nextMan mm name) { mm with man := nextMan mm name } :=
  { man := rfl
    next := by show mm.man.next + 1 ≤ 10 ^ 8; omega
    dirs := by
      intro x hx
      show x ∈ mm.man.segs ++ [name]
      rw [h.manEq.2.2.2.1]
      exact List.mem_append.2 (Or.inl (h.dirs x hx))
    vlen := h.vlen
    labs := h.labs
    cap := h.cap
    acc := h.acc }

theorem inv_step {F : FloatText} (hF : TextOk F) {D cap : Nat} (hD : D < 2 ^ 32) (hc : cap < 2 ^ 64) {p : Params} (hp : ParamsOk p)
    {U : Prop} {s : St} {m : ColMan} (h : Inv F D cap p U s m) (op : Op) (hop : OpOk D op) (hU : U → NoPush op) :
    ∃ m', Inv F D cap p U (step F s op) m' := by
  cases op with
  | add v l a =>
    refine ⟨m, ?_⟩
    simp only [step]
    cases hm : s.mem with
    | none => exact h
    | some mq =>
      obtain ⟨mm, q⟩ := mq
      simp only
      cases ha : addBatch mm l.length v l a with
      | none => exact h
      | some mm' =>
        refine ⟨h.disk, ?_, h.uniq⟩
        intro x q' hx
        injection hx with hx
        injection hx with e1 e2
        subst e1; subst e2
        obtain ⟨g1, g2, g3, g4⟩ := h.mem mm q hm
        obtain ⟨k1, k2, k3⟩ := add_memInv hD h.disk.dim g1 hop ha
        exact ⟨k1, g2, fun hu => k2.trans (g3 hu), fun x hx => (k3 x hx).elim (g4 x) (hop.2.2.2 x)⟩
  | reopen sf =>
    refine ⟨m, h.disk, ?_, h.uniq⟩
    intro mm q hmm
    obtain ⟨hq, e⟩ := open_some hF hp hc h.disk hmm
    rw [e]; exact ⟨open_memInv h.disk.next sf hc, hq, fun _ => rfl, by intro x hx; cases hx⟩
  | flush x mids tmp f =>
    simp only [step]
    cases hm : s.mem with
    | none => exact ⟨m, h⟩
    | some mq =>
      obtain ⟨mm, q⟩ := mq
      obtain ⟨hmm, hq, hdirs, h32⟩ := h.mem mm q hm
      have hout := flush_outcome hF (hq.ok hF hp) hop.2 mids hop.1 f s.disk (hmm.pendOk hD h.disk.dim)
      simp only
      generalize flush F q x mids tmp f s.disk mm = r at hout
      cases hout with
      | idle h0 =>
        refine ⟨m, h.disk, ?_, h.uniq⟩
        intro y q' hy
        injection hy with hy
        injection hy with e1 e2
        subst e1; subst e2
        exact ⟨hmm, hq, hdirs, h32⟩
      | same d' o r hr ho h0 hf =>
        have hs := h.disk.frame_dirs hop.1 hf
        refine ⟨m, h.disk.same hf.1 hs, ?_, fun hu => by rw [published_same hs]; exact h.uniq hu⟩
        intro y q' hy
        rcases ho with ho | ho
        · subst ho
          injection hy with hy
          injection hy with e1 e2
          subst e1; subst e2
          exact ⟨hmm, hq, hdirs, h32⟩
        · subst ho; cases hy
      | built d' name sg o r hr ho pl hman hcomp hoth =>
        have hs := h.disk.other_dirs hop.1 pl.fresh hoth
        refine ⟨m, h.disk.same hman hs, ?_, fun hu => by rw [published_same hs]; exact h.uniq hu⟩
        intro y q' hy
        rcases ho with ho | ho | ho
        · subst ho
          injection hy with hy
          injection hy with e1 e2
          subst e1; subst e2
          exact ⟨hmm, hq, hdirs, h32⟩
        · subst ho; cases hy
        · subst ho
          injection hy with hy
          injection hy with e1 e2
          subst e1; subst e2
          exact ⟨advanced_memInv hmm (next_lt (pl.named ▸ pl.valid)), hq, hdirs, h32⟩
      | done d' name sg w o r hr pl hman hcomp hoth hw hws =>
        refine ⟨nextMan mm name, h.disk.publish hmm hop.1 pl hman hoth hw, ?_, fun hu =>
          publish_uniq h.disk hmm (hdirs hu) (h.uniq hu) hop.1 pl hoth hw hws⟩
        intro y q' hy
        have hlt := next_lt (pl.named ▸ pl.valid)
        rcases hr with ⟨ho, _⟩ | ⟨_, ho | ⟨ho, i, hf⟩⟩
        · subst ho
          injection hy with hy
          injection hy with e1 e2
          subst e1; subst e2
          refine ⟨committed_memInv hmm hlt, hq, fun hu => ?_, by intro x hx; cases hx⟩
          show mm.dirs ++ [name] = mm.man.segs ++ [name]
          rw [hdirs hu, hmm.manEq.2.2.2.1]
        · subst ho; cases hy
        · subst ho
          injection hy with hy
          injection hy with e1 e2
          subst e1; subst e2
          refine ⟨pushed_memInv hmm hlt, hq, fun hu => ?_, h32⟩
          have := hU hu
          rw [hf] at this
          exact absurd this id

theorem inv_run {F : FloatText} (hF : TextOk F) {D cap : Nat} (hD : D < 2 ^ 32) (hc : cap < 2 ^ 64) {p : Params} (hp : ParamsOk p)
    {U : Prop} : ∀ (ops : List Op) {s : St} {m : ColMan}, Inv F D cap p U s m → (∀ op ∈ ops, OpOk D op) →
      (U → ∀ op ∈ ops, NoPush op) → ∃ m', Inv F D cap p U (runOps F s ops) m'
  | [], _, m, h, _, _ => ⟨m, h⟩
  | op :: ops, s, m, h, ho, hn => by
    obtain ⟨m', h'⟩ := inv_step hF hD hc hp h op (ho op (by simp)) (fun hu => hn hu op (by simp))
    exact inv_run hF hD hc hp ops h' (fun o hx => ho o (by simp [hx])) (fun hu o hx => hn hu o (by simp [hx]))

/-- The manifest of a new collection. -/
def man0 (F : FloatText) (D : Nat) (metric : Metric) (cap : Nat) (p : Params) : ColMan :=
  { dim := D, metric := metric, engine := .vamana, next := 1, segs := [], extras := extrasOf F cap p }

/-- The state after creating a collection. -/
def start (F : FloatText) (D : Nat) (metric : Metric) (cap : Nat) (p : Params) : St :=
  ⟨⟨some (man0 F D metric cap p).save, []⟩, some (⟨man0 F D metric cap p, [], [], [], cap⟩, p)⟩

theorem create_eq (F : FloatText) {D : Nat} (h0 : 0 < D) (metric : Metric) (cap : Nat) {p : Params} (hp : p.ok = true) :
    create F D metric cap p = some ((start F D metric cap p).disk, ⟨man0 F D metric cap p, [], [], [], cap⟩) := by
  unfold create
  rw [if_neg (by omega), if_neg (by simp [hp])]
  rfl

theorem extras_valid' {F : FloatText} (hF : TextOk F) {p : Params} (ha : alphaOk p.alpha = true) (cap : Nat) :
    (extrasOf F cap p).Pairwise (fun a b => a.1 < b.1) ∧ ∀ e ∈ extrasOf F cap p, ExtKey e.1 ∧ LineValue e.2 := by
  constructor
  · rw [← List.pairwise_map (f := Prod.fst) (R := fun a b => a < b)]
    show [str "x_max_pending_bytes", str "x_vamana_L", str "x_vamana_R", str "x_vamana_alpha", str "x_vamana_num_threads",
      str "x_vamana_seed"].Pairwise (fun a b => a < b)
    decide
  · intro e he
    unfold extrasOf at he
    simp only [List.mem_cons, List.not_mem_nil, or_false] at he
    rcases he with rfl | rfl | rfl | rfl | rfl | rfl
    · exact ⟨(⟨⟨str "max_pending_bytes", by decide⟩, by decide, by decide⟩ : ExtKey (str "x_max_pending_bytes")), decStr_lineValue _⟩
    · exact ⟨(⟨⟨str "vamana_L", by decide⟩, by decide, by decide⟩ : ExtKey (str "x_vamana_L")), decStr_lineValue _⟩
    · exact ⟨(⟨⟨str "vamana_R", by decide⟩, by decide, by decide⟩ : ExtKey (str "x_vamana_R")), decStr_lineValue _⟩
    · exact ⟨(⟨⟨str "vamana_alpha", by decide⟩, by decide, by decide⟩ : ExtKey (str "x_vamana_alpha")), (hF.line _ ha).1⟩
    · exact ⟨(⟨⟨str "vamana_num_threads", by decide⟩, by decide, by decide⟩ : ExtKey (str "x_vamana_num_threads")), decStr_lineValue _⟩
    · exact ⟨(⟨⟨str "vamana_seed", by decide⟩, by decide, by decide⟩ : ExtKey (str "x_vamana_seed")), decStr_lineValue _⟩

theorem extras_valid {F : FloatText} (hF : TextOk F) {p : Params} (hp : ParamsOk p) (cap : Nat) :
    (extrasOf F cap p).Pairwise (fun a b => a.1 < b.1) ∧ ∀ e ∈ extrasOf F cap p, ExtKey e.1 ∧ LineValue e.2 :=
  extras_valid' hF hp.alpha cap

theorem start_inv {F : FloatText} (hF : TextOk F) {D cap : Nat} (h0 : 0 < D) (hD : D < 2 ^ 32) (hc : cap < 2 ^ 64) {p : Params}
    (hp : ParamsOk p) (U : Prop) : Inv F D cap p U (start F D .l2 cap p) (man0 F D .l2 cap p) := by
  obtain ⟨x1, x2⟩ := extras_valid hF hp cap
  refine ⟨{
    man := rfl
    valid := {
      version := rfl
      dim := ⟨h0, by show D < 2 ^ 64; omega⟩
      next := by show 1 < 2 ^ 64; decide
      segNames := by intro n hn; cases hn
      extrasAsc := x1
      extras := x2 }
    engine := rfl
    metric := rfl
    dim := rfl
    extras := rfl
    next := by show 1 ≤ 10 ^ 8; decide
    nodup := List.nodup_nil
    segs := by intro n hn; cases hn }, ?_, fun _ => List.nodup_nil⟩
  intro mm q hmm
  injection hmm with hmm
  injection hmm with e1 e2
  subst e1; subst e2
  exact ⟨{
    man := rfl
    next := by show 1 ≤ 10 ^ 8; decide
    dirs := fun x hx => hx
    vlen := by simp
    labs := by intro x hx; cases hx
    cap := hc
    acc := Or.inr rfl }, ⟨rfl, rfl, rfl, rfl, Or.inl rfl⟩, fun _ => rfl, by intro x hx; cases hx⟩

end Alaya.VamanaSeg
