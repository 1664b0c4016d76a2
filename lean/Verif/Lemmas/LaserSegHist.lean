import Verif.Lemmas.LaserSegOpen

/-! The outcomes of an import, and the invariant of LASER collections over histories. -/
namespace Alaya.LaserSeg
open Alaya Alaya.DiskFlat Alaya.DiskManifest Alaya.DiskColl2

/-- The name of the next segment. -/
abbrev nextName (m : Mem) : Bytes := formatSegmentId m.man.next

/-- The segment an import with native data `nat` leaves. -/
def segOf (labels : List Nat) (m : Mem) (p : Params) (nat : Native) : LSeg :=
  ⟨m.man.dim % 4294967296, labels.length, p.R, m.man.dim % 4294967296, labels.flatMap (leBytes 8), nat⟩

/-- What opens after an import is the native data of the source with the labels. -/
theorem open_is {E : Env} (hE : TextOk E) {src : KV} {labels : List Nat} {tmp : Bytes} {d d' : Disk} {m : Mem} {p : Params}
    (h : Planned E src labels tmp d m p) (hc : Complete (planOf E src labels m p) d') {w : LSeg}
    (hw : openSeg E (d'.dir (nextName m)) = some (some w)) :
    ∃ b nat, E.parse (E.print p.budget) = some b ∧ w = segOf labels m p nat ∧
      loadNative E src (prefixOf (nextName m)) p.R (m.man.dim % 4294967296) (m.man.dim % 4294967296) labels.length b = some (some nat) := by
  obtain ⟨n1, n2, n3, b, n4⟩ := open_needs hE h hc (by rw [hw]; simp)
  have e := open_built hE h hc n1 n2 n3 n4
  rw [hw] at e
  cases hn : loadNative E src (prefixOf (nextName m)) p.R (m.man.dim % 4294967296) (m.man.dim % 4294967296) labels.length b with
  | none => rw [hn] at e; cases e
  | some o =>
    rw [hn] at e
    cases o with
    | none => cases e
    | some nat =>
      injection e with e
      injection e with e
      exact ⟨b, nat, n4, e, hn⟩

theorem segOf_labels {labels : List Nat} (hl : ∀ x ∈ labels, x < 2 ^ 64) (m : Mem) (p : Params) (nat : Native) :
    (segOf labels m p nat).labels = labels := by
  unfold segOf LSeg.labels
  exact labelsOf_flatMap _ hl

/-- Outcomes of an import. -/
inductive Outcome (E : Env) (src : KV) (labels : List Nat) (tmp : Bytes) (f : Fault) (d : Disk) (m : Mem) :
    Disk × Option Mem × Res → Prop where
  | same (d' : Disk) (o : Option Mem) (r : Res) : r ≠ .ok → (o = some m ∨ o = none) → Frame tmp d d' →
      Outcome E src labels tmp f d m (d', o, r)
  | built (d' : Disk) (p : Params) (o : Option Mem) (r : Res) : r ≠ .ok →
      (o = some m ∨ o = none ∨ o = some { m with man := { m.man with next := m.man.next + 1 } }) → Planned E src labels tmp d m p →
      d'.man = d.man → Complete (planOf E src labels m p) d' → (∀ y, y ≠ tmp → y ≠ nextName m → d'.dir y = d.dir y) →
      Outcome E src labels tmp f d m (d', o, r)
  | done (d' : Disk) (p : Params) (w : LSeg) (o : Option Mem) (r : Res) :
      ((o = some (pushed m (nextName m)) ∧ r = .ok) ∨
        (r ≠ .ok ∧ (o = none ∨ (o = some { m with man := nextMan m (nextName m) } ∧ ∃ i, f = .push i)))) →
      Planned E src labels tmp d m p → d'.man = some (nextMan m (nextName m)).save → Complete (planOf E src labels m p) d' →
      (∀ y, y ≠ tmp → y ≠ nextName m → d'.dir y = d.dir y) → openSeg E (d'.dir (nextName m)) = some (some w) →
      Outcome E src labels tmp f d m (d', o, r)

theorem import_outcome {E : Env} {src : KV} {labels : List Nat} {tmp : Bytes} (ht : ¬ SegName tmp) (f : Fault) (d : Disk) {m : Mem}
    {r : Disk × Option Mem × Res} (hr : importSeg E src labels tmp f d m = some r) : Outcome E src labels tmp f d m r := by
  unfold importSeg at hr
  cases hpl : plan E src labels tmp d m with
  | none =>
    rw [hpl] at hr
    injection hr with hr
    subst hr
    exact .same d _ _ (by simp) (Or.inl rfl) (Frame.refl _ _)
  | some q =>
    obtain ⟨p, pl, hq⟩ := (plan_iff _ _ _ _ _ _ _).1 hpl
    have hname : q.name = nextName m := by rw [hq]; rfl
    have hne : tmp ≠ q.name := fun e => ht (by rw [e, hname]; exact pl.valid)
    have hfresh : d.dir q.name = none := by rw [hname]; exact pl.fresh
    obtain ⟨s1, s2, s3⟩ := run_seg d tmp pl.tmp q hne hfresh
    have hsp := seg_prefix d tmp q
    rw [hpl] at hr
    simp only [hname] at hr
    rw [hname] at s3
    have s2' : Complete (planOf E src labels m p) (d.run (segSteps tmp q)) := by
      have h := s2
      rw [hq] at h ⊢
      exact h
    generalize segSteps tmp q = a at *
    have hb : ∀ c, (d.run (a ++ [FStep.tmpMan, FStep.pub c])).man = some c ∧
        ∀ y, (d.run (a ++ [FStep.tmpMan, FStep.pub c])).dir y = (d.run a).dir y := by
      intro c
      rw [run_append]
      exact run_pub _ _
    have built : ∀ o r, r ≠ .ok → (o = some m ∨ o = none ∨ o = some { m with man := { m.man with next := m.man.next + 1 } }) →
        Outcome E src labels tmp f d m (d.run a, o, r) := fun o r h1 h2 => .built _ p _ _ h1 h2 pl s1 s2' s3
    have fin : ∀ w, openSeg E ((d.run a).dir (nextName m)) = some (some w) → ∀ (o : Option Mem) (r : Res),
        ((o = some (pushed m (nextName m)) ∧ r = .ok) ∨
          (r ≠ .ok ∧ (o = none ∨ (o = some { m with man := nextMan m (nextName m) } ∧ ∃ i, f = .push i)))) →
        Outcome E src labels tmp f d m (d.run (a ++ [FStep.tmpMan, FStep.pub (nextMan m (nextName m)).save]), o, r) := by
      intro w hw o r hr
      obtain ⟨b1, b2⟩ := hb (nextMan m (nextName m)).save
      refine .done _ p w o r hr pl b1 ?_ (fun y h1 h2 => (b2 y).trans (s3 y h1 h2)) ((b2 _).symm ▸ hw)
      obtain ⟨files, e1, e2⟩ := s2'
      exact ⟨files, (b2 _).trans e1, e2⟩
    -- after the early exits
    have late : ∀ g : LSeg → Disk × Option Mem × Res,
        (match openSeg E ((d.run a).dir (nextName m)) with
          | none => none
          | some none => some (d.run a, some m, Res.err)
          | some (some w) => some (g w)) = some r →
        (∀ w, openSeg E ((d.run a).dir (nextName m)) = some (some w) → Outcome E src labels tmp f d m (g w)) →
        Outcome E src labels tmp f d m r := by
      intro g h1 h2
      cases ho : openSeg E ((d.run a).dir (nextName m)) with
      | none => rw [ho] at h1; cases h1
      | some o =>
        rw [ho] at h1
        cases o with
        | none =>
          injection h1 with h1
          subst h1
          exact built _ _ (by simp) (Or.inl rfl)
        | some w =>
          injection h1 with h1
          subst h1
          exact h2 w ho
    cases f with
    | none => exact late (fun _ => _) hr (fun w hw => fin w hw _ _ (Or.inl ⟨rfl, rfl⟩))
    | searcher =>
      injection hr with hr
      subst hr
      exact built _ _ (by simp) (Or.inl rfl)
    | crash i =>
      simp only at hr
      by_cases hi : i ≤ a.length
      · rw [if_pos hi] at hr
        injection hr with hr
        subst hr
        rcases hsp i with hf | hf
        · exact .same _ _ _ (by simp) (Or.inr rfl) hf
        · rw [List.take_of_length_le hf]
          exact built _ _ (by simp) (Or.inr (Or.inl rfl))
      · rw [if_neg hi] at hr
        refine late (fun _ => _) hr (fun w hw => ?_)
        rw [List.take_append, List.take_of_length_le (by omega)]
        generalize hj : i - a.length = j
        match j, hj with
        | 0, hj => omega
        | 1, _ =>
          rw [run_append]
          exact built _ _ (by simp) (Or.inr (Or.inl rfl))
        | j + 2, _ =>
          rw [show List.take (j + 2) [FStep.tmpMan, FStep.pub (nextMan m (nextName m)).save] =
            [FStep.tmpMan, FStep.pub (nextMan m (nextName m)).save] by simp]
          exact fin w hw _ _ (Or.inr ⟨by simp, Or.inl rfl⟩)
    | seg i left =>
      simp only at hr
      by_cases hi : i < a.length
      · rw [if_pos hi] at hr
        injection hr with hr
        subst hr
        rcases hsp i with hf | hf
        · exact .same _ _ _ (by simp) (Or.inl rfl) (Frame.trans hf (frame_leave tmp _ left))
        · omega
      · rw [if_neg hi] at hr
        exact late (fun _ => _) hr (fun w hw => fin w hw _ _ (Or.inl ⟨rfl, rfl⟩))
    | publish i =>
      refine late (fun _ => _) hr (fun w hw => ?_)
      have : d.run (a ++ [FStep.tmpMan, FStep.pub (nextMan m (nextName m)).save].take (min i 1)) = d.run a := by
        rw [run_append]
        have hk := Nat.min_le_right i 1
        generalize min i 1 = k at hk
        match k, hk with
        | 0, _ => rfl
        | 1, _ => rfl
      rw [this]
      exact built _ _ (by simp) (Or.inr (Or.inr rfl))
    | push i => exact late (fun _ => _) hr (fun w hw => fin w hw _ _ (Or.inr ⟨by simp, Or.inr ⟨rfl, i, rfl⟩⟩))

/-! ### The invariant -/

/-- The labels stored in the files of a segment directory. -/
def segLabels (E : Env) (d : Disk) (n : Bytes) : List Nat :=
  match openSeg E (d.dir n) with
  | some (some v) => v.labels
  | _ => []

/-- All labels of the segments a manifest lists. -/
def published (E : Env) (d : Disk) (m : ColMan) : List Nat := m.segs.flatMap (segLabels E d)

/-- The published manifest and the listed segments. -/
structure DiskInv (E : Env) (D : Nat) (M : Metric) (X : KV) (d : Disk) (m : ColMan) : Prop where
  man : d.man = some m.save
  valid : m.Valid
  engine : m.engine = .laser
  metric : m.metric = M
  dim : m.dim = D
  extras : m.extras = X
  next : m.next ≤ 10 ^ 8
  nodup : m.segs.Nodup
  segs : ∀ n ∈ m.segs, ∃ v, openSeg E (d.dir n) = some (some v)

section
variable {E : Env} {D : Nat} {M : Metric} {X : KV} {d d' : Disk} {m : ColMan}

theorem DiskInv.same (h : DiskInv E D M X d m) (hm : d'.man = d.man) (hs : ∀ n ∈ m.segs, d'.dir n = d.dir n) : DiskInv E D M X d' m :=
  { man := hm.trans h.man, valid := h.valid, engine := h.engine, metric := h.metric, dim := h.dim, extras := h.extras, next := h.next,
    nodup := h.nodup, segs := fun n hn => by rw [hs n hn]; exact h.segs n hn }

theorem DiskInv.frame_dirs {tmp : Bytes} (h : DiskInv E D M X d m) (ht : ¬ SegName tmp) (hf : Frame tmp d d') :
    ∀ n ∈ m.segs, d'.dir n = d.dir n := by
  intro n hn
  exact hf.2 n (fun e => ht (e ▸ h.valid.segNames n hn))

theorem DiskInv.fresh_not_mem {name : Bytes} (h : DiskInv E D M X d m) (hn : d.dir name = none) : name ∉ m.segs := by
  intro hm
  obtain ⟨s, hs⟩ := h.segs name hm
  have := openSeg_dir hs
  rw [hn] at this; cases this

theorem DiskInv.other_dirs {tmp name : Bytes} (h : DiskInv E D M X d m) (ht : ¬ SegName tmp) (hn : d.dir name = none)
    (hf : ∀ x, x ≠ tmp → x ≠ name → d'.dir x = d.dir x) : ∀ n ∈ m.segs, d'.dir n = d.dir n := by
  intro n hm
  exact hf n (fun e => ht (e ▸ h.valid.segNames n hm)) (fun e => h.fresh_not_mem hn (e ▸ hm))

theorem DiskInv.publish {mm : Mem} {tmp : Bytes} {src : KV} {labels : List Nat} {p : Params} {w : LSeg} (h : DiskInv E D M X d m)
    (hmm : MemInv D m mm) (ht : ¬ SegName tmp) (pl : Planned E src labels tmp d mm p) (hman : d'.man = some (nextMan mm (nextName mm)).save)
    (hoth : ∀ y, y ≠ tmp → y ≠ nextName mm → d'.dir y = d.dir y) (hw : openSeg E (d'.dir (nextName mm)) = some (some w)) :
    DiskInv E D M X d' (nextMan mm (nextName mm)) := by
  obtain ⟨e1, e2, e3, e4, e5, e6⟩ := hmm.manEq
  have hlt : mm.man.next < 10 ^ 8 := next_lt pl.valid
  have hseg : (nextMan mm (nextName mm)).segs = m.segs ++ [nextName mm] := by unfold nextMan; simp only; rw [e4]
  exact {
    man := hman
    valid := {
      version := by unfold nextMan; simp only; rw [e6]; exact h.valid.version
      dim := by unfold nextMan; simp only; rw [e1]; exact h.valid.dim
      next := by unfold nextMan; simp only; omega
      segNames := by
        intro n hn
        rw [hseg] at hn
        rcases List.mem_append.1 hn with hn | hn
        · exact h.valid.segNames n hn
        · rw [List.mem_singleton.1 hn]; exact pl.valid
      extrasAsc := by unfold nextMan; simp only; rw [e5]; exact h.valid.extrasAsc
      extras := by unfold nextMan; simp only; rw [e5]; exact h.valid.extras }
    engine := by unfold nextMan; simp only; rw [e3]; exact h.engine
    metric := by unfold nextMan; simp only; rw [e2]; exact h.metric
    dim := by unfold nextMan; simp only; rw [e1]; exact h.dim
    extras := by unfold nextMan; simp only; rw [e5]; exact h.extras
    next := by unfold nextMan; simp only; omega
    nodup := by
      rw [hseg, List.nodup_append]
      refine ⟨h.nodup, by simp, ?_⟩
      intro a ha b hb e
      rw [List.mem_singleton] at hb
      subst hb; subst e
      exact h.fresh_not_mem pl.fresh ha
    segs := by
      intro n hn
      rw [hseg] at hn
      rcases List.mem_append.1 hn with hn | hn
      · rw [h.other_dirs ht pl.fresh hoth n hn]; exact h.segs n hn
      · rw [List.mem_singleton.1 hn]; exact ⟨w, hw⟩ }

/-! ### Opening -/

theorem openSegs_iff : ∀ (ns : List Bytes) (l : List LSeg), openSegs E d ns = some (some l) ↔
    ns.map (fun n => openSeg E (d.dir n)) = l.map (fun s => some (some s))
  | [], l => by
    unfold openSegs
    simp only [List.map_nil]
    constructor
    · intro h; injection h with h; injection h with h; rw [← h]; rfl
    · intro h; rw [List.map_eq_nil_iff.1 h.symm]
  | n :: ns, l => by
    unfold openSegs
    rw [List.map_cons]
    cases h1 : openSeg E (d.dir n) with
    | none => simp only; constructor <;> intro h; cases h; cases l <;> simp at h
    | some o =>
      cases o with
      | none => simp only; constructor <;> intro h; cases h; cases l <;> simp at h
      | some s =>
        simp only
        cases h2 : openSegs E d ns with
        | none =>
          simp only
          constructor
          · intro h; cases h
          · intro h
            cases l with
            | nil => simp at h
            | cons s' l =>
              rw [List.map_cons] at h
              injection h with _ h
              rw [(openSegs_iff ns l).2 h] at h2; cases h2
        | some o =>
          cases o with
          | none =>
            simp only
            constructor
            · intro h; cases h
            · intro h
              cases l with
              | nil => simp at h
              | cons s' l =>
                rw [List.map_cons] at h
                injection h with _ h
                rw [(openSegs_iff ns l).2 h] at h2; cases h2
          | some l' =>
            have ih := (openSegs_iff ns l').1 h2
            simp only
            constructor
            · intro h
              injection h with h
              injection h with h
              rw [← h, List.map_cons, ih]
            · intro h
              cases l with
              | nil => simp at h
              | cons s' l =>
                rw [List.map_cons] at h
                injection h with e h
                injection e with e
                injection e with e
                have := (openSegs_iff ns l).2 h
                rw [h2] at this
                injection this with this
                injection this with this
                rw [e, this]

theorem segs_list : ∀ (ns : List Bytes), (∀ n ∈ ns, ∃ v, openSeg E (d.dir n) = some (some v)) →
    ∃ l : List LSeg, ns.map (fun n => openSeg E (d.dir n)) = l.map (fun s => some (some s))
  | [], _ => ⟨[], rfl⟩
  | n :: ns, h => by
    obtain ⟨v, hv⟩ := h n (by simp)
    obtain ⟨l, hl⟩ := segs_list ns (fun x hx => h x (by simp [hx]))
    exact ⟨v :: l, by simp only [List.map_cons, hv, hl]⟩

theorem open_eq (h : DiskInv E D M X d m) (hsz : m.save.length ≤ 2 ^ 20) {cap : Nat} (hx : X.get (str "x_max_pending_bytes") = some (decStr cap))
    (hc : cap < 2 ^ 64) (sf : Bool) : ∃ l : List LSeg, m.segs.map (fun n => openSeg E (d.dir n)) = l.map (fun s => some (some s)) ∧
      openC E sf d = some (some (opened sf d m cap, l)) := by
  obtain ⟨l, hl⟩ := segs_list m.segs h.segs
  refine ⟨l, hl, ?_⟩
  unfold openC
  rw [h.man]
  simp only [C36_collection_roundtrip_partial m h.valid hsz]
  rw [if_neg (by rw [h.engine]; simp), h.extras, hx]
  simp only [stoullAll_decStr hc, (openSegs_iff m.segs l).2 hl]
  rw [← h.extras]
  rfl

theorem open_large (h : DiskInv E D M X d m) (hsz : ¬ m.save.length ≤ 2 ^ 20) (sf : Bool) : openC E sf d = some none := by
  unfold openC
  rw [h.man]
  simp only
  cases hl : ColMan.load m.save with
  | none => rfl
  | some x => exact absurd ((col_load_iff _ x).1 hl).1 hsz

theorem open_some (h : DiskInv E D M X d m) {cap : Nat} (hx : X.get (str "x_max_pending_bytes") = some (decStr cap))
    (hc : cap < 2 ^ 64) {sf : Bool} {mm : Mem} {l : List LSeg} (ho : openC E sf d = some (some (mm, l))) : mm = opened sf d m cap := by
  by_cases hsz : m.save.length ≤ 2 ^ 20
  · obtain ⟨l', _, e⟩ := open_eq h hsz hx hc sf
    rw [e] at ho
    injection ho with ho
    injection ho with ho
    injection ho with ho _
    exact ho.symm
  · rw [open_large h hsz] at ho; cases ho

end

/-! ### Histories -/

/-- Arguments the C++ types allow. -/
def OpOk : Op → Prop
  | .imp _ l tmp _ => ¬ SegName tmp ∧ ∀ x ∈ l, x < 2 ^ 64
  | _ => True

/-- No allocation failure in the two `push_back` calls after publication. -/
def NoPush : Op → Prop
  | .imp _ _ _ (.push _) => False
  | _ => True

/-- The invariant, with the published manifest; unique labels while `U`. -/
structure Inv (E : Env) (D : Nat) (M : Metric) (X : KV) (U : Prop) (s : St) (m : ColMan) : Prop where
  disk : DiskInv E D M X s.disk m
  mem : ∀ mm, s.mem = some mm → MemInv D m mm ∧ (U → mm.dirs = m.segs)
  uniq : U → (published E s.disk m).Nodup

section
variable {E : Env} {D : Nat} {M : Metric} {X : KV}

theorem published_same {d d' : Disk} {m : ColMan} (h : ∀ n ∈ m.segs, d'.dir n = d.dir n) : published E d' m = published E d m := by
  unfold published
  rw [List.flatMap_def, List.flatMap_def]
  refine congrArg List.flatten (List.map_congr_left (fun n hn => ?_))
  unfold segLabels; rw [h n hn]

theorem allIds_eq {d : Disk} : ∀ (ns : List Bytes), (∀ n ∈ ns, ∃ s, openSeg E (d.dir n) = some (some s)) →
    allIds d ns = some (ns.flatMap (segLabels E d))
  | [], _ => rfl
  | n :: ns, h => by
    obtain ⟨s, hs⟩ := h n (by simp)
    have ih := allIds_eq ns (fun x hx => h x (by simp [hx]))
    unfold allIds
    rw [idsView_of_open hs, ih]
    simp only [List.flatMap_cons]
    unfold segLabels
    rw [hs]

theorem publish_labels (hE : TextOk E) {d d' : Disk} {m : ColMan} {mm : Mem} {tmp : Bytes} {src : KV} {labels : List Nat} {p : Params} {w : LSeg}
    (h : DiskInv E D M X d m) (hmm : MemInv D m mm) (ht : ¬ SegName tmp) (pl : Planned E src labels tmp d mm p)
    (hl : ∀ x ∈ labels, x < 2 ^ 64) (hcomp : Complete (planOf E src labels mm p) d')
    (hoth : ∀ y, y ≠ tmp → y ≠ nextName mm → d'.dir y = d.dir y) (hw : openSeg E (d'.dir (nextName mm)) = some (some w)) :
    published E d' (nextMan mm (nextName mm)) = published E d m ++ labels := by
  have hseg : (nextMan mm (nextName mm)).segs = m.segs ++ [nextName mm] := by unfold nextMan; simp only; rw [hmm.manEq.2.2.2.1]
  unfold published
  rw [hseg, List.flatMap_append]
  have e1 : m.segs.flatMap (segLabels E d') = m.segs.flatMap (segLabels E d) := published_same (h.other_dirs ht pl.fresh hoth)
  rw [e1]
  congr 1
  simp only [List.flatMap_cons, List.flatMap_nil, List.append_nil]
  unfold segLabels
  rw [hw]
  simp only
  obtain ⟨b, nat, _, e, _⟩ := open_is hE pl hcomp hw
  rw [e]
  exact segOf_labels hl _ _ _

theorem publish_uniq (hE : TextOk E) {d d' : Disk} {m : ColMan} {mm : Mem} {tmp : Bytes} {src : KV} {labels : List Nat} {p : Params} {w : LSeg}
    (h : DiskInv E D M X d m) (hmm : MemInv D m mm) (hdirs : mm.dirs = m.segs) (hu : (published E d m).Nodup) (ht : ¬ SegName tmp)
    (pl : Planned E src labels tmp d mm p) (hl : ∀ x ∈ labels, x < 2 ^ 64) (hcomp : Complete (planOf E src labels mm p) d')
    (hoth : ∀ y, y ≠ tmp → y ≠ nextName mm → d'.dir y = d.dir y) (hw : openSeg E (d'.dir (nextName mm)) = some (some w)) :
    (published E d' (nextMan mm (nextName mm))).Nodup := by
  rw [publish_labels hE h hmm ht pl hl hcomp hoth hw, List.nodup_append]
  refine ⟨hu, pl.nodup, ?_⟩
  intro a ha b hb hab
  subst hab
  obtain ⟨ls, hls, hdis⟩ := pl.ids
  rw [hdirs, allIds_eq _ h.segs] at hls
  injection hls with hls
  exact hdis a hb (hls ▸ ha)

theorem imported_memInv {m : ColMan} {mm : Mem} {name : Bytes} (h : MemInv D m mm) (hlt : mm.man.next < 10 ^ 8) :
    MemInv D (nextMan mm name) (pushed mm name) :=
  { man := rfl
    next := by show mm.man.next + 1 ≤ 10 ^ 8; omega
    dirs := by
      intro x hx
      show x ∈ mm.man.segs ++ [name]
      rw [h.manEq.2.2.2.1]
      rcases List.mem_append.1 (show x ∈ mm.dirs ++ [name] from hx) with hx | hx
      · exact List.mem_append.2 (Or.inl (h.dirs x hx))
      · exact List.mem_append.2 (Or.inr hx)
    vlen := h.vlen
    labs := h.labs
    cap := h.cap
    acc := h.acc }

theorem add_none {m : Mem} (h : m.man.engine = .laser) (n : Nat) (v l : List Nat) (a : Bool) : addBatch m n v l a = none := by
  unfold addBatch
  rw [if_pos h]

theorem inv_step (hE : TextOk E) {cap : Nat} (hx : X.get (str "x_max_pending_bytes") = some (decStr cap)) (hc : cap < 2 ^ 64)
    {U : Prop} {s s' : St} {m : ColMan} (h : Inv E D M X U s m) (op : Op) (hop : OpOk op) (hU : U → NoPush op) (hs : step E s op = some s') :
    ∃ m', Inv E D M X U s' m' := by
  cases op with
  | add v l a =>
    refine ⟨m, ?_⟩
    simp only [step] at hs
    cases hm : s.mem with
    | none => rw [hm] at hs; injection hs with hs; rw [← hs]; exact h
    | some mm =>
      rw [hm] at hs
      simp only at hs
      rw [add_none ((h.mem mm hm).1.manEq.2.2.1.trans h.disk.engine)] at hs
      injection hs with hs
      rw [← hs]; exact h
  | reopen sf =>
    simp only [step] at hs
    cases ho : openC E sf s.disk with
    | none => rw [ho] at hs; cases hs
    | some o =>
      rw [ho] at hs
      cases o with
      | none =>
        injection hs with hs
        subst hs
        exact ⟨m, h.disk, fun _ hmm => (by cases hmm), h.uniq⟩
      | some r =>
        obtain ⟨mm, l⟩ := r
        injection hs with hs
        subst hs
        refine ⟨m, h.disk, ?_, h.uniq⟩
        intro mm' hmm
        injection hmm with hmm
        rw [← hmm, open_some h.disk hx hc ho]
        exact ⟨VamanaSeg.open_memInv h.disk.next sf hc, fun _ => rfl⟩
  | imp src labels tmp f =>
    simp only [step] at hs
    cases hm : s.mem with
    | none => rw [hm] at hs; injection hs with hs; rw [← hs]; exact ⟨m, h⟩
    | some mm =>
      obtain ⟨hmm, hdirs⟩ := h.mem mm hm
      rw [hm] at hs
      simp only at hs
      cases hi : importSeg E src labels tmp f s.disk mm with
      | none => rw [hi] at hs; cases hs
      | some r =>
        rw [hi] at hs
        injection hs with hs
        subst hs
        have hout := import_outcome hop.1 f s.disk hi
        cases hout with
        | same d' o r hr ho hf =>
          have hs := h.disk.frame_dirs hop.1 hf
          refine ⟨m, h.disk.same hf.1 hs, ?_, fun hu => by rw [published_same hs]; exact h.uniq hu⟩
          intro y hy
          rcases ho with ho | ho
          · subst ho
            injection hy with hy
            subst hy
            exact ⟨hmm, hdirs⟩
          · subst ho; cases hy
        | built d' p o r hr ho pl hman hcomp hoth =>
          have hs := h.disk.other_dirs hop.1 pl.fresh hoth
          refine ⟨m, h.disk.same hman hs, ?_, fun hu => by rw [published_same hs]; exact h.uniq hu⟩
          intro y hy
          rcases ho with ho | ho | ho
          · subst ho
            injection hy with hy
            subst hy
            exact ⟨hmm, hdirs⟩
          · subst ho; cases hy
          · subst ho
            injection hy with hy
            subst hy
            exact ⟨VamanaSeg.advanced_memInv hmm (next_lt pl.valid), hdirs⟩
        | done d' p w o r hr pl hman hcomp hoth hw =>
          refine ⟨nextMan mm (nextName mm), h.disk.publish hmm hop.1 pl hman hoth hw, ?_, fun hu =>
            publish_uniq hE h.disk hmm (hdirs hu) (h.uniq hu) hop.1 pl hop.2 hcomp hoth hw⟩
          intro y hy
          have hlt := next_lt pl.valid
          rcases hr with ⟨ho, _⟩ | ⟨_, ho | ⟨ho, i, hf⟩⟩
          · subst ho
            injection hy with hy
            subst hy
            refine ⟨imported_memInv hmm hlt, fun hu => ?_⟩
            show mm.dirs ++ [nextName mm] = mm.man.segs ++ [nextName mm]
            rw [hdirs hu, hmm.manEq.2.2.2.1]
          · subst ho; cases hy
          · subst ho
            injection hy with hy
            subst hy
            refine ⟨VamanaSeg.pushed_memInv hmm hlt, fun hu => ?_⟩
            have := hU hu
            rw [hf] at this
            exact absurd this id

theorem inv_run (hE : TextOk E) {cap : Nat} (hx : X.get (str "x_max_pending_bytes") = some (decStr cap)) (hc : cap < 2 ^ 64) {U : Prop} :
    ∀ (ops : List Op) {s s' : St} {m : ColMan}, Inv E D M X U s m → (∀ op ∈ ops, OpOk op) → (U → ∀ op ∈ ops, NoPush op) →
      runOps E s ops = some s' → ∃ m', Inv E D M X U s' m'
  | [], _, _, m, h, _, _, hr => by
    injection hr with hr
    exact ⟨m, hr ▸ h⟩
  | op :: ops, s, s', m, h, ho, hn, hr => by
    unfold runOps at hr
    cases hs : step E s op with
    | none => rw [hs] at hr; cases hr
    | some s1 =>
      rw [hs] at hr
      obtain ⟨m', h'⟩ := inv_step hE hx hc h op (ho op (by simp)) (fun hu => hn hu op (by simp)) hs
      exact inv_run hE hx hc ops h' (fun o hx => ho o (by simp [hx])) (fun hu o hx => hn hu o (by simp [hx])) hr

/-- Extension lines of a manifest that can be stored, with the memory limit `cap`. -/
structure ExtrasOk (X : KV) (cap : Nat) : Prop where
  asc : X.Pairwise (fun a b => a.1 < b.1)
  ext : ∀ e ∈ X, ExtKey e.1 ∧ LineValue e.2
  limit : X.get (str "x_max_pending_bytes") = some (decStr cap)
  small : cap < 2 ^ 64

/-- The manifest of a collection without segments. -/
def man0 (D : Nat) (M : Metric) (X : KV) : ColMan := { dim := D, metric := M, engine := .laser, next := 1, segs := [], extras := X }

/-- The state after creating a collection, with any extension lines in its manifest. -/
def start (D : Nat) (M : Metric) (X : KV) (cap : Nat) : St := ⟨⟨some (man0 D M X).save, []⟩, some ⟨man0 D M X, [], [], [], cap⟩⟩

theorem start_inv {cap : Nat} (h0 : 0 < D) (hD : D < 2 ^ 64) (hX : ExtrasOk X cap) (U : Prop) :
    Inv E D M X U (start D M X cap) (man0 D M X) := by
  refine ⟨{
    man := rfl
    valid := {
      version := rfl
      dim := ⟨h0, hD⟩
      next := by show 1 < 2 ^ 64; decide
      segNames := by intro n hn; cases hn
      extrasAsc := hX.asc
      extras := hX.ext }
    engine := rfl
    metric := rfl
    dim := rfl
    extras := rfl
    next := by show 1 ≤ 10 ^ 8; decide
    nodup := List.nodup_nil
    segs := by intro n hn; cases hn }, ?_, fun _ => List.nodup_nil⟩
  intro mm hmm
  injection hmm with hmm
  subst hmm
  exact ⟨{
    man := rfl
    next := by show 1 ≤ 10 ^ 8; decide
    dirs := fun x hx => hx
    vlen := by simp
    labs := by intro x hx; cases hx
    cap := hX.small
    acc := Or.inr rfl }, fun _ => rfl⟩

end

end Alaya.LaserSeg
