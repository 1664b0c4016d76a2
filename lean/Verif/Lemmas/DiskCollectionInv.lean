import Verif.Lemmas.DiskCollection
import Verif.Props.C36
import Verif.Props.C30

/-! The invariant of disk collections. -/
namespace Alaya.DiskColl2
open Alaya Alaya.DiskFlat Alaya.DiskManifest

/-! ### Reading a segment back -/

theorem decStr_len20 {n : Nat} (h : n < 2 ^ 64) : (decStr n).length ≤ 20 :=
  (pad_decStr 20 n (Nat.lt_of_lt_of_le h (by decide)) (by decide)).1

theorem idsFile_ok : BaseName idsName ∧ LineValue idsName := ⟨⟨by decide, by decide, by decide, by decide, by decide⟩, by decide⟩

theorem vecFile_ok : BaseName vecName ∧ LineValue vecName := ⟨⟨by decide, by decide, by decide, by decide, by decide⟩, by decide⟩

theorem segMan_valid {name : Bytes} {s : Segment} (hn : SegName name) (ho : s.opens = true) : (segManOf name s).Valid := by
  unfold Segment.opens at ho
  simp only [Bool.and_eq_true, decide_eq_true_eq] at ho
  obtain ⟨⟨⟨⟨⟨⟨⟨hd, hc⟩, -⟩, -⟩, h8⟩, h32⟩, -⟩, -⟩ := ho
  rw [U64_eq] at h8
  exact {
    version := rfl
    segmentName := hn
    dim := ⟨Nat.pos_of_ne_zero hd, by show s.dim < 2 ^ 64; omega⟩
    count := ⟨Nat.pos_of_ne_zero hc, by show s.count < 2 ^ 64; omega⟩
    idsName := idsFile_ok
    vectorsName := Or.inr vecFile_ok
    extrasAsc := List.Pairwise.nil
    extras := by intro e he; cases he }

theorem line_length (k v : Bytes) : (line k v).length = k.length + v.length + 2 := by
  unfold line; simp; omega

theorem segMan_size {name : Bytes} {s : Segment} (hn : SegName name) (ho : s.opens = true) :
    (segManOf name s).save.length ≤ 2 ^ 20 := by
  have hv := segMan_valid hn ho
  have h1 := decStr_len20 hv.dim.2
  have h2 := decStr_len20 hv.count.2
  have h3 : (metricName (segManOf name s).metric).length ≤ 20 := by cases (segManOf name s).metric <;> decide
  have h4 := SegName.length hn
  rw [SegMan.save_eq]
  unfold SegMan.entries
  have e1 : (decStr (segManOf name s).version).length ≤ 20 := decStr_len20 (by show 1 < 2 ^ 64; decide)
  have e2 : (segManOf name s).segmentId.length = 12 := h4
  have e3 : (segManOf name s).engine.name.length ≤ 20 := by show Engine.name .flat |>.length |> (· ≤ 20); decide
  have e4 : (segManOf name s).idsFile.length ≤ 20 := by show idsName.length ≤ 20; decide
  have e5 : (segManOf name s).vectorsFile.length ≤ 20 := by show vecName.length ≤ 20; decide
  have e6 : (segManOf name s).extras = [] := rfl
  rw [e6]
  simp only [List.append_nil, List.flatMap_cons, List.flatMap_nil, List.length_append, line_length, List.length_nil]
  have k1 : (str "version").length = 7 := by decide
  have k2 : (str "segment_id").length = 10 := by decide
  have k3 : (str "index_type").length = 10 := by decide
  have k4 : (str "metric").length = 6 := by decide
  have k5 : (str "dim").length = 3 := by decide
  have k6 : (str "count").length = 5 := by decide
  have k7 : (str "ids_file").length = 8 := by decide
  have k8 : (str "vectors_file").length = 12 := by decide
  rw [k1, k2, k3, k4, k5, k6, k7, k8]
  omega

/-- A complete segment opens. -/
theorem load_complete {d : Disk} {name : Bytes} {s : Segment} (h : Complete d name s) (hn : SegName name) (ho : s.opens = true) :
    loadSegment (d.dir name) = some s := by
  obtain ⟨files, h1, h2, h3, h4⟩ := h
  have hl := C36_segment_roundtrip_partial _ (segMan_valid hn ho) (segMan_size hn ho)
  unfold loadSegment
  rw [h1]
  simp only [h4, hl]
  have e1 : (segManOf name s).idsFile = idsName := rfl
  have e2 : (segManOf name s).vectorsFile = vecName := rfl
  have e3 : (segManOf name s).engine = .flat := rfl
  simp only [e1, e2, e3, h2, h3]
  have e4 : (⟨(segManOf name s).dim, (segManOf name s).count, (segManOf name s).metric, s.ids, s.vectors⟩ : Segment) = s := rfl
  rw [e4, ho]
  simp

/-- The labels of a segment. -/
def _root_.Alaya.DiskFlat.Segment.labels (s : Segment) : List Nat := labelsOf s.ids s.count

/-- The ids view agrees with the searcher. -/
theorem idsView_of_load {dir : Option KV} {s : Segment} (h : loadSegment dir = some s) : idsView dir = some s.labels := by
  unfold loadSegment at h
  unfold idsView
  cases dir with
  | none => cases h
  | some files =>
    simp only at h ⊢
    cases h1 : files.get manName with
    | none => rw [h1] at h; cases h
    | some t =>
      rw [h1] at h
      simp only at h ⊢
      cases h2 : SegMan.load t with
      | none => rw [h2] at h; cases h
      | some sm =>
        rw [h2] at h
        simp only at h ⊢
        by_cases h3 : sm.engine ≠ .flat
        · rw [if_pos h3] at h; cases h
        · rw [if_neg h3] at h
          cases h4 : files.get sm.idsFile with
          | none => rw [h4] at h; cases h
          | some i =>
            rw [h4] at h
            simp only at h ⊢
            cases h5 : files.get sm.vectorsFile with
            | none => rw [h5] at h; cases h
            | some v =>
              rw [h5] at h
              simp only at h
              by_cases h6 : (⟨sm.dim, sm.count, sm.metric, i, v⟩ : Segment).opens = true
              · rw [if_pos h6] at h
                injection h with h
                unfold Segment.opens at h6
                simp only [Bool.and_eq_true, decide_eq_true_eq] at h6
                rw [if_pos h6.1.2, ← h]
                rfl
              · rw [if_neg h6] at h; cases h

theorem loadSegment_dir {d : Disk} {n : Bytes} {s : Segment} (h : loadSegment (d.dir n) = some s) : (d.dir n).isSome = true := by
  cases hd : d.dir n with
  | none => rw [hd] at h; cases h
  | some _ => rfl

/-- Reading the labels back from the ids file. -/
theorem labelsOf_flatMap (l : List Nat) (h : ∀ x ∈ l, x < 2 ^ 64) : labelsOf (l.flatMap (leBytes 8)) l.length = l := by
  unfold labelsOf
  induction l with
  | nil => rfl
  | cons a l ih =>
    rw [List.length_cons, List.range_succ_eq_map, List.map_cons, List.map_map]
    have hl : (leBytes 8 a).length = 8 := by simp
    refine List.cons_eq_cons.2 ⟨?_, ?_⟩
    · rw [List.flatMap_cons, Nat.mul_zero, List.drop_zero, List.take_append, List.take_of_length_le (by omega),
        show 8 - (leBytes 8 a).length = 0 by omega, List.take_zero, List.append_nil]
      exact leNat_leBytes_of_lt (Nat.lt_of_lt_of_le (h a (by simp)) (by decide))
    · refine Eq.trans ?_ (ih (fun x hx => h x (by simp [hx])))
      refine List.map_congr_left (fun i _ => ?_)
      simp only [Function.comp]
      rw [List.flatMap_cons, List.drop_append, List.drop_eq_nil_of_le (by omega), List.nil_append, hl]
      rw [show 8 * Nat.succ i - 8 = 8 * i by omega]

theorem flatMap_le_length (w : Nat) (l : List Nat) : (l.flatMap (leBytes w)).length = l.length * w := by
  induction l with
  | nil => simp
  | cons a l ih => rw [List.flatMap_cons, List.length_append, ih, leBytes_length, List.length_cons, Nat.succ_mul]; omega

theorem rowsOf_flat_length (f : List Nat → List Nat) (hf : ∀ r, (f r).length = r.length) (dim n : Nat) (v : List Nat)
    (h : v.length = n * dim) : ((rowsOf dim n v).map f).flatten.length = n * dim := by
  have key : ∀ k, k ≤ n → (((List.range k).map (rowAt dim v)).map f).flatten.length = k * dim := by
    intro k
    induction k with
    | zero => simp
    | succ k ih =>
      intro hk
      rw [List.range_succ, List.map_append, List.map_append, List.flatten_append, List.length_append, ih (by omega)]
      have : (rowAt dim v k).length = dim := by
        unfold rowAt
        rw [List.length_take, List.length_drop, h]
        have : (k + 1) * dim ≤ n * dim := Nat.mul_le_mul_right _ hk
        rw [Nat.succ_mul] at this
        omega
      simp only [List.map_cons, List.map_nil, List.flatten_cons, List.flatten_nil, List.append_nil, hf, this]
      rw [Nat.succ_mul]
  exact key n (Nat.le_refl n)

/-- The normalisation keeps the number of components. -/
def KernelOk (K : Kernel) : Prop := ∀ r, (K.norm r).length = r.length

/-- A plan that succeeded: what it says. -/
structure Planned (K : Kernel) (d : Disk) (m : Mem) (name : Bytes) (s : Segment) : Prop where
  nodup : m.pendL.Nodup
  ids : ∃ ls, allIds d m.dirs = some ls ∧ ∀ x ∈ m.pendL, x ∉ ls
  named : name = formatSegmentId m.man.next
  valid : SegName name
  fresh : d.dir name = none
  opens : s.opens = true
  labels : s.labels = m.pendL
  dim : s.dim = m.man.dim
  metric : s.metric = m.man.metric

theorem plan_some {K : Kernel} (hK : KernelOk K) {d : Disk} {m : Mem} {name : Bytes} {b : Builder} {s : Segment}
    (hd : m.man.dim < 2 ^ 32) (hv : m.pendV.length = m.pendL.length * m.man.dim) (hl : ∀ x ∈ m.pendL, x < 2 ^ 64)
    (hacc : accounted m.man.dim m.pendL.length < 2 ^ 64)
    (h : plan K d m = some (name, b, some s)) : Planned K d m name s := by
  unfold plan at h
  by_cases h1 : m.pendL.Nodup
  case neg => rw [if_pos (by simp [h1])] at h; cases h
  rw [if_neg (by simp [h1])] at h
  cases h2 : allIds d m.dirs with
  | none => rw [h2] at h; cases h
  | some ls =>
    rw [h2] at h
    simp only at h
    by_cases h3 : m.pendL.any (fun l => ls.contains l) = true
    · rw [if_pos h3] at h; cases h
    rw [if_neg h3] at h
    have hmod : m.man.dim % 4294967296 = m.man.dim := Nat.mod_eq_of_lt (by omega)
    rw [hmod] at h
    by_cases h4 : m.man.dim = 0
    · rw [if_pos h4] at h; cases h
    rw [if_neg h4] at h
    cases h5 : Builder.addBatch ⟨m.man.dim, m.man.metric, [], [], false⟩ m.pendV m.pendL with
    | none => rw [h5] at h; cases h
    | some b' =>
      rw [h5] at h
      simp only at h
      by_cases h6 : validSegmentId (formatSegmentId m.man.next) = true
      case neg => rw [if_pos (by simp [h6])] at h; cases h
      rw [if_neg (by simp [h6])] at h
      by_cases h7 : (d.dir (formatSegmentId m.man.next)).isSome = true
      · rw [if_pos h7] at h; cases h
      rw [if_neg h7] at h
      injection h with h
      injection h with e1 h
      injection h with e2 e3
      have hb : b' = ⟨m.man.dim, m.man.metric, m.pendV, m.pendL, false⟩ ∧ m.pendL ≠ [] := by
        unfold Builder.addBatch at h5
        simp only at h5
        rw [if_neg (by simp)] at h5
        by_cases h8 : m.pendL.length = 0
        · rw [if_pos h8] at h5
          injection h5 with h5
          rw [← h5] at e3
          unfold Builder.finish at e3
          simp at e3
        rw [if_neg h8] at h5
        by_cases h9 : U64 ≤ m.pendL.length * m.man.dim
        · rw [if_pos h9] at h5; cases h5
        rw [if_neg h9] at h5
        by_cases h10 : m.pendV.all finite32 = true
        · rw [if_pos h10] at h5
          injection h5 with h5
          refine ⟨by rw [← h5]; simp, ?_⟩
          intro hh; rw [hh] at h8; exact h8 rfl
        · rw [if_neg h10] at h5; cases h5
      obtain ⟨hb, hne⟩ := hb
      have hs : s.dim = m.man.dim ∧ s.count = m.pendL.length ∧ s.metric = m.man.metric ∧ s.ids = m.pendL.flatMap (leBytes 8) ∧
          s.vectors.length = m.pendL.length * m.man.dim * 4 := by
        rw [hb] at e3
        unfold Builder.finish at e3
        simp only at e3
        rw [if_neg (by simp), if_neg hne] at e3
        by_cases hc : m.man.metric = .cos
        · rw [if_pos hc] at e3
          split at e3
          · cases e3
          · injection e3 with e3
            rw [← e3]
            refine ⟨rfl, rfl, rfl, rfl, ?_⟩
            simp only
            rw [flatMap_le_length, rowsOf_flat_length K.norm hK _ _ _ hv]
        · rw [if_neg hc] at e3
          injection e3 with e3
          rw [← e3]
          refine ⟨rfl, rfl, rfl, rfl, ?_⟩
          simp only
          rw [flatMap_le_length, hv]
      obtain ⟨s1, s2, s3, s4, s5⟩ := hs
      have hpos : m.pendL.length ≠ 0 := fun hh => hne (List.length_eq_zero_iff.1 hh)
      have hexp : accounted m.man.dim m.pendL.length = 8 * (m.pendL.length * m.man.dim) + 16 * m.pendL.length := by
        unfold accounted
        rw [Nat.mul_add, Nat.mul_assoc, Nat.mul_left_comm m.pendL.length 4, ← Nat.mul_assoc]
        omega
      rw [hexp] at hacc
      refine { nodup := h1, ids := ⟨ls, h2, ?_⟩, named := e1.symm, valid := ?_, fresh := ?_, opens := ?_, labels := ?_, dim := s1, metric := s3 }
      · intro x hx hc
        refine h3 (List.any_eq_true.2 ⟨x, hx, ?_⟩)
        simpa using hc
      · rw [← e1]; exact (validSegmentId_iff _).1 h6
      · rw [← e1]
        cases hd : d.dir (formatSegmentId m.man.next) with
        | none => rfl
        | some _ => rw [hd] at h7; exact absurd rfl h7
      · unfold Segment.opens
        simp only [Bool.and_eq_true, decide_eq_true_eq]
        rw [s1, s2, s4, s5, flatMap_le_length, U64_eq]
        refine ⟨⟨⟨⟨⟨⟨⟨h4, hpos⟩, ?_⟩, ?_⟩, ?_⟩, hd⟩, rfl⟩, rfl⟩ <;> omega
      · unfold Segment.labels
        rw [s2, s4]; exact labelsOf_flatMap _ hl

end Alaya.DiskColl2
