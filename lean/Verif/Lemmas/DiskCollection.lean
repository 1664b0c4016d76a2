import Verif.Props.C35
import Verif.Lemmas.DiskManifestSave

/-! Lemmas about the disk collection: the directory map, the steps of a flush, reading a segment back. -/
namespace Alaya.DiskColl2
open Alaya Alaya.DiskFlat Alaya.DiskManifest

/-! ### The directory map -/

theorem find_filter_ne (l : List (Bytes × KV)) (n x : Bytes) (h : x ≠ n) :
    (l.filter (fun e => !(e.1 == n))).find? (fun e => e.1 == x) = l.find? (fun e => e.1 == x) := by
  induction l with
  | nil => rfl
  | cons e l ih =>
    by_cases he : e.1 = n
    · rw [List.filter_cons_of_neg (by simp [he]), ih, List.find?_cons_of_neg (by simp [he]; exact fun h' => h h'.symm)]
    · rw [List.filter_cons_of_pos (by simp [he])]
      by_cases hx : e.1 = x
      · rw [List.find?_cons_of_pos (by simp [hx]), List.find?_cons_of_pos (by simp [hx])]
      · rw [List.find?_cons_of_neg (by simp [hx]), List.find?_cons_of_neg (by simp [hx]), ih]

theorem find_filter_self (l : List (Bytes × KV)) (n : Bytes) :
    (l.filter (fun e => !(e.1 == n))).find? (fun e => e.1 == n) = none := by
  rw [List.find?_eq_none]
  intro e he
  have := (List.mem_filter.1 he).2
  simpa using this

theorem dir_rm (d : Disk) (n x : Bytes) : (d.rmDir n).dir x = if x = n then none else d.dir x := by
  unfold Disk.dir Disk.rmDir
  by_cases h : x = n
  · rw [if_pos h, h, find_filter_self]; rfl
  · rw [if_neg h, find_filter_ne _ _ _ h]

theorem dir_set (d : Disk) (n x : Bytes) (c : KV) : (d.setDir n c).dir x = if x = n then some c else d.dir x := by
  unfold Disk.dir Disk.setDir Disk.rmDir
  by_cases h : x = n
  · rw [if_pos h, List.find?_cons_of_pos (by simp [h])]; rfl
  · rw [if_neg h, List.find?_cons_of_neg (by simp; exact fun h' => h h'.symm), find_filter_ne _ _ _ h]

theorem dir_some_mem {d : Disk} {n : Bytes} {c : KV} (h : d.dir n = some c) : (n, c) ∈ d.segs := by
  unfold Disk.dir at h
  rw [Option.map_eq_some_iff] at h
  obtain ⟨e, h1, h2⟩ := h
  have := List.mem_of_find?_eq_some h1
  have h3 := List.find?_some h1
  simp only [beq_iff_eq] at h3
  rw [← h3, ← h2]; exact this

theorem mem_dir_some {d : Disk} {e : Bytes × KV} (h : e ∈ d.segs) : (d.dir e.1).isSome = true := by
  unfold Disk.dir
  rw [Option.isSome_map, List.find?_isSome]
  exact ⟨e, h, by simp⟩

/-! ### Steps -/

/-- A step inside the temporary directory. -/
def TmpStep (tmp : Bytes) (s : FStep) : Prop := s = .mkdir tmp ∨ ∃ f c, s = .put tmp f c

/-- Nothing but the temporary directory changed. -/
def Frame (tmp : Bytes) (d d' : Disk) : Prop := d'.man = d.man ∧ ∀ x, x ≠ tmp → d'.dir x = d.dir x

theorem Frame.refl (tmp : Bytes) (d : Disk) : Frame tmp d d := ⟨rfl, fun _ _ => rfl⟩

theorem Frame.trans {tmp : Bytes} {a b c : Disk} (h : Frame tmp a b) (h' : Frame tmp b c) : Frame tmp a c :=
  ⟨h'.1.trans h.1, fun x hx => (h'.2 x hx).trans (h.2 x hx)⟩

theorem frame_set (tmp : Bytes) (d : Disk) (c : KV) : Frame tmp d (d.setDir tmp c) :=
  ⟨rfl, fun x hx => by rw [dir_set, if_neg hx]⟩

theorem frame_rm (tmp : Bytes) (d : Disk) : Frame tmp d (d.rmDir tmp) :=
  ⟨rfl, fun x hx => by rw [dir_rm, if_neg hx]⟩

theorem frame_leave (tmp : Bytes) (d : Disk) (c : Option KV) : Frame tmp d (leave d tmp c) := by
  cases c with
  | none => exact frame_rm tmp d
  | some c => exact frame_set tmp d c

theorem frame_apply {tmp : Bytes} {s : FStep} (h : TmpStep tmp s) (d : Disk) : Frame tmp d (d.apply s) := by
  rcases h with rfl | ⟨f, c, rfl⟩
  · unfold Disk.apply
    simp only
    split
    · exact Frame.refl tmp d
    · exact frame_set tmp d []
  · unfold Disk.apply
    simp only
    split
    · exact Frame.refl tmp d
    · exact frame_set tmp d _

theorem frame_run {tmp : Bytes} : ∀ (l : List FStep) (d : Disk), (∀ s ∈ l, TmpStep tmp s) → Frame tmp d (d.run l)
  | [], d, _ => Frame.refl tmp d
  | s :: l, d, h => (frame_apply (h s (by simp)) d).trans (frame_run l (d.apply s) (fun x hx => h x (by simp [hx])))

theorem run_append (d : Disk) (a b : List FStep) : d.run (a ++ b) = (d.run a).run b := by
  unfold Disk.run; rw [List.foldl_append]

theorem writeSteps_tmp (n f c : Bytes) : ∀ s ∈ writeSteps n f c, TmpStep n s := by
  intro s hs
  obtain ⟨j, _, rfl⟩ := List.mem_map.1 hs
  exact Or.inr ⟨_, _, rfl⟩

theorem kv_get_put (kv : KV) (f g c : Bytes) : (kv.put f c).get g = if g = f then some c else kv.get g := by
  rw [KV.get_put]
  by_cases h : f = g
  · rw [if_pos h, if_pos h.symm]
  · rw [if_neg h, if_neg (Ne.symm h)]

/-- After writing a file the directory has it in full and its other files unchanged. -/
theorem run_write {d : Disk} {n f c : Bytes} {files : KV} (h : d.dir n = some files) :
    ∃ files', (d.run (writeSteps n f c)).dir n = some files' ∧ files'.get f = some c ∧ ∀ g, g ≠ f → files'.get g = files.get g := by
  have key : ∀ k, ∃ files', (d.run ((List.range (k + 1)).map (fun j => FStep.put n f (c.take j)))).dir n = some files' ∧
      files'.get f = some (c.take k) ∧ ∀ g, g ≠ f → files'.get g = files.get g := by
    intro k
    induction k with
    | zero =>
      refine ⟨files.put f (c.take 0), ?_, ?_, ?_⟩
      · show (d.apply (.put n f (c.take 0))).dir n = _
        unfold Disk.apply
        simp only [h]
        rw [dir_set, if_pos rfl]
      · rw [kv_get_put, if_pos rfl]
      · intro g hg; rw [kv_get_put, if_neg hg]
    | succ k ih =>
      obtain ⟨fs, h1, h2, h3⟩ := ih
      rw [List.range_succ, List.map_append, run_append]
      refine ⟨fs.put f (c.take (k + 1)), ?_, ?_, ?_⟩
      · show (Disk.apply _ (.put n f (c.take (k + 1)))).dir n = _
        unfold Disk.apply
        simp only [h1]
        rw [dir_set, if_pos rfl]
      · rw [kv_get_put, if_pos rfl]
      · intro g hg; rw [kv_get_put, if_neg hg]; exact h3 g hg
  obtain ⟨fs, h1, h2, h3⟩ := key c.length
  rw [List.take_length] at h2
  exact ⟨fs, h1, h2, h3⟩

/-- The steps before the rename. -/
def preSteps (tmp name : Bytes) (s : Segment) : List FStep :=
  .mkdir tmp :: (writeSteps tmp idsName s.ids ++ writeSteps tmp vecName s.vectors ++
    writeSteps tmp manName (segManOf name s).save)

theorem segSteps_eq (tmp name : Bytes) (s : Segment) : segSteps tmp name s = preSteps tmp name s ++ [.mv tmp name] := by
  unfold segSteps preSteps; simp

theorem preSteps_tmp (tmp name : Bytes) (s : Segment) : ∀ x ∈ preSteps tmp name s, TmpStep tmp x := by
  intro x hx
  unfold preSteps at hx
  rcases List.mem_cons.1 hx with rfl | hx
  · exact Or.inl rfl
  · rcases List.mem_append.1 hx with hx | hx
    · rcases List.mem_append.1 hx with hx | hx
      · exact writeSteps_tmp _ _ _ x hx
      · exact writeSteps_tmp _ _ _ x hx
    · exact writeSteps_tmp _ _ _ x hx

theorem pre_files (d : Disk) (tmp name : Bytes) (s : Segment) : ∃ files, (d.run (preSteps tmp name s)).dir tmp = some files ∧
    files.get idsName = some s.ids ∧ files.get vecName = some s.vectors ∧ files.get manName = some (segManOf name s).save := by
  unfold preSteps
  rw [← List.singleton_append, run_append, run_append, run_append]
  have h0 : ∃ f0, (d.run [.mkdir tmp]).dir tmp = some f0 := by
    show ∃ f0, (d.apply (.mkdir tmp)).dir tmp = some f0
    unfold Disk.apply
    simp only
    split
    · next h => exact Option.isSome_iff_exists.1 h
    · exact ⟨[], by rw [dir_set, if_pos rfl]⟩
  obtain ⟨f0, h0⟩ := h0
  obtain ⟨f1, h1, a1, b1⟩ := run_write (f := idsName) (c := s.ids) h0
  obtain ⟨f2, h2, a2, b2⟩ := run_write (f := vecName) (c := s.vectors) h1
  obtain ⟨f3, h3, a3, b3⟩ := run_write (f := manName) (c := (segManOf name s).save) h2
  refine ⟨f3, h3, ?_, ?_, a3⟩
  · rw [b3 _ (by decide), b2 _ (by decide), a1]
  · rw [b3 _ (by decide), a2]

/-- The three files of a published segment. -/
def Complete (d : Disk) (name : Bytes) (s : Segment) : Prop :=
  ∃ files, d.dir name = some files ∧ files.get idsName = some s.ids ∧ files.get vecName = some s.vectors ∧
    files.get manName = some (segManOf name s).save

theorem mv_result {d : Disk} {a b : Bytes} {files : KV} (ha : d.dir a = some files) (hb : d.dir b = none) :
    (d.apply (.mv a b)).man = d.man ∧ ∀ x, (d.apply (.mv a b)).dir x = if x = b then some files else if x = a then none else d.dir x := by
  have e : d.apply (.mv a b) = (d.rmDir a).setDir b files := by
    unfold Disk.apply
    simp only [ha, hb]
    rfl
  rw [e]
  refine ⟨rfl, fun x => ?_⟩
  rw [dir_set, dir_rm]

/-- Building a segment: afterwards it is complete, everything else but the temporary directory is as before. -/
theorem run_seg (d : Disk) (tmp name : Bytes) (s : Segment) (hne : tmp ≠ name) (hn : d.dir name = none) :
    (d.run (segSteps tmp name s)).man = d.man ∧ Complete (d.run (segSteps tmp name s)) name s ∧
    ∀ x, x ≠ tmp → x ≠ name → (d.run (segSteps tmp name s)).dir x = d.dir x := by
  rw [segSteps_eq, run_append]
  have hf := frame_run (preSteps tmp name s) d (preSteps_tmp tmp name s)
  obtain ⟨files, h1, h2, h3, h4⟩ := pre_files d tmp name s
  have hb : (d.run (preSteps tmp name s)).dir name = none := by rw [hf.2 name (Ne.symm hne)]; exact hn
  obtain ⟨e1, e2⟩ := mv_result h1 hb
  show ((d.run (preSteps tmp name s)).apply (.mv tmp name)).man = _ ∧ Complete ((d.run (preSteps tmp name s)).apply (.mv tmp name)) name s ∧
    ∀ x, x ≠ tmp → x ≠ name → ((d.run (preSteps tmp name s)).apply (.mv tmp name)).dir x = d.dir x
  refine ⟨e1.trans hf.1, ⟨files, ?_, h2, h3, h4⟩, ?_⟩
  · rw [e2, if_pos rfl]
  · intro x hx hx'
    rw [e2, if_neg hx', if_neg hx, hf.2 x hx]

/-- What the disk may look like after any prefix of the steps of a flush. -/
inductive Reached (tmp name : Bytes) (s : Segment) (man' : Bytes) (d d' : Disk) : Prop where
  | none : Frame tmp d d' → Reached tmp name s man' d d'
  | built : d'.man = d.man → Complete d' name s → (∀ x, x ≠ tmp → x ≠ name → d'.dir x = d.dir x) → Reached tmp name s man' d d'
  | published : d'.man = some man' → Complete d' name s → (∀ x, x ≠ tmp → x ≠ name → d'.dir x = d.dir x) →
      Reached tmp name s man' d d'

theorem run_pub (d : Disk) (c : Bytes) : (d.run [FStep.tmpMan, FStep.pub c]).man = some c ∧
    ∀ x, (d.run [FStep.tmpMan, FStep.pub c]).dir x = d.dir x :=
  ⟨rfl, fun _ => rfl⟩

theorem run_all (d : Disk) (tmp name : Bytes) (s : Segment) (c : Bytes) (hne : tmp ≠ name) (hn : d.dir name = none) :
    (d.run (segSteps tmp name s ++ [FStep.tmpMan, FStep.pub c])).man = some c ∧
    Complete (d.run (segSteps tmp name s ++ [FStep.tmpMan, FStep.pub c])) name s ∧
    ∀ x, x ≠ tmp → x ≠ name → (d.run (segSteps tmp name s ++ [FStep.tmpMan, FStep.pub c])).dir x = d.dir x := by
  obtain ⟨_, h2, h3⟩ := run_seg d tmp name s hne hn
  rw [run_append]
  obtain ⟨e1, e2⟩ := run_pub (d.run (segSteps tmp name s)) c
  refine ⟨e1, ?_, fun x hx hx' => (e2 x).trans (h3 x hx hx')⟩
  unfold Complete at *
  rw [e2]; exact h2

theorem run_prefix (d : Disk) (tmp name : Bytes) (s : Segment) (c : Bytes) (hne : tmp ≠ name) (hn : d.dir name = none) (i : Nat) :
    Reached tmp name s c d (d.run ((segSteps tmp name s ++ [FStep.tmpMan, FStep.pub c]).take i)) := by
  obtain ⟨a1, a2, a3⟩ := run_seg d tmp name s hne hn
  by_cases h : i ≤ (preSteps tmp name s).length
  · rw [segSteps_eq, List.append_assoc, List.take_append, show i - (preSteps tmp name s).length = 0 by omega, List.take_zero,
      List.append_nil]
    exact .none (frame_run _ d (fun x hx => preSteps_tmp tmp name s x (List.mem_of_mem_take hx)))
  · have hl : (segSteps tmp name s).length = (preSteps tmp name s).length + 1 := by rw [segSteps_eq]; simp
    have htake : (segSteps tmp name s ++ [FStep.tmpMan, FStep.pub c]).take i =
        segSteps tmp name s ++ [FStep.tmpMan, FStep.pub c].take (i - (segSteps tmp name s).length) := by
      rw [List.take_append, List.take_of_length_le (by omega)]
    rw [htake, run_append]
    obtain ⟨j, hj⟩ : ∃ j, j = i - (segSteps tmp name s).length := ⟨_, rfl⟩
    rw [← hj]
    match j with
    | 0 => exact .built a1 a2 a3
    | 1 => exact .built a1 a2 a3
    | j + 2 =>
      have := run_all d tmp name s c hne hn
      rw [run_append] at this
      rw [show List.take (j + 2) [FStep.tmpMan, FStep.pub c] = [FStep.tmpMan, FStep.pub c] by simp]
      exact .published this.1 this.2.1 this.2.2

end Alaya.DiskColl2
