import Verif.Props.C09

/-! C10: a log torn at any byte replays exactly the operations committed before the tear. -/
namespace Alaya.Wal

/-- Any sequence of append calls, any cut: the scan sees exactly the frames that lie completely inside the
cut, and replay returns (a sorted arrangement of) exactly the records these frames commit that are newer than
the snapshot. -/
theorem C10_torn_frames (fs : List Frame)
    (h : ∀ f ∈ fs, f.record.opId < 2 ^ 64 ∧ f.record.payload.length ≤ 2 ^ 30) (k applied : Nat)
    (file : Bytes) (hf : appendAll [] fs = some file) (out : List Record) (maxSeen : Nat) :
    Replayable (some (file.take k)) applied out maxSeen ↔
      (out.Perm ((committed (framesWithin k fs)).filter (fun r => decide (r.opId > applied))) ∧
        out.Pairwise (fun a b => a.opId ≤ b.opId)) ∧
      maxSeen = ((framesWithin k fs).map (fun f => f.record.opId)).foldl max applied := by
  rw [appendAll_eq fs h] at hf
  injection hf with hf
  rw [List.nil_append] at hf
  subst hf
  unfold Replayable SortedResult
  simp only
  rw [scan_cut fs h, (replayFrames_spec applied _).1, (replayFrames_spec applied _).2]

/-- Histories as the index writes them: operations with increasing ids, each with its prepare frame and — unless
it failed — its commit frame. Cut anywhere: replay returns exactly the finished operations that lie
completely inside the cut and are newer than the snapshot, in their order. -/
theorem C10_torn_history (os : List LoggedOp)
    (hinc : os.Pairwise (fun a b => a.record.opId < b.record.opId))
    (h : ∀ o ∈ os, o.record.opId < 2 ^ 64 ∧ o.record.payload.length ≤ 2 ^ 30) (k applied : Nat)
    (file : Bytes) (hf : appendAll [] (os.flatMap LoggedOp.frames) = some file) (out : List Record) :
    (∃ maxSeen, Replayable (some (file.take k)) applied out maxSeen) ↔
      out = (((opsWithin k os).filter LoggedOp.done).map LoggedOp.record).filter
        (fun r => decide (r.opId > applied)) := by
  have hfr : ∀ f ∈ os.flatMap LoggedOp.frames, f.record.opId < 2 ^ 64 ∧ f.record.payload.length ≤ 2 ^ 30 := by
    intro f hf
    rw [List.mem_flatMap] at hf
    obtain ⟨o, ho, hfo⟩ := hf
    have := h o ho
    unfold LoggedOp.frames at hfo
    rcases List.mem_cons.1 hfo with rfl | hfo
    · exact this
    · by_cases hd : o.done = true
      · rw [if_pos hd] at hfo
        simp only [List.mem_singleton] at hfo
        subst hfo
        exact ⟨this.1, by simp [commitFrame]⟩
      · rw [if_neg hd] at hfo; simp at hfo
  have hsorted : ((((opsWithin k os).filter LoggedOp.done).map LoggedOp.record).filter
        (fun r => decide (r.opId > applied))).Pairwise (fun a b => a.opId < b.opId) := by
    apply List.Pairwise.filter
    rw [List.pairwise_map]
    apply List.Pairwise.filter
    exact hinc.sublist (opsWithin_prefix k os).sublist
  constructor
  · rintro ⟨mx, hr⟩
    have := ((C10_torn_frames _ hfr k applied file hf out mx).1 hr).1
    rw [committed_cut] at this
    exact sortedResult_unique hsorted this
  · rintro rfl
    refine ⟨_, (C10_torn_frames _ hfr k applied file hf _ _).2 ⟨⟨?_, ?_⟩, rfl⟩⟩
    · rw [committed_cut]
    · exact hsorted.imp (by intros; omega)

-- three operations, the second failed; cut in the middle of the commit frame of the third
def sampleOps : List LoggedOp :=
  [⟨⟨4, .insert, str "HEADx"⟩, true⟩, ⟨⟨5, .upsert, str "TAIL"⟩, false⟩, ⟨⟨6, .removeByItemId, str "z"⟩, true⟩]

example : sampleOps.Pairwise (fun a b => a.record.opId < b.record.opId) ∧
    ∀ o ∈ sampleOps, o.record.opId < 2 ^ 64 ∧ o.record.payload.length ≤ 2 ^ 30 := by decide

set_option maxRecDepth 100000 in
example : replayable (some (((sampleOps.flatMap LoggedOp.frames).map frameBytes).flatten.take 130)) 0
    = ([⟨4, .insert, str "HEADx"⟩], 6) := by decide

end Alaya.Wal
