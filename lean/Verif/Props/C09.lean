import Verif.Lemmas.Wal

/-! C09: write-ahead-log frames read back exactly. -/
namespace Alaya.Wal

/-- Appending any sequence of frames (payload at most 1 GiB, op id below 2^64) succeeds, and scanning the
resulting file yields exactly that sequence. -/
theorem C09_frames_round_trip (fs : List Frame)
    (h : ∀ f ∈ fs, f.record.opId < 2 ^ 64 ∧ f.record.payload.length ≤ 2 ^ 30) :
    ∃ file, appendAll [] fs = some file ∧ scan file = fs := by
  refine ⟨_, appendAll_eq fs h [], ?_⟩
  have := scan_frames fs h []
  rw [scan_nil] at this
  simpa using this

-- a payload that contains both magic numbers
def sampleRecord : Record := ⟨7, .upsert, leBytes 4 trailerMagic ++ leBytes 4 frameMagic⟩
example : ∀ f ∈ [prepareFrame sampleRecord, commitFrame 7 .upsert],
    f.record.opId < 2 ^ 64 ∧ f.record.payload.length ≤ 2 ^ 30 := by decide

/-- What the writer emits is a frame of the format; the reader accepts exactly the frames of the format,
returns their content and leaves the rest untouched; nothing is left over at the end of a written file. -/
theorem C09_reader_accepts_exactly_frames (bs : Bytes) (f : Frame) (rest : Bytes) :
    readFrame bs = some (f, rest) ↔ ∃ b, IsFrame b f ∧ bs = b ++ rest := readFrame_iff bs f rest

theorem C09_writer_emits_frames (file : Bytes) (f : Frame) (h : f.record.opId < 2 ^ 64)
    (hp : f.record.payload.length ≤ 2 ^ 30) :
    ∃ b, IsFrame b f ∧ appendFrame file f = some (file ++ b) := by
  refine ⟨frameBytes f, frameBytes_isFrame ⟨h, hp⟩, ?_⟩
  unfold appendFrame
  rw [if_neg (by unfold maxPayload; omega)]

/-- A payload above 1 GiB is refused and the file is not touched. -/
theorem C09_oversized_refused (file : Bytes) (f : Frame) (h : f.record.payload.length > 2 ^ 30) :
    appendFrame file f = none := by
  unfold appendFrame; rw [if_pos (by unfold maxPayload; omega)]

example : ∃ f : Frame, f.record.payload.length > 2 ^ 30 := by
  have h : ∀ n : Nat, (⟨.prepare, ⟨0, .insert, List.replicate n 0⟩⟩ : Frame).record.payload.length = n :=
    fun n => List.length_replicate
  exact ⟨_, Nat.lt_of_lt_of_eq (Nat.lt_succ_self (2 ^ 30)) (h _).symm⟩

end Alaya.Wal
