import Verif.Model.BinaryIO
import Verif.Lemmas.Bytes

namespace Alaya.BinIO

/-- Bytes of one value. -/
def encVal : Val → Bytes
  | .u8 n => leBytes 1 n
  | .u32 n => leBytes 4 n
  | .u64 n => leBytes 8 n
  | .string b => leBytes 8 b.length ++ b
  | .blob b => leBytes 8 b.length ++ b

theorem writeBytes_eq (buf b : Bytes) : writeBytes buf b = buf ++ b := by
  unfold writeBytes
  split
  · rename_i h
    rw [List.length_eq_zero_iff] at h
    subst h; simp
  · rfl

theorem write_eq (buf : Bytes) (v : Val) : write buf v = buf ++ encVal v := by
  cases v <;> simp [write, writePod, encVal, writeBytes_eq]

theorem foldl_write (vs : List Val) (buf : Bytes) :
    vs.foldl write buf = buf ++ (vs.map encVal).flatten := by
  induction vs generalizing buf with
  | nil => simp
  | cons v vs ih => simp [ih, write_eq]

theorem writeAll_eq (vs : List Val) : writeAll vs = (vs.map encVal).flatten := by
  simp [writeAll, foldl_write]

/-- Reader invariant. -/
def Reader.Good (r : Reader) : Prop := r.offset ≤ r.data.length ∧ r.data.length < 2 ^ 64

theorem remaining_eq {r : Reader} (h : r.Good) : r.remaining = r.data.length - r.offset := by
  unfold Reader.remaining
  rw [if_pos h.1]

theorem readPod_spec {r : Reader} (h : r.Good) (w : Nat) :
    readPod w r = (if r.data.length - r.offset < w then (.nullopt, r)
      else (.ok (leNat ((r.data.drop r.offset).take w)), { r with offset := r.offset + w })) := by
  unfold readPod
  rw [remaining_eq h]
  split
  · rfl
  · obtain ⟨h1, h2⟩ := h
    rw [slice, if_pos (by omega)]

theorem readFixed_spec {r : Reader} (h : r.Good) (n : Nat) :
    readFixed n r = (if r.data.length - r.offset < n then (.nullopt, r)
      else (.ok ((r.data.drop r.offset).take n), { r with offset := r.offset + n })) := by
  unfold readFixed
  rw [remaining_eq h]
  split
  · rfl
  · obtain ⟨h1, h2⟩ := h
    rw [slice, if_pos (by omega)]

theorem readPod_good {r : Reader} (h : r.Good) (w : Nat) :
    (readPod w r).2.Good ∧ (readPod w r).2.data = r.data ∧ (readPod w r).1 ≠ .ub := by
  rw [readPod_spec h]
  split
  · exact ⟨h, rfl, by simp⟩
  · obtain ⟨h1, h2⟩ := h
    refine ⟨⟨?_, h2⟩, rfl, by simp⟩
    simp only; omega

theorem readFixed_good {r : Reader} (h : r.Good) (w : Nat) :
    (readFixed w r).2.Good ∧ (readFixed w r).2.data = r.data ∧ (readFixed w r).1 ≠ .ub := by
  rw [readFixed_spec h]
  split
  · exact ⟨h, rfl, by simp⟩
  · obtain ⟨h1, h2⟩ := h
    refine ⟨⟨?_, h2⟩, rfl, by simp⟩
    simp only; omega

theorem readBlob_good {r : Reader} (h : r.Good) :
    (readBlob r).2.Good ∧ (readBlob r).2.data = r.data ∧ (readBlob r).1 ≠ .ub := by
  have hp := readPod_good h 8
  unfold readBlob
  generalize readPod 8 r = p at *
  obtain ⟨x, r1⟩ := p
  simp only at hp
  cases x with
  | ok n =>
    simp only
    have := readFixed_good hp.1 n
    exact ⟨this.1, this.2.1.trans hp.2.1, this.2.2⟩
  | nullopt => exact ⟨hp.1, hp.2.1, by simp⟩
  | ub => exact absurd rfl hp.2.2

theorem map_ne_ub {α β : Type} {f : α → β} {x : Res α} (h : x ≠ .ub) : x.map f ≠ .ub := by
  cases x <;> simp_all [Res.map]

theorem read_good {r : Reader} (h : r.Good) (op : ReadOp) :
    (read op r).2.Good ∧ (read op r).2.data = r.data ∧ (read op r).1 ≠ .ub := by
  cases op with
  | u8 => have := readPod_good h 1; exact ⟨this.1, this.2.1, map_ne_ub this.2.2⟩
  | u32 => have := readPod_good h 4; exact ⟨this.1, this.2.1, map_ne_ub this.2.2⟩
  | u64 => have := readPod_good h 8; exact ⟨this.1, this.2.1, map_ne_ub this.2.2⟩
  | string => have := readBlob_good h; exact ⟨this.1, this.2.1, map_ne_ub this.2.2⟩
  | blob => have := readBlob_good h; exact ⟨this.1, this.2.1, map_ne_ub this.2.2⟩
  | fixed n => have := readFixed_good h n; exact ⟨this.1, this.2.1, map_ne_ub this.2.2⟩

theorem readAll_good (ops : List ReadOp) {r : Reader} (h : r.Good) :
    (readAll ops r).2.Good ∧ (readAll ops r).2.data = r.data ∧ ∀ x ∈ (readAll ops r).1, x ≠ .ub := by
  induction ops generalizing r with
  | nil => exact ⟨h, rfl, by simp [readAll]⟩
  | cons op ops ih =>
    have h1 := read_good h op
    have h2 := ih h1.1
    refine ⟨h2.1, h2.2.1.trans h1.2.1, ?_⟩
    intro x hx
    simp only [readAll, List.mem_cons] at hx
    rcases hx with rfl | hx
    · exact h1.2.2
    · exact h2.2.2 x hx

/-- Reading at the start of a chunk. -/
theorem readPod_at (pre post : Bytes) (w n : Nat) (hn : n < 256 ^ w)
    (hlen : (pre ++ leBytes w n ++ post).length < 2 ^ 64) :
    readPod w ⟨pre ++ leBytes w n ++ post, pre.length⟩
      = (.ok n, ⟨pre ++ leBytes w n ++ post, pre.length + w⟩) := by
  rw [readPod_spec ⟨by simp, hlen⟩]
  rw [if_neg (by simp)]
  simp only [List.append_assoc, List.drop_left]
  rw [List.take_append_of_le_length (by simp), List.take_of_length_le (by simp),
    leNat_leBytes_of_lt hn]

theorem readFixed_at (pre b post : Bytes) (hlen : (pre ++ b ++ post).length < 2 ^ 64) :
    readFixed b.length ⟨pre ++ b ++ post, pre.length⟩
      = (.ok b, ⟨pre ++ b ++ post, pre.length + b.length⟩) := by
  rw [readFixed_spec ⟨by simp, hlen⟩]
  rw [if_neg (by simp)]
  simp

theorem readBlob_at (pre b post : Bytes)
    (hlen : (pre ++ (leBytes 8 b.length ++ b) ++ post).length < 2 ^ 64) :
    readBlob ⟨pre ++ (leBytes 8 b.length ++ b) ++ post, pre.length⟩
      = (.ok b, ⟨pre ++ (leBytes 8 b.length ++ b) ++ post,
          pre.length + (leBytes 8 b.length ++ b).length⟩) := by
  have hb : b.length < 256 ^ 8 := by
    simp at hlen; omega
  unfold readBlob
  have e1 : pre ++ (leBytes 8 b.length ++ b) ++ post = pre ++ leBytes 8 b.length ++ (b ++ post) := by
    simp
  have h1 := readPod_at pre (b ++ post) 8 b.length hb (by rw [← e1]; exact hlen)
  rw [e1, h1]
  simp only
  have e2 : pre ++ leBytes 8 b.length ++ (b ++ post) = (pre ++ leBytes 8 b.length) ++ b ++ post := by
    simp
  have h2 := readFixed_at (pre ++ leBytes 8 b.length) b post (by rw [← e2, ← e1]; exact hlen)
  simp only [List.length_append, leBytes_length] at h2
  rw [← e2] at h2
  rw [h2]
  simp only [List.length_append, leBytes_length]
  congr 2
  omega

end Alaya.BinIO
