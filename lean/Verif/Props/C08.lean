import Verif.Lemmas.BinaryIO

/-! C08: BinaryWriter / BinaryReader round-trip with bounds safety. -/
namespace Alaya.BinIO

/-- The read call that matches a written value. -/
def opOf : Val → ReadOp
  | .u8 _ => .u8
  | .u32 _ => .u32
  | .u64 _ => .u64
  | .string _ => .string
  | .blob _ => .blob

/-- The value fits the C++ parameter type. -/
def Fits : Val → Prop
  | .u8 n => n < 2 ^ 8
  | .u32 n => n < 2 ^ 32
  | .u64 n => n < 2 ^ 64
  | .string _ => True
  | .blob _ => True

theorem read_at (pre post : Bytes) (v : Val) (hv : Fits v)
    (hlen : (pre ++ encVal v ++ post).length < 2 ^ 64) :
    read (opOf v) ⟨pre ++ encVal v ++ post, pre.length⟩
      = (.ok v, ⟨pre ++ encVal v ++ post, pre.length + (encVal v).length⟩) := by
  cases v with
  | u8 n => simp only [opOf, read, encVal] at *; rw [readPod_at pre post 1 n (by simpa [Fits] using hv) hlen]; simp [Res.map]
  | u32 n => simp only [opOf, read, encVal] at *; rw [readPod_at pre post 4 n (by simpa [Fits] using hv) hlen]; simp [Res.map]
  | u64 n => simp only [opOf, read, encVal] at *; rw [readPod_at pre post 8 n (by simpa [Fits] using hv) hlen]; simp [Res.map]
  | string b => simp only [opOf, read, encVal] at *; rw [readBlob_at pre b post hlen]; simp [Res.map]
  | blob b => simp only [opOf, read, encVal] at *; rw [readBlob_at pre b post hlen]; simp [Res.map]

theorem readAll_at (vs : List Val) (pre post : Bytes) (hv : ∀ v ∈ vs, Fits v)
    (hlen : (pre ++ (vs.map encVal).flatten ++ post).length < 2 ^ 64) :
    readAll (vs.map opOf) ⟨pre ++ (vs.map encVal).flatten ++ post, pre.length⟩
      = (vs.map .ok, ⟨pre ++ (vs.map encVal).flatten ++ post,
          pre.length + ((vs.map encVal).flatten).length⟩) := by
  induction vs generalizing pre with
  | nil => simp [readAll]
  | cons v vs ih =>
    have e1 : pre ++ ((v :: vs).map encVal).flatten ++ post
        = pre ++ encVal v ++ ((vs.map encVal).flatten ++ post) := by simp
    have e2 : pre ++ ((v :: vs).map encVal).flatten ++ post
        = (pre ++ encVal v) ++ (vs.map encVal).flatten ++ post := by simp
    have h1 := read_at pre ((vs.map encVal).flatten ++ post) v (hv v (by simp)) (by rw [← e1]; exact hlen)
    have h2 := ih (pre ++ encVal v) (fun x hx => hv x (by simp [hx])) (by rw [← e2]; exact hlen)
    simp only [List.map_cons, readAll]
    simp only [List.map_cons] at e1 e2
    rw [e1, h1]
    simp only
    rw [← e1, e2]
    simp only [List.length_append] at h2
    rw [h2]
    simp only [List.flatten_cons, List.length_append, Nat.add_assoc]

/-- Reading back a written sequence with the matching read calls gives the same values; the reader
stops exactly at the end of what was written (whatever follows it). -/
theorem C08_roundtrip (vs : List Val) (post : Bytes) (hv : ∀ v ∈ vs, Fits v)
    (hlen : (writeAll vs ++ post).length < 2 ^ 64) :
    readAll (vs.map opOf) ⟨writeAll vs ++ post, 0⟩
      = (vs.map .ok, ⟨writeAll vs ++ post, (writeAll vs).length⟩) := by
  rw [writeAll_eq] at *
  have := readAll_at vs [] post hv (by simpa using hlen)
  simpa using this

/-- The reader is exhausted after reading back everything. -/
theorem C08_roundtrip_exhausted (vs : List Val) (hv : ∀ v ∈ vs, Fits v)
    (hlen : (writeAll vs).length < 2 ^ 64) :
    (readAll (vs.map opOf) ⟨writeAll vs, 0⟩).1 = vs.map .ok ∧
    (readAll (vs.map opOf) ⟨writeAll vs, 0⟩).2.remaining = 0 := by
  have := C08_roundtrip vs [] hv (by simpa using hlen)
  rw [List.append_nil] at this
  rw [this]
  simp [Reader.remaining]

example : (∀ v ∈ [Val.u8 7, .string [1, 2, 3], .u64 (2 ^ 63), .blob []], Fits v) ∧
    (writeAll [Val.u8 7, .string [1, 2, 3], .u64 (2 ^ 63), .blob []]).length < 2 ^ 64 := by
  constructor
  · simp [Fits]
  · decide

/-- Bounds safety: on any buffer, any sequence of read calls (also after failed ones) never touches a
byte outside of the buffer and never moves the offset past the end. -/
theorem C08_no_out_of_bounds (ops : List ReadOp) (data : Bytes) (hlen : data.length < 2 ^ 64) :
    (∀ x ∈ (readAll ops ⟨data, 0⟩).1, x ≠ .ub) ∧
    (readAll ops ⟨data, 0⟩).2.offset ≤ data.length := by
  have := readAll_good ops (r := ⟨data, 0⟩) ⟨by simp, hlen⟩
  refine ⟨this.2.2, ?_⟩
  have h := this.1.1
  rw [this.2.1] at h
  exact h

/-- A variable length read that succeeds returns exactly the announced number of bytes, taken from the
buffer right behind its length word. -/
theorem C08_read_blob_slice (r : Reader) (hr : r.offset ≤ r.data.length)
    (hlen : r.data.length < 2 ^ 64) (b : Bytes) (r' : Reader) (h : readBlob r = (.ok b, r')) :
    ∃ pre post : Bytes, r.data = pre ++ leBytes 8 b.length ++ b ++ post ∧ pre.length = r.offset ∧
      r'.offset = r.offset + 8 + b.length ∧ r'.data = r.data := by
  have hg : r.Good := ⟨hr, hlen⟩
  unfold readBlob at h
  rw [readPod_spec hg] at h
  split at h
  · rename_i heq
    split at heq
    · cases heq
    · rename_i n r1 h8
      simp only [Prod.mk.injEq, Res.ok.injEq] at heq
      obtain ⟨hn, hr1⟩ := heq
      subst hr1
      have hg1 : Reader.Good { r with offset := r.offset + 8 } :=
        ⟨by simp only; omega, hlen⟩
      rw [readFixed_spec hg1] at h
      split at h
      · cases h
      · rename_i hle
        simp only [Prod.mk.injEq, Res.ok.injEq] at h hle
        obtain ⟨hb, hr'⟩ := h
        subst hr'
        have hbl : b.length = n := by
          rw [← hb]; simp; omega
        refine ⟨r.data.take r.offset, r.data.drop (r.offset + 8 + n), ?_, by simp; omega, by simp [hbl], rfl⟩
        have h8' : ((r.data.drop r.offset).take 8).length = 8 := by simp; omega
        have hle8 : leBytes 8 n = (r.data.drop r.offset).take 8 := by
          have := leBytes_leNat ((r.data.drop r.offset).take 8)
          rw [h8', hn] at this
          exact this
        rw [hbl, hle8, ← hb]
        rw [List.append_assoc, List.append_assoc]
        have e1 : List.take n (List.drop (r.offset + 8) r.data) ++ List.drop (r.offset + 8 + n) r.data
            = List.drop (r.offset + 8) r.data := by
          rw [← List.drop_drop (i := n) (j := r.offset + 8)]; exact List.take_append_drop _ _
        have e2 : List.take 8 (List.drop r.offset r.data) ++ List.drop (r.offset + 8) r.data
            = List.drop r.offset r.data := by
          rw [← List.drop_drop]; exact List.take_append_drop _ _
        rw [e1, e2]
        exact (List.take_append_drop _ _).symm
  · cases h
  · cases h

example : readBlob ⟨leBytes 8 2 ++ [65, 66, 67], 0⟩ = (.ok [65, 66], ⟨leBytes 8 2 ++ [65, 66, 67], 10⟩) := by
  decide

/-- A read that does not fit is refused: the announced length exceeds what remains. -/
theorem C08_read_blob_too_long (pre : Bytes) (n : Nat) (post : Bytes) (hn : n < 2 ^ 64)
    (hlen : (pre ++ leBytes 8 n ++ post).length < 2 ^ 64) (hshort : post.length < n) :
    (readBlob ⟨pre ++ leBytes 8 n ++ post, pre.length⟩).1 = .nullopt := by
  unfold readBlob
  rw [readPod_at pre post 8 n (by simpa using hn) hlen]
  simp only
  rw [readFixed_spec ⟨by simp, hlen⟩]
  rw [if_pos]
  simp; omega

example : (2 ^ 64 - 1 : Nat) < 2 ^ 64 ∧ ([1, 2, 3] : Bytes).length < 2 ^ 64 - 1 := by decide

/-- Truncation: reading a written, non-empty last value from a buffer that was cut short inside that
value yields no value. -/
theorem C08_truncated_refused (vs : List Val) (v : Val) (cut : Nat) (hv : ∀ x ∈ vs, Fits x) (hv' : Fits v)
    (hcut : cut < (encVal v).length) (hlen : (writeAll (vs ++ [v])).length < 2 ^ 64) :
    (read (opOf v) (readAll (vs.map opOf) ⟨writeAll vs ++ (encVal v).take cut, 0⟩).2).1 = .nullopt := by
  have hl : (writeAll vs ++ (encVal v).take cut).length < 2 ^ 64 := by
    rw [writeAll_eq] at *
    simp at *
    omega
  rw [C08_roundtrip vs _ hv hl]
  simp only
  generalize writeAll vs = w at *
  have hpod : ∀ k, (List.take cut (encVal v)).length < k →
      readPod k ⟨w ++ List.take cut (encVal v), w.length⟩ =
        (.nullopt, ⟨w ++ List.take cut (encVal v), w.length⟩) := by
    intro k hk
    rw [readPod_spec ⟨by simp, hl⟩, if_pos]
    simp only [List.length_append]; omega
  cases v with
  | u8 n => simp only [opOf, read]; rw [hpod 1 (by simp [encVal] at *; omega)]; rfl
  | u32 n => simp only [opOf, read]; rw [hpod 4 (by simp [encVal] at *; omega)]; rfl
  | u64 n => simp only [opOf, read]; rw [hpod 8 (by simp [encVal] at *; omega)]; rfl
  | string b =>
    simp only [opOf, read]
    by_cases h8 : cut < 8
    · unfold readBlob
      rw [hpod 8 (by simp [encVal] at *; omega)]; rfl
    · have e : List.take cut (encVal (Val.string b)) = leBytes 8 b.length ++ b.take (cut - 8) := by
        simp only [encVal]
        rw [List.take_append, List.take_of_length_le (by simp; omega)]; simp
      rw [e] at hl ⊢
      have hb : b.length < 2 ^ 64 := by rw [writeAll_eq] at hlen; simp [encVal] at hlen; omega
      have := C08_read_blob_too_long w b.length (b.take (cut - 8)) hb
        (by simpa using hl) (by simp [encVal] at hcut ⊢; omega)
      rw [List.append_assoc] at this
      rcases hr : readBlob ⟨w ++ (leBytes 8 b.length ++ b.take (cut - 8)), w.length⟩ with ⟨x, r⟩
      rw [hr] at this
      simp only at this
      subst this
      rfl
  | blob b =>
    simp only [opOf, read]
    by_cases h8 : cut < 8
    · unfold readBlob
      rw [hpod 8 (by simp [encVal] at *; omega)]; rfl
    · have e : List.take cut (encVal (Val.blob b)) = leBytes 8 b.length ++ b.take (cut - 8) := by
        simp only [encVal]
        rw [List.take_append, List.take_of_length_le (by simp; omega)]; simp
      rw [e] at hl ⊢
      have hb : b.length < 2 ^ 64 := by rw [writeAll_eq] at hlen; simp [encVal] at hlen; omega
      have := C08_read_blob_too_long w b.length (b.take (cut - 8)) hb
        (by simpa using hl) (by simp [encVal] at hcut ⊢; omega)
      rw [List.append_assoc] at this
      rcases hr : readBlob ⟨w ++ (leBytes 8 b.length ++ b.take (cut - 8)), w.length⟩ with ⟨x, r⟩
      rw [hr] at this
      simp only at this
      subst this
      rfl

example : (5 : Nat) < (encVal (.string [1, 2, 3])).length := by decide

end Alaya.BinIO
