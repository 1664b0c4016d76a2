import Verif.Spec.WalFormat
import Verif.Lemmas.Bytes

namespace Alaya.Wal

theorem parseFrameType_code (t : FrameType) : parseFrameType t.code = some t := by cases t <;> rfl
theorem parseMutation_code (m : Mutation) : parseMutation m.code = some m := by cases m <;> rfl

theorem parseFrameType_some {n : Nat} {t : FrameType} (h : parseFrameType n = some t) : n = t.code := by
  unfold parseFrameType at h
  split at h
  · injection h with h; subst h; assumption
  · split at h
    · injection h with h; subst h; assumption
    · simp at h

theorem parseMutation_some {n : Nat} {t : Mutation} (h : parseMutation n = some t) : n = t.code := by
  unfold parseMutation at h
  split at h
  · injection h with h; subst h; assumption
  · split at h
    · injection h with h; subst h; assumption
    · split at h
      · injection h with h; subst h; assumption
      · split at h
        · injection h with h; subst h; assumption
        · simp at h

theorem magic_bytes : leBytes 4 frameMagic = [0x44, 0x41, 0x45, 0x48] := by decide
theorem trailer_bytes : leBytes 4 trailerMagic = [0x4C, 0x49, 0x41, 0x54] := by decide

theorem le8_length (n : Nat) : (leBytes 8 n).length = 8 := rfl

theorem leNat_single (b : UInt8) : leNat [b] = b.toNat := by simp [leNat]

theorem code_lt (t : FrameType) : t.code < 256 := by cases t <;> decide
theorem kcode_lt (t : Mutation) : t.code < 256 := by cases t <;> decide

theorem ofNat_toNat {n : Nat} (h : n < 256) : (UInt8.ofNat n).toNat = n := by
  simp [UInt8.toNat_ofNat']; omega

theorem eq_of_leNat_eq {a b : Bytes} (hl : a.length = b.length) (h : leNat a = leNat b) : a = b := by
  rw [← leBytes_leNat a, ← leBytes_leNat b, hl, h]

theorem length8_split {h : Bytes} (hl : h.length = 20) :
    ∃ v t m r o s, h = [v, t, m, r] ++ o ++ s ∧ o.length = 8 ∧ s.length = 8 := by
  match h, hl with
  | v :: t :: m :: r :: rest, hl =>
    refine ⟨v, t, m, r, rest.take 8, rest.drop 8, ?_, ?_, ?_⟩
    · simp
    · simp at hl ⊢; omega
    · simp at hl ⊢; omega

/-- The scanner's frame reader accepts exactly the frames of the format. -/
theorem readFrame_iff (bs : Bytes) (f : Frame) (rest : Bytes) :
    readFrame bs = some (f, rest) ↔ ∃ b, IsFrame b f ∧ bs = b ++ rest := by
  constructor
  · intro h
    unfold readFrame at h
    cases hh : readHeader bs with
    | none => rw [hh] at h; simp at h
    | some p =>
      obtain ⟨hd, b2⟩ := p
      rw [hh] at h
      simp only at h
      by_cases hpl : plausible b2.length hd.size = true
      · rw [if_pos hpl] at h
        cases hp : splitN hd.size b2 with
        | none => rw [hp] at h; simp at h
        | some q =>
          obtain ⟨pl, r2⟩ := q
          rw [hp] at h
          simp only at h
          cases ht : splitN 4 r2 with
          | none => rw [ht] at h; simp at h
          | some w =>
            obtain ⟨tr, r3⟩ := w
            rw [ht] at h
            simp only at h
            by_cases htr : leNat tr = trailerMagic
            · rw [if_pos htr] at h
              simp only [Option.some.injEq, Prod.mk.injEq] at h
              obtain ⟨hf, hr⟩ := h
              subst hr
              have e1 := splitN_some hp
              have e2 := splitN_some ht
              have htr' : tr = [0x4C, 0x49, 0x41, 0x54] := by
                rw [← trailer_bytes]
                apply eq_of_leNat_eq
                · rw [e2.2]; rfl
                · rw [htr]; decide
              -- the header
              unfold readHeader at hh
              cases hm : splitN 4 bs with
              | none => rw [hm] at hh; simp at hh
              | some u =>
                obtain ⟨mg, b1⟩ := u
                rw [hm] at hh
                simp only at hh
                have e3 := splitN_some hm
                by_cases hmg : leNat mg = frameMagic
                · rw [if_neg (by simpa using hmg)] at hh
                  have hmg' : mg = [0x44, 0x41, 0x45, 0x48] := by
                    rw [← magic_bytes]
                    apply eq_of_leNat_eq
                    · rw [e3.2]; rfl
                    · rw [hmg]; decide
                  cases hh2 : splitN 20 b1 with
                  | none => rw [hh2] at hh; simp at hh
                  | some u2 =>
                    obtain ⟨hb, b2'⟩ := u2
                    rw [hh2] at hh
                    simp only at hh
                    have e4 := splitN_some hh2
                    obtain ⟨v, t, m, r, o, s, hhb, ho, hs⟩ := length8_split e4.2
                    have t1 : hb.take 1 = [v] := by rw [hhb]; rfl
                    have t2 : (hb.drop 1).take 1 = [t] := by rw [hhb]; rfl
                    have t3 : (hb.drop 2).take 1 = [m] := by rw [hhb]; rfl
                    have t4 : (hb.drop 4).take 8 = o := by
                      rw [hhb, List.append_assoc, List.drop_append_of_le_length (by simp)]
                      simp [ho]
                    have t5 : (hb.drop 12).take 8 = s := by
                      rw [hhb]
                      rw [show (12 : Nat) = ([v, t, m, r] ++ o).length by simp [ho], List.drop_left,
                        List.take_of_length_le (by omega)]
                    rw [t1, t2, t3, t4, t5, leNat_single, leNat_single, leNat_single] at hh
                    by_cases hv : v.toNat = formatVersion
                    · rw [if_neg (by simpa using hv)] at hh
                      cases hpt : parseFrameType t.toNat with
                      | none => rw [hpt] at hh; simp at hh
                      | some ft =>
                        rw [hpt] at hh
                        simp only at hh
                        cases hpm : parseMutation m.toNat with
                        | none => rw [hpm] at hh; simp at hh
                        | some mk =>
                          rw [hpm] at hh
                          simp only [Option.some.injEq, Prod.mk.injEq] at hh
                          obtain ⟨hd1, hd2⟩ := hh
                          subst hd2
                          subst hd1
                          subst hf
                          have hsz : leNat s ≤ maxPayload := by
                            unfold plausible at hpl
                            by_cases hx : leNat s > maxPayload
                            · simp [hx] at hpl
                            · omega
                          have hol := leNat_lt o
                          rw [ho] at hol
                          refine ⟨_, ⟨by simpa using hol, ?_, r, rfl⟩, ?_⟩
                          · simp only [e1.2]; exact hsz
                          · simp only [e1.2]
                            rw [e3.1, e4.1, hhb, e1.1, e2.1, hmg', htr']
                            have : leBytes 8 (leNat o) = o := by rw [← ho, leBytes_leNat]
                            rw [this]
                            have : leBytes 8 (leNat s) = s := by
                              have := leBytes_leNat s
                              rw [hs] at this; exact this
                            rw [this, ← parseFrameType_some hpt, ← parseMutation_some hpm]
                            have : v = 1 := by
                              apply UInt8.toNat.inj; rw [hv]; rfl
                            rw [this]
                            simp
                    · rw [if_pos (by simpa using hv)] at hh; simp at hh
                · rw [if_pos (by simpa using hmg)] at hh; simp at hh
            · rw [if_neg htr] at h; simp at h
      · rw [if_neg hpl] at h; simp at h
  · rintro ⟨b, ⟨ho, hl, r, rfl⟩, rfl⟩
    obtain ⟨t, ⟨op, k, p⟩⟩ := f
    simp only at ho hl
    have hh : readHeader (([0x44, 0x41, 0x45, 0x48] ++ [1, UInt8.ofNat t.code, UInt8.ofNat k.code, r]
        ++ leBytes 8 op ++ leBytes 8 p.length ++ p ++ [0x4C, 0x49, 0x41, 0x54]) ++ rest)
        = some (⟨t, k, op, p.length⟩, p ++ [0x4C, 0x49, 0x41, 0x54] ++ rest) := by
      unfold readHeader
      have e1 : splitN 4 (([0x44, 0x41, 0x45, 0x48] ++ [1, UInt8.ofNat t.code, UInt8.ofNat k.code, r]
        ++ leBytes 8 op ++ leBytes 8 p.length ++ p ++ [0x4C, 0x49, 0x41, 0x54]) ++ rest)
        = some ([0x44, 0x41, 0x45, 0x48], ([1, UInt8.ofNat t.code, UInt8.ofNat k.code, r]
        ++ leBytes 8 op ++ leBytes 8 p.length) ++ (p ++ [0x4C, 0x49, 0x41, 0x54] ++ rest)) := by
        rw [← splitN_append' (n := 4) (a := [0x44, 0x41, 0x45, 0x48]) rfl]
        simp
      rw [e1]
      simp only
      rw [if_neg (by decide)]
      rw [splitN_append' (n := 20) (by simp [le8_length])]
      simp only
      have t1 : ([1, UInt8.ofNat t.code, UInt8.ofNat k.code, r] ++ leBytes 8 op ++ leBytes 8 p.length).take 1 = [1] := rfl
      have t2 : (([1, UInt8.ofNat t.code, UInt8.ofNat k.code, r] ++ leBytes 8 op ++ leBytes 8 p.length).drop 1).take 1
        = [UInt8.ofNat t.code] := rfl
      have t3 : (([1, UInt8.ofNat t.code, UInt8.ofNat k.code, r] ++ leBytes 8 op ++ leBytes 8 p.length).drop 2).take 1
        = [UInt8.ofNat k.code] := rfl
      have t4 : (([1, UInt8.ofNat t.code, UInt8.ofNat k.code, r] ++ leBytes 8 op ++ leBytes 8 p.length).drop 4).take 8
        = leBytes 8 op := by
        rw [List.append_assoc, show (4 : Nat) = [1, UInt8.ofNat t.code, UInt8.ofNat k.code, r].length from rfl,
          List.drop_left, List.take_append_of_le_length (by simp [le8_length]),
          List.take_of_length_le (by simp [le8_length])]
      have t5 : (([1, UInt8.ofNat t.code, UInt8.ofNat k.code, r] ++ leBytes 8 op ++ leBytes 8 p.length).drop 12).take 8
        = leBytes 8 p.length := by
        rw [show (12 : Nat) = ([1, UInt8.ofNat t.code, UInt8.ofNat k.code, r] ++ leBytes 8 op).length by
          simp [le8_length], List.drop_left, List.take_of_length_le (by simp [le8_length])]
      rw [t1, t2, t3, t4, t5, leNat_single, leNat_single, leNat_single, ofNat_toNat (code_lt t),
        ofNat_toNat (kcode_lt k), parseFrameType_code, parseMutation_code]
      rw [if_neg (by decide)]
      simp only
      rw [leNat_leBytes_of_lt (by simpa using ho), leNat_leBytes_of_lt]
      have : p.length ≤ 2 ^ 30 := hl
      have : (2 : Nat) ^ 30 < 256 ^ 8 := by decide
      omega
    unfold readFrame
    rw [hh]
    simp only
    rw [if_pos (by
      unfold plausible
      have : ¬ p.length > maxPayload := by unfold maxPayload; omega
      rw [if_neg this, if_neg (by simp; omega)]
      simp; omega)]
    rw [List.append_assoc, splitN_append]
    simp only
    rw [splitN_append' (n := 4) rfl]
    simp only
    rw [if_pos (by decide)]

/-- A frame the log accepts. -/
def Frame.Ok (f : Frame) : Prop := f.record.opId < 2 ^ 64 ∧ f.record.payload.length ≤ 2 ^ 30

theorem frameBytes_isFrame {f : Frame} (h : f.Ok) : IsFrame (frameBytes f) f := by
  refine ⟨h.1, h.2, 0, ?_⟩
  unfold frameBytes headerBytes
  rw [magic_bytes, trailer_bytes]
  have : leBytes 1 formatVersion = [1] := rfl
  rw [this]
  have : ∀ n, leBytes 1 n = [UInt8.ofNat n] := fun n => rfl
  rw [this, this, this]
  simp

theorem isFrame_length {b : Bytes} {f : Frame} (h : IsFrame b f) : b.length = 28 + f.record.payload.length := by
  obtain ⟨_, _, r, rfl⟩ := h
  simp [le8_length]
  omega

theorem frameBytes_length {f : Frame} : (frameBytes f).length = 28 + f.record.payload.length := by
  unfold frameBytes headerBytes
  have h1 : ∀ n, (leBytes 1 n).length = 1 := fun _ => rfl
  have h4 : ∀ n, (leBytes 4 n).length = 4 := fun _ => rfl
  simp only [List.length_append, h1, h4, le8_length]
  omega

theorem readFrame_frame {b : Bytes} {f : Frame} (h : IsFrame b f) (rest : Bytes) :
    readFrame (b ++ rest) = some (f, rest) := (readFrame_iff _ _ _).2 ⟨b, h, rfl⟩

/-- No strict prefix of a frame is accepted. -/
theorem readFrame_torn {b t u : Bytes} {f : Frame} (h : IsFrame b f) (hb : b = t ++ u) (hu : u ≠ []) :
    readFrame t = none := by
  cases hr : readFrame t with
  | none => rfl
  | some p =>
    obtain ⟨g, rest⟩ := p
    obtain ⟨b', hb', ht⟩ := (readFrame_iff _ _ _).1 hr
    have h1 := readFrame_frame hb' (rest ++ u)
    have h2 := readFrame_frame h []
    rw [List.append_nil, hb, ht, List.append_assoc, h1] at h2
    simp only [Option.some.injEq, Prod.mk.injEq, List.append_eq_nil_iff] at h2
    exact absurd h2.2.2 hu

theorem readFrame_shorter {bs rest : Bytes} {f : Frame} (h : readFrame bs = some (f, rest)) :
    rest.length + 28 ≤ bs.length := by
  obtain ⟨b, hb, rfl⟩ := (readFrame_iff _ _ _).1 h
  have := isFrame_length hb
  simp; omega

theorem scanFuel_stable (n m : Nat) (bs : Bytes) (hn : bs.length ≤ n) (hm : bs.length ≤ m) :
    scanFuel n bs = scanFuel m bs := by
  induction n generalizing m bs with
  | zero =>
    have : bs = [] := List.length_eq_zero_iff.1 (by omega)
    subst this
    cases m with
    | zero => rfl
    | succ m => rfl
  | succ n ih =>
    cases m with
    | zero =>
      have : bs = [] := List.length_eq_zero_iff.1 (by omega)
      subst this; rfl
    | succ m =>
      simp only [scanFuel]
      cases hr : readFrame bs with
      | none => rfl
      | some p =>
        have := readFrame_shorter (f := p.1) (rest := p.2) hr
        simp only
        rw [ih m p.2 (by omega) (by omega)]

/-- The loop of the scanner: the fuel never runs out. -/
theorem scan_step (bs : Bytes) :
    scan bs = match readFrame bs with
      | none => []
      | some p => p.1 :: scan p.2 := by
  unfold scan
  cases bs with
  | nil => rfl
  | cons c cs =>
    rw [show (c :: cs).length = cs.length + 1 from rfl]
    simp only [scanFuel]
    cases hr : readFrame (c :: cs) with
    | none => rfl
    | some p =>
      have := readFrame_shorter (f := p.1) (rest := p.2) hr
      simp only
      rw [scanFuel_stable cs.length p.2.length p.2 (by simp at this; omega) (by omega)]

theorem scan_frame {b : Bytes} {f : Frame} (h : IsFrame b f) (rest : Bytes) :
    scan (b ++ rest) = f :: scan rest := by
  rw [scan_step, readFrame_frame h]

theorem scan_none {bs : Bytes} (h : readFrame bs = none) : scan bs = [] := by
  rw [scan_step, h]

theorem scan_frames (fs : List Frame) (h : ∀ f ∈ fs, f.Ok) (rest : Bytes) :
    scan ((fs.map frameBytes).flatten ++ rest) = fs ++ scan rest := by
  induction fs with
  | nil => rfl
  | cons f fs ih =>
    simp only [List.map_cons, List.flatten_cons, List.append_assoc, List.cons_append]
    rw [scan_frame (frameBytes_isFrame (h f (by simp))), ih (fun g hg => h g (by simp [hg]))]

theorem scan_nil : scan [] = [] := rfl

/-- The frames that lie completely in the first `k` bytes. -/
def framesWithin : Nat → List Frame → List Frame
  | _, [] => []
  | k, f :: fs => if (frameBytes f).length ≤ k then f :: framesWithin (k - (frameBytes f).length) fs else []

theorem scan_cut (fs : List Frame) (h : ∀ f ∈ fs, f.Ok) (k : Nat) :
    scan (((fs.map frameBytes).flatten).take k) = framesWithin k fs := by
  induction fs generalizing k with
  | nil => simp [framesWithin, scan_nil]
  | cons f fs ih =>
    have hf := frameBytes_isFrame (h f (by simp))
    simp only [List.map_cons, List.flatten_cons, framesWithin]
    by_cases hk : (frameBytes f).length ≤ k
    · rw [if_pos hk, List.take_append, List.take_of_length_le hk,
        scan_frame hf, ih (fun g hg => h g (by simp [hg]))]
    · rw [if_neg hk, List.take_append_of_le_length (by omega)]
      apply scan_none
      apply readFrame_torn hf (List.take_append_drop k (frameBytes f)).symm
      intro hd
      rw [List.drop_eq_nil_iff] at hd
      omega

theorem appendAll_eq (fs : List Frame) (h : ∀ f ∈ fs, f.Ok) (file : Bytes) :
    appendAll file fs = some (file ++ (fs.map frameBytes).flatten) := by
  induction fs generalizing file with
  | nil => simp [appendAll]
  | cons f fs ih =>
    have hf := (h f (by simp)).2
    simp only [appendAll, appendFrame]
    rw [if_neg (by unfold maxPayload; omega)]
    simp only
    rw [ih (fun g hg => h g (by simp [hg]))]
    simp

/-! ### replay -/

theorem lookup_erase (op op' : Nat) (l : List (Nat × Record)) :
    lookup op (erase op' l) = if op = op' then none else lookup op l := by
  induction l with
  | nil => simp [erase, lookup]
  | cons e l ih =>
    unfold erase at ih ⊢
    by_cases he : e.1 = op'
    · rw [List.filter_cons_of_neg (by simp [he]), ih]
      by_cases hop : op = op'
      · rw [if_pos hop, if_pos hop]
      · rw [if_neg hop, if_neg hop]
        simp only [lookup]
        rw [if_neg (by omega)]
    · rw [List.filter_cons_of_pos (by simp [he])]
      simp only [lookup]
      by_cases hop : e.1 = op
      · rw [if_pos hop, if_pos hop, if_neg (by omega)]
      · rw [if_neg hop, if_neg hop, ih]

theorem lastWith_snoc (op : Nat) (fs : List Frame) (f : Frame) :
    lastWith op (fs ++ [f]) = if f.record.opId = op then some f else lastWith op fs := by
  unfold lastWith
  rw [List.filter_append]
  by_cases h : f.record.opId = op
  · rw [if_pos h]; simp [h]
  · rw [if_neg h]; simp [h]

theorem lastWith_op {op : Nat} {fs : List Frame} {f : Frame} (h : lastWith op fs = some f) :
    f ∈ fs ∧ f.record.opId = op := by
  unfold lastWith at h
  have := List.mem_of_getLast? h
  rw [List.mem_filter] at this
  simpa using this

/-- What the pending map holds after the frames `before`. -/
def pendingOf (before : List Frame) (op : Nat) : Option Record :=
  match lastWith op before with
  | some p => if p.type = .prepare then some p.record else none
  | none => none

structure ReplayInv (applied : Nat) (before : List Frame) (s : Replay) : Prop where
  pend_commit : ∀ op r, lookup op s.pending = some r → ∃ p, lastWith op before = some p ∧ p.type = .prepare ∧ p.record = r
  pend_prepare : ∀ op p, lastWith op before = some p → p.type = .prepare → lookup op s.pending = some p.record

theorem replayStep_spec {applied : Nat} {before : List Frame} {s : Replay} (h : ReplayInv applied before s)
    (f : Frame) :
    ReplayInv applied (before ++ [f]) (replayStep applied s f) ∧
      (replayStep applied s f).committed
        = s.committed ++ (commits before f).toList.filter (fun r => decide (r.opId > applied)) ∧
      (replayStep applied s f).maxOp = max s.maxOp f.record.opId := by
  unfold replayStep
  cases ht : f.type with
  | prepare =>
    simp only
    refine ⟨⟨?_, ?_⟩, ?_, trivial⟩
    · intro op r hr
      rw [lastWith_snoc]
      simp only [lookup] at hr
      by_cases hop : f.record.opId = op
      · rw [if_pos hop] at hr ⊢
        injection hr with hr
        exact ⟨f, rfl, ht, hr⟩
      · rw [if_neg hop] at hr ⊢
        rw [lookup_erase, if_neg (fun e => hop e.symm)] at hr
        exact h.pend_commit op r hr
    · intro op p hp hpt
      rw [lastWith_snoc] at hp
      simp only [lookup]
      by_cases hop : f.record.opId = op
      · rw [if_pos hop] at hp ⊢
        injection hp with hp
        rw [hp]
      · rw [if_neg hop] at hp ⊢
        rw [lookup_erase, if_neg (fun e => hop e.symm)]
        exact h.pend_prepare op p hp hpt
    · have : commits before f = none := by unfold commits; rw [if_neg (by rw [ht]; simp)]
      rw [this]; simp
  | commit =>
    simp only
    cases hl : lookup f.record.opId s.pending with
    | none =>
      simp only
      have hno : ∀ p, lastWith f.record.opId before = some p → p.type ≠ .prepare := by
        intro p hp hpt
        rw [h.pend_prepare _ p hp hpt] at hl
        simp at hl
      refine ⟨⟨?_, ?_⟩, ?_, trivial⟩
      · intro op r hr
        rw [lastWith_snoc]
        by_cases hop : f.record.opId = op
        · rw [← hop, hl] at hr; simp at hr
        · rw [if_neg hop]; exact h.pend_commit op r hr
      · intro op p hp hpt
        rw [lastWith_snoc] at hp
        by_cases hop : f.record.opId = op
        · rw [if_pos hop] at hp
          injection hp with hp
          rw [← hp, ht] at hpt; simp at hpt
        · rw [if_neg hop] at hp; exact h.pend_prepare op p hp hpt
      · have : commits before f = none := by
          unfold commits
          rw [if_pos ht]
          cases hw : lastWith f.record.opId before with
          | none => rfl
          | some p =>
            simp only
            rw [if_neg (fun hh => hno p hw hh.1)]
        rw [this]; simp
    | some r =>
      simp only
      obtain ⟨p, hp, hpt, hpr⟩ := h.pend_commit _ r hl
      have hinv : ∀ c mo, ReplayInv applied (before ++ [f]) ⟨erase f.record.opId s.pending, c, mo⟩ := by
        intro c mo
        refine ⟨?_, ?_⟩
        · intro op r' hr
          simp only at hr
          rw [lookup_erase] at hr
          rw [lastWith_snoc]
          by_cases hop : f.record.opId = op
          · rw [if_pos hop.symm] at hr; simp at hr
          · rw [if_neg (fun e => hop e.symm)] at hr
            rw [if_neg hop]; exact h.pend_commit op r' hr
        · intro op p' hp' hpt'
          rw [lastWith_snoc] at hp'
          simp only
          rw [lookup_erase]
          by_cases hop : f.record.opId = op
          · rw [if_pos hop] at hp'
            injection hp' with hp'
            rw [← hp', ht] at hpt'; simp at hpt'
          · rw [if_neg hop] at hp'
            rw [if_neg (fun e => hop e.symm)]; exact h.pend_prepare op p' hp' hpt'
      have hc : commits before f = if p.record.kind = f.record.kind then some p.record else none := by
        unfold commits
        rw [if_pos ht, hp]
        simp only
        by_cases hk : p.record.kind = f.record.kind
        · rw [if_pos ⟨hpt, hk⟩, if_pos hk]
        · rw [if_neg (fun hh => hk hh.2), if_neg hk]
      have hop := (lastWith_op hp).2
      subst hpr
      by_cases hk : p.record.kind = f.record.kind
      · rw [if_neg (by simpa using hk)]
        rw [if_pos hk] at hc
        by_cases ha : f.record.opId > applied
        · rw [if_pos ha]
          refine ⟨hinv _ _, ?_, rfl⟩
          rw [hc]; simp [hop, ha]
        · rw [if_neg ha]
          refine ⟨hinv _ _, ?_, rfl⟩
          rw [hc]; simp [hop, ha]
      · rw [if_pos hk]
        refine ⟨hinv _ _, ?_, rfl⟩
        rw [hc, if_neg hk]; simp

theorem replayLoop_spec {applied : Nat} (fs : List Frame) {before : List Frame} {s : Replay}
    (h : ReplayInv applied before s) :
    (fs.foldl (replayStep applied) s).committed
        = s.committed ++ (committedFrom before fs).filter (fun r => decide (r.opId > applied)) ∧
      (fs.foldl (replayStep applied) s).maxOp = (fs.map (fun f => f.record.opId)).foldl max s.maxOp := by
  induction fs generalizing before s with
  | nil => simp [committedFrom]
  | cons f fs ih =>
    obtain ⟨h1, h2, h3⟩ := replayStep_spec h f
    obtain ⟨i1, i2⟩ := ih h1
    simp only [List.foldl_cons, List.map_cons, committedFrom, List.filter_append]
    rw [i1, i2, h2, h3]
    simp

theorem replayFrames_spec (applied : Nat) (fs : List Frame) :
    (replayFrames applied fs).committed = (committed fs).filter (fun r => decide (r.opId > applied)) ∧
      (replayFrames applied fs).maxOp = (fs.map (fun f => f.record.opId)).foldl max applied := by
  have := replayLoop_spec (applied := applied) fs (before := []) (s := ⟨[], [], applied⟩)
    ⟨by intro op r h; simp [lookup] at h, by intro op p h; simp [lastWith] at h⟩
  simpa [replayFrames, committed] using this

theorem foldl_max_spec (l : List Nat) (a : Nat) :
    a ≤ l.foldl max a ∧ (∀ x ∈ l, x ≤ l.foldl max a) ∧ (l.foldl max a = a ∨ l.foldl max a ∈ l) := by
  induction l generalizing a with
  | nil => simp
  | cons x l ih =>
    obtain ⟨h1, h2, h3⟩ := ih (max a x)
    simp only [List.foldl_cons]
    refine ⟨by omega, ?_, ?_⟩
    · intro y hy
      rcases List.mem_cons.1 hy with rfl | hy
      · omega
      · exact h2 y hy
    · rcases h3 with h3 | h3
      · rw [h3]
        rcases Nat.le_total a x with h | h
        · right; rw [Nat.max_eq_right h]; simp
        · left; exact Nat.max_eq_left h
      · right; exact List.mem_cons_of_mem _ h3

/-! ### committed records of well-formed histories -/

theorem committedFrom_append (before a b : List Frame) :
    committedFrom before (a ++ b) = committedFrom before a ++ committedFrom (before ++ a) b := by
  induction a generalizing before with
  | nil => simp [committedFrom]
  | cons f a ih =>
    simp only [List.cons_append, committedFrom]
    rw [ih]; simp

theorem commits_prepare (before : List Frame) (r : Record) : commits before (prepareFrame r) = none := by
  unfold commits prepareFrame; rw [if_neg (by simp)]

/-- Frames of one operation, whatever was logged before. -/
theorem committedFrom_op (before : List Frame) (o : LoggedOp) :
    committedFrom before o.frames = if o.done then [o.record] else [] := by
  unfold LoggedOp.frames
  simp only [committedFrom, commits_prepare]
  by_cases hd : o.done = true
  · rw [if_pos hd, if_pos hd]
    simp only [committedFrom]
    have : commits (before ++ [prepareFrame o.record]) (commitFrame o.record.opId o.record.kind) = some o.record := by
      unfold commits
      rw [if_pos (show (commitFrame o.record.opId o.record.kind).type = .commit from rfl)]
      have : lastWith (commitFrame o.record.opId o.record.kind).record.opId (before ++ [prepareFrame o.record])
          = some (prepareFrame o.record) := by
        rw [lastWith_snoc, if_pos (show (prepareFrame o.record).record.opId
          = (commitFrame o.record.opId o.record.kind).record.opId from rfl)]
      rw [this]
      simp only
      rw [if_pos ⟨rfl, rfl⟩]; rfl
    rw [this]; simp
  · rw [if_neg hd, if_neg hd]; simp [committedFrom]

theorem committedFrom_ops (before : List Frame) (os : List LoggedOp) :
    committedFrom before (os.flatMap LoggedOp.frames) = (os.filter LoggedOp.done).map LoggedOp.record := by
  induction os generalizing before with
  | nil => rfl
  | cons o os ih =>
    rw [List.flatMap_cons, committedFrom_append, committedFrom_op, ih]
    by_cases hd : o.done = true
    · simp [hd]
    · simp [hd]

/-- Induction from the right end of a list. -/
theorem snocInduction {α : Type} {P : List α → Prop} (l : List α) (nil : P [])
    (snoc : ∀ l a, P l → P (l ++ [a])) : P l := by
  have key : ∀ r : List α, P r.reverse := by
    intro r
    induction r with
    | nil => exact nil
    | cons a r ih => rw [List.reverse_cons]; exact snoc _ _ ih
  have := key l.reverse
  rwa [List.reverse_reverse] at this

theorem insertRec_perm (r : Record) (l : List Record) : (insertRec r l).Perm (r :: l) := by
  induction l with
  | nil => exact List.Perm.refl _
  | cons x xs ih =>
    simp only [insertRec]
    split
    · exact List.Perm.refl _
    · exact (ih.cons x).trans (List.Perm.swap r x xs)

theorem insertRec_sorted (r : Record) (l : List Record) (h : l.Pairwise (fun a b => a.opId ≤ b.opId)) :
    (insertRec r l).Pairwise (fun a b => a.opId ≤ b.opId) := by
  induction l with
  | nil => simp [insertRec]
  | cons x xs ih =>
    rw [List.pairwise_cons] at h
    simp only [insertRec]
    split
    · rename_i hlt
      refine List.pairwise_cons.2 ⟨?_, List.pairwise_cons.2 h⟩
      intro b hb
      rcases List.mem_cons.1 hb with rfl | hb
      · omega
      · have := h.1 b hb; omega
    · rename_i hlt
      refine List.pairwise_cons.2 ⟨?_, ih h.2⟩
      intro b hb
      rcases List.mem_cons.1 ((insertRec_perm r xs).mem_iff.1 hb) with rfl | hb
      · omega
      · exact h.1 b hb

theorem sortRecs_perm (l : List Record) : (sortRecs l).Perm l := by
  induction l with
  | nil => exact List.Perm.refl _
  | cons x xs ih => exact (insertRec_perm x _).trans (ih.cons x)

theorem sortRecs_sorted (l : List Record) : (sortRecs l).Pairwise (fun a b => a.opId ≤ b.opId) := by
  induction l with
  | nil => simp [sortRecs]
  | cons x xs ih => exact insertRec_sorted x _ ih

theorem sortRecs_result (l : List Record) : SortedResult l (sortRecs l) := ⟨sortRecs_perm l, sortRecs_sorted l⟩

/-- Sorting a list that is already strictly sorted changes nothing. -/
theorem sortedResult_unique {l out : List Record} (hl : l.Pairwise (fun a b => a.opId < b.opId))
    (h : SortedResult l out) : out = l := by
  apply List.Perm.eq_of_pairwise (le := fun a b : Record => a.opId ≤ b.opId) _ h.2 (hl.imp (by intros; omega)) h.1
  intro a b ha hb h1 h2
  have ha' : a ∈ l := h.1.subset ha
  -- equal op ids in a strictly sorted list
  have key : ∀ (l : List Record), l.Pairwise (fun a b => a.opId < b.opId) → ∀ x ∈ l, ∀ y ∈ l, x.opId = y.opId → x = y := by
    intro l
    induction l with
    | nil => intro _ x hx; simp at hx
    | cons z l ih =>
      intro hp x hx y hy hxy
      rw [List.pairwise_cons] at hp
      rcases List.mem_cons.1 hx with hx1 | hx1
      · rcases List.mem_cons.1 hy with hy1 | hy1
        · rw [hx1, hy1]
        · have := hp.1 y hy1; rw [hx1] at hxy; omega
      · rcases List.mem_cons.1 hy with hy1 | hy1
        · have := hp.1 x hx1; rw [hy1] at hxy; omega
        · exact ih hp.2 x hx1 y hy1 hxy
  exact key l hl a ha' b hb (by omega)

theorem framesWithin_append (k : Nat) (a b : List Frame) :
    framesWithin k (a ++ b) = if ((a.map frameBytes).flatten).length ≤ k
      then a ++ framesWithin (k - ((a.map frameBytes).flatten).length) b else framesWithin k a := by
  induction a generalizing k with
  | nil => simp
  | cons f a ih =>
    simp only [List.cons_append, framesWithin, List.map_cons, List.flatten_cons, List.length_append]
    by_cases hk : (frameBytes f).length ≤ k
    · rw [if_pos hk, if_pos hk, ih]
      by_cases h2 : ((a.map frameBytes).flatten).length ≤ k - (frameBytes f).length
      · rw [if_pos h2, if_pos (by omega), Nat.sub_sub]
      · rw [if_neg h2, if_neg (by omega)]
    · rw [if_neg hk, if_neg hk, if_neg (by omega)]

/-- The frames inside the cut are those of the completed operations plus possibly one lone prepare frame. -/
theorem framesWithin_ops (os : List LoggedOp) (k : Nat) :
    ∃ tail, framesWithin k (os.flatMap LoggedOp.frames) = (opsWithin k os).flatMap LoggedOp.frames ++ tail ∧
      (tail = [] ∨ ∃ o ∈ os, tail = [prepareFrame o.record]) := by
  induction os generalizing k with
  | nil => exact ⟨[], rfl, Or.inl rfl⟩
  | cons o os ih =>
    rw [List.flatMap_cons, framesWithin_append]
    simp only [opsWithin]
    by_cases hk : o.bytes.length ≤ k
    · rw [if_pos hk]
      have hk' : ((o.frames.map frameBytes).flatten).length ≤ k := hk
      rw [if_pos hk']
      obtain ⟨tail, h1, h2⟩ := ih (k - ((o.frames.map frameBytes).flatten).length)
      refine ⟨tail, ?_, ?_⟩
      · rw [h1]
        simp [LoggedOp.bytes]
      · rcases h2 with h2 | ⟨o', h3, h4⟩
        · exact Or.inl h2
        · exact Or.inr ⟨o', by simp [h3], h4⟩
    · rw [if_neg hk]
      have hk' : ¬ ((o.frames.map frameBytes).flatten).length ≤ k := hk
      rw [if_neg hk']
      refine ⟨framesWithin k o.frames, by simp, ?_⟩
      unfold LoggedOp.frames at hk' ⊢
      by_cases hd : o.done = true
      · rw [if_pos hd] at hk' ⊢
        simp only [framesWithin]
        simp only [List.map_cons, List.flatten_cons, List.length_append, List.map_nil, List.flatten_nil,
          List.length_nil] at hk'
        split
        · rw [if_neg (by omega)]
          exact Or.inr ⟨o, by simp, rfl⟩
        · exact Or.inl rfl
      · rw [if_neg hd] at hk' ⊢
        simp only [framesWithin]
        simp only [List.map_cons, List.flatten_cons, List.length_append, List.map_nil, List.flatten_nil,
          List.length_nil] at hk'
        rw [if_neg (by omega)]
        exact Or.inl rfl

theorem committed_cut (os : List LoggedOp) (k : Nat) :
    committed (framesWithin k (os.flatMap LoggedOp.frames))
      = ((opsWithin k os).filter LoggedOp.done).map LoggedOp.record := by
  obtain ⟨tail, h1, h2⟩ := framesWithin_ops os k
  rw [h1]
  unfold committed
  rw [committedFrom_append, committedFrom_ops]
  rcases h2 with h2 | ⟨o, _, h2⟩
  · rw [h2]; simp [committedFrom]
  · rw [h2]; simp [committedFrom, commits_prepare]

theorem opsWithin_prefix (k : Nat) (os : List LoggedOp) : opsWithin k os <+: os := by
  induction os generalizing k with
  | nil => simp [opsWithin]
  | cons o os ih =>
    simp only [opsWithin]
    split
    · exact List.cons_prefix_cons.2 ⟨rfl, ih _⟩
    · exact List.nil_prefix

/-- Every file is its scanned frames followed by bytes that do not start with a frame. -/
theorem scan_decompose (n : Nat) (bs : Bytes) (hn : bs.length ≤ n) :
    ∃ chunks : List Bytes, ∃ tail : Bytes, bs = chunks.flatten ++ tail ∧ chunks.length = (scan bs).length ∧
      (∀ (i : Nat) c f, chunks[i]? = some c → (scan bs)[i]? = some f → IsFrame c f) ∧
      ∀ b f rest, IsFrame b f → tail ≠ b ++ rest := by
  induction n generalizing bs with
  | zero =>
    have : bs = [] := List.length_eq_zero_iff.1 (by omega)
    subst this
    refine ⟨[], [], rfl, rfl, by simp, ?_⟩
    intro b f rest hb he
    have := isFrame_length hb
    have h0 := congrArg List.length he
    simp at h0; omega
  | succ n ih =>
    rw [scan_step]
    cases hr : readFrame bs with
    | none =>
      refine ⟨[], bs, rfl, rfl, by simp, ?_⟩
      intro b f rest hb he
      rw [he, readFrame_frame hb] at hr
      simp at hr
    | some p =>
      obtain ⟨g, rest⟩ := p
      have hs := readFrame_shorter hr
      obtain ⟨b, hb, he⟩ := (readFrame_iff _ _ _).1 hr
      obtain ⟨ch, tl, h1, h2, h3, h4⟩ := ih rest (by omega)
      refine ⟨b :: ch, tl, ?_, by simp [h2], ?_, h4⟩
      · rw [he, h1]; simp
      · intro i c f hc hf
        cases i with
        | zero =>
          simp only [List.getElem?_cons_zero, Option.some.injEq] at hc hf
          subst hc; subst hf; exact hb
        | succ i =>
          simp only [List.getElem?_cons_succ] at hc hf
          exact h3 i c f hc hf

end Alaya.Wal
