import Verif.Model.RaBitQFile
import Verif.Lemmas.IndexFile

/-! C81: layout and files of a RaBitQ space. -/
namespace Alaya.Props
open Alaya Alaya.RFile Alaya.IndexFile

/-! ### Memory -/

theorem peek_some {mem : Bytes} {p n : Nat} (h : p + n ≤ mem.length) : peek mem p n = some ((mem.drop p).take n) := by
  unfold peek; rw [if_pos h]

theorem poke_length {mem m' : Bytes} {p : Nat} {bs : Bytes} (h : poke mem p bs = some m') : m'.length = mem.length := by
  unfold poke at h
  split at h
  · cases h; simp; omega
  · cases h

/-- What was written is read back. -/
theorem peek_poke {mem m' : Bytes} {p : Nat} {bs : Bytes} (h : poke mem p bs = some m') : peek m' p bs.length = some bs := by
  have hl := poke_length h
  unfold poke at h
  split at h
  · rename_i hc
    cases h
    rw [peek_some (by omega)]
    rw [List.drop_append_of_le_length (by simp; omega)]
    have : List.drop p (List.take p mem) = [] := by apply List.drop_eq_nil_of_le; simp; omega
    rw [this, List.nil_append, List.take_append_of_le_length (Nat.le_refl _), List.take_length]
  · cases h

/-- Reading elsewhere is not affected. -/
theorem peek_poke_ne {mem m' : Bytes} {p q n : Nat} {bs : Bytes} (h : poke mem p bs = some m') (hd : q + n ≤ p ∨ p + bs.length ≤ q) :
    peek m' q n = peek mem q n := by
  have hl := poke_length h
  unfold poke at h
  split at h
  · rename_i hc
    cases h
    unfold peek
    rw [hl]
    split
    · rename_i hq
      congr 1
      apply List.ext_getElem?
      intro i
      rw [List.getElem?_take, List.getElem?_take]
      split
      · rename_i hi
        rw [List.getElem?_drop, List.getElem?_drop]
        rcases hd with hd | hd
        · rw [List.getElem?_append_left (by simp; omega), List.getElem?_take_of_lt (by omega)]
        · rw [List.getElem?_append_right (by simp; omega), List.getElem?_append_right (by simp; omega), List.getElem?_drop]
          congr 1
          simp
          omega
      · rfl
    · rfl
  · cases h

/-! ### Layout -/

/-- The memory has the size of all chunks. -/
def Sized (s : Space) : Prop := s.mem.length = s.itemCnt * chunk s.dim

theorem part_in (dim : Nat) (p : Part) : p.off dim + p.len dim ≤ chunk dim := by
  cases p <;> simp only [chunk, Part.off] <;> omega

theorem node_in {dim id cnt : Nat} (h : id < cnt) : chunk dim * id + chunk dim ≤ cnt * chunk dim := by
  have : (id + 1) * chunk dim ≤ cnt * chunk dim := Nat.mul_le_mul_right _ h
  rw [Nat.add_mul, Nat.one_mul, Nat.mul_comm id] at this
  omega

theorem node_apart {dim a b : Nat} (h : a < b) : chunk dim * a + chunk dim ≤ chunk dim * b := by
  have : chunk dim * (a + 1) ≤ chunk dim * b := Nat.mul_le_mul_left _ h
  rw [Nat.mul_add] at this
  omega

theorem parts_apart (dim : Nat) {p q : Part} (h : p ≠ q) :
    p.off dim + p.len dim ≤ q.off dim ∨ q.off dim + q.len dim ≤ p.off dim := by
  cases p <;> cases q <;> simp only [Part.off] <;> first | exact absurd rfl h | omega

/-- Two different parts, of the same or of different nodes, do not overlap. -/
theorem apart {dim a b : Nat} {p q : Part} (h : (a, p) ≠ (b, q)) :
    (chunk dim * a + p.off dim) + p.len dim ≤ chunk dim * b + q.off dim ∨ (chunk dim * b + q.off dim) + q.len dim ≤ chunk dim * a + p.off dim := by
  have h1 := part_in dim p
  have h2 := part_in dim q
  rcases Nat.lt_trichotomy a b with hl | rfl | hl
  · have := node_apart (dim := dim) hl; omega
  · rcases parts_apart dim (p := p) (q := q) (fun he => h (by rw [he])) with h | h <;> omega
  · have := node_apart (dim := dim) hl; omega

/-- Every part of every node lies inside the storage, at a multiple of four bytes, and holds what the search reads: `dim` floats, four bytes
of codes for each padded dimension, 32 factors of each kind and 32 ids. Writing to a part of a node is possible up to its length, is read
back, and leaves every other part of every node alone. -/
theorem C81_layout {s : Space} (hs : Sized s) {id : Nat} (hid : id < s.itemCnt) (p : Part) {bs : Bytes} (hb : bs.length ≤ p.len s.dim) :
    (chunk s.dim * id + p.off s.dim) % 4 = 0 ∧ chunk s.dim * id + p.off s.dim + p.len s.dim ≤ s.mem.length ∧
    ∃ s', s.put id p bs = some s' ∧ Sized s' ∧
      (∃ old, s.get id p = some old ∧ old.length = p.len s.dim ∧ s'.get id p = some (bs ++ old.drop bs.length)) ∧
      ∀ id' p', (id', p') ≠ (id, p) → s'.get id' p' = s.get id' p' := by
  have h1 := part_in s.dim p
  have h2 := node_in (dim := s.dim) hid
  unfold Sized at hs
  have hal : (chunk s.dim * id + p.off s.dim) % 4 = 0 := by
    have e : chunk s.dim = 4 * (s.dim + padded s.dim + 96) := by simp only [chunk, Part.off, Part.len]; omega
    rw [e, Nat.mul_assoc]
    cases p <;> simp only [Part.off, Part.len] <;> omega
  have hin : chunk s.dim * id + p.off s.dim + p.len s.dim ≤ s.mem.length := by omega
  refine ⟨hal, hin, ?_⟩
  obtain ⟨m', hm⟩ : ∃ m', poke s.mem (chunk s.dim * id + p.off s.dim) bs = some m' := by
    unfold poke; rw [if_pos (by omega)]; exact ⟨_, rfl⟩
  have hlen := poke_length hm
  refine ⟨{ s with mem := m' }, by unfold Space.put; rw [hm]; rfl, by unfold Sized; simp only; omega, ?_, ?_⟩
  · refine ⟨_, peek_some hin, by simp; omega, ?_⟩
    unfold Space.get
    simp only
    rw [peek_some (by omega)]
    congr 1
    unfold poke at hm
    rw [if_pos (by omega)] at hm
    cases hm
    rw [List.drop_append_of_le_length (by simp; omega)]
    have : List.drop (chunk s.dim * id + p.off s.dim) (List.take (chunk s.dim * id + p.off s.dim) s.mem) = [] := by
      apply List.drop_eq_nil_of_le; simp; omega
    rw [this, List.nil_append, List.take_append, List.take_of_length_le hb, List.drop_take, List.drop_drop]
  · intro id' p' hne
    unfold Space.get
    simp only
    refine peek_poke_ne hm ?_
    rcases apart (dim := s.dim) hne with h | h <;> omega

/-- Storing the neighbours of a node: ids, factors and codes are read back, everything else is left alone. -/
theorem C81_update {s : Space} (hs : Sized s) {id : Nat} (hid : id < s.itemCnt) {ids fAdd fRescale codes : Bytes}
    (h1 : ids.length ≤ 128) (h2 : fAdd.length ≤ 128) (h3 : fRescale.length ≤ 128) (h4 : codes.length ≤ Part.len s.dim .codes) :
    ∃ s', s.update id ids fAdd fRescale codes = some s' ∧ Sized s' ∧
      (∃ t, s'.get id .ids = some (ids ++ t)) ∧ (∃ t, s'.get id .fAdd = some (fAdd ++ t)) ∧
      (∃ t, s'.get id .fRescale = some (fRescale ++ t)) ∧ (∃ t, s'.get id .codes = some (codes ++ t)) ∧
      s'.get id .vec = s.get id .vec ∧ ∀ id', id' ≠ id → ∀ p, s'.get id' p = s.get id' p := by
  have keep : ∀ {a b : Space} {p : Part} {bs : Bytes}, a.put id p bs = some b → b.dim = a.dim ∧ b.itemCnt = a.itemCnt := by
    intro a b p bs h
    unfold Space.put at h
    obtain ⟨m, -, rfl⟩ := Option.map_eq_some_iff.mp h
    exact ⟨rfl, rfl⟩
  obtain ⟨-, -, s1, a1, a2, ⟨o1, -, -, a3⟩, a4⟩ := C81_layout hs hid .ids (bs := ids) h1
  obtain ⟨d1, c1⟩ := keep a1
  obtain ⟨-, -, s2, b1, b2, ⟨o2, -, -, b3⟩, b4⟩ := C81_layout a2 (by rw [c1]; exact hid) .fAdd (bs := fAdd) h2
  obtain ⟨d2, c2⟩ := keep b1
  obtain ⟨-, -, s3, e1, e2, ⟨o3, -, -, e3⟩, e4⟩ := C81_layout b2 (by rw [c2, c1]; exact hid) .fRescale (bs := fRescale) h3
  obtain ⟨d3, c3⟩ := keep e1
  obtain ⟨-, -, s4, f1, f2, ⟨o4, -, -, f3⟩, f4⟩ := C81_layout e2 (by rw [c3, c2, c1]; exact hid) .codes (bs := codes) (by rw [d3, d2, d1]; exact h4)
  refine ⟨s4, ?_, f2, ⟨o1.drop ids.length, ?_⟩, ⟨o2.drop fAdd.length, ?_⟩, ⟨o3.drop fRescale.length, ?_⟩, ⟨_, f3⟩, ?_, ?_⟩
  · unfold Space.update; rw [a1]; simp only; rw [b1]; simp only; rw [e1]; simp only; exact f1
  · rw [f4 _ _ (by simp), e4 _ _ (by simp), b4 _ _ (by simp)]; exact a3
  · rw [f4 _ _ (by simp), e4 _ _ (by simp)]; exact b3
  · rw [f4 _ _ (by simp)]; exact e3
  · rw [f4 _ _ (by simp), e4 _ _ (by simp), b4 _ _ (by simp), a4 _ _ (by simp)]
  · intro id' hne p
    rw [f4 _ _ (by simp [hne]), e4 _ _ (by simp [hne]), b4 _ _ (by simp [hne]), a4 _ _ (by simp [hne])]

/-! ### Fitting -/

theorem fitRows_spec {dim cnt : Nat} (rows : List Bytes) : ∀ (i : Nat) (mem : Bytes), (∀ r ∈ rows, r.length = dim * 4) →
    i + rows.length = cnt → mem.length = cnt * chunk dim →
    ∃ m, fitRows dim i rows mem = some m ∧ m.length = mem.length ∧ (∀ k r, rows[k]? = some r → peek m (chunk dim * (i + k)) (dim * 4) = some r) ∧
      ∀ a, a < i → peek m (chunk dim * a) (dim * 4) = peek mem (chunk dim * a) (dim * 4) := by
  induction rows with
  | nil => intro i mem _ _ _; exact ⟨mem, rfl, rfl, by simp, fun _ _ => rfl⟩
  | cons r rows ih =>
    intro i mem hr hi hm
    have hrl := hr r (by simp)
    simp at hi
    have hv : dim * 4 ≤ chunk dim := by simp only [chunk, Part.off, Part.len]; omega
    have h2 := node_in (dim := dim) (id := i) (cnt := cnt) (by omega)
    obtain ⟨m1, h1⟩ : ∃ m1, poke mem (chunk dim * i + Part.off dim .vec) r = some m1 := by
      unfold poke; rw [if_pos (by simp only [Part.off]; omega)]; exact ⟨_, rfl⟩
    have hl1 := poke_length h1
    obtain ⟨m, e1, e2, e3, e4⟩ := ih (i + 1) m1 (fun x hx => hr x (by simp [hx])) (by omega) (by omega)
    refine ⟨m, by unfold fitRows; rw [h1]; exact e1, by omega, ?_, ?_⟩
    · intro k x hk
      cases k with
      | zero =>
        simp at hk
        subst hk
        rw [Nat.add_zero, e4 i (by omega), ← hrl]
        have := peek_poke h1
        simpa [Part.off] using this
      | succ k =>
        have := e3 k x (by simpa using hk)
        rw [show i + (k + 1) = i + 1 + k from by omega]
        exact this
    · intro a ha
      rw [e4 a (by omega)]
      refine peek_poke_ne h1 (.inl ?_)
      have := node_apart (dim := dim) ha
      simp only [Part.off]
      omega

/-- Fitting: more rows than the capacity are refused; otherwise every node holds its row. -/
theorem C81_fit (s : Space) {rows : List Bytes} (hr : ∀ r ∈ rows, r.length = s.dim * 4) {fresh : Bytes} (hf : rows.length * chunk s.dim ≤ fresh.length) :
    (s.capacity < rows.length → s.fit rows fresh = some none) ∧
    (rows.length ≤ s.capacity → ∃ s', s.fit rows fresh = some (some s') ∧ Sized s' ∧ s'.dim = s.dim ∧ s'.itemCnt = rows.length ∧
      ∀ i r, rows[i]? = some r → s'.get i .vec = some r) := by
  refine ⟨fun h => by unfold Space.fit; rw [if_pos h], fun h => ?_⟩
  obtain ⟨m, e1, e2, e3, -⟩ := fitRows_spec (dim := s.dim) (cnt := rows.length) rows 0 (fresh.take (rows.length * chunk s.dim)) hr (by omega)
    (by simp; omega)
  refine ⟨{ s with itemCnt := rows.length, mem := m }, by unfold Space.fit; rw [if_neg (by omega), e1], ?_, rfl, rfl, ?_⟩
  · unfold Sized; simp only; rw [e2]; simp; omega
  · intro i r hi
    have := e3 i r hi
    rw [Nat.zero_add] at this
    exact this

/-! ### Files -/

theorem rdN_le {w n old : Nat} (h : n < 256 ^ w) (rest : Bytes) : rdN w old (some (leBytes w n ++ rest)) = (n, some rest) := by
  unfold rdN rd
  simp only [leBytes_length, List.length_append]
  rw [if_pos (by omega)]
  simp only
  rw [List.take_append_of_le_length (by simp), List.drop_append_of_le_length (by simp),
    List.take_of_length_le (by simp), List.drop_of_length_le (by simp), List.nil_append, leNat_leBytes, Nat.mod_eq_of_lt h]

theorem rd_append {old bs : Bytes} (h : old.length = bs.length) (rest : Bytes) : rd old (some (bs ++ rest)) = (bs, some rest) := by
  unfold rd
  simp only [List.length_append]
  rw [if_pos (by omega), h, List.take_append_of_le_length (Nat.le_refl _), List.take_length,
    List.drop_append_of_le_length (Nat.le_refl _), List.drop_length, List.nil_append]

/-- A space whose numbers fit their types, whose memory has the right size and whose rotator can be made. -/
structure FileOk (s : Space) : Prop where
  metric : s.metric < 3
  nums : s.dim < 2 ^ 32 ∧ s.itemCnt < 2 ^ 32 ∧ s.capacity < 2 ^ 32 ∧ s.typ < 256 ∧ s.ep < 2 ^ 32 ∧ s.qdim < 2 ^ 32 ∧ s.qpad < 2 ^ 32
  rot : rotLen s.typ s.dim = some s.rot.length
  mem : Sized s
  config : ∀ c, s.config = some c → ConfigOk c

/-- The fresh memory is as large as asked for. -/
def FreshOk (j : Fresh) : Prop := (∀ n, n ≤ (j.rot n).length) ∧ ∀ n, n ≤ (j.mem n).length

theorem head_load {s : Space} (h : FileOk s) (j : Fresh) (hj : FreshOk j) (tail : Bytes) :
    load s.config.isSome j (leBytes 4 s.metric ++ (leBytes 4 s.dim ++ (leBytes 4 s.itemCnt ++ (leBytes 4 s.capacity ++ (leBytes 1 s.typ ++
      (leBytes 4 s.ep ++ (((s.config.map Config.save).getD []) ++ (s.rot ++ tail)))))))) =
    (let (mem, st) := rd ((j.mem (s.itemCnt * chunk s.dim)).take (s.itemCnt * chunk s.dim)) (some tail)
     let (qdim, st) := rdN 4 0 st
     let (qpad, _) := rdN 4 0 st
     some (some { s with mem := mem, qdim := qdim, qpad := qpad })) := by
  obtain ⟨n1, n2, n3, n4, n5, -, -⟩ := h.nums
  have hm := h.metric
  have hcfg : loadCfg s.config.isSome (some (((s.config.map Config.save).getD []) ++ (s.rot ++ tail))) = some (s.config, some (s.rot ++ tail)) := by
    cases hc : s.config with
    | none => rfl
    | some c =>
      simp only [Option.isSome, Option.map_some, Option.getD_some, loadCfg]
      rw [if_pos trivial, config_roundtrip (h.config c hc)]
  unfold load
  rw [rdN_le (lt4 (by omega))]; simp only
  rw [rdN_le (lt4 n1)]; simp only
  rw [rdN_le (lt4 n2)]; simp only
  rw [rdN_le (lt4 n3)]; simp only
  rw [rdN_le (by omega)]; simp only
  rw [rdN_le (lt4 n5)]; simp only
  rw [hcfg]; simp only
  rw [h.rot]; simp only
  rw [rd_append (by have := hj.1 s.rot.length; simp; omega)]; simp only
  rw [if_neg (by omega)]

/-- Loading a saved space gives back the space, whatever the fresh memory holds: all vectors, codes, factors and neighbours, the rotation, the
entry point and the metric, so that estimates, distances and searches are the same. -/
theorem C81_roundtrip {s : Space} (h : FileOk s) (j : Fresh) (hj : FreshOk j) : load s.config.isSome j s.save = some (some s) := by
  obtain ⟨-, -, -, -, -, n6, n7⟩ := h.nums
  unfold Space.save
  rw [head_load h j hj]
  have hs := h.mem
  unfold Sized at hs
  rw [rd_append (by have := hj.2 (s.itemCnt * chunk s.dim); simp; omega)]; simp only
  rw [rdN_le (lt4 n6)]; simp only
  have := rdN_le (old := 0) (lt4 n7) []
  rw [List.append_nil] at this
  rw [this]

/-- False: that a file which is too short is noticed. Cut anywhere inside the chunks, it loads without an error, and the chunks behind the cut
are whatever the memory held. -/
theorem C81_truncated_refuted {s : Space} (h : FileOk s) (j : Fresh) (hj : FreshOk j) {k : Nat} (hk : k < s.mem.length) :
    load s.config.isSome j (s.save.take (s.save.length - 8 - (s.mem.length - k))) =
      some (some { s with mem := s.mem.take k ++ ((j.mem s.mem.length).take s.mem.length).drop k, qdim := 0, qpad := 0 }) := by
  have e : s.save.take (s.save.length - 8 - (s.mem.length - k)) =
      leBytes 4 s.metric ++ (leBytes 4 s.dim ++ (leBytes 4 s.itemCnt ++ (leBytes 4 s.capacity ++ (leBytes 1 s.typ ++
      (leBytes 4 s.ep ++ (((s.config.map Config.save).getD []) ++ (s.rot ++ s.mem.take k))))))) := by
    have hsplit : s.save = (leBytes 4 s.metric ++ (leBytes 4 s.dim ++ (leBytes 4 s.itemCnt ++ (leBytes 4 s.capacity ++ (leBytes 1 s.typ ++
      (leBytes 4 s.ep ++ (((s.config.map Config.save).getD []) ++ (s.rot ++ s.mem.take k)))))))) ++ (s.mem.drop k ++ (leBytes 4 s.qdim ++ leBytes 4 s.qpad)) := by
      unfold Space.save
      simp only [List.append_assoc]
      rw [← List.append_assoc (List.take k s.mem), List.take_append_drop]
    have hlen : s.save.length - 8 - (s.mem.length - k) = (leBytes 4 s.metric ++ (leBytes 4 s.dim ++ (leBytes 4 s.itemCnt ++ (leBytes 4 s.capacity ++ (leBytes 1 s.typ ++
      (leBytes 4 s.ep ++ (((s.config.map Config.save).getD []) ++ (s.rot ++ s.mem.take k)))))))).length := by
      rw [hsplit, List.length_append]
      simp only [List.length_append (bs := leBytes 4 s.qpad), List.length_append (as := s.mem.drop k), leBytes_length, List.length_drop]
      omega
    rw [hlen, hsplit, List.take_append_of_le_length (Nat.le_refl _), List.take_length]
  rw [e, head_load h j hj]
  have hs := h.mem
  unfold Sized at hs
  have hjm := hj.2 (s.itemCnt * chunk s.dim)
  have hr : rd ((j.mem (s.itemCnt * chunk s.dim)).take (s.itemCnt * chunk s.dim)) (some (s.mem.take k)) =
      (s.mem.take k ++ ((j.mem s.mem.length).take s.mem.length).drop k, none) := by
    unfold rd
    simp only [List.length_take]
    rw [if_neg (by omega), ← hs, Nat.min_eq_left (by omega)]
  rw [hr]
  simp [rdN, rd, leBytes, leNat]

/-- False: that a space with many indexed fields comes back. With a thousand of them or more none is read; the rotation is then read from the
names of the fields, and everything behind it from the wrong place. -/
theorem C81_fields_refuted {s : Space} {c : Config} (hc : s.config = some c) (hnum : s.metric < 3 ∧ s.dim < 2 ^ 32 ∧ s.itemCnt < 2 ^ 32 ∧
      s.capacity < 2 ^ 32 ∧ s.typ < 256 ∧ s.ep < 2 ^ 32) (hrot : rotLen s.typ s.dim = some s.rot.length)
    (a : c.dbPath.length < 2 ^ 64) (b : c.writeBuffer < 2 ^ 64 ∧ c.fileSize < 2 ^ 64 ∧ c.cacheMb < 2 ^ 64)
    (d : c.buffers < 2 ^ 32 ∧ c.compactions < 2 ^ 32 ∧ c.flushes < 2 ^ 32) (e : 1000 ≤ c.fields.length) (e' : c.fields.length < 2 ^ 64)
    (hlong : s.rot.length ≤ (saveFields c.fields).length) (j : Fresh) (hj : FreshOk j) :
    ∃ s', load true j s.save = some (some s') ∧ s'.config = some { c with fields := [] } ∧ s'.rot = (saveFields c.fields).take s.rot.length := by
  obtain ⟨m1, n1, n2, n3, n4, n5⟩ := hnum
  obtain ⟨b1, b2, b3⟩ := b
  obtain ⟨d1, d2, d3⟩ := d
  have hcomp : ∀ r, rdNat 1 ((if c.compress then (1 : UInt8) else 0) :: r) = some (if c.compress then 1 else 0, r) := by
    intro r
    cases c.compress <;> simp [rdNat, splitN, leNat]
  have hcfg : ∀ rest, Config.load (c.save ++ rest) = some ({ c with fields := [] }, saveFields c.fields ++ rest) := by
    intro rest
    unfold Config.load Config.save
    simp only [List.append_assoc, List.cons_append]
    rw [rdNat_le (lt8 a)]; simp only
    rw [splitN_append' rfl]; simp only
    rw [rdNat_le (lt8 b1)]; simp only
    rw [rdNat_le (lt4 d1)]; simp only
    rw [rdNat_le (lt8 b2)]; simp only
    rw [rdNat_le (lt4 d2)]; simp only
    rw [rdNat_le (lt4 d3)]; simp only
    rw [rdNat_le (lt8 b3)]; simp only
    rw [hcomp]; simp only
    rw [rdNat_le (lt8 e')]; simp only
    rw [if_neg (by omega)]
    cases c.compress <;> rfl
  unfold load Space.save
  rw [rdN_le (lt4 (by omega))]; simp only
  rw [rdN_le (lt4 n1)]; simp only
  rw [rdN_le (lt4 n2)]; simp only
  rw [rdN_le (lt4 n3)]; simp only
  rw [rdN_le (by omega)]; simp only
  rw [rdN_le (lt4 n5)]; simp only
  rw [hc]
  simp only [Option.map_some, Option.getD_some, loadCfg, if_true]
  rw [hcfg]; simp only
  rw [hrot]; simp only
  have hr : ∀ rest, rd ((j.rot s.rot.length).take s.rot.length) (some (saveFields c.fields ++ rest)) =
      ((saveFields c.fields).take s.rot.length, some ((saveFields c.fields).drop s.rot.length ++ rest)) := by
    intro rest
    have := hj.1 s.rot.length
    unfold rd
    simp only [List.length_take, List.length_append]
    rw [Nat.min_eq_left this, if_pos (by omega), List.take_append_of_le_length hlong, List.drop_append_of_le_length hlong]
  rw [hr]; simp only
  rw [if_neg (by omega)]
  exact ⟨_, rfl, rfl, rfl⟩

/-! ### A case -/

/-- Two vectors of 64 dimensions. -/
def rSpace : Space := ⟨2, 64, 2, 10, 1, 1, none, List.replicate 32 5, (List.range 1280).map UInt8.ofNat ++ (List.range 512).map UInt8.ofNat, 64, 64⟩

theorem rSpace_ok : FileOk rSpace := by
  refine ⟨by decide, by decide, by decide +kernel, by unfold Sized; decide +kernel, ?_⟩
  intro c hc
  cases hc

example : load false ⟨7, 7, fun n => List.replicate n 1, fun n => List.replicate n 9⟩ rSpace.save = some (some rSpace) :=
  C81_roundtrip rSpace_ok _ ⟨by intro n; simp, by intro n; simp⟩

example : (rSpace.update 1 (List.replicate 128 3) (List.replicate 128 4) (List.replicate 128 5) (List.replicate 256 6)).isSome := by decide +kernel

/-- Codes of 32 neighbours, and a rotation from `dim` coordinates to the next multiple of 64, fit exactly. -/
theorem C81_room (dim : Nat) : ∃ P, P % 64 = 0 ∧ dim ≤ P ∧ P < dim + 64 ∧ 8 * Part.len dim .codes = 32 * P ∧
    rotLen matrixRotator dim = some (4 * (dim * P)) ∧ ∀ n, rotLen fhtRotator dim = some n → 8 * n = 4 * P := by
  refine ⟨(dim + 63) / 64 * 64, by omega, by omega, by omega, ?_, ?_, ?_⟩
  · simp only [Part.len, padded]; omega
  · simp only [rotLen, padded, if_true, Nat.mul_assoc]
  · intro n h
    simp only [rotLen, padded, show fhtRotator ≠ matrixRotator by decide, if_false, if_true] at h
    split at h
    · cases h; omega
    · cases h

end Alaya.Props
