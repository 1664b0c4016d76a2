import Verif.Model.DiskAnnFlush
import Verif.Lemmas.DiskAnnLabels

namespace Alaya.DiskSlots
open Alaya

theorem take_cat (a b : Bytes) (k : Nat) (h : a.length ≤ k) : (a ++ b).take k = a ++ b.take (k - a.length) := by
  rw [List.take_append, List.take_of_length_le h]

/-- A file that ends before its words do is refused. -/
theorem deserLoop_short : ∀ (n : Nat) (t : Tomb) (c left r : Nat) (bs : Bytes), n = (left + 1023) / 1024 →
    (∀ x, x < c + n → ∃ ws, t.table x = some ws) → bs.length < left * 8 → t.deserLoop c left r bs n = .throws
  | 0, t, c, left, r, bs, hn, _, hl => by omega
  | n + 1, t, c, left, r, bs, hn, ht, hl => by
    unfold Tomb.deserLoop
    simp only
    by_cases h : bs.length < min 1024 left * 8
    · rw [if_pos h]
    · rw [if_neg h]
      obtain ⟨ws, hw⟩ := ht c (by omega)
      rw [hw]
      simp only
      refine deserLoop_short n _ _ _ _ _ (by omega) ?_ ?_
      · intro x hx
        simp only
        by_cases e : x = c
        · rw [if_pos e]; exact ⟨_, rfl⟩
        · rw [if_neg e]; exact ht x (by omega)
      · rw [List.length_drop]; omega

theorem words_length (t : Tomb) (n : Nat) :
    ((List.range n).flatMap (fun c => (List.range 1024).flatMap (fun i => leBytes 8 (t.word c i).toNat))).length = n * 8192 := by
  rw [List.length_flatMap, List.map_congr_left (g := fun _ => 8192) ?_]
  · rw [List.map_const', List.length_range, List.sum_replicate_nat]
  · intro c _
    rw [List.length_flatMap, List.map_congr_left (g := fun _ => 8) (by intro i _; exact leBytes_length _ _),
      List.map_const', List.length_range, List.sum_replicate_nat]

theorem drop8 (w : Nat) (b : Bytes) : (leBytes 8 w ++ b).drop 8 = b := List.drop_left' (leBytes_length _ _)
theorem take8 (w : Nat) (b : Bytes) : (leBytes 8 w ++ b).take 8 = leBytes 8 w := List.take_left' (leBytes_length _ _)

theorem deserialize_prefix {t : Tomb} {l : List Nat} (h : TombInv t l) (j : Nat) (hj : j < t.serialize.length) :
    Tomb.deserialize (t.serialize.take j) = .throws := by
  have hm := h.mul
  have hle := h.le
  rw [serialize_eq h] at hj ⊢
  rw [List.length_append, List.length_append, words_length, leBytes_length, leBytes_length] at hj
  unfold Tomb.deserialize
  by_cases h16 : j < 16
  · rw [if_pos (by rw [List.length_take]; omega)]
  · rw [take_cat _ _ _ (by rw [leBytes_length]; omega), take_cat _ _ _ (by rw [leBytes_length, leBytes_length]; omega), leBytes_length,
      leBytes_length]
    have e16 : ∀ b : Bytes, (leBytes 8 tombMagic ++ (leBytes 8 (t.numBits / 64) ++ b)).drop 16 = b := by
      intro b; rw [show (16 : Nat) = 8 + 8 from rfl, ← List.drop_drop, drop8, drop8]
    rw [if_neg (by simp only [List.length_append, leBytes_length]; omega), take8, leNat_leBytes_of_lt (by decide), if_neg (by simp), drop8,
      take8, leNat_leBytes_of_lt (by omega), e16]
    simp only
    obtain ⟨u0, e0, i0, n0, c0⟩ := reset_spec hle
    rw [U64_eq, Nat.mod_eq_of_lt (by omega), show t.numBits / 64 * 64 = t.numBits by omega, e0]
    simp only
    refine deserLoop_short _ _ _ _ _ _ rfl ?_ ?_
    · intro x hx
      exact c0 x (by omega)
    · rw [List.length_take, words_length]; omega

theorem slots_prefix {n k : Nat} {s : Slots} {a : Ledger} (h : SInv n k s a) (hk : n + k < 4294967296) (j : Nat) (hj : j < s.save.length) :
    Slots.load (s.save.take j) = .throws := by
  obtain ⟨l, hl, hm⟩ := h.tomb
  have hnx := h.next
  have hlen : s.free.length ≤ s.next := by
    have := h.size; omega
  have hs : s.save = leBytes 8 slotMagic ++ (leBytes 8 s.next ++ (leBytes 8 s.free.length ++
      (s.free.reverse.flatMap (leBytes 4) ++ s.tomb.serialize))) := by
    unfold Slots.save; simp only [List.append_assoc]
  have hf : (s.free.reverse.flatMap (leBytes 4)).length = s.free.length * 4 := by rw [flatMap_length4, List.length_reverse]
  rw [hs] at hj ⊢
  simp only [List.length_append, leBytes_length, hf] at hj
  unfold Slots.load
  by_cases h24 : j < 24
  · rw [if_pos (by rw [List.length_take]; omega)]
  · rw [take_cat _ _ _ (by rw [leBytes_length]; omega), take_cat _ _ _ (by rw [leBytes_length, leBytes_length]; omega),
      take_cat _ _ _ (by rw [leBytes_length, leBytes_length, leBytes_length]; omega), leBytes_length, leBytes_length, leBytes_length]
    have d16 : ∀ (x y : Nat) (b : Bytes), (leBytes 8 x ++ (leBytes 8 y ++ b)).drop 16 = b := by
      intro x y b; rw [show (16 : Nat) = 8 + 8 from rfl, ← List.drop_drop, drop8, drop8]
    have d24 : ∀ (x y z : Nat) (b : Bytes), (leBytes 8 x ++ (leBytes 8 y ++ (leBytes 8 z ++ b))).drop 24 = b := by
      intro x y z b; rw [show (24 : Nat) = 16 + 8 from rfl, ← List.drop_drop, d16, drop8]
    rw [if_neg (by simp only [List.length_append, leBytes_length]; omega), take8, leNat_leBytes_of_lt (by decide), if_neg (by simp), drop8,
      take8, leNat_leBytes_of_lt (by omega), d16, take8, leNat_leBytes_of_lt (by omega), d24]
    simp only
    by_cases hsh : ((s.free.reverse.flatMap (leBytes 4) ++ s.tomb.serialize).take (j - 8 - 8 - 8)).length < s.free.length * 4
    · rw [if_pos hsh]
    · rw [if_neg hsh, if_neg (by omega)]
      rw [List.length_take, List.length_append, hf] at hsh
      rw [take_cat _ _ _ (by rw [hf]; omega), List.drop_left' hf, hf, deserialize_prefix hl _ (by omega)]

end Alaya.DiskSlots

namespace Alaya.DiskAnn
open Alaya Alaya.DiskSlots

theorem readFields_enc : ∀ (fs : List (Nat × Nat)) (rest : Bytes), (∀ p ∈ fs, p.2 < 256 ^ p.1) →
    readFields (fs.map (·.1)) (encFields fs ++ rest) = some (fs.map (·.2), rest)
  | [], _, _ => rfl
  | (w, v) :: fs, rest, h => by
    rw [List.map_cons, encFields, List.append_assoc, readFields, splitN_append' (leBytes_length _ _)]
    simp only
    rw [readFields_enc fs rest (fun p hp => h p (List.mem_cons_of_mem _ hp))]
    simp only
    rw [leNat_leBytes_of_lt (h (w, v) List.mem_cons_self)]
    rfl

theorem encFields_length : ∀ fs : List (Nat × Nat), (encFields fs).length = (fs.map (·.1)).sum
  | [] => rfl
  | (w, v) :: fs => by rw [encFields, List.length_append, encFields_length fs, leBytes_length]; simp

theorem readFields_length : ∀ (ws : List Nat) (bs : Bytes) (vs : List Nat) (rest : Bytes), readFields ws bs = some (vs, rest) →
    bs.length = ws.sum + rest.length
  | [], bs, vs, rest, h => by
    unfold readFields at h
    injection h with h
    injection h with h1 h2
    rw [h2]; simp
  | w :: ws, bs, vs, rest, h => by
    unfold readFields at h
    cases e : splitN w bs with
    | none => rw [e] at h; cases h
    | some p =>
      obtain ⟨x, r1⟩ := p
      rw [e] at h
      simp only at h
      cases e2 : readFields ws r1 with
      | none => rw [e2] at h; cases h
      | some q =>
        obtain ⟨v2, r2⟩ := q
        rw [e2] at h
        injection h with h
        injection h with h1 h2
        subst h2
        have := readFields_length ws r1 v2 r2 e2
        obtain ⟨e3, e4⟩ := splitN_some e
        rw [e3, List.length_append, e4, this, List.sum_cons]; omega

/-- Header values that fit their fields. -/
structure Meta.Fits (m : Meta) : Prop where
  points : m.points < 2 ^ 64
  dim : m.dim < 2 ^ 64
  degree : m.degree < 2 ^ 32
  medoid : m.medoid < 2 ^ 32
  hasPq : m.hasPq < 2
  pqChunks : m.pqChunks < 2 ^ 32
  nodeLen : m.nodeLen < 2 ^ 64
  nps : m.nps < 2 ^ 64
  maxSlot : m.maxSlot < 2 ^ 64
  live : m.live < 2 ^ 64

theorem p64 : (256 : Nat) ^ 8 = 2 ^ 64 := by decide
theorem p32 : (256 : Nat) ^ 4 = 2 ^ 32 := by decide

theorem metaBytes_length (m : Meta) : (metaBytes m).length = 73 := by
  unfold metaBytes
  rw [encFields_length]
  rfl

theorem metaBytes_split (m : Meta) : metaBytes m = encFields [(8, metaMagic), (4, 2), (8, m.points), (8, m.dim), (4, m.degree), (4, m.medoid),
    (1, m.hasPq), (4, m.pqChunks), (8, m.nodeLen), (8, m.nps)] ++ encFields [(8, m.maxSlot), (8, m.live)] := by
  unfold metaBytes
  simp only [encFields, List.append_assoc, List.nil_append]

theorem readMeta_write (m : Meta) (h : m.Fits) (hp : m.points ≠ 0) (hd : m.dim ≠ 0) : readMeta (metaBytes m) = some m := by
  have r1 := readFields_enc [(8, metaMagic), (4, 2), (8, m.points), (8, m.dim), (4, m.degree), (4, m.medoid),
    (1, m.hasPq), (4, m.pqChunks), (8, m.nodeLen), (8, m.nps)] (encFields [(8, m.maxSlot), (8, m.live)]) (by
      intro p hp
      simp only [List.mem_cons, List.not_mem_nil, or_false] at hp
      rcases hp with rfl | rfl | rfl | rfl | rfl | rfl | rfl | rfl | rfl | rfl <;> simp only [p64, p32]
      · decide
      · decide
      · exact h.points
      · exact h.dim
      · exact h.degree
      · exact h.medoid
      · have := h.hasPq; omega
      · exact h.pqChunks
      · exact h.nodeLen
      · exact h.nps)
  have r2 := readFields_enc [(8, m.maxSlot), (8, m.live)] [] (by
      intro p hp
      simp only [List.mem_cons, List.not_mem_nil, or_false] at hp
      rcases hp with rfl | rfl <;> simp only [p64]
      · exact h.maxSlot
      · exact h.live)
  rw [List.append_nil] at r2
  simp only [List.map_cons, List.map_nil] at r1 r2
  rw [metaBytes_split]
  unfold readMeta
  rw [r1]
  simp only
  rw [if_neg (fun q => q rfl), if_neg (by decide), if_pos trivial, r2]
  simp only
  rw [if_neg (by rintro (q | q); exact hp q; exact hd q)]

theorem readMeta_prefix (m : Meta) (h : m.Fits) (k : Nat) (hk : k < 73) : readMeta ((metaBytes m).take k) = none := by
  unfold readMeta
  split
  · rename_i mg v p d r md pq pc nl ns rest e
    have hl := readFields_length _ _ _ _ e
    rw [List.length_take, metaBytes_length] at hl
    have h57 : 57 ≤ k := by
      have : ([8, 4, 8, 8, 4, 4, 1, 4, 8, 8] : List Nat).sum = 57 := by decide
      omega
    have r1 := readFields_enc [(8, metaMagic), (4, 2), (8, m.points), (8, m.dim), (4, m.degree), (4, m.medoid),
      (1, m.hasPq), (4, m.pqChunks), (8, m.nodeLen), (8, m.nps)] ((encFields [(8, m.maxSlot), (8, m.live)]).take (k - 57)) (by
      intro p hp
      simp only [List.mem_cons, List.not_mem_nil, or_false] at hp
      rcases hp with rfl | rfl | rfl | rfl | rfl | rfl | rfl | rfl | rfl | rfl <;> simp only [p64, p32]
      · decide
      · decide
      · exact h.points
      · exact h.dim
      · exact h.degree
      · exact h.medoid
      · have := h.hasPq; omega
      · exact h.pqChunks
      · exact h.nodeLen
      · exact h.nps)
    have hlen : (encFields [(8, metaMagic), (4, 2), (8, m.points), (8, m.dim), (4, m.degree), (4, m.medoid),
      (1, m.hasPq), (4, m.pqChunks), (8, m.nodeLen), (8, m.nps)]).length = 57 := by rw [encFields_length]; rfl
    rw [metaBytes_split, take_cat _ _ _ (by rw [hlen]; exact h57), hlen] at e
    simp only [List.map_cons, List.map_nil] at r1
    rw [r1] at e
    injection e with e
    injection e with e1 e2
    injection e1 with e3 e1
    injection e1 with e4 e1
    subst e3
    subst e4
    subst e2
    rw [if_neg (fun q => q rfl), if_neg (by decide), if_pos rfl]
    split
    · rename_i ms lc rest' e'
      have hl' := readFields_length _ _ _ _ e'
      rw [List.length_take, encFields_length] at hl'
      have q1 : ([8, 8] : List Nat).sum = 16 := by decide
      omega
    · rfl
  · rfl

theorem readIds_write (ls : List Nat) (h : ∀ l ∈ ls, l < 2 ^ 64) (hn : ls.length < 2 ^ 64) : readIds (idsBytes ls) ls.length = some ls := by
  unfold readIds idsBytes
  rw [splitN_append' (leBytes_length _ _)]
  simp only
  rw [leNat_leBytes_of_lt (by rw [p64]; exact hn), if_neg (fun q => q rfl)]
  have := readFields_enc (ls.map fun l => (8, l)) [] (by
    intro p hp
    obtain ⟨l, hl, rfl⟩ := List.mem_map.mp hp
    simp only [p64]
    exact h l hl)
  rw [List.append_nil, List.map_map, List.map_map] at this
  have e1 : ls.map ((·.1) ∘ fun l => ((8, l) : Nat × Nat)) = List.replicate ls.length 8 := by
    rw [show ((fun p : Nat × Nat => p.1) ∘ fun l => ((8, l) : Nat × Nat)) = fun _ => 8 from rfl, List.map_const']
  have e2 : ls.map ((·.2) ∘ fun l => ((8, l) : Nat × Nat)) = ls := by
    rw [show ((fun p : Nat × Nat => p.2) ∘ fun l => ((8, l) : Nat × Nat)) = fun l => l from rfl, List.map_id']
  rw [e1, e2] at this
  rw [this]

theorem idsBytes_length (ls : List Nat) : (idsBytes ls).length = 8 + ls.length * 8 := by
  unfold idsBytes
  rw [List.length_append, leBytes_length, encFields_length, List.map_map,
    show ((fun p : Nat × Nat => p.1) ∘ fun l => ((8, l) : Nat × Nat)) = fun _ => 8 from rfl, List.map_const', List.sum_replicate_nat]

theorem readIds_prefix (ls : List Nat) (hn : ls.length < 2 ^ 64) (k e : Nat) (hk : k < (idsBytes ls).length) :
    readIds ((idsBytes ls).take k) e = none := by
  rw [idsBytes_length] at hk
  unfold readIds
  split
  · rfl
  · rename_i c rest hs
    obtain ⟨s1, s2⟩ := splitN_some hs
    have hl := congrArg List.length s1
    rw [List.length_take, idsBytes_length, List.length_append, s2] at hl
    have h8 : 8 ≤ k := by omega
    have hsh : (idsBytes ls).take k = leBytes 8 ls.length ++ (encFields (ls.map fun l => (8, l))).take (k - 8) := by
      unfold idsBytes
      rw [take_cat _ _ _ (by rw [leBytes_length]; exact h8), leBytes_length]
    rw [hsh, splitN_append' (leBytes_length _ _)] at hs
    injection hs with hs
    injection hs with h1 h2
    subst h1
    split
    · rfl
    · split
      · rfl
      · rename_i vs r' er
        have hr := readFields_length _ _ _ _ er
        rw [leNat_leBytes_of_lt (by rw [p64]; exact hn), List.sum_replicate_nat] at hr
        omega

/-- The lookup that is rebuilt, given what it should be. -/
theorem rebuild_spec (labels : List Nat) (dead : Nat → Bool) (M : Nat → Option Nat)
    (hM : ∀ l x, M l = some x ↔ dead x = false ∧ labels[x]? = some l) (hres : ∀ l x, M l = some x → l ≠ noLabel) :
    ∀ (xs : List Nat) (m : Nat → Option Nat) (seen : List Nat), (seen ++ xs).Nodup → (∀ x ∈ xs, x < labels.length) →
      (∀ l x, m l = some x ↔ M l = some x ∧ x ∈ seen) →
      ∃ m', rebuild labels dead xs m = some m' ∧ ∀ l x, m' l = some x ↔ M l = some x ∧ x ∈ seen ++ xs
  | [], m, seen, _, _, hm => ⟨m, rfl, by simpa using hm⟩
  | x :: xs, m, seen, hn, hx, hm => by
    have hn' : (seen ++ [x] ++ xs).Nodup := by rw [List.append_assoc]; exact hn
    have hx' : ∀ y ∈ xs, y < labels.length := fun y hy => hx y (List.mem_cons_of_mem _ hy)
    unfold rebuild
    by_cases hd : dead x = true
    · rw [if_pos hd]
      obtain ⟨m', e, h⟩ := rebuild_spec labels dead M hM hres xs m (seen ++ [x]) hn' hx' (by
        intro l y
        rw [hm, List.mem_append, List.mem_singleton]
        constructor
        · rintro ⟨a, b⟩; exact ⟨a, .inl b⟩
        · rintro ⟨a, b | b⟩
          · exact ⟨a, b⟩
          · rw [b] at a
            rw [((hM l x).mp a).1] at hd
            cases hd)
      refine ⟨m', e, ?_⟩
      rw [List.append_assoc] at h
      exact h
    · rw [if_neg hd]
      have hd' : dead x = false := by cases h : dead x with | true => exact absurd h hd | false => rfl
      have hlt := hx x List.mem_cons_self
      rw [List.getElem?_eq_getElem hlt]
      simp only
      have hMx : M labels[x] = some x := (hM _ _).mpr ⟨hd', List.getElem?_eq_getElem hlt⟩
      rw [if_neg (hres _ _ hMx)]
      have hnone : m labels[x] = none := by
        cases e : m labels[x] with
        | none => rfl
        | some y =>
          obtain ⟨q1, q2⟩ := (hm _ _).mp e
          rw [hMx] at q1
          injection q1 with q1
          subst q1
          rw [List.nodup_append] at hn
          exact absurd rfl (hn.2.2 x q2 x List.mem_cons_self)
      rw [hnone, if_neg (by simp)]
      obtain ⟨m', e, h⟩ := rebuild_spec labels dead M hM hres xs (fun y => if y = labels[x] then some x else m y) (seen ++ [x]) hn' hx' (by
        intro l y
        by_cases hl : l = labels[x]
        · subst hl
          simp only [if_true]
          rw [hMx, List.mem_append, List.mem_singleton]
          constructor
          · intro q
            injection q with q
            exact ⟨by rw [q], .inr q.symm⟩
          · rintro ⟨q, _⟩; exact q
        · simp only [if_neg hl]
          rw [hm, List.mem_append, List.mem_singleton]
          constructor
          · rintro ⟨a, b⟩; exact ⟨a, .inl b⟩
          · rintro ⟨a, b | b⟩
            · exact ⟨a, b⟩
            · rw [b] at a
              have := ((hM l x).mp a).2
              rw [List.getElem?_eq_getElem hlt] at this
              injection this with this
              exact absurd this.symm hl)
      refine ⟨m', e, ?_⟩
      rw [List.append_assoc] at h
      exact h

end Alaya.DiskAnn
