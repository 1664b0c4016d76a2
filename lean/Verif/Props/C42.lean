import Verif.Lemmas.DiskSlots
import Verif.Lemmas.Wal

/-! C42: the tombstone bitmap is a set of ids. -/
namespace Alaya.DiskSlots
open Alaya Alaya.Wal

/-- A mutation of the bitmap. -/
inductive TOp where
  | set (id : Nat)
  | clear (id : Nat)
  deriving DecidableEq

/-- The id is a slot id and the last operation on it was `set`. -/
def LastSet (ops : List TOp) (id : Nat) : Prop :=
  id < 2 ^ 32 ∧ ∃ a b, ops = a ++ TOp.set id :: b ∧ TOp.clear id ∉ b

/-- One mutation; a `set` that throws leaves the bitmap as it was. -/
def Tomb.apply (t : Tomb) : TOp → Tomb
  | .set id => (t.set id).getD t
  | .clear id => t.clear id

/-- A history. -/
def Tomb.runOps (t : Tomb) (ops : List TOp) : Tomb := ops.foldl Tomb.apply t

theorem LastSet.snoc_set (ops : List TOp) (x id : Nat) :
    LastSet (ops ++ [.set x]) id ↔ (id < 2 ^ 32 ∧ id = x) ∨ LastSet ops id := by
  constructor
  · rintro ⟨hid, a, b, e, hb⟩
    rcases List.eq_nil_or_concat b with rfl | ⟨b', y, rfl⟩
    · obtain ⟨_, h2⟩ := List.append_inj' (show ops ++ [TOp.set x] = a ++ [TOp.set id] from e) rfl
      injection h2 with h2
      injection h2 with h2
      exact Or.inl ⟨hid, h2.symm⟩
    · rw [List.concat_eq_append, show a ++ TOp.set id :: (b' ++ [y]) = (a ++ TOp.set id :: b') ++ [y] by simp] at e
      obtain ⟨h1, _⟩ := List.append_inj' e rfl
      exact Or.inr ⟨hid, a, b', h1, fun h => hb (by simp [h])⟩
  · rintro (⟨hid, rfl⟩ | ⟨hid, a, b, rfl, hb⟩)
    · exact ⟨hid, ops, [], rfl, by simp⟩
    · exact ⟨hid, a, b ++ [.set x], by simp, by simp [hb]⟩

theorem LastSet.snoc_clear (ops : List TOp) (x id : Nat) :
    LastSet (ops ++ [.clear x]) id ↔ id ≠ x ∧ LastSet ops id := by
  constructor
  · rintro ⟨hid, a, b, e, hb⟩
    rcases List.eq_nil_or_concat b with rfl | ⟨b', y, rfl⟩
    · obtain ⟨_, h2⟩ := List.append_inj' (show ops ++ [TOp.clear x] = a ++ [TOp.set id] from e) rfl
      injection h2 with h2
      cases h2
    · rw [List.concat_eq_append, show a ++ TOp.set id :: (b' ++ [y]) = (a ++ TOp.set id :: b') ++ [y] by simp] at e
      obtain ⟨h1, h2⟩ := List.append_inj' e rfl
      injection h2 with h2
      subst h2
      refine ⟨?_, hid, a, b', h1, fun h => hb (by simp [h])⟩
      rintro rfl
      exact hb (by simp)
  · rintro ⟨hne, hid, a, b, rfl, hb⟩
    refine ⟨hid, a, b ++ [.clear x], by simp, ?_⟩
    intro h
    rcases List.mem_append.1 h with h | h
    · exact hb h
    · rw [List.mem_singleton] at h
      injection h with h
      exact hne h

theorem runOps_inv {t : Tomb} (h : TombInv t []) (ops : List TOp) :
    ∃ l, TombInv (t.runOps ops) l ∧ ∀ id, id ∈ l ↔ LastSet ops id := by
  induction ops using snocInduction with
  | nil =>
    refine ⟨[], h, ?_⟩
    intro id
    constructor
    · intro hh; cases hh
    · rintro ⟨_, a, b, e, _⟩; cases a <;> cases e
  | snoc ops op ih =>
    obtain ⟨l, hl, hm⟩ := ih
    have hrun : t.runOps (ops ++ [op]) = (t.runOps ops).apply op := by
      unfold Tomb.runOps; rw [List.foldl_append]; rfl
    rw [hrun]
    cases op with
    | set x =>
      unfold Tomb.apply
      by_cases hx : x < 4294967296
      · obtain ⟨t', e, ht'⟩ := set_spec hl hx
        simp only [e, Option.getD_some]
        refine ⟨_, ht', ?_⟩
        intro id
        rw [LastSet.snoc_set, ← hm id]
        split
        · rename_i hin
          constructor
          · exact Or.inr
          · rintro (⟨_, rfl⟩ | h)
            · exact hin
            · exact h
        · rw [List.mem_cons]
          constructor
          · rintro (rfl | h)
            · exact Or.inl ⟨hx, rfl⟩
            · exact Or.inr h
          · rintro (⟨_, rfl⟩ | h)
            · exact Or.inl rfl
            · exact Or.inr h
      · simp only [set_throws _ (by omega : 4294967296 ≤ x), Option.getD_none]
        refine ⟨l, hl, ?_⟩
        intro id
        rw [LastSet.snoc_set, ← hm id]
        constructor
        · exact Or.inr
        · rintro (⟨h1, rfl⟩ | h)
          · exact absurd h1 hx
          · exact h
    | clear x =>
      refine ⟨l.erase x, clear_spec hl x, ?_⟩
      intro id
      rw [LastSet.snoc_clear, hl.nodup.mem_erase_iff, hm id]

/-- After any history on a bitmap sized for `n` slots, `is_deleted(id)` holds exactly when the last operation on `id` was
`set`, and `count()` is the number of such ids. -/
theorem C42_set_semantics (n : Nat) (hn : n ≤ 2 ^ 32) (ops : List TOp) :
    ∃ t0, Tomb.reset n = some t0 ∧ (∀ id, (t0.runOps ops).isDeleted id = true ↔ LastSet ops id) ∧
      ∃ l : List Nat, l.Nodup ∧ (∀ id, id ∈ l ↔ LastSet ops id) ∧ (t0.runOps ops).count = l.length := by
  obtain ⟨t0, e, h0, -⟩ := reset_spec (n := n) hn
  obtain ⟨l, hl, hm⟩ := runOps_inv h0 ops
  exact ⟨t0, e, fun id => (isDeleted_spec hl id).trans (hm id), l, hl.nodup, hm, hl.count⟩

/-- Exactly the ids with more than 32 bits are refused by `set`. -/
theorem C42_set_throws (n : Nat) (hn : n ≤ 2 ^ 32) (ops : List TOp) (id : Nat) :
    ∃ t0, Tomb.reset n = some t0 ∧ ((t0.runOps ops).set id = none ↔ 2 ^ 32 ≤ id) := by
  obtain ⟨t0, e, h0, -⟩ := reset_spec (n := n) hn
  obtain ⟨l, hl, -⟩ := runOps_inv h0 ops
  refine ⟨t0, e, ?_⟩
  constructor
  · intro h
    by_cases hid : id < 4294967296
    · obtain ⟨t', e', -⟩ := set_spec hl hid
      rw [e'] at h; cases h
    · omega
  · intro h
    exact set_throws _ h

/-- Writing a bitmap and reading it back, with any bytes following, gives the same answers, the same count and the same
capacity, and leaves the following bytes. -/
theorem C42_serialize_roundtrip (n : Nat) (hn : n ≤ 2 ^ 32) (ops : List TOp) (rest : Bytes) :
    ∃ t0 u, Tomb.reset n = some t0 ∧ Tomb.deserialize ((t0.runOps ops).serialize ++ rest) = .ok (u, rest) ∧
      (∀ id, u.isDeleted id = (t0.runOps ops).isDeleted id) ∧ u.count = (t0.runOps ops).count ∧
      u.numBits = (t0.runOps ops).numBits := by
  obtain ⟨t0, e, h0, -⟩ := reset_spec (n := n) hn
  obtain ⟨l, hl, -⟩ := runOps_inv h0 ops
  obtain ⟨u, e', hu, hnb⟩ := deserialize_serialize hl rest
  refine ⟨t0, u, e, e', ?_, hu.count.trans hl.count.symm, hnb⟩
  intro id
  rw [Bool.eq_iff_iff, isDeleted_spec hu, isDeleted_spec hl]

/-- A snapshot gives the answers of the moment it was taken. -/
theorem C42_snapshot (n : Nat) (hn : n ≤ 2 ^ 32) (ops : List TOp) (id : Nat) :
    ∃ t0, Tomb.reset n = some t0 ∧ (t0.runOps ops).snapshot.isDeleted id = some ((t0.runOps ops).isDeleted id) := by
  obtain ⟨t0, e, h0, -⟩ := reset_spec (n := n) hn
  obtain ⟨l, hl, -⟩ := runOps_inv h0 ops
  exact ⟨t0, e, snapshot_spec hl id⟩

/-- The hypotheses are met and the answers differ between ids: 70000 is set twice, 5 is set and cleared. -/
example : LastSet [.set 5, .set 70000, .clear 5, .set 70000] 70000 ∧ ¬ LastSet [.set 5, .set 70000, .clear 5, .set 70000] 5 := by
  refine ⟨⟨by decide, [.set 5, .set 70000, .clear 5], [], rfl, by simp⟩, ?_⟩
  rw [show [TOp.set 5, TOp.set 70000, TOp.clear 5, TOp.set 70000] = [TOp.set 5, TOp.set 70000, TOp.clear 5] ++ [TOp.set 70000] from rfl,
    LastSet.snoc_set]
  rintro (⟨_, h⟩ | h)
  · omega
  · rw [show [TOp.set 5, TOp.set 70000, TOp.clear 5] = [TOp.set 5, TOp.set 70000] ++ [TOp.clear 5] from rfl, LastSet.snoc_clear] at h
    exact h.1 rfl

/-- Observation: a file that announces 2^58 words wraps the capacity to zero, and the first chunk, which does not exist, is
written to. -/
example : ∀ body : Bytes, 8192 ≤ body.length →
    Tomb.deserialize (leBytes 8 tombMagic ++ (leBytes 8 (2 ^ 58) ++ body)) = .ub := by
  intro body hb
  unfold Tomb.deserialize
  have h8 : (leBytes 8 tombMagic ++ (leBytes 8 (2 ^ 58) ++ body)).drop 8 = leBytes 8 (2 ^ 58) ++ body := by
    rw [List.drop_append_of_le_length (by simp), List.drop_of_length_le (by simp), List.nil_append]
  have h16 : (leBytes 8 tombMagic ++ (leBytes 8 (2 ^ 58) ++ body)).drop 16 = body := by
    rw [show (16 : Nat) = 8 + 8 from rfl, ← List.drop_drop, h8, List.drop_append_of_le_length (by simp), List.drop_of_length_le (by simp),
      List.nil_append]
  rw [if_neg (by simp only [List.length_append, leBytes_length]; omega), List.take_append_of_le_length (by simp),
    List.take_of_length_le (by simp), leNat_leBytes_of_lt (by decide), if_neg (by simp), h8, h16,
    List.take_append_of_le_length (by simp), List.take_of_length_le (by simp), leNat_leBytes_of_lt (by decide)]
  simp only
  rw [U64_eq, show 2 ^ 58 * 64 % 2 ^ 64 = 0 from by decide]
  obtain ⟨m, hm⟩ : ∃ m, (2 ^ 58 + 1023) / 1024 = m + 1 := ⟨281474976710656 - 1, by decide⟩
  rw [hm]
  have hr : Tomb.reset 0 = some Tomb.empty := rfl
  rw [hr]
  simp only [Tomb.deserLoop]
  rw [show min 1024 (2 ^ 58) = 1024 from by decide, if_neg (by omega)]
  rfl

end Alaya.DiskSlots
