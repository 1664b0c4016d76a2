import Verif.Model.KV

namespace Alaya

/-! ### order on byte strings -/

theorem blt_irrefl (a : Bytes) : ¬ a < a := List.lt_irrefl a

theorem u8lt_trans {a b c : UInt8} (h1 : a < b) (h2 : b < c) : a < c := by
  rw [UInt8.lt_iff_toNat_lt] at *; omega

theorem blt_trans {a b c : Bytes} (h1 : a < b) (h2 : b < c) : a < c := by
  induction a generalizing b c with
  | nil =>
    cases c with
    | nil => cases b <;> simp_all
    | cons => simp
  | cons x a ih =>
    cases b with
    | nil => simp at h1
    | cons y b =>
      cases c with
      | nil => simp at h2
      | cons z c =>
        rw [List.cons_lt_cons_iff] at *
        rcases h1 with h1 | ⟨rfl, h1⟩ <;> rcases h2 with h2 | ⟨rfl, h2⟩
        · exact Or.inl (u8lt_trans h1 h2)
        · exact Or.inl h1
        · exact Or.inl h2
        · exact Or.inr ⟨rfl, ih h1 h2⟩

theorem u8_tri (a b : UInt8) : a < b ∨ a = b ∨ b < a := by
  rw [UInt8.lt_iff_toNat_lt, UInt8.lt_iff_toNat_lt, ← UInt8.toNat_inj]; omega

theorem blt_tri (a b : Bytes) : a < b ∨ a = b ∨ b < a := by
  induction a generalizing b with
  | nil => cases b <;> simp
  | cons x a ih =>
    cases b with
    | nil => simp
    | cons y b =>
      rw [List.cons_lt_cons_iff, List.cons_lt_cons_iff, List.cons.injEq]
      rcases u8_tri x y with h | rfl | h
      · exact Or.inl (Or.inl h)
      · rcases ih b with h | rfl | h
        · exact Or.inl (Or.inr ⟨rfl, h⟩)
        · exact Or.inr (Or.inl ⟨rfl, rfl⟩)
        · exact Or.inr (Or.inr (Or.inr ⟨rfl, h⟩))
      · exact Or.inr (Or.inr (Or.inl h))

theorem blt_asymm {a b : Bytes} (h : a < b) : ¬ b < a := fun h2 => blt_irrefl a (blt_trans h h2)

theorem blt_ne {a b : Bytes} (h : a < b) : a ≠ b := fun e => blt_irrefl b (e ▸ h)

theorem blt_of_not {a b : Bytes} (h : ¬ a < b) (hne : a ≠ b) : b < a := by
  rcases blt_tri a b with h1 | h1 | h1
  · exact absurd h1 h
  · exact absurd h1 hne
  · exact h1

/-- Appending a common prefix does not change the order. -/
theorem append_lt_append_left (p a b : Bytes) : p ++ a < p ++ b ↔ a < b := by
  induction p with
  | nil => rfl
  | cons x p ih =>
    rw [List.cons_append, List.cons_append, List.cons_lt_cons_iff, ih]
    constructor
    · rintro (h | h)
      · exact absurd h (by rw [UInt8.lt_iff_toNat_lt]; omega)
      · exact h.2
    · intro h; exact Or.inr ⟨rfl, h⟩

/-- Strings of the same length followed by anything. -/
theorem append_lt_append_of_lt {a b : Bytes} (hl : a.length = b.length) (h : a < b) (s t : Bytes) :
    a ++ s < b ++ t := by
  induction a generalizing b with
  | nil => cases b <;> simp_all
  | cons x a ih =>
    cases b with
    | nil => simp at hl
    | cons y b =>
      simp only [List.cons_append, List.cons_lt_cons_iff] at *
      rcases h with h | ⟨rfl, h⟩
      · exact Or.inl h
      · exact Or.inr ⟨rfl, ih (by simpa using hl) h⟩

theorem not_lt_prefix {p k : Bytes} (h : p <+: k) : ¬ k < p := by
  obtain ⟨t, rfl⟩ := h
  induction p with
  | nil => simp
  | cons x p ih =>
    rw [List.cons_append, List.cons_lt_cons_iff]
    rintro (h | h)
    · exact absurd h (by rw [UInt8.lt_iff_toNat_lt]; omega)
    · exact ih h.2

/-- Beyond the block of keys with prefix `p` there is no further key with that prefix. -/
theorem prefix_block {p x y : Bytes} (hx : ¬ x < p) (hxp : ¬ p <+: x) (hxy : x < y) : ¬ p <+: y := by
  induction p generalizing x y with
  | nil => simp at hxp
  | cons c p ih =>
    cases x with
    | nil => simp at hx
    | cons a x =>
      cases y with
      | nil => simp at hxy
      | cons b y =>
        rw [List.cons_lt_cons_iff] at hx hxy
        rw [List.cons_prefix_cons] at hxp ⊢
        rintro ⟨rfl, hp⟩
        rcases u8_tri a c with h | rfl | h
        · exact hx (Or.inl h)
        · have hx' : ¬ x < p := fun h => hx (Or.inr ⟨rfl, h⟩)
          have hxp' : ¬ p <+: x := fun h => hxp ⟨rfl, h⟩
          rcases hxy with h | ⟨_, h⟩
          · exact absurd h (by rw [UInt8.lt_iff_toNat_lt]; omega)
          · exact ih hx' hxp' h hp
        · rcases hxy with h2 | ⟨h2, _⟩
          · rw [UInt8.lt_iff_toNat_lt] at *; omega
          · subst h2; exact absurd h (by rw [UInt8.lt_iff_toNat_lt]; omega)

/-! ### map laws -/

theorem KV.get_put (kv : KV) (k v k' : Bytes) :
    (kv.put k v).get k' = if k = k' then some v else kv.get k' := by
  induction kv with
  | nil => simp [KV.put, KV.get]
  | cons e kv ih =>
    obtain ⟨a, b⟩ := e
    simp only [KV.put]
    split
    · simp [KV.get]
    · split
      · rename_i h; subst h
        simp only [KV.get]
        split <;> rfl
      · rename_i h
        simp only [KV.get, ih]
        by_cases h1 : a = k'
        · subst h1; simp [Ne.symm h]
        · simp [h1]

theorem KV.get_del (kv : KV) (k k' : Bytes) :
    (kv.del k).get k' = if k = k' then none else kv.get k' := by
  unfold KV.del
  induction kv with
  | nil => simp [KV.get]
  | cons e kv ih =>
    obtain ⟨a, b⟩ := e
    simp only [List.filter_cons]
    by_cases h : a = k
    · subst h
      simp only [beq_self_eq_true, Bool.not_true, Bool.false_eq_true, if_false, ih, KV.get]
      split <;> rfl
    · have : (!(a == k)) = true := by simpa using h
      rw [if_pos this]
      simp only [KV.get, ih]
      by_cases h1 : a = k'
      · subst h1; simp [Ne.symm h]
      · simp [h1]

/-- Strictly ascending keys. -/
def KV.Sorted (kv : KV) : Prop := kv.Pairwise fun a b => a.1 < b.1

theorem KV.mem_put_key {kv : KV} {k v : Bytes} {e : Bytes × Bytes} (h : e ∈ kv.put k v) :
    e.1 = k ∨ e ∈ kv := by
  induction kv with
  | nil => simp [KV.put] at h; left; rw [h]
  | cons x kv ih =>
    obtain ⟨a, b⟩ := x
    simp only [KV.put] at h
    split at h
    · rcases List.mem_cons.1 h with rfl | h
      · left; rfl
      · right; exact h
    · split at h
      · rcases List.mem_cons.1 h with rfl | h
        · left; rfl
        · right; exact List.mem_cons_of_mem _ h
      · rcases List.mem_cons.1 h with rfl | h
        · right; simp
        · rcases ih h with h | h
          · left; exact h
          · right; exact List.mem_cons_of_mem _ h

theorem KV.sorted_put {kv : KV} (h : kv.Sorted) (k v : Bytes) : (kv.put k v).Sorted := by
  unfold KV.Sorted at *
  induction kv with
  | nil => simp [KV.put]
  | cons x kv ih =>
    obtain ⟨a, b⟩ := x
    rw [List.pairwise_cons] at h
    simp only [KV.put]
    split
    · rename_i hlt
      rw [List.pairwise_cons]
      refine ⟨?_, by rw [List.pairwise_cons]; exact h⟩
      intro e he
      rcases List.mem_cons.1 he with rfl | he
      · exact hlt
      · exact blt_trans hlt (h.1 e he)
    · split
      · rename_i heq; subst heq
        rw [List.pairwise_cons]; exact h
      · rename_i hnlt hne
        rw [List.pairwise_cons]
        refine ⟨?_, ih h.2⟩
        intro e he
        rcases KV.mem_put_key he with hk | he
        · rw [hk]; exact blt_of_not hnlt (Ne.symm hne)
        · exact h.1 e he

theorem KV.sorted_del {kv : KV} (h : kv.Sorted) (k : Bytes) : (kv.del k).Sorted :=
  List.Pairwise.sublist List.filter_sublist h

theorem KV.sorted_write {kv : KV} (h : kv.Sorted) (b : List BatchOp) : (kv.write b).Sorted := by
  unfold KV.write
  induction b generalizing kv with
  | nil => exact h
  | cons op b ih =>
    apply ih
    cases op with
    | put k v => exact KV.sorted_put h k v
    | del k => exact KV.sorted_del h k

theorem KV.write_append (kv : KV) (a b : List BatchOp) : kv.write (a ++ b) = (kv.write a).write b := by
  simp [KV.write]

theorem KV.mem_iff_get {kv : KV} (h : kv.Sorted) (k v : Bytes) : (k, v) ∈ kv ↔ kv.get k = some v := by
  unfold KV.Sorted at h
  induction kv with
  | nil => simp [KV.get]
  | cons x kv ih =>
    obtain ⟨a, b⟩ := x
    rw [List.pairwise_cons] at h
    simp only [List.mem_cons, Prod.mk.injEq, KV.get, ih h.2]
    by_cases hak : a = k
    · subst hak
      simp only [true_and, if_true, Option.some.injEq]
      constructor
      · rintro (h1 | h1)
        · exact h1.symm
        · have := h.1 (a, v) ((ih h.2).2 h1)
          exact absurd this (blt_irrefl a)
      · intro h1; exact Or.inl h1.symm
    · rw [if_neg hak]
      constructor
      · rintro (⟨rfl, _⟩ | h1)
        · exact absurd rfl hak
        · exact h1
      · exact Or.inr

theorem KV.write_puts (kv : KV) (ks : List Bytes) (v k : Bytes) :
    (kv.write (ks.map fun x => .put x v)).get k = if k ∈ ks then some v else kv.get k := by
  induction ks generalizing kv with
  | nil => simp [KV.write]
  | cons x ks ih =>
    have : kv.write ((x :: ks).map fun x => BatchOp.put x v)
        = (kv.put x v).write (ks.map fun x => BatchOp.put x v) := rfl
    rw [this, ih, KV.get_put]
    by_cases h : k ∈ ks
    · simp [h]
    · by_cases h2 : x = k
      · simp [h2]
      · simp [h, h2, Ne.symm h2]

theorem KV.write_dels (kv : KV) (ks : List Bytes) (k : Bytes) :
    (kv.write (ks.map fun x => .del x)).get k = if k ∈ ks then none else kv.get k := by
  induction ks generalizing kv with
  | nil => simp [KV.write]
  | cons x ks ih =>
    have : kv.write ((x :: ks).map fun x => BatchOp.del x)
        = (kv.del x).write (ks.map fun x => BatchOp.del x) := rfl
    rw [this, ih, KV.get_del]
    by_cases h : k ∈ ks
    · simp [h]
    · by_cases h2 : x = k
      · simp [h2]
      · simp [h, h2, Ne.symm h2]

/-! ### scans -/

theorem KV.seek_eq_filter {kv : KV} (h : kv.Sorted) (k : Bytes) :
    kv.seek k = kv.filter fun e => !decide (e.1 < k) := by
  unfold KV.seek
  unfold KV.Sorted at h
  induction kv with
  | nil => rfl
  | cons x kv ih =>
    rw [List.pairwise_cons] at h
    by_cases hlt : x.1 < k
    · simp only [List.dropWhile_cons, List.filter_cons, hlt, decide_true, Bool.not_true,
        Bool.false_eq_true, if_true, if_false]
      exact ih h.2
    · simp only [List.dropWhile_cons, List.filter_cons, hlt, decide_false, Bool.not_false,
        Bool.false_eq_true, if_true, if_false]
      congr 1
      symm
      rw [List.filter_eq_self]
      intro e he
      have hxe := h.1 e he
      have : ¬ e.1 < k := fun he' => hlt (blt_trans hxe he')
      simp [this]

/-- A prefix scan visits exactly the entries whose key has the prefix, in order. -/
theorem KV.prefixScan_eq_filter {kv : KV} (h : kv.Sorted) (p : Bytes) :
    kv.prefixScan p = kv.filter fun e => p.isPrefixOf e.1 := by
  unfold KV.prefixScan
  rw [KV.seek_eq_filter h]
  unfold KV.Sorted at h
  induction kv with
  | nil => rfl
  | cons x kv ih =>
    rw [List.pairwise_cons] at h
    by_cases hlt : x.1 < p
    · have hnp : p.isPrefixOf x.1 = false := by
        rw [Bool.eq_false_iff]
        intro hp
        exact not_lt_prefix (List.isPrefixOf_iff_prefix.1 hp) hlt
      simp only [List.filter_cons, hlt, decide_true, Bool.not_true, Bool.false_eq_true, if_false, hnp]
      exact ih h.2
    · simp only [List.filter_cons, hlt, decide_false, Bool.not_false, if_true, List.takeWhile_cons]
      by_cases hp : p.isPrefixOf x.1 = true
      · rw [if_pos hp, if_pos hp]
        congr 1
        exact ih h.2
      · rw [if_neg hp, if_neg hp]
        symm
        rw [List.filter_eq_nil_iff]
        intro e he hpe
        exact prefix_block hlt (fun hh => hp (List.isPrefixOf_iff_prefix.2 hh)) (h.1 e he)
          (List.isPrefixOf_iff_prefix.1 hpe)

end Alaya
