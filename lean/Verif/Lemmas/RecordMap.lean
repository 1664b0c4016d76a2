import Verif.Spec.RecordMap

namespace Alaya.Spec

/-- Ascending ids. -/
def RecordMap.Asc (m : RecordMap) : Prop := m.Pairwise fun a b => a.1 < b.1

theorem RecordMap.get_put (m : RecordMap) (id : Nat) (r : ScalarData) (id' : Nat) :
    (m.put id r).get id' = if id = id' then some r else m.get id' := by
  induction m with
  | nil => simp [RecordMap.put, RecordMap.get]
  | cons e m ih =>
    obtain ⟨a, b⟩ := e
    simp only [RecordMap.put]
    split
    · simp [RecordMap.get]
    · split
      · rename_i h; subst h
        simp only [RecordMap.get]
        split <;> rfl
      · rename_i h
        simp only [RecordMap.get, ih]
        by_cases h1 : a = id'
        · subst h1; simp [Ne.symm h]
        · simp [h1]

theorem RecordMap.get_del (m : RecordMap) (id id' : Nat) :
    (m.del id).get id' = if id = id' then none else m.get id' := by
  unfold RecordMap.del
  induction m with
  | nil => simp [RecordMap.get]
  | cons e m ih =>
    obtain ⟨a, b⟩ := e
    simp only [List.filter_cons]
    by_cases h : a = id
    · subst h
      simp only [beq_self_eq_true, Bool.not_true, Bool.false_eq_true, if_false, ih, RecordMap.get]
      split <;> rfl
    · have : (!(a == id)) = true := by simpa using h
      rw [if_pos this]
      simp only [RecordMap.get, ih]
      by_cases h1 : a = id'
      · subst h1; simp [Ne.symm h]
      · simp [h1]

theorem RecordMap.mem_put {m : RecordMap} {id : Nat} {r : ScalarData} {e : Nat × ScalarData}
    (h : e ∈ m.put id r) : e.1 = id ∨ e ∈ m := by
  induction m with
  | nil => simp [RecordMap.put] at h; left; rw [h]
  | cons x m ih =>
    obtain ⟨a, b⟩ := x
    simp only [RecordMap.put] at h
    split at h
    · rcases List.mem_cons.1 h with rfl | h
      · left; rfl
      · right; exact h
    · split at h
      · rcases List.mem_cons.1 h with rfl | h
        · left; rfl
        · right; exact List.mem_cons_of_mem _ h
      · rcases List.mem_cons.1 h with rfl | h
        · right; simp
        · rcases ih h with h | h
          · left; exact h
          · right; exact List.mem_cons_of_mem _ h

theorem RecordMap.asc_put {m : RecordMap} (h : m.Asc) (id : Nat) (r : ScalarData) : (m.put id r).Asc := by
  unfold RecordMap.Asc at *
  induction m with
  | nil => simp [RecordMap.put]
  | cons x m ih =>
    obtain ⟨a, b⟩ := x
    rw [List.pairwise_cons] at h
    simp only [RecordMap.put]
    split
    · rename_i hlt
      rw [List.pairwise_cons]
      refine ⟨?_, by rw [List.pairwise_cons]; exact h⟩
      intro e he
      rcases List.mem_cons.1 he with rfl | he
      · exact hlt
      · exact Nat.lt_trans hlt (h.1 e he)
    · split
      · rename_i heq; subst heq
        rw [List.pairwise_cons]; exact h
      · rename_i hnlt hne
        rw [List.pairwise_cons]
        refine ⟨?_, ih h.2⟩
        intro e he
        rcases RecordMap.mem_put he with hk | he
        · rw [hk]; simp only; omega
        · exact h.1 e he

theorem RecordMap.asc_del {m : RecordMap} (h : m.Asc) (id : Nat) : (m.del id).Asc :=
  List.Pairwise.sublist List.filter_sublist h

theorem RecordMap.mem_iff_get {m : RecordMap} (h : m.Asc) (id : Nat) (r : ScalarData) :
    (id, r) ∈ m ↔ m.get id = some r := by
  unfold RecordMap.Asc at h
  induction m with
  | nil => simp [RecordMap.get]
  | cons x m ih =>
    obtain ⟨a, b⟩ := x
    rw [List.pairwise_cons] at h
    simp only [List.mem_cons, Prod.mk.injEq, RecordMap.get, ih h.2]
    by_cases hak : a = id
    · subst hak
      simp only [true_and, if_true, Option.some.injEq]
      constructor
      · rintro (h1 | h1)
        · exact h1.symm
        · have := h.1 (a, r) ((ih h.2).2 h1)
          simp at this
      · intro h1; exact Or.inl h1.symm
    · rw [if_neg hak]
      constructor
      · rintro (⟨rfl, _⟩ | h1)
        · exact absurd rfl hak
        · exact h1
      · exact Or.inr

theorem RecordMap.get_none_of_lt {m : RecordMap} {id : Nat} (h : ∀ e ∈ m, id < e.1) : m.get id = none := by
  induction m with
  | nil => rfl
  | cons x m ih =>
    obtain ⟨a, b⟩ := x
    have := h (a, b) (by simp)
    simp only [RecordMap.get]
    rw [if_neg (by simp at this; omega)]
    exact ih (fun e he => h e (by simp [he]))

theorem RecordMap.length_put {m : RecordMap} (h : m.Asc) (id : Nat) (r : ScalarData) :
    (m.put id r).length = if (m.get id).isSome then m.length else m.length + 1 := by
  unfold RecordMap.Asc at h
  induction m with
  | nil => simp [RecordMap.put, RecordMap.get]
  | cons x m ih =>
    obtain ⟨a, b⟩ := x
    rw [List.pairwise_cons] at h
    have hg : RecordMap.get ((a, b) :: m) id = if a = id then some b else RecordMap.get m id := rfl
    rw [hg]
    simp only [RecordMap.put]
    split
    · rename_i hlt
      have hn : (if a = id then some b else RecordMap.get m id) = none := by
        rw [if_neg (by omega), RecordMap.get_none_of_lt]
        intro e he
        have := h.1 e he
        simp at this; omega
      rw [hn]; simp
    · split
      · rename_i he; simp [he]
      · rename_i he
        rw [List.length_cons, ih h.2]
        split <;> rfl

theorem RecordMap.length_del {m : RecordMap} (h : m.Asc) (id : Nat) :
    (m.del id).length = if (m.get id).isSome then m.length - 1 else m.length := by
  unfold RecordMap.Asc at h
  induction m with
  | nil => simp [RecordMap.del, RecordMap.get]
  | cons x m ih =>
    obtain ⟨a, b⟩ := x
    rw [List.pairwise_cons] at h
    have ih := ih h.2
    have hg : RecordMap.get ((a, b) :: m) id = if a = id then some b else RecordMap.get m id := rfl
    rw [hg]
    simp only [RecordMap.del, List.filter_cons] at *
    by_cases hak : a = id
    · subst hak
      have hn : RecordMap.get m a = none :=
        RecordMap.get_none_of_lt (fun e he => by have := h.1 e he; simpa using this)
      rw [hn] at ih
      simp at ih ⊢
      omega
    · have h1 : (!(a == id)) = true := by simpa using hak
      have hn : (if a = id then some b else RecordMap.get m id) = RecordMap.get m id := if_neg hak
      rw [if_pos h1, hn, List.length_cons, ih]
      split
      · rename_i hs
        have : m ≠ [] := by rintro rfl; simp [RecordMap.get] at hs
        have := List.length_pos_iff.2 this
        simp; omega
      · simp

theorem RecordMap.itemFree_iff {m : RecordMap} (h : m.Asc) (item : Bytes) (id : Nat) :
    m.itemFree item id = true ↔
      item = [] ∨ ∀ id' r, m.get id' = some r → r.itemId = item → id' = id := by
  unfold RecordMap.itemFree
  simp only [Bool.or_eq_true, List.isEmpty_iff, List.all_eq_true, beq_iff_eq, Bool.not_eq_true',
    beq_eq_false_iff_ne]
  constructor
  · rintro (h1 | h1)
    · exact Or.inl h1
    · right
      intro id' r hg hi
      rcases h1 _ ((RecordMap.mem_iff_get h id' r).2 hg) with h2 | h2
      · exact h2
      · exact absurd hi h2
  · rintro (h1 | h1)
    · exact Or.inl h1
    · right
      rintro ⟨id', r⟩ he
      have := h1 id' r ((RecordMap.mem_iff_get h id' r).1 he)
      by_cases hi : r.itemId = item
      · exact Or.inl (this hi)
      · exact Or.inr hi

theorem asc_ext {a b : RecordMap} (ha : a.Asc) (hb : b.Asc) (h : ∀ e, e ∈ a ↔ e ∈ b) : a = b := by
  unfold RecordMap.Asc at *
  induction a generalizing b with
  | nil =>
    cases b with
    | nil => rfl
    | cons x b => exact absurd ((h x).2 (by simp)) (by simp)
  | cons x a ih =>
    cases b with
    | nil => exact absurd ((h x).1 (by simp)) (by simp)
    | cons y b =>
      rw [List.pairwise_cons] at ha hb
      have hxy : x = y := by
        rcases List.mem_cons.1 ((h x).1 (by simp)) with h1 | h1
        · exact h1
        · rcases List.mem_cons.1 ((h y).2 (by simp)) with h2 | h2
          · exact h2.symm
          · have := hb.1 x h1
            have := ha.1 y h2
            omega
      subst hxy
      congr 1
      apply ih ha.2 hb.2
      intro e
      constructor
      · intro he
        rcases List.mem_cons.1 ((h e).1 (by simp [he])) with h1 | h1
        · subst h1; exact absurd (ha.1 e he) (by omega)
        · exact h1
      · intro he
        rcases List.mem_cons.1 ((h e).2 (by simp [he])) with h1 | h1
        · subst h1; exact absurd (hb.1 e he) (by omega)
        · exact h1

end Alaya.Spec
