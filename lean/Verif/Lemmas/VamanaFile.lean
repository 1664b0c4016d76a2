import Verif.Model.VamanaFile
import Verif.Lemmas.Bytes

namespace Alaya.Vamana

theorem encU32s_length (l : List Nat) : (encU32s l).length = 4 * l.length := by
  unfold encU32s
  induction l with
  | nil => rfl
  | cons a l ih => rw [List.flatMap_cons, List.length_append, ih, leBytes_length, List.length_cons]; omega

theorem decU32s_length (n : Nat) (b : Bytes) : (decU32s n b).length = n := by
  induction n generalizing b with
  | zero => rfl
  | succ n ih => rw [decU32s, List.length_cons, ih]

theorem decU32s_enc (l : List Nat) (hl : ∀ x ∈ l, x < 2 ^ 32) (rest : Bytes) :
    decU32s l.length (encU32s l ++ rest) = l := by
  induction l with
  | nil => rfl
  | cons a l ih =>
    have ha : a < 256 ^ 4 := by have := hl a List.mem_cons_self; omega
    have hc : encU32s (a :: l) = leBytes 4 a ++ encU32s l := rfl
    rw [List.length_cons, decU32s, hc, List.append_assoc, List.take_left' (leBytes_length 4 a),
      List.drop_left' (leBytes_length 4 a), leNat_leBytes_of_lt ha, ih (fun x hx => hl x (List.mem_cons_of_mem _ hx))]

theorem take4_enc {b : Bytes} (h : 4 ≤ b.length) : leBytes 4 (leNat (b.take 4)) = b.take 4 := by
  have := leBytes_leNat (b.take 4)
  rwa [List.length_take, Nat.min_eq_left h] at this

theorem enc_decU32s (n : Nat) (b : Bytes) (h : 4 * n ≤ b.length) : encU32s (decU32s n b) = b.take (4 * n) := by
  induction n generalizing b with
  | zero => simp [decU32s, encU32s]
  | succ n ih =>
    have hc : encU32s (decU32s (n + 1) b) = leBytes 4 (leNat (b.take 4)) ++ encU32s (decU32s n (b.drop 4)) := rfl
    rw [hc, take4_enc (by omega), ih (b.drop 4) (by rw [List.length_drop]; omega)]
    rw [show 4 * (n + 1) = 4 + 4 * n by omega, List.take_add]

theorem decU32s_lt (n : Nat) (b : Bytes) : ∀ x ∈ decU32s n b, x < 2 ^ 32 := by
  induction n generalizing b with
  | zero => intro x hx; cases hx
  | succ n ih =>
    intro x hx
    rw [decU32s] at hx
    rcases List.mem_cons.mp hx with rfl | hx
    · have h1 := leNat_lt (b.take 4)
      have h2 : 256 ^ (b.take 4).length ≤ 256 ^ 4 :=
        Nat.pow_le_pow_right (by omega) (by rw [List.length_take]; exact Nat.min_le_left _ _)
      have h3 : (256 : Nat) ^ 4 = 2 ^ 32 := by decide
      omega
    · exact ih _ x hx

/-- An adjacency list that fits its record. -/
def RecOk (adj : List Nat) : Prop := adj.length < 2 ^ 32 ∧ ∀ x ∈ adj, x < 2 ^ 32

theorem encRec_eq {adj : List Nat} (h : adj.length < 2 ^ 32) : encRec adj = leBytes 4 adj.length ++ encU32s adj := by
  unfold encRec
  have : adj.length % 2 ^ 32 = adj.length := Nat.mod_eq_of_lt h
  rw [this, List.take_length]

theorem encRec_length {adj : List Nat} (h : adj.length < 2 ^ 32) : (encRec adj).length = 4 + 4 * adj.length := by
  rw [encRec_eq h, List.length_append, leBytes_length, encU32s_length]

theorem encRec_take {adj : List Nat} (h : adj.length < 2 ^ 32) (rest : Bytes) :
    leNat ((encRec adj ++ rest).take 4) = adj.length ∧ (encRec adj ++ rest).drop 4 = encU32s adj ++ rest := by
  rw [encRec_eq h, List.append_assoc, List.take_left' (leBytes_length 4 _), List.drop_left' (leBytes_length 4 _)]
  exact ⟨leNat_leBytes_of_lt (by have : (256 : Nat) ^ 4 = 2 ^ 32 := by decide
                                 omega), rfl⟩

/-- The reader's loop inverts the writer's records. -/
theorem readRecs_enc (R : Nat) (g : List (List Nat)) (hg : ∀ a ∈ g, RecOk a ∧ a ≠ [] ∧ a.length ≤ R) :
    ∀ fuel, g.length ≤ fuel → readRecs R fuel (g.flatMap encRec) = some g := by
  induction g with
  | nil =>
    intro fuel _
    cases fuel <;> rfl
  | cons a g ih =>
    intro fuel hf
    obtain ⟨h1, h2, h3⟩ := hg a List.mem_cons_self
    have hpos : 0 < a.length := List.length_pos_iff.mpr h2
    cases fuel with
    | zero => simp at hf
    | succ fuel =>
      obtain ⟨e1, e2⟩ := encRec_take h1.1 (g.flatMap encRec)
      have hlen : (encRec a ++ g.flatMap encRec).length = 4 + 4 * a.length + (g.flatMap encRec).length := by
        rw [List.length_append, encRec_length h1.1]
      have hne : (encRec a ++ g.flatMap encRec).isEmpty = false := by
        rw [List.isEmpty_eq_false_iff]
        intro h; rw [h] at hlen; simp at hlen; omega
      rw [List.flatMap_cons, readRecs, hne, e1, e2]
      simp only [Bool.false_eq_true, if_false]
      rw [if_neg (by omega), if_neg (by omega), if_neg (by omega),
        if_neg (by rw [List.length_append, encU32s_length]; omega)]
      rw [List.drop_left' (encU32s_length a), ih (fun b hb => hg b (List.mem_cons_of_mem _ hb)) fuel
        (by simpa using hf), decU32s_enc a h1.2]
      rfl

/-- Every byte string accepted by the loop is the encoding of the result. -/
theorem readRecs_sound (R : Nat) (hR : R < 2 ^ 32) : ∀ fuel b g, readRecs R fuel b = some g →
    g.flatMap encRec = b ∧ ∀ a ∈ g, RecOk a ∧ a ≠ [] ∧ a.length ≤ R := by
  intro fuel
  induction fuel with
  | zero =>
    intro b g h
    rw [readRecs] at h
    by_cases hb : b.isEmpty = true
    · rw [if_pos hb] at h; cases h
      rw [List.isEmpty_iff] at hb
      exact ⟨hb.symm, by simp⟩
    · rw [if_neg hb] at h; cases h
  | succ fuel ih =>
    intro b g h
    rw [readRecs] at h
    by_cases hb : b.isEmpty = true
    · rw [if_pos hb] at h; cases h
      rw [List.isEmpty_iff] at hb
      exact ⟨hb.symm, by simp⟩
    rw [if_neg hb] at h
    by_cases h4 : b.length < 4
    · rw [if_pos h4] at h; cases h
    rw [if_neg h4] at h
    simp only at h
    by_cases hk : leNat (b.take 4) = 0
    · rw [if_pos hk] at h; cases h
    rw [if_neg hk] at h
    by_cases hk2 : leNat (b.take 4) > R
    · rw [if_pos hk2] at h; cases h
    rw [if_neg hk2] at h
    by_cases hl : (b.drop 4).length < 4 * leNat (b.take 4)
    · rw [if_pos hl] at h; cases h
    rw [if_neg hl] at h
    cases hr : readRecs R fuel ((b.drop 4).drop (4 * leNat (b.take 4))) with
    | none => rw [hr] at h; cases h
    | some g' =>
      rw [hr] at h
      simp only [Option.map_some, Option.some.injEq] at h
      subst h
      obtain ⟨i1, i2⟩ := ih _ _ hr
      have hlen := decU32s_length (leNat (b.take 4)) (b.drop 4)
      constructor
      · rw [List.flatMap_cons, i1, encRec_eq (by omega), hlen, take4_enc (by omega),
          enc_decU32s _ _ (by omega), List.append_assoc, List.take_append_drop, List.take_append_drop]
      · intro a ha
        rcases List.mem_cons.mp ha with rfl | ha
        · exact ⟨⟨by omega, decU32s_lt _ _⟩, by intro e; rw [e] at hlen; simp at hlen; omega, by omega⟩
        · exact i2 a ha

theorem nbrsOk_iff (n : Nat) (g : List (List Nat)) (i : Nat) :
    nbrsOk n i g = true ↔ ∀ (j : Nat) (a : List Nat), g[j]? = some a → ∀ x ∈ a, x < n ∧ x ≠ i + j := by
  induction g generalizing i with
  | nil => simp [nbrsOk]
  | cons a g ih =>
    rw [nbrsOk, Bool.and_eq_true, ih, List.all_eq_true]
    constructor
    · rintro ⟨h1, h2⟩ j b hj x hx
      cases j with
      | zero =>
        simp only [List.getElem?_cons_zero, Option.some.injEq] at hj
        subst hj
        have := h1 x hx
        simpa using this
      | succ j =>
        simp only [List.getElem?_cons_succ] at hj
        have := h2 j b hj x hx
        exact ⟨this.1, by have := this.2; omega⟩
    · intro h
      refine ⟨fun x hx => ?_, fun j b hj x hx => ?_⟩
      · have := h 0 a (by simp) x hx
        simpa using this
      · have := h (j + 1) b (by simpa using hj) x hx
        exact ⟨this.1, by have := this.2; omega⟩

theorem flatMap_encRec_length (g : List (List Nat)) (hg : ∀ a ∈ g, RecOk a) :
    g.length * 4 ≤ (g.flatMap encRec).length := by
  induction g with
  | nil => simp
  | cons a g ih =>
    rw [List.flatMap_cons, List.length_append, encRec_length (hg a List.mem_cons_self).1, List.length_cons]
    have := ih (fun b hb => hg b (List.mem_cons_of_mem _ hb))
    omega

/-- The fields of a graph file. -/
theorem graphFile_fields (g : List (List Nat)) (R start frozen : Nat) :
    let b := graphFile g R start frozen
    b.length = 24 + (g.flatMap encRec).length ∧ b.take 8 = leBytes 8 (24 + (g.flatMap encRec).length) ∧
      (b.drop 8).take 4 = leBytes 4 R ∧ (b.drop 12).take 4 = leBytes 4 start ∧ (b.drop 16).take 8 = leBytes 8 frozen ∧
      b.drop 24 = g.flatMap encRec := by
  intro b
  have hb : b = leBytes 8 (24 + (g.flatMap encRec).length) ++ (leBytes 4 R ++ (leBytes 4 start ++ (leBytes 8 frozen ++
      g.flatMap encRec))) := by
    show graphFile g R start frozen = _
    unfold graphFile
    simp only [List.append_assoc]
  generalize g.flatMap encRec = recs at *
  have d8 : b.drop 8 = leBytes 4 R ++ (leBytes 4 start ++ (leBytes 8 frozen ++ recs)) := by
    rw [hb, List.drop_left' (leBytes_length 8 _)]
  have d12 : b.drop 12 = leBytes 4 start ++ (leBytes 8 frozen ++ recs) := by
    rw [show (12 : Nat) = 8 + 4 from rfl, ← List.drop_drop, d8, List.drop_left' (leBytes_length 4 _)]
  have d16 : b.drop 16 = leBytes 8 frozen ++ recs := by
    rw [show (16 : Nat) = 12 + 4 from rfl, ← List.drop_drop, d12, List.drop_left' (leBytes_length 4 _)]
  refine ⟨?_, ?_, ?_, ?_, ?_, ?_⟩
  · rw [hb]; simp only [List.length_append, leBytes_length]; omega
  · rw [hb, List.take_left' (leBytes_length 8 _)]
  · rw [d8, List.take_left' (leBytes_length 4 _)]
  · rw [d12, List.take_left' (leBytes_length 4 _)]
  · rw [d16, List.take_left' (leBytes_length 8 _)]
  · rw [show (24 : Nat) = 16 + 8 from rfl, ← List.drop_drop, d16, List.drop_left' (leBytes_length 8 _)]

end Alaya.Vamana
