import Verif.Lemmas.VamanaFile

/-! C61: a Vamana graph file is loaded back exactly, and the loader accepts nothing else. -/
namespace Alaya.Vamana

/-- The documented invariants of a graph: at least one node, degree between 1 and `R`, neighbours in range and not the node
itself, start in range; sizes of the field types. -/
structure GraphOk (g : List (List Nat)) (R start : Nat) : Prop where
  nonempty : 0 < g.length
  nodes : g.length < 2 ^ 32
  degPos : 0 < R
  degMax : R < 2 ^ 32
  startOk : start < g.length
  deg : ∀ (i : Nat) (a : List Nat), g[i]? = some a → 0 < a.length ∧ a.length ≤ R
  nbrs : ∀ (i : Nat) (a : List Nat), g[i]? = some a → ∀ x ∈ a, x < g.length ∧ x ≠ i

theorem GraphOk.recs {g : List (List Nat)} {R start : Nat} (h : GraphOk g R start) :
    ∀ a ∈ g, RecOk a ∧ a ≠ [] ∧ a.length ≤ R := by
  intro a ha
  obtain ⟨i, hi⟩ := List.mem_iff_getElem?.mp ha
  obtain ⟨d1, d2⟩ := h.deg i a hi
  refine ⟨⟨by have := h.degMax; omega, fun x hx => ?_⟩, List.length_pos_iff.mp d1, d2⟩
  have := (h.nbrs i a hi x hx).1
  have := h.nodes
  omega

/-- Saving and loading is the identity. The size bound is the range of the 64-bit size field. -/
theorem C61_load_save (g : List (List Nat)) (R start : Nat) (h : GraphOk g R start)
    (hs : (saveGraph g R start 0).length < 2 ^ 64) : readGraph (saveGraph g R start 0) = some ⟨R, start, g⟩ := by
  obtain ⟨f1, f2, f3, f4, f5, f6⟩ := graphFile_fields g R start 0
  have hrec := flatMap_encRec_length g (fun a ha => (h.recs a ha).1)
  rw [saveGraph] at hs ⊢
  unfold readGraph
  rw [f1] at hs
  have p4 : (256 : Nat) ^ 4 = 2 ^ 32 := by decide
  have p8 : (256 : Nat) ^ 8 = 2 ^ 64 := by decide
  have e1 : leNat ((graphFile g R start 0).take 8) = (graphFile g R start 0).length := by
    rw [f2, f1, leNat_leBytes_of_lt (by rw [p8]; exact hs)]
  have e2 : leNat (((graphFile g R start 0).drop 8).take 4) = R := by
    rw [f3, leNat_leBytes_of_lt (by rw [p4]; exact h.degMax)]
  have e3 : leNat (((graphFile g R start 0).drop 12).take 4) = start := by
    rw [f4, leNat_leBytes_of_lt (by rw [p4]; have := h.startOk; have := h.nodes; omega)]
  have e4 : leNat (((graphFile g R start 0).drop 16).take 8) = 0 := by
    rw [f5, leNat_leBytes_of_lt (by decide)]
  have e5 : readRecs R (graphFile g R start 0).length ((graphFile g R start 0).drop 24) = some g := by
    rw [f6]; exact readRecs_enc R g h.recs _ (by rw [f1]; omega)
  simp only [e1, e2, e3, e4, e5]
  have hn : nbrsOk g.length 0 g = true := by
    rw [nbrsOk_iff]
    intro j a hj x hx
    have := h.nbrs j a hj x hx
    exact ⟨this.1, by have := this.2; omega⟩
  rw [if_neg (by rw [f1]; omega), if_neg (by simp), if_neg (by have := h.degPos; omega), if_neg (by simp),
    if_neg (by have := h.nonempty; omega), hn]
  simp only [Bool.not_true, Bool.false_eq_true, if_false]
  rw [if_neg (by have := h.startOk; omega)]

/-- Whatever the loader accepts is, byte by byte, the saved form of the graph it returns, and that graph satisfies the
invariants.  (In particular truncated, extended and altered files with another meaning are rejected.) -/
theorem C61_load_sound (b : Bytes) (r : Loaded) (h : readGraph b = some r) (hn : r.graph.length < 2 ^ 32) :
    b = saveGraph r.graph r.maxDegree r.start 0 ∧ GraphOk r.graph r.maxDegree r.start := by
  have p4 : (256 : Nat) ^ 4 = 2 ^ 32 := by decide
  unfold readGraph at h
  by_cases h24 : b.length < 24
  · rw [if_pos h24] at h; cases h
  rw [if_neg h24] at h
  simp only at h
  by_cases hs : b.length ≠ leNat (b.take 8)
  · rw [if_pos hs] at h; cases h
  rw [if_neg hs] at h
  by_cases hd : leNat ((b.drop 8).take 4) = 0
  · rw [if_pos hd] at h; cases h
  rw [if_neg hd] at h
  by_cases hf : leNat ((b.drop 16).take 8) ≠ 0
  · rw [if_pos hf] at h; cases h
  rw [if_neg hf] at h
  have hR : leNat ((b.drop 8).take 4) < 2 ^ 32 := by
    have := leNat_lt ((b.drop 8).take 4)
    rw [List.length_take, List.length_drop, Nat.min_eq_left (by omega), p4] at this
    exact this
  cases hr : readRecs (leNat ((b.drop 8).take 4)) b.length (b.drop 24) with
  | none => rw [hr] at h; cases h
  | some g =>
    rw [hr] at h
    simp only at h
    by_cases hg : g.length = 0
    · rw [if_pos hg] at h; cases h
    rw [if_neg hg] at h
    by_cases hnb : (!nbrsOk g.length 0 g) = true
    · rw [if_pos hnb] at h; cases h
    rw [if_neg hnb] at h
    by_cases hst : leNat ((b.drop 12).take 4) ≥ g.length
    · rw [if_pos hst] at h; cases h
    rw [if_neg hst] at h
    cases h
    obtain ⟨r1, r2⟩ := readRecs_sound _ hR _ _ _ hr
    have hnb' : nbrsOk g.length 0 g = true := by simpa using hnb
    rw [nbrsOk_iff] at hnb'
    simp only at hn
    refine ⟨?_, ⟨Nat.pos_of_ne_zero hg, hn, Nat.pos_of_ne_zero hd, hR, Nat.lt_of_not_le hst, ?_, ?_⟩⟩
    · have t8 : leBytes 8 (leNat (b.take 8)) = b.take 8 := by
        have := leBytes_leNat (b.take 8)
        rwa [List.length_take, Nat.min_eq_left (by omega)] at this
      have t8' : leBytes 8 (leNat ((b.drop 16).take 8)) = (b.drop 16).take 8 := by
        have := leBytes_leNat ((b.drop 16).take 8)
        rwa [List.length_take, List.length_drop, Nat.min_eq_left (by omega)] at this
      have t4 : leBytes 4 (leNat ((b.drop 8).take 4)) = (b.drop 8).take 4 :=
        take4_enc (by rw [List.length_drop]; omega)
      have t4' : leBytes 4 (leNat ((b.drop 12).take 4)) = (b.drop 12).take 4 :=
        take4_enc (by rw [List.length_drop]; omega)
      have hf0 : leNat ((b.drop 16).take 8) = 0 := by simpa using hf
      rw [hf0] at t8'
      have hsz : 24 + (b.drop 24).length = leNat (b.take 8) := by
        rw [List.length_drop]
        have : b.length = leNat (b.take 8) := by simpa using hs
        omega
      unfold saveGraph graphFile
      simp only [r1]
      rw [hsz, t8, t4, t4', t8']
      have c1 : b.take 8 ++ (b.drop 8).take 4 = b.take 12 := by
        rw [show (12 : Nat) = 8 + 4 from rfl, List.take_add]
      have c2 : b.take 12 ++ (b.drop 12).take 4 = b.take 16 := by
        rw [show (16 : Nat) = 12 + 4 from rfl, List.take_add]
      have c3 : b.take 16 ++ (b.drop 16).take 8 = b.take 24 := by
        rw [show (24 : Nat) = 16 + 8 from rfl, List.take_add]
      rw [c1, c2, c3, List.take_append_drop]
    · intro i a hi
      obtain ⟨_, q2, q3⟩ := r2 a (List.mem_of_getElem? hi)
      exact ⟨List.length_pos_iff.mpr q2, q3⟩
    · intro i a hi x hx
      have := hnb' i a hi x hx
      exact ⟨this.1, by have := this.2; omega⟩

/-- No proper prefix and no extension of a saved file is accepted. -/
theorem C61_other_length_rejected (g : List (List Nat)) (R start frozen : Nat) (b : Bytes)
    (hs : (saveGraph g R start frozen).length < 2 ^ 64)
    (hb : b <+: saveGraph g R start frozen ∨ saveGraph g R start frozen <+: b)
    (hne : b ≠ saveGraph g R start frozen) : readGraph b = none := by
  obtain ⟨f1, f2, _⟩ := graphFile_fields g R start frozen
  rw [saveGraph] at *
  generalize graphFile g R start frozen = f at *
  have p8 : (256 : Nat) ^ 8 = 2 ^ 64 := by decide
  have hl : b.length ≠ f.length := by
    rcases hb with h | h
    · intro e; exact hne (h.eq_of_length e)
    · intro e; exact hne (h.eq_of_length e.symm).symm
  unfold readGraph
  by_cases h24 : b.length < 24
  · rw [if_pos h24]
  rw [if_neg h24]
  have ht : b.take 8 = f.take 8 := by
    rcases hb with ⟨t, ht⟩ | ⟨t, ht⟩
    · rw [← ht, List.take_append_of_le_length (by omega)]
    · rw [← ht, List.take_append_of_le_length (by omega)]
  have hsz : leNat (b.take 8) = f.length := by
    rw [ht, f2, leNat_leBytes_of_lt (by rw [p8, ← f1]; exact hs), f1]
  simp only [hsz]
  rw [if_pos hl]

example : GraphOk [[1, 2], [0], [1]] 2 1 := by
  refine ⟨by decide, by decide, by decide, by decide, by decide, ?_, ?_⟩
  · intro i a h
    rcases i with _ | _ | _ | i <;> simp at h <;> subst h <;> decide
  · intro i a h
    rcases i with _ | _ | _ | i <;> simp at h <;> subst h <;> decide

set_option maxRecDepth 100000 in
example : readGraph (saveGraph [[1, 2], [0], [1]] 2 1 0) = some ⟨2, 1, [[1, 2], [0], [1]]⟩ := by decide +kernel

set_option maxRecDepth 100000 in
/-- A file with a node of degree 0 (which `save_graph` writes without complaint, e.g. for a one-point data set) is
rejected as a whole. -/
theorem C61_zero_degree_rejected : readGraph (saveGraph [[]] 2 0 0) = none := by decide +kernel

theorem readRecs_reject (R : Nat) (g : List (List Nat)) (hg : ∀ a ∈ g, RecOk a) (h0 : [] ∈ g) :
    ∀ fuel, readRecs R fuel (g.flatMap encRec) = none := by
  induction g with
  | nil => cases h0
  | cons a g ih =>
    intro fuel
    have h1 := hg a List.mem_cons_self
    obtain ⟨e1, e2⟩ := encRec_take h1.1 (g.flatMap encRec)
    have hlen : (encRec a ++ g.flatMap encRec).length = 4 + 4 * a.length + (g.flatMap encRec).length := by
      rw [List.length_append, encRec_length h1.1]
    have hne : (encRec a ++ g.flatMap encRec).isEmpty = false := by
      rw [List.isEmpty_eq_false_iff]
      intro h; rw [h] at hlen; simp at hlen; omega
    cases fuel with
    | zero => rw [List.flatMap_cons, readRecs, hne]; rfl
    | succ fuel =>
      rw [List.flatMap_cons, readRecs, hne, e1, e2]
      simp only [Bool.false_eq_true, if_false]
      rw [if_neg (by omega)]
      by_cases hk : a.length = 0
      · rw [if_pos hk]
      · rw [if_neg hk]
        by_cases hR : a.length > R
        · rw [if_pos hR]
        · rw [if_neg hR, if_neg (by rw [List.length_append, encU32s_length]; omega), List.drop_left' (encU32s_length a)]
          have hm : [] ∈ g := by
            rcases List.mem_cons.mp h0 with h | h
            · exact absurd (by rw [← h]; rfl) hk
            · exact h
          rw [ih (fun b hb => hg b (List.mem_cons_of_mem _ hb)) hm fuel]
          rfl

/-- One node without neighbours is enough for the whole file to be rejected. -/
theorem C61_empty_list_rejected (g : List (List Nat)) (R start : Nat) (hg : ∀ a ∈ g, RecOk a) (h0 : [] ∈ g) :
    readGraph (saveGraph g R start 0) = none := by
  obtain ⟨f1, f2, f3, f4, f5, f6⟩ := graphFile_fields g R start 0
  rw [saveGraph]
  unfold readGraph
  split
  · rfl
  · simp only
    split
    · rfl
    · split
      · rfl
      · split
        · rfl
        · rw [f6, readRecs_reject _ g hg h0]

example : [] ∈ [[1], [0, 2], []] ∧ ∀ a ∈ [[1], [0, 2], []], RecOk a := by
  refine ⟨by decide, ?_⟩
  unfold RecOk
  decide

end Alaya.Vamana
