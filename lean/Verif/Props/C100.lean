import Verif.Lemmas.Chunker

/-!
# C100: cutting documents into chunks loses nothing

Model: Model/Chunker.lean.  Spec: Spec/Chunker.lean.  What fails is in C100Limits.lean.
-/

namespace Alaya.Chunker

/-- The sentences lie in the document in order with only white space around them, and none is empty or has white
space at an end. -/
theorem C100_sentences (U : Tables) (doc : Text) :
    Laid U.ws (sentences U doc) doc ∧ ∀ s ∈ sentences U doc, Trimmed U s := by
  refine ⟨laid_cleaned (fun _ h => h) ?_, fun s hs => cleaned_trimmed hs⟩
  simpa using laid_split U false [] [] doc (by simp)

/-- Between two sentences the document has a place where a sentence may end. -/
theorem C100_cuts_only (U : Tables) (doc : Text) (A B : List Text) (h : sentences U doc = A ++ B) (hA : A ≠ []) (hB : B ≠ []) :
    ∃ p q, doc = p ++ q ∧ Ends U p ∧ ink U p = ink U A.flatten ∧ ink U q = ink U B.flatten := by
  obtain ⟨P, Q, h1, h2, h3⟩ := cleaned_split h
  have hP : P ≠ [] := by rintro rfl; exact hA (h2.symm.trans rfl)
  have hQ : Q ≠ [] := by rintro rfl; exact hB (h3.symm.trans rfl)
  obtain ⟨p, q, e, hb, i1, i2⟩ := split_sound U false [] [] doc P Q h1 hP hQ
  refine ⟨p, q, e, (breaks_iff U p).mp (by simpa using hb), ?_, ?_⟩
  · rw [← h2, ink_cleaned, i1]; rfl
  · rw [← h3, ink_cleaned, i2]

/-- At every place where a sentence may end one sentence ends or nothing follows: the sentences up to there carry what
is before, the others what is behind. -/
theorem C100_cuts_all {U : Tables} (hU : U.Sane) (p q : Text) (h : Ends U p) :
    ∃ A B, sentences U (p ++ q) = A ++ B ∧ ink U A.flatten = ink U p ∧ ink U B.flatten = ink U q := by
  obtain ⟨P, Q, h1, h2, h3⟩ := split_complete hU p q false [] [] (by simpa using (breaks_iff U p).mpr h) (Or.inr rfl)
  refine ⟨cleaned U P, cleaned U Q, ?_, ?_, ?_⟩
  · rw [sentences, h1, cleaned_append]
  · rw [ink_cleaned, h2]; rfl
  · rw [ink_cleaned, h3]

/-- With an overlap smaller than the chunk size the chunker ends, and its chunks are the windows of `size` sentences,
each starting `size - overlap` sentences after the one before, written with blanks between the sentences. -/
theorem C100_sentence_chunks (U : Tables) (size overlap : Nat) (h : overlap < size) (doc : Text) :
    ∃ K, ∀ k, K ≤ k → sentenceChunks U size overlap k doc =
      some ((windows (sentences U doc) size (size - overlap)).map [' '].intercalate) := by
  refine ⟨((sentences U doc).length + (size - overlap) - 1) / (size - overlap) + 1, fun k hk => ?_⟩
  have hd : 0 < size - overlap := by omega
  generalize hl : sentences U doc = l at *
  generalize hD : size - overlap = d at *
  have hlo : l.length ≤ (0 + (l.length + d - 1) / d) * d := by
    have := Nat.lt_div_mul_add (a := l.length + d - 1) hd
    rw [Nat.zero_add]; omega
  have hhi : (l.length + d - 1) / d = 0 ∨ (0 + (l.length + d - 1) / d - 1) * d < l.length := by
    rcases Nat.eq_zero_or_pos ((l.length + d - 1) / d) with h0 | h0
    · exact Or.inl h0
    · right
      have := Nat.div_mul_le_self (l.length + d - 1) d
      rw [Nat.zero_add, Nat.sub_mul, Nat.one_mul]
      have h2 : d ≤ (l.length + d - 1) / d * d := Nat.le_mul_of_pos_left d h0
      omega
  have := chunkLoop_eq l size overlap h ((l.length + d - 1) / d) 0 k (by omega) (by rw [hD]; exact hlo) (by rw [hD]; exact hhi)
  simp only [Nat.zero_mul, Int.natCast_zero, hD] at this
  simp only [sentenceChunks, hl, this, Option.map_some, windows, List.range_eq_range', Option.some.injEq]
  congr 1
  funext x; exact join_eq x

/-- Every window has between one and `size` elements; every element of the list is in one of them; two windows one
after the other share the last `overlap` places of the first one. -/
theorem C100_windows {α : Type} (l : List α) (size overlap : Nat) (h : overlap < size) :
    (∀ c ∈ windows l size (size - overlap), c ≠ [] ∧ c.length ≤ size) ∧
      (∀ j (hj : j < l.length), ∃ i c, (windows l size (size - overlap))[i]? = some c ∧
        c[j - i * (size - overlap)]? = some l[j] ∧ i * (size - overlap) ≤ j) ∧
      (∀ i c c', (windows l size (size - overlap))[i]? = some c → (windows l size (size - overlap))[i + 1]? = some c' →
        c.drop (size - overlap) = c'.take overlap) := by
  have hd : 0 < size - overlap := by omega
  have hget : ∀ i, (windows l size (size - overlap))[i]? =
      if i * (size - overlap) < l.length then some (window l size (size - overlap) i) else none := by
    intro i
    have key : i < (l.length + (size - overlap) - 1) / (size - overlap) ↔ i * (size - overlap) < l.length := by
      rw [Nat.lt_iff_add_one_le, Nat.le_div_iff_mul_le hd, Nat.succ_mul]; omega
    unfold windows
    by_cases hi : i * (size - overlap) < l.length
    · rw [if_pos hi, List.getElem?_map, List.getElem?_range (key.mpr hi)]; rfl
    · rw [if_neg hi, List.getElem?_map, List.getElem?_eq_none (by simp only [List.length_range]; exact Nat.le_of_not_lt (fun e => hi (key.mp e)))]; rfl
  refine ⟨?_, ?_, ?_⟩
  · intro c hc
    obtain ⟨i, hi⟩ := List.mem_iff_getElem?.mp hc
    rw [hget] at hi
    split at hi
    · next hlt =>
      simp only [Option.some.injEq] at hi
      subst hi
      refine ⟨fun e => ?_, by simp only [window, List.length_take]; omega⟩
      have := congrArg List.length e
      simp only [window, List.length_take, List.length_drop, List.length_nil] at this
      omega
    · cases hi
  · intro j hj
    have h1 := Nat.div_mul_le_self j (size - overlap)
    have h2 := Nat.lt_div_mul_add (a := j) hd
    refine ⟨j / (size - overlap), _, by rw [hget, if_pos (by omega)], ?_, h1⟩
    rw [window, List.getElem?_take, if_pos (by omega), List.getElem?_drop]
    rw [show j / (size - overlap) * (size - overlap) + (j - j / (size - overlap) * (size - overlap)) = j by omega]
    exact List.getElem?_eq_getElem hj
  · intro i c c' hc hc'
    rw [hget] at hc hc'
    split at hc <;> simp only [Option.some.injEq, reduceCtorEq] at hc
    split at hc' <;> simp only [Option.some.injEq, reduceCtorEq] at hc'
    subst hc hc'
    simp only [window]
    rw [List.drop_take, List.drop_drop, List.take_take, Nat.succ_mul]
    congr 1
    omega

/-- Without overlap the chunks carry the ink of the document, each piece once, in order. -/
theorem C100_no_overlap {U : Tables} (hU : U.Sane) (size : Nat) (h : 0 < size) (doc : Text) :
    ∃ K, ∀ k, K ≤ k → ∃ out, sentenceChunks U size 0 k doc = some out ∧ ink U out.flatten = ink U doc := by
  obtain ⟨K, hK⟩ := C100_sentence_chunks U size 0 h doc
  refine ⟨K, fun k hk => ⟨_, hK k hk, ?_⟩⟩
  have hj : ∀ L : List (List Text), ink U (L.map [' '].intercalate).flatten = ink U L.flatten.flatten := by
    intro L
    induction L with
    | nil => rfl
    | cons a L ih =>
      simp only [List.map_cons, List.flatten_cons, ink_append, List.flatten_append, ih]
      rw [← join_eq, ink_join hU]
  rw [hj]
  have hw : ∀ (l : List Text) m i, l.length ≤ (i + m) * size →
      ((List.range' i m).map (window l size size)).flatten = l.drop (i * size) := by
    intro l m
    induction m with
    | zero => intro i hi; simp only [Nat.add_zero] at hi; rw [List.drop_eq_nil_of_le hi]; rfl
    | succ m ih =>
      intro i hi
      rw [List.range'_succ, List.map_cons, List.flatten_cons, ih (i + 1) (by rw [show i + 1 + m = i + (m + 1) by omega]; exact hi)]
      rw [window, Nat.succ_mul, ← List.drop_drop, List.take_append_drop]
  have h3 : (windows (sentences U doc) size size).flatten = sentences U doc := by
    rw [windows, List.range_eq_range', hw]
    · simp
    · have := Nat.lt_div_mul_add (a := (sentences U doc).length + size - 1) h
      rw [Nat.zero_add]; omega
  simp only [Nat.sub_zero]
  rw [h3, sentences, ink_cleaned, ink_split]; rfl

/-- The pieces of the semantic chunker lie in the document in order with only white space and full stops around them;
none is empty, has white space at an end, or contains a full stop. -/
theorem C100_parts (U : Tables) (doc : Text) :
    Laid (fun c => U.ws c || decide (c = '.')) (parts U doc) doc ∧ ∀ s ∈ parts U doc, Trimmed U s ∧ '.' ∉ s := by
  refine ⟨laid_cleaned (fun c h => by simp [h]) (by simpa using laid_splitDot U [] doc), fun s hs => ⟨cleaned_trimmed hs, ?_⟩⟩
  simp only [parts, cleaned, List.mem_filter, List.mem_map] at hs
  obtain ⟨⟨t, ht, rfl⟩, _⟩ := hs
  intro hm
  obtain ⟨a, b, e, _, _⟩ := strip_parts U t
  exact splitDot_no_dot (cur := []) (by simp) t ht (by rw [e]; simp [hm])

/-- The chunks of the semantic chunker are the pieces in order, in groups that are not empty.  Where one group ends and
another begins the group has at least a window of pieces and the windows before and behind are less similar than the
threshold; inside a group no such place was passed once it had a window of pieces. -/
theorem C100_semantic {E : Type} (U : Tables) (enc : List Text → List E) (less : List E → List E → Bool) (w : Nat) (hw : 0 < w)
    (doc : Text) (henc : (enc (parts U doc)).length = (parts U doc).length) :
    ∃ gs : List (List Text), semanticChunks U enc less w doc = gs.map [' '].intercalate ∧ gs.flatten = parts U doc ∧
      ∀ A g B, gs = A ++ g :: B →
        g ≠ [] ∧ (∀ j, w ≤ j → j < g.length → ¬ Dissimilar less (enc (parts U doc)) w (A.flatten.length + j)) ∧
          (B ≠ [] → w ≤ g.length ∧ Dissimilar less (enc (parts U doc)) w (A.flatten.length + g.length)) := by
  refine ⟨semGroups enc less w (parts U doc), ?_, ?_, ?_⟩
  · unfold semanticChunks
    congr 1
    funext x; exact join_eq x
  · unfold semGroups
    split
    · next h => rw [List.isEmpty_iff.mp h]; rfl
    · rw [semLoop_flatten]; rfl
  · intro A g B h
    unfold semGroups at h
    split at h
    · simp at h
    · have hfl : (parts U doc).length = A.flatten.length + (g.length + B.flatten.length) := by
        have := congrArg (fun x => x.flatten.length) h
        simp only [semLoop_flatten, List.nil_append, List.flatten_append, List.flatten_cons, List.length_append] at this
        exact this
      have hall : ∀ g' ∈ B, g' ≠ [] := by
        intro g' hg'
        obtain ⟨B1, B2, rfl⟩ := List.append_of_mem hg'
        exact (semLoop_spec w hw _ _ 0 0 [] rfl (by intro j h1 h2; simp at h2; omega) (A ++ g :: B1) B2 g' (by rw [h]; simp)).1
      obtain ⟨h1, h2, h3⟩ := semLoop_spec w hw _ _ 0 0 [] rfl (by intro j h1 h2; simp at h2; omega) A B g h
      simp only [Nat.zero_add] at h2 h3
      refine ⟨h1, fun j hj hl hd => ?_, fun hB => ?_⟩
      · have := (shouldSplit_iff less (enc (parts U doc)) w (A.flatten.length + j) hw (by omega) (by omega)).mpr hd
        rw [h2 j hj hl] at this; cases this
      · obtain ⟨h4, h5⟩ := h3 hB
        have hpos : 0 < B.flatten.length := by
          obtain ⟨b, B', rfl⟩ := List.exists_cons_of_ne_nil hB
          have := List.length_pos_iff.mpr (hall b (by simp))
          rw [List.flatten_cons, List.length_append]; omega
        exact ⟨h4, (shouldSplit_iff less (enc (parts U doc)) w (A.flatten.length + g.length) hw (by omega) (by omega)).mp h5⟩

/-! Concrete cases. -/

/-- Tables for plain English. -/
def english : Tables := ⟨fun c => c = ' ' || c = '\n', fun c => c.isAlphanum⟩

theorem english_sane : english.Sane := ⟨rfl, by decide⟩

/-- "One is. Two? See Dr. Foo!" has three sentences. -/
theorem C100_example_sentences :
    sentences english "One is. Two? See Dr. Foo!".toList =
      ["One is.".toList, "Two?".toList, "See Dr. Foo!".toList] := by decide +kernel

theorem C100_example_ends : Ends english "One is.".toList :=
  (breaks_iff english _).mp (by decide +kernel)

theorem C100_example_chunks :
    sentenceChunks english 2 1 5 "a? b? c?".toList = some ["a? b?".toList, "b? c?".toList, "c?".toList] := by decide +kernel

/-- The encoding counts characters; windows with different counts are dissimilar. -/
theorem C100_example_semantic :
    semanticChunks english (List.map List.length) (fun a b => a.sum ≠ b.sum) 1 "ab. cd. e. f".toList =
      ["ab cd".toList, "e f".toList] := by decide +kernel

end Alaya.Chunker
