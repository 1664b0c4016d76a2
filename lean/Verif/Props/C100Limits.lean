import Verif.Props.C100

/-!
# C100: what the chunkers do not do
-/

namespace Alaya.Chunker

/-- With an overlap of at least the chunk size the sentence chunker never ends, whatever the document, unless the
document has no sentence. -/
theorem C100_endless_refuted (U : Tables) (size overlap : Int) (h : size ≤ overlap) (doc : Text) (hd : sentences U doc ≠ []) :
    ∀ k, sentenceChunks U size overlap k doc = none := by
  have key : ∀ (l : List Text), l ≠ [] → ∀ k (start : Int), start ≤ 0 → chunkLoop l size overlap k start = none := by
    intro l hl k
    induction k with
    | zero => intro start _; rfl
    | succ k ih =>
      intro start hs
      have := List.length_pos_iff.mpr hl
      simp only [chunkLoop]
      rw [if_pos (by omega), ih _ (by omega)]; rfl
  intro k
  simp only [sentenceChunks, key _ hd k 0 (Int.le_refl 0)]; rfl

/-- Such documents are common: any document with ink. -/
theorem C100_endless_documents (U : Tables) (doc : Text) (h : ink U doc ≠ []) : sentences U doc ≠ [] := by
  intro e
  apply h
  have := ink_cleaned U (split U false [] [] doc)
  rw [ink_split] at this
  have e' : cleaned U (split U false [] [] doc) = [] := e
  rw [e'] at this
  simpa [ink] using this.symm

/-- With some overlap the last chunk may lie wholly within the chunk before it. -/
theorem C100_last_chunk_new_refuted :
    ¬ ∀ (size overlap k : Nat) (doc : Text) (out : List Text), overlap < size →
      sentenceChunks english size overlap k doc = some out → ∀ a b r, out = r ++ [a, b] → ¬ b <:+ a := by
  intro h
  exact h 2 1 5 "a? b? c?".toList _ (by decide) C100_example_chunks "b? c?".toList "c?".toList ["a? b?".toList] rfl
    ⟨"b? ".toList, by decide⟩

/-- A negative overlap (a gap between chunks) loses sentences. -/
theorem C100_negative_overlap_refuted :
    ¬ ∀ (size overlap : Int) (k : Nat) (doc : Text) (out : List Text), overlap < size →
      sentenceChunks english size overlap k doc = some out → ∀ s ∈ sentences english doc, ∃ c ∈ out, s <:+: c := by
  intro h
  obtain ⟨c, hc, hs⟩ := h 1 (-1) 5 "a? b? c?".toList ["a?".toList, "c?".toList] (by decide) (by decide +kernel)
    "b?".toList (by decide +kernel)
  revert hs
  simp only [List.mem_cons, List.not_mem_nil, or_false] at hc
  rcases hc with rfl | rfl <;> decide

/-- A decimal number and an abbreviation are cut in two: a match of no characters also splits, and the guard for
abbreviations looks only at the place behind the second full stop. -/
theorem C100_decimal_refuted :
    sentences english "Pi is 3.14 or so.".toList = ["Pi is 3.".toList, "14 or so.".toList] ∧
      sentences english "See e.g. this.".toList = ["See e.".toList, "g. this.".toList] := by decide +kernel

/-- Two sentences of which the first ends like a title are not told apart. -/
theorem C100_title_refuted : sentences english "It is Jo. We met.".toList = ["It is Jo. We met.".toList] := by decide +kernel

/-- A closing quotation mark goes to the next sentence. -/
theorem C100_quote_refuted :
    sentences english "He said \"No.\" She left.".toList = ["He said \"No.\" She left.".toList] ∧
      sentences english "He said \"Why?\" She left.".toList = ["He said \"Why?".toList, "\" She left.".toList] := by decide +kernel

/-- The semantic chunker gives back no full stop: the text it returns is not the text of the document. -/
theorem C100_full_stops_refuted {E : Type} (U : Tables) (enc : List Text → List E) (less : List E → List E → Bool) (w : Int) (doc : Text) :
    ∀ c ∈ semanticChunks U enc less w doc, '.' ∉ c := by
  intro c hc
  simp only [semanticChunks, List.mem_map] at hc
  obtain ⟨g, hg, rfl⟩ := hc
  have hsub : ∀ s ∈ g, '.' ∉ s := by
    intro s hs
    have hmem : s ∈ (semGroups enc less w (parts U doc)).flatten := List.mem_flatten.mpr ⟨g, hg, hs⟩
    unfold semGroups at hmem
    split at hmem
    · simp at hmem
    · rw [semLoop_flatten] at hmem
      exact ((C100_parts U doc).2 s (by simpa using hmem)).2
  have hj : ∀ l : List Text, (∀ s ∈ l, '.' ∉ s) → '.' ∉ join l := by
    intro l
    induction l with
    | nil => intro _; simp [join]
    | cons s t ih =>
      intro h
      cases t with
      | nil => simpa [join] using h s (by simp)
      | cons s' t =>
        simp only [join, List.mem_append, List.mem_cons, not_or]
        exact ⟨h s (by simp), by decide, ih (fun x hx => h x (by simp [hx]))⟩
  exact hj g hsub

/-- Question and exclamation marks end no sentence there, so a document without full stops is one chunk, whatever the
embeddings. -/
theorem C100_questions_refuted {E : Type} (U : Tables) (enc : List Text → List E) (less : List E → List E → Bool) (w : Nat) (hw : 0 < w)
    (doc : Text) (h : '.' ∉ doc) (henc : (enc (parts U doc)).length = (parts U doc).length) :
    (semanticChunks U enc less w doc).length ≤ 1 := by
  have hone : ∀ (t cur : Text), '.' ∉ t → (splitDot cur t).length = 1 := by
    intro t
    induction t with
    | nil => intro cur _; rfl
    | cons c t ih =>
      intro cur ht
      simp only [List.mem_cons, not_or] at ht
      simp only [splitDot]
      rw [if_neg (fun e => ht.1 e.symm)]
      exact ih _ ht.2
  have hp : (parts U doc).length ≤ 1 := by
    have h1 := hone doc [] h
    have h2 : (parts U doc).length ≤ (splitDot [] doc).length := by
      unfold parts cleaned
      exact Nat.le_trans (List.length_filter_le _ _) (by simp)
    omega
  obtain ⟨gs, e, hf, hg⟩ := C100_semantic U enc less w hw doc henc
  rw [e, List.length_map]
  rcases gs with _ | ⟨g1, _ | ⟨g2, gs⟩⟩
  · simp
  · simp
  · exfalso
    have n1 := List.length_pos_iff.mpr (hg [] g1 (g2 :: gs) rfl).1
    have n2 := List.length_pos_iff.mpr (hg [g1] g2 gs rfl).1
    have := congrArg List.length hf
    simp only [List.flatten_cons, List.length_append] at this
    omega

end Alaya.Chunker
