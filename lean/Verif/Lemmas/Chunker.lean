import Verif.Spec.Chunker
import Mathlib.Tactic.Ring

/-!
# Lemmas about chunks
-/

namespace Alaya.Chunker

theorem terminators_eq : terminators = stops := rfl

theorem ink_append (U : Tables) (a b : Text) : ink U (a ++ b) = ink U a ++ ink U b := by simp [ink]

theorem ink_cons_ws {U : Tables} {c : Char} (h : U.ws c = true) (t : Text) : ink U (c :: t) = ink U t := by simp [ink, h]

theorem ink_reverse (U : Tables) (a : Text) : ink U a.reverse = (ink U a).reverse := by simp [ink]

theorem ink_cons (U : Tables) (c : Char) (t : Text) : ink U (c :: t) = ink U [c] ++ ink U t := by
  rw [← List.singleton_append, ink_append]

theorem ink_dropWhile (U : Tables) (t : Text) : ink U (t.dropWhile U.ws) = ink U t := by
  induction t with
  | nil => rfl
  | cons c t ih =>
    cases h : U.ws c
    · simp [List.dropWhile, h]
    · simp only [List.dropWhile, h]; rw [ih, ink_cons_ws h]

theorem ink_strip (U : Tables) (s : Text) : ink U (strip U s) = ink U s := by
  simp only [strip, ink_reverse, ink_dropWhile, List.reverse_reverse]

theorem dropWhile_head {α : Type} {p : α → Bool} {l : List α} {a : α} {t : List α} (h : l.dropWhile p = a :: t) : p a = false := by
  induction l with
  | nil => cases h
  | cons b l ih =>
    cases hb : p b
    · simp only [List.dropWhile, hb, List.cons.injEq] at h; rw [← h.1]; exact hb
    · simp only [List.dropWhile, hb] at h; exact ih h

/-- The first character of a stripped text is not white space, nor is the last. -/
theorem strip_ends (U : Tables) (s : Text) :
    (∀ c t, strip U s = c :: t → U.ws c = false) ∧ (∀ c t, strip U s = t ++ [c] → U.ws c = false) := by
  constructor
  · intro c t h
    -- the stripped text is a prefix of the text stripped on the left
    have hp : strip U s <+: s.dropWhile U.ws := by
      have := List.dropWhile_suffix (l := (s.dropWhile U.ws).reverse) U.ws
      have h2 := List.reverse_prefix.mpr this
      simpa [strip] using h2
    obtain ⟨r, hr⟩ := hp
    rw [h] at hr
    exact dropWhile_head (t := t ++ r) (by rw [← hr]; rfl)
  · intro c t h
    have h2 : (s.dropWhile U.ws).reverse.dropWhile U.ws = c :: t.reverse := by
      have := congrArg List.reverse h
      simpa [strip] using this
    exact dropWhile_head h2

theorem cleaned_append (U : Tables) (a b : List Text) : cleaned U (a ++ b) = cleaned U a ++ cleaned U b := by
  simp [cleaned]

theorem cleaned_split {U : Tables} {l A B : List Text} (h : cleaned U l = A ++ B) :
    ∃ P Q, l = P ++ Q ∧ cleaned U P = A ∧ cleaned U Q = B := by
  unfold cleaned at h
  obtain ⟨x, y, h1, h2, h3⟩ := List.filter_eq_append_iff.mp h
  obtain ⟨P, Q, h4, h5, h6⟩ := List.map_eq_append_iff.mp h1
  exact ⟨P, Q, h4, by rw [cleaned, h5, h2], by rw [cleaned, h6, h3]⟩

theorem ink_cleaned (U : Tables) (l : List Text) : ink U (cleaned U l).flatten = ink U l.flatten := by
  induction l with
  | nil => rfl
  | cons s t ih =>
    have hc : cleaned U (s :: t) = cleaned U [s] ++ cleaned U t := cleaned_append U [s] t
    rw [hc, List.flatten_append, ink_append, ih, List.flatten_cons, ink_append]
    congr 1
    rw [← ink_strip U s]
    unfold cleaned
    cases h : strip U s <;> simp [h]

theorem ink_split (U : Tables) (skip : Bool) (behind cur t : Text) :
    ink U (split U skip behind cur t).flatten = ink U cur.reverse ++ ink U t := by
  induction t generalizing skip behind cur with
  | nil => simp only [split]; split <;> simp [ink]
  | cons c t ih =>
    cases skip with
    | true =>
      simp only [split]
      split
      · next h => rw [ih, ink_cons_ws h]
      · rw [ih, List.reverse_cons, ink_append, List.append_assoc, ← ink_append]; rfl
    | false =>
      simp only [split]
      split
      · rw [List.flatten_cons, ink_append]
        congr 1
        split
        · next h => rw [ih, ink_cons_ws h]; rfl
        · rw [ih]; rw [← ink_append]; rfl
      · rw [ih, List.reverse_cons, ink_append, List.append_assoc, ← ink_append]; rfl

/-- Between two pieces there is a place where the pattern matches. -/
theorem split_sound (U : Tables) (skip : Bool) (behind cur t : Text) (P Q : List Text) (h : split U skip behind cur t = P ++ Q)
    (hP : P ≠ []) (hQ : Q ≠ []) :
    ∃ p q, t = p ++ q ∧ breaks U (p.reverse ++ behind) = true ∧ ink U P.flatten = ink U cur.reverse ++ ink U p ∧
      ink U Q.flatten = ink U q := by
  induction t generalizing skip behind cur P with
  | nil =>
    obtain ⟨s, P', rfl⟩ := List.exists_cons_of_ne_nil hP
    simp only [split] at h
    split at h
    · next hb =>
      simp only [List.cons_append, List.cons.injEq] at h
      have hP' : P' = [] := by
        cases P' with
        | nil => rfl
        | cons a r =>
          have h2 := h.2
          simp only [List.cons_append, List.cons.injEq] at h2
          have := h2.2.symm
          simp only [List.append_eq_nil_iff] at this
          exact absurd this.2 hQ
      subst hP'
      refine ⟨[], [], rfl, by simpa using (Bool.and_eq_true _ _ ▸ hb).2, by simp [← h.1, ink], ?_⟩
      rw [← (by simpa using h.2 : [[]] = Q)]; simp [ink]
    · simp only [List.cons_append, List.cons.injEq] at h
      have := h.2.symm
      simp only [List.append_eq_nil_iff] at this
      exact absurd this.2 hQ
  | cons c t ih =>
    cases skip with
    | true =>
      simp only [split] at h
      split at h
      · next hw =>
        obtain ⟨p, q, h1, h2, h3, h4⟩ := ih _ _ _ _ h hP
        exact ⟨c :: p, q, by simp [h1], by simpa using h2, by rw [h3, ink_cons_ws hw], h4⟩
      · obtain ⟨p, q, h1, h2, h3, h4⟩ := ih _ _ _ _ h hP
        exact ⟨c :: p, q, by simp [h1], by simpa using h2, by
          rw [h3, List.reverse_cons, ink_append, List.append_assoc, ← ink_append]; rfl, h4⟩
    | false =>
      simp only [split] at h
      split at h
      · next hb =>
        obtain ⟨s, P', rfl⟩ := List.exists_cons_of_ne_nil hP
        simp only [List.cons_append, List.cons.injEq] at h
        obtain ⟨h0, h⟩ := h
        by_cases hP' : P' = []
        · subst hP'
          refine ⟨[], c :: t, rfl, hb, by simp [← h0, ink], ?_⟩
          rw [← (by simpa using h : _ = Q)]
          split
          · next hw => rw [ink_split, ink_cons_ws hw]; rfl
          · rw [ink_split, ← ink_append]; rfl
        · split at h
          · next hw =>
            obtain ⟨p, q, h1, h2, h3, h4⟩ := ih _ _ _ _ h hP'
            exact ⟨c :: p, q, by simp [h1], by simpa using h2, by
              rw [List.flatten_cons, ink_append, h3, ← h0, ink_cons_ws hw]; rfl, h4⟩
          · obtain ⟨p, q, h1, h2, h3, h4⟩ := ih _ _ _ _ h hP'
            exact ⟨c :: p, q, by simp [h1], by simpa using h2, by
              rw [List.flatten_cons, ink_append, h3, ← h0, ← ink_append]; rfl, h4⟩
      · obtain ⟨p, q, h1, h2, h3, h4⟩ := ih _ _ _ _ h hP
        exact ⟨c :: p, q, by simp [h1], by simpa using h2, by
          rw [h3, List.reverse_cons, ink_append, List.append_assoc, ← ink_append]; rfl, h4⟩

/-- At every place where the pattern matches the text is split. -/
theorem split_complete {U : Tables} (hU : U.Sane) (p q : Text) (skip : Bool) (behind cur : Text)
    (hb : breaks U (p.reverse ++ behind) = true) (hs : p ≠ [] ∨ skip = false) :
    ∃ P Q, split U skip behind cur (p ++ q) = P ++ Q ∧ ink U P.flatten = ink U cur.reverse ++ ink U p ∧
      ink U Q.flatten = ink U q := by
  have hws : ∀ c b, U.ws c = true → breaks U (c :: b) = false := by
    intro c b hc
    have : ended (c :: b) = false := by
      simp only [ended, decide_eq_false_iff_not]
      intro hm; rw [hU.term c (terminators_eq ▸ hm)] at hc; cases hc
    simp [breaks, this]
  induction p generalizing skip behind cur with
  | nil =>
    have hsk : skip = false := hs.resolve_left (fun h => h rfl)
    subst hsk
    simp only [List.reverse_nil, List.nil_append] at hb ⊢
    cases q with
    | nil => exact ⟨[cur.reverse], [[]], by simp [split, hb], by simp [ink], by simp [ink]⟩
    | cons c t =>
      refine ⟨[cur.reverse], if U.ws c then split U true (c :: behind) [] t else split U false (c :: behind) [c] t,
        by simp only [split, hb, if_true]; rfl, by simp [ink], ?_⟩
      split
      · next hw => rw [ink_split, ink_cons_ws hw]; rfl
      · rw [ink_split, ← ink_append]; rfl
  | cons c p ih =>
    have hb' : breaks U (p.reverse ++ c :: behind) = true := by simpa using hb
    have hne : U.ws c = true → p ≠ [] := by
      rintro hw rfl
      simp only [List.reverse_nil, List.nil_append] at hb'
      rw [hws c behind hw] at hb'; cases hb'
    cases skip with
    | true =>
      simp only [List.cons_append, split]
      split
      · next hw =>
        obtain ⟨P, Q, h1, h2, h3⟩ := ih true (c :: behind) cur hb' (Or.inl (hne hw))
        exact ⟨P, Q, h1, by rw [h2, ink_cons_ws hw], h3⟩
      · obtain ⟨P, Q, h1, h2, h3⟩ := ih false (c :: behind) (c :: cur) hb' (Or.inr rfl)
        exact ⟨P, Q, h1, by rw [h2, List.reverse_cons, ink_append, List.append_assoc, ← ink_append]; rfl, h3⟩
    | false =>
      simp only [List.cons_append, split]
      split
      · split
        · next hw =>
          obtain ⟨P, Q, h1, h2, h3⟩ := ih true (c :: behind) [] hb' (Or.inl (hne hw))
          exact ⟨cur.reverse :: P, Q, by rw [h1]; rfl, by
            rw [List.flatten_cons, ink_append, h2, ink_cons_ws hw]; rfl, h3⟩
        · obtain ⟨P, Q, h1, h2, h3⟩ := ih false (c :: behind) [c] hb' (Or.inr rfl)
          exact ⟨cur.reverse :: P, Q, by rw [h1]; rfl, by
            rw [List.flatten_cons, ink_append, h2, ← ink_append]; rfl, h3⟩
      · obtain ⟨P, Q, h1, h2, h3⟩ := ih false (c :: behind) (c :: cur) hb' (Or.inr rfl)
        exact ⟨P, Q, h1, by rw [h2, List.reverse_cons, ink_append, List.append_assoc, ← ink_append]; rfl, h3⟩

theorem ended_iff (p : Text) : ended p.reverse = true ↔ ∃ q c, p = q ++ [c] ∧ c ∈ stops := by
  rw [← terminators_eq]
  constructor
  · intro h
    cases hp : p.reverse with
    | nil => rw [hp] at h; cases h
    | cons c t =>
      rw [hp] at h
      exact ⟨t.reverse, c, by rw [← List.reverse_reverse p, hp]; simp, by simpa [ended] using h⟩
  · rintro ⟨q, c, rfl, h⟩
    simpa [ended] using h

theorem titled_iff (p : Text) : titled p.reverse = true ↔
    ∃ q x y, p = q ++ [x, y, '.'] ∧ 'A' ≤ x ∧ x ≤ 'Z' ∧ 'a' ≤ y ∧ y ≤ 'z' := by
  constructor
  · intro h
    rcases hp : p.reverse with _ | ⟨d, _ | ⟨y, _ | ⟨x, t⟩⟩⟩ <;> rw [hp] at h <;> simp only [titled, Bool.false_eq_true] at h
    simp only [Bool.and_eq_true, decide_eq_true_eq] at h
    obtain ⟨⟨⟨⟨rfl, h1⟩, h2⟩, h3⟩, h4⟩ := h
    exact ⟨t.reverse, x, y, by rw [← List.reverse_reverse p, hp]; simp, h3, h4, h1, h2⟩
  · rintro ⟨q, x, y, rfl, h1, h2, h3, h4⟩
    simp [titled, h1, h2, h3, h4]

theorem dotted_iff (U : Tables) (p : Text) : dotted U p.reverse = true ↔
    ∃ q a b c, p = q ++ [a, '.', b, c] ∧ U.word a = true ∧ U.word b = true ∧ c ≠ '\n' := by
  constructor
  · intro h
    rcases hp : p.reverse with _ | ⟨c, _ | ⟨b, _ | ⟨d, _ | ⟨a, t⟩⟩⟩⟩ <;> rw [hp] at h <;>
      simp only [dotted, Bool.false_eq_true] at h
    simp only [Bool.and_eq_true, decide_eq_true_eq] at h
    obtain ⟨⟨⟨h1, rfl⟩, h2⟩, h3⟩ := h
    exact ⟨t.reverse, a, b, c, by rw [← List.reverse_reverse p, hp]; simp, h1, h2, h3⟩
  · rintro ⟨q, a, b, c, rfl, h1, h2, h3⟩
    simp [dotted, h1, h2, h3]

theorem breaks_iff (U : Tables) (p : Text) : breaks U p.reverse = true ↔ Ends U p := by
  simp only [breaks, Bool.and_eq_true, Bool.not_eq_true', ← Bool.not_eq_true, ended_iff, titled_iff, dotted_iff]
  constructor
  · rintro ⟨⟨h1, h2⟩, h3⟩
    exact ⟨h3, fun q x y e a b c d => h2 ⟨q, x, y, e, a, b, c, d⟩, fun q a b c e h4 h5 h6 => h1 ⟨q, a, b, c, e, h4, h5, h6⟩⟩
  · rintro ⟨h1, h2, h3⟩
    exact ⟨⟨fun ⟨q, a, b, c, e, h4, h5, h6⟩ => h3 q a b c e h4 h5 h6, fun ⟨q, x, y, e, a, b, c, d⟩ => h2 q x y e a b c d⟩, h1⟩

theorem ink_join {U : Tables} (hU : U.Sane) (l : List Text) : ink U (join l) = ink U l.flatten := by
  induction l with
  | nil => rfl
  | cons s t ih =>
    cases t with
    | nil => simp [join]
    | cons s' t =>
      simp only [join]
      rw [ink_append, ink_cons_ws hU.blank, ih]
      simp only [List.flatten_cons, ink_append]

theorem slice_nat {α : Type} (l : List α) (a b : Nat) (hb : b ≤ l.length) : slice l a b = (l.drop a).take (b - a) := by
  have h1 : sliceAt l.length (b : Int) = b := by unfold sliceAt; rw [if_neg (by omega), Int.toNat_natCast]; omega
  simp only [slice, h1]
  by_cases ha : a ≤ l.length
  · have h2 : sliceAt l.length (a : Int) = a := by unfold sliceAt; rw [if_neg (by omega), Int.toNat_natCast]; omega
    rw [h2]
  · have h2 : sliceAt l.length (a : Int) = l.length := by unfold sliceAt; rw [if_neg (by omega), Int.toNat_natCast]; omega
    rw [h2, List.drop_eq_nil_of_le (by omega : l.length ≤ a), List.drop_length]; simp

theorem splitDot_flatten (cur t : Text) : (splitDot cur t).flatten = cur.reverse ++ t.filter (· ≠ '.') := by
  induction t generalizing cur with
  | nil => simp [splitDot]
  | cons c t ih =>
    simp only [splitDot]
    split
    · next h => simp [ih, h]
    · next h => simp [ih, h]

theorem splitDot_no_dot {cur t : Text} (hc : '.' ∉ cur) : ∀ s ∈ splitDot cur t, '.' ∉ s := by
  induction t generalizing cur with
  | nil => simpa [splitDot] using hc
  | cons c t ih =>
    simp only [splitDot]
    split
    · intro s hs
      rcases List.mem_cons.mp hs with rfl | hs
      · simpa using hc
      · exact ih (by simp) s hs
    · next h => exact ih (by simp only [List.mem_cons, not_or]; exact ⟨fun e => h e.symm, hc⟩)

theorem laid_gap {gap : Char → Bool} {l : List Text} {d w : Text} (hw : ∀ c ∈ w, gap c = true) (h : Laid gap l d) :
    Laid gap l (w ++ d) := by
  cases l with
  | nil =>
    intro c hc
    rcases List.mem_append.mp hc with hc | hc
    · exact hw c hc
    · exact h c hc
  | cons s l =>
    obtain ⟨w', r, rfl, h2, h3⟩ := h
    refine ⟨w ++ w', r, by simp, ?_, h3⟩
    intro c hc
    rcases List.mem_append.mp hc with hc | hc
    · exact hw c hc
    · exact h2 c hc

theorem laid_split (U : Tables) (skip : Bool) (behind cur t : Text) (hs : skip = true → cur = []) :
    Laid U.ws (split U skip behind cur t) (cur.reverse ++ t) := by
  induction t generalizing skip behind cur with
  | nil =>
    simp only [split]
    split
    · exact ⟨[], [], by simp, by simp, [], [], by simp, by simp, by simp [Laid]⟩
    · exact ⟨[], [], by simp, by simp, by simp [Laid]⟩
  | cons c t ih =>
    have one : ∀ b k, Laid U.ws (split U false b (c :: k) t) (k.reverse ++ c :: t) := by
      intro b k
      have := ih false b (c :: k) (by simp)
      simpa using this
    cases skip with
    | true =>
      have hc := hs rfl
      subst hc
      simp only [split]
      split
      · next hw => exact laid_gap (w := [c]) (by simpa using hw) (ih true _ [] (fun _ => rfl))
      · exact one _ _
    | false =>
      simp only [split]
      split
      · refine ⟨[], c :: t, by simp, by simp, ?_⟩
        split
        · next hw => exact laid_gap (w := [c]) (by simpa using hw) (ih true _ [] (fun _ => rfl))
        · exact one _ []
      · exact one _ _

theorem takeWhile_mem {α : Type} {p : α → Bool} {l : List α} {a : α} (h : a ∈ l.takeWhile p) : p a = true := by
  have := List.all_takeWhile (p := p) (l := l)
  exact List.all_eq_true.mp this a h

theorem strip_parts (U : Tables) (s : Text) : ∃ a b, s = a ++ strip U s ++ b ∧ (∀ c ∈ a, U.ws c = true) ∧ ∀ c ∈ b, U.ws c = true := by
  refine ⟨s.takeWhile U.ws, ((s.dropWhile U.ws).reverse.takeWhile U.ws).reverse, ?_, ?_, ?_⟩
  · have h1 := List.takeWhile_append_dropWhile (p := U.ws) (l := s)
    have h2 := congrArg List.reverse (List.takeWhile_append_dropWhile (p := U.ws) (l := (s.dropWhile U.ws).reverse))
    simp only [List.reverse_append, List.reverse_reverse] at h2
    rw [List.append_assoc, strip, h2, h1]
  · intro c hc; exact takeWhile_mem hc
  · intro c hc; exact takeWhile_mem (List.mem_reverse.mp hc)

theorem laid_cleaned {U : Tables} {gap : Char → Bool} (hg : ∀ c, U.ws c = true → gap c = true) {l : List Text} {d : Text}
    (h : Laid gap l d) : Laid gap (cleaned U l) d := by
  induction l generalizing d with
  | nil => exact h
  | cons s l ih =>
    obtain ⟨w, r, rfl, h2, h3⟩ := h
    obtain ⟨a, b, hs, ha, hb⟩ := strip_parts U s
    have hr := laid_gap (fun c hc => hg c (hb c hc)) (ih h3)
    have hc : cleaned U (s :: l) = cleaned U [s] ++ cleaned U l := cleaned_append U [s] l
    have hw : ∀ c ∈ w ++ a, gap c = true := by
      intro c hc
      rcases List.mem_append.mp hc with hc | hc
      · exact h2 c hc
      · exact hg c (ha c hc)
    cases he : strip U s with
    | nil =>
      have h1 : cleaned U [s] = [] := by simp [cleaned, he]
      rw [hc, h1, List.nil_append]
      have := laid_gap hw hr
      rw [he] at hs
      rw [hs]; simpa using this
    | cons x y =>
      have h1 : cleaned U [s] = [x :: y] := by simp [cleaned, he]
      rw [hc, h1]
      refine ⟨w ++ a, b ++ r, ?_, hw, hr⟩
      rw [he] at hs
      rw [hs]; simp

theorem laid_splitDot (U : Tables) (cur t : Text) :
    Laid (fun c => U.ws c || decide (c = '.')) (splitDot cur t) (cur.reverse ++ t) := by
  induction t generalizing cur with
  | nil => exact ⟨[], [], by simp [splitDot], by simp, by simp [Laid]⟩
  | cons c t ih =>
    simp only [splitDot]
    split
    · next h =>
      exact ⟨[], c :: t, by simp, by simp, laid_gap (w := [c]) (by simpa using Or.inr h) (by simpa using ih [])⟩
    · simpa using ih (c :: cur)

theorem cleaned_trimmed {U : Tables} {l : List Text} {s : Text} (h : s ∈ cleaned U l) : Trimmed U s := by
  simp only [cleaned, List.mem_filter, List.mem_map] at h
  obtain ⟨⟨t, _, rfl⟩, h2⟩ := h
  exact ⟨by intro e; rw [e] at h2; simp at h2, (strip_ends U t).1, (strip_ends U t).2⟩

theorem join_eq (l : List Text) : join l = [' '].intercalate l := by
  induction l with
  | nil => rfl
  | cons s t ih =>
    cases t with
    | nil => simp [join]
    | cons s' t => simp only [join, ih]; simp [List.intercalate, List.intersperse]

theorem chunkLoop_eq {α : Type} (l : List α) (size overlap : Nat) (h : overlap < size) (m i k : Nat) (hk : m < k)
    (h1 : l.length ≤ (i + m) * (size - overlap)) (h2 : m = 0 ∨ (i + m - 1) * (size - overlap) < l.length) :
    chunkLoop l size overlap k ((i * (size - overlap) : Nat) : Int) =
      some ((List.range' i m).map (window l size (size - overlap))) := by
  induction m generalizing i k with
  | zero =>
    obtain ⟨k, rfl⟩ : ∃ k', k = k' + 1 := ⟨k - 1, by omega⟩
    simp only [chunkLoop]
    rw [if_neg (by simp only [Nat.add_zero] at h1; omega)]; rfl
  | succ m ih =>
    obtain ⟨k, rfl⟩ : ∃ k', k = k' + 1 := ⟨k - 1, by omega⟩
    have hlt : i * (size - overlap) < l.length := by
      rcases h2 with h2 | h2
      · omega
      · exact Nat.lt_of_le_of_lt (Nat.mul_le_mul_right _ (by omega)) h2
    simp only [chunkLoop]
    rw [if_pos (by omega)]
    have e : ((i * (size - overlap) : Nat) : Int) + ((size : Int) - overlap) = (((i + 1) * (size - overlap) : Nat) : Int) := by
      rw [Nat.succ_mul]; omega
    have e2 : min (((i * (size - overlap) : Nat) : Int) + size) l.length = ((min (i * (size - overlap) + size) l.length : Nat) : Int) := by omega
    rw [e, ih (i + 1) k (by omega) (by rw [show i + 1 + m = i + (m + 1) by omega]; exact h1) (by
      rcases Nat.eq_zero_or_pos m with h0 | h0
      · exact Or.inl h0
      · right
        rcases h2 with h2 | h2
        · omega
        · rwa [show i + 1 + m - 1 = i + (m + 1) - 1 by omega]), e2, slice_nat _ _ _ (by omega)]
    simp only [Option.map_some, List.range'_succ, List.map_cons, window]
    congr 2
    rw [List.take_eq_take_iff, List.length_drop]; omega

theorem semLoop_spec {α : Type} (w : Nat) (hw : 0 < w) (should : Nat → Bool) (t : List α) (b i : Nat) (cur : List α)
    (hb : b + cur.length = i) (hinv : ∀ j, w ≤ j → j ≤ cur.length → should (b + j - 1) = false)
    (A B : List (List α)) (g : List α) (h : semLoop w should i cur t = A ++ g :: B) :
    g ≠ [] ∧ (∀ j, w ≤ j → j < g.length → should (b + A.flatten.length + j - 1) = false) ∧
      (B ≠ [] → w ≤ g.length ∧ should (b + A.flatten.length + g.length - 1) = true) := by
  induction t generalizing b i cur A with
  | nil =>
    simp only [semLoop] at h
    split at h
    · simp at h
    · next hc =>
      cases A with
      | nil =>
        simp only [List.nil_append, List.cons.injEq] at h
        obtain ⟨rfl, h⟩ := h
        refine ⟨by intro e; simp [e] at hc, fun j h1 h2 => by simpa using hinv j h1 (by omega), fun hB => absurd h.symm hB⟩
      | cons a A => simp at h
  | cons s t ih =>
    simp only [semLoop] at h
    split at h
    · next hc =>
      cases A with
      | nil =>
        simp only [List.nil_append, List.cons.injEq] at h
        obtain ⟨rfl, h⟩ := h
        refine ⟨by simp, fun j h1 h2 => by
          simp only [List.length_append, List.length_singleton] at h2
          simpa using hinv j h1 (by omega), fun _ => ⟨by omega, ?_⟩⟩
        have : b + (List.flatten ([] : List (List α))).length + (cur ++ [s]).length - 1 = i := by simp; omega
        rw [this]; exact hc.2
      | cons a A =>
        simp only [List.cons_append, List.cons.injEq] at h
        obtain ⟨rfl, h⟩ := h
        have := ih (i + 1) (i + 1) [] (by simp) (by intro j h1 h2; simp at h2; omega) A h
        have e : b + ((cur ++ [s]) :: A).flatten.length = i + 1 + A.flatten.length := by
          rw [List.flatten_cons, List.length_append, List.length_append, List.length_singleton]; omega
        rw [e]; exact this
    · next hc =>
      refine ih b (i + 1) (cur ++ [s]) (by simp; omega) ?_ A h
      intro j h1 h2
      simp only [List.length_append, List.length_singleton] at h2
      by_cases hj : j ≤ cur.length
      · exact hinv j h1 hj
      · have e : b + j - 1 = i := by omega
        rw [e]
        cases hsi : should i
        · rfl
        · exact absurd ⟨by simp; omega, hsi⟩ hc

theorem semLoop_flatten {α : Type} (w : Int) (should : Nat → Bool) (t : List α) (i : Nat) (cur : List α) :
    (semLoop w should i cur t).flatten = cur ++ t := by
  induction t generalizing i cur with
  | nil =>
    simp only [semLoop]
    split
    · next h => simp [List.isEmpty_iff.mp h]
    · simp
  | cons s t ih =>
    simp only [semLoop]
    split <;> simp [ih]

theorem shouldSplit_iff {E : Type} (less : List E → List E → Bool) (emb : List E) (w k : Nat) (hw : 0 < w) (hk : w ≤ k)
    (hn : k < emb.length) : shouldSplit less emb w (k - 1) = true ↔ Dissimilar less emb w k := by
  unfold shouldSplit
  rw [if_neg (by omega)]
  have e1 : max 0 (((k - 1 : Nat) : Int) - w + 1) = ((k - w : Nat) : Int) := by omega
  have e2 : ((k - 1 : Nat) : Int) + 1 = (k : Int) := by omega
  have e3 : min (emb.length : Int) (((k - 1 : Nat) : Int) + w + 1) = ((min emb.length (k + w) : Nat) : Int) := by omega
  rw [e1, e2, e3, slice_nat _ _ _ (by omega), slice_nat _ _ _ (by omega)]
  unfold Dissimilar
  rw [show k - (k - w) = w by omega]
  have : (emb.drop k).take (min emb.length (k + w) - k) = (emb.drop k).take w := by
    rw [List.take_eq_take_iff, List.length_drop]; omega
  rw [this]

end Alaya.Chunker
