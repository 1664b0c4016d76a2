import Verif.Model.DiskManifest
import Verif.Spec.ManifestText
import Verif.Lemmas.KV
import Verif.Lemmas.DecimalParse

namespace Alaya.DiskManifest
open Alaya Alaya.ManifestText Alaya.DiskFlat

theorem splitSep_append (sep : UInt8) : ∀ (l r cur : Bytes), sep ∉ l → splitSep sep cur (l ++ r) = splitSep sep (cur ++ l) r
  | [], r, cur, _ => by simp
  | c :: l, r, cur, h => by
    have hc : c ≠ sep := fun e => h (by simp [e])
    simp only [List.cons_append, splitSep]
    rw [if_neg hc, splitSep_append sep l r _ (fun hm => h (by simp [hm]))]
    simp

theorem intercalate_cons2 (sep : UInt8) (l l' : Bytes) (ls : List Bytes) :
    [sep].intercalate (l :: l' :: ls) = l ++ sep :: [sep].intercalate (l' :: ls) := by
  simp [List.intercalate]

theorem intercalate_one (sep : UInt8) (l : Bytes) : [sep].intercalate [l] = l := by
  simp [List.intercalate]

theorem splitSep_intercalate (sep : UInt8) : ∀ (ls : List Bytes) (l cur : Bytes), (∀ x ∈ l :: ls, sep ∉ x) →
    splitSep sep cur ([sep].intercalate (l :: ls)) = (cur ++ l) :: ls
  | [], l, cur, h => by
    rw [intercalate_one]
    have := splitSep_append sep l [] cur (h l (by simp))
    rw [List.append_nil] at this
    rw [this]; rfl
  | l' :: ls, l, cur, h => by
    rw [intercalate_cons2, splitSep_append sep l _ cur (h l (by simp))]
    simp only [splitSep, if_true]
    rw [splitSep_intercalate sep ls l' [] (fun x hx => h x (by simp at hx ⊢; right; exact hx))]
    simp

theorem splitSep_isLines (sep : UInt8) : ∀ (t cur : Bytes), sep ∉ cur → IsLines sep (cur ++ t) (splitSep sep cur t)
  | [], cur, h => by
    refine ⟨by simp [splitSep], ?_, ?_⟩
    · intro l hl; simp [splitSep] at hl; rw [hl]; exact h
    · simp [splitSep, intercalate_one]
  | c :: t, cur, h => by
    unfold splitSep
    by_cases hc : c = sep
    · rw [if_pos hc]
      subst hc
      obtain ⟨h1, h2, h3⟩ := splitSep_isLines c t [] (by simp)
      refine ⟨by simp, ?_, ?_⟩
      · intro l hl
        rcases List.mem_cons.1 hl with rfl | hl
        · exact h
        · exact h2 l hl
      · cases hs : splitSep c [] t with
        | nil => exact absurd hs h1
        | cons l' ls =>
          rw [intercalate_cons2, ← hs, ← h3]
          simp
    · rw [if_neg hc]
      have := splitSep_isLines sep t (cur ++ [c]) (by simp [h, Ne.symm hc])
      simpa using this

theorem isLines_iff (sep : UInt8) (t : Bytes) (ls : List Bytes) : IsLines sep t ls ↔ splitSep sep [] t = ls := by
  constructor
  · rintro ⟨h1, h2, h3⟩
    cases ls with
    | nil => exact absurd rfl h1
    | cons l ls => rw [h3, splitSep_intercalate sep ls l [] h2]; simp
  · intro h
    have := splitSep_isLines sep t [] (by simp)
    rw [h] at this
    simpa using this

theorem isWs_iff (c : UInt8) : isWs c = true ↔ Ws c := by
  simp [isWs, Ws, or_assoc]

theorem dropWhile_split (p : UInt8 → Bool) (s : Bytes) :
    ∃ a, s = a ++ s.dropWhile p ∧ (∀ c ∈ a, p c = true) ∧ (∀ c, (s.dropWhile p).head? = some c → p c = false) := by
  induction s with
  | nil => exact ⟨[], by simp, by simp, by simp⟩
  | cons x s ih =>
    by_cases hx : p x = true
    · obtain ⟨a, h1, h2, h3⟩ := ih
      refine ⟨x :: a, ?_, ?_, ?_⟩
      · rw [List.dropWhile_cons_of_pos hx]; simp; exact h1
      · intro c hc; rcases List.mem_cons.1 hc with rfl | hc
        · exact hx
        · exact h2 c hc
      · rw [List.dropWhile_cons_of_pos hx]; exact h3
    · refine ⟨[], ?_, by simp, ?_⟩
      · rw [List.dropWhile_cons_of_neg hx]; simp
      · rw [List.dropWhile_cons_of_neg hx]; intro c hc; simp at hc; rw [← hc]; simpa using hx

theorem dropWhile_append_all (p : UInt8 → Bool) (a s : Bytes) (ha : ∀ c ∈ a, p c = true)
    (hs : ∀ c, s.head? = some c → p c = false) : (a ++ s).dropWhile p = s := by
  induction a with
  | nil =>
    cases s with
    | nil => rfl
    | cons x s => rw [List.nil_append, List.dropWhile_cons_of_neg]; have := hs x rfl; simp [this]
  | cons x a ih =>
    rw [List.cons_append, List.dropWhile_cons_of_pos (ha x (by simp)), ih (fun c hc => ha c (by simp [hc]))]

theorem trim_strip (l : Bytes) : Trim l (strip l) := by
  obtain ⟨a, h1, h2, h3⟩ := dropWhile_split isWs l
  obtain ⟨b, g1, g2, g3⟩ := dropWhile_split isWs (l.dropWhile isWs).reverse
  have e : l.dropWhile isWs = strip l ++ b.reverse := by
    have := congrArg List.reverse g1
    simpa [strip] using this
  refine ⟨a, b.reverse, ?_, ?_, ?_, ?_, ?_⟩
  · rw [List.append_assoc, ← e]; exact h1
  · intro c hc; exact (isWs_iff c).1 (h2 c hc)
  · intro c hc; exact (isWs_iff c).1 (g2 c (by simpa using hc))
  · intro c hc hw
    have : (l.dropWhile isWs).head? = some c := by
      rw [e]
      cases hs : strip l with
      | nil => rw [hs] at hc; simp at hc
      | cons x s => rw [hs] at hc; simpa using hc
    have := h3 c this
    rw [(isWs_iff c).2 hw] at this
    cases this
  · intro c hc hw
    have : ((l.dropWhile isWs).reverse.dropWhile isWs).head? = some c := by
      unfold strip at hc
      rw [List.getLast?_reverse] at hc
      exact hc
    have := g3 c this
    rw [(isWs_iff c).2 hw] at this
    cases this

theorem trim_unique {l s : Bytes} (h : Trim l s) : s = strip l := by
  obtain ⟨a, b, h1, ha, hb, hh, hl⟩ := h
  unfold strip
  by_cases hs : s = []
  · subst hs
    have hall : ∀ c ∈ l, isWs c = true := by
      intro c hc
      rw [h1] at hc
      simp at hc
      rcases hc with hc | hc
      · exact (isWs_iff c).2 (ha c hc)
      · exact (isWs_iff c).2 (hb c hc)
    have : l.dropWhile isWs = [] := by
      have := dropWhile_append_all isWs l [] hall (by simp)
      simpa using this
    rw [this]; rfl
  · have e1 : l.dropWhile isWs = s ++ b := by
      rw [h1, List.append_assoc]
      apply dropWhile_append_all
      · intro c hc; exact (isWs_iff c).2 (ha c hc)
      · intro c hc
        have hc' : s.head? = some c := by
          cases s with
          | nil => exact absurd rfl hs
          | cons x s => simpa using hc
        have := hh c hc'
        cases hw : isWs c with
        | false => rfl
        | true => exact absurd ((isWs_iff c).1 hw) this
    rw [e1, List.reverse_append, dropWhile_append_all isWs b.reverse s.reverse]
    · simp
    · intro c hc; exact (isWs_iff c).2 (hb c (by simpa using hc))
    · intro c hc
      rw [List.head?_reverse] at hc
      have := hl c hc
      cases hw : isWs c with
      | false => rfl
      | true => exact absurd ((isWs_iff c).1 hw) this

theorem trim_iff {l s : Bytes} : Trim l s ↔ strip l = s :=
  ⟨fun h => (trim_unique h).symm, fun h => h ▸ trim_strip l⟩

theorem splitEq1_iff (s a b : Bytes) : splitEq1 s = some (a, b) ↔ s = a ++ 61 :: b ∧ 61 ∉ a := by
  induction s generalizing a with
  | nil => simp [splitEq1]
  | cons c s ih =>
    unfold splitEq1
    by_cases hc : c = 61
    · rw [if_pos hc]
      subst hc
      constructor
      · intro h; injection h with h; injection h with h1 h2; subst h1; subst h2; simp
      · rintro ⟨h1, h2⟩
        cases a with
        | nil => simp at h1; rw [h1]
        | cons x a => simp at h1; exact absurd (by simp [← h1.1]) h2
    · rw [if_neg hc]
      constructor
      · intro h
        cases hs : splitEq1 s with
        | none => rw [hs] at h; simp at h
        | some p =>
          rw [hs] at h
          simp at h
          obtain ⟨h1, h2⟩ := h
          subst h1
          have := (ih p.1).1 (by rw [hs, ← h2])
          refine ⟨by rw [this.1]; simp, ?_⟩
          simp [Ne.symm hc, this.2]
      · rintro ⟨h1, h2⟩
        cases a with
        | nil => simp at h1; exact absurd h1.1 hc
        | cons x a =>
          simp at h1 h2
          rw [(ih a).2 ⟨h1.2, h2.2⟩, h1.1]; rfl

theorem splitEq1_none (s : Bytes) : splitEq1 s = none ↔ 61 ∉ s := by
  induction s with
  | nil => simp [splitEq1]
  | cons c s ih =>
    unfold splitEq1
    by_cases hc : c = 61
    · simp [hc]
    · rw [if_neg hc]
      simp [ih, Ne.symm hc]

theorem lineMeans_none (l : Bytes) : LineMeans l none ↔ strip l = [] ∨ (strip l).head? = some 35 := by
  constructor
  · intro h
    cases h with
    | blank h => left; exact trim_iff.1 h
    | comment r h => right; rw [trim_iff.1 h]; rfl
  · rintro (h | h)
    · exact .blank l (trim_iff.2 h)
    · cases hs : strip l with
      | nil => rw [hs] at h; simp at h
      | cons c r =>
        rw [hs] at h
        simp at h
        subst h
        exact .comment l r (trim_iff.2 hs)

theorem lineMeans_some (l k v : Bytes) : LineMeans l (some (k, v)) ↔
    strip l ≠ [] ∧ (strip l).head? ≠ some 35 ∧ ∃ a b, splitEq1 (strip l) = some (a, b) ∧ strip a = k ∧ strip b = v := by
  constructor
  · intro h
    cases h with
    | entry a b _ _ h1 h2 h3 h4 h5 =>
      have e := trim_iff.1 h1
      rw [e]
      exact ⟨by simp, h2, a, b, (splitEq1_iff _ _ _).2 ⟨rfl, h3⟩, trim_iff.1 h4, trim_iff.1 h5⟩
  · rintro ⟨_, h2, a, b, h3, h4, h5⟩
    obtain ⟨e, h3⟩ := (splitEq1_iff _ _ _).1 h3
    rw [e] at h2
    exact .entry l a b k v (trim_iff.2 e) h2 h3 (trim_iff.2 h4) (trim_iff.2 h5)

theorem parseKvLoop_iff (ls : List Bytes) (es : List (Bytes × Bytes)) : parseKvLoop ls = some es ↔ LinesMean ls es := by
  induction ls generalizing es with
  | nil =>
    constructor
    · intro h; simp [parseKvLoop] at h; subst h; exact .nil
    · intro h; cases h; rfl
  | cons l ls ih =>
    unfold parseKvLoop
    simp only
    by_cases h1 : strip l = []
    · rw [if_pos h1, ih]
      constructor
      · intro h; exact .skip _ _ _ ((lineMeans_none l).2 (Or.inl h1)) h
      · intro h
        cases h with
        | skip _ _ _ _ h => exact h
        | entry _ _ k v es hm _ => exact absurd h1 ((lineMeans_some l k v).1 hm).1
    · rw [if_neg h1]
      by_cases h2 : (strip l).head? = some 35
      · rw [if_pos h2, ih]
        constructor
        · intro h; exact .skip _ _ _ ((lineMeans_none l).2 (Or.inr h2)) h
        · intro h
          cases h with
          | skip _ _ _ _ h => exact h
          | entry _ _ k v es hm _ => exact absurd h2 ((lineMeans_some l k v).1 hm).2.1
      · rw [if_neg h2]
        constructor
        · intro h
          cases hs : splitEq1 (strip l) with
          | none => rw [hs] at h; simp at h
          | some p =>
            rw [hs] at h
            simp only at h
            cases hr : parseKvLoop ls with
            | none => rw [hr] at h; simp at h
            | some r =>
              rw [hr] at h
              simp at h
              subst h
              exact .entry _ _ _ _ _ ((lineMeans_some l _ _).2 ⟨h1, h2, p.1, p.2, hs, rfl, rfl⟩) ((ih r).1 hr)
        · intro h
          cases h with
          | skip _ _ _ hm _ =>
            rcases (lineMeans_none l).1 hm with h | h
            · exact absurd h h1
            · exact absurd h h2
          | entry _ _ k v es hm hr =>
            obtain ⟨_, _, a, b, hs, e1, e2⟩ := (lineMeans_some l k v).1 hm
            rw [hs]
            simp only
            rw [(ih es).2 hr, e1, e2]; rfl

theorem parseKvLines_iff (t : Bytes) (es : List (Bytes × Bytes)) : parseKvLines t = some es ↔ TextMeans t es := by
  unfold parseKvLines TextMeans
  rw [parseKvLoop_iff]
  constructor
  · intro h; exact ⟨_, (isLines_iff 10 t _).2 rfl, h⟩
  · rintro ⟨ls, h1, h2⟩; rw [(isLines_iff 10 t ls).1 h1]; exact h2

/-- Two ascending maps with the same entries are the same. -/
theorem KV.ext_mem {a b : KV} (ha : a.Sorted) (hb : b.Sorted) (h : ∀ e, e ∈ a ↔ e ∈ b) : a = b := by
  unfold KV.Sorted at ha hb
  induction a generalizing b with
  | nil =>
    cases b with
    | nil => rfl
    | cons x b => have := (h x).2 (by simp); cases this
  | cons x a ih =>
    cases b with
    | nil => have := (h x).1 (by simp); cases this
    | cons y b =>
      rw [List.pairwise_cons] at ha hb
      have hxy : x = y := by
        rcases List.mem_cons.1 ((h x).1 (by simp)) with e | e
        · exact e
        · rcases List.mem_cons.1 ((h y).2 (by simp)) with e2 | e2
          · exact e2.symm
          · exact absurd (blt_trans (ha.1 y e2) (hb.1 x e)) (blt_irrefl _)
      subst hxy
      congr 1
      apply ih ha.2 hb.2
      intro e
      constructor
      · intro he
        rcases List.mem_cons.1 ((h e).1 (by simp [he])) with e2 | e2
        · exact absurd (ha.1 e he) (by rw [e2]; exact blt_irrefl _)
        · exact e2
      · intro he
        rcases List.mem_cons.1 ((h e).2 (by simp [he])) with e2 | e2
        · exact absurd (hb.1 e he) (by rw [e2]; exact blt_irrefl _)
        · exact e2

theorem KV.get_isSome_iff {kv : KV} (h : kv.Sorted) (k : Bytes) : (kv.get k).isSome = true ↔ k ∈ kv.map (·.1) := by
  constructor
  · intro hs
    obtain ⟨v, hv⟩ := Option.isSome_iff_exists.1 hs
    exact List.mem_map.2 ⟨(k, v), (KV.mem_iff_get h k v).2 hv, rfl⟩
  · intro hm
    obtain ⟨⟨k', v⟩, he, rfl⟩ := List.mem_map.1 hm
    rw [(KV.mem_iff_get h k' v).1 he]; rfl

theorem KV.mem_put_new {kv : KV} (h : kv.Sorted) {k : Bytes} (hk : (kv.get k).isSome = false) (v : Bytes) (e : Bytes × Bytes) :
    e ∈ kv.put k v ↔ e = (k, v) ∨ e ∈ kv := by
  have hs := KV.sorted_put h k v
  obtain ⟨a, b⟩ := e
  rw [KV.mem_iff_get hs, KV.get_put, KV.mem_iff_get h]
  by_cases hka : k = a
  · subst hka
    rw [if_pos rfl]
    have hn : kv.get k = none := by cases hg : kv.get k with
      | none => rfl
      | some x => rw [hg] at hk; cases hk
    rw [hn]
    simp [eq_comm]
  · rw [if_neg hka]
    constructor
    · intro h; exact Or.inr h
    · rintro (h | h)
      · injection h with h1 _; exact absurd h1.symm hka
      · exact h

/-- `toMap` collects distinct keys. -/
theorem toMap_iff (es : List (Bytes × Bytes)) (kv0 kv : KV) (h0 : kv0.Sorted) :
    toMap kv0 es = some kv ↔
      (es.map (·.1)).Nodup ∧ (∀ k ∈ es.map (·.1), k ∉ kv0.map (·.1)) ∧ kv.Sorted ∧ ∀ e, e ∈ kv ↔ e ∈ kv0 ∨ e ∈ es := by
  induction es generalizing kv0 with
  | nil =>
    constructor
    · intro h; injection h with h; subst h; simp [h0]
    · rintro ⟨_, _, hs, hm⟩
      have : kv0 = kv := KV.ext_mem h0 hs (by intro e; rw [hm]; simp)
      rw [this]; rfl
  | cons p r ih =>
    obtain ⟨k, v⟩ := p
    unfold toMap
    by_cases hk : (kv0.get k).isSome = true
    · rw [if_pos hk]
      constructor
      · intro h; cases h
      · rintro ⟨_, h, _⟩
        exact absurd ((KV.get_isSome_iff h0 k).1 hk) (h k (by simp))
    · rw [if_neg hk, ih _ (KV.sorted_put h0 k v)]
      have hk' : (kv0.get k).isSome = false := by simpa using hk
      have hkn : k ∉ kv0.map (·.1) := fun hm => hk ((KV.get_isSome_iff h0 k).2 hm)
      have hmem := KV.mem_put_new h0 hk' v
      have hkeys : ∀ x, x ∈ (kv0.put k v).map (·.1) ↔ x = k ∨ x ∈ kv0.map (·.1) := by
        intro x
        constructor
        · intro hx
          obtain ⟨e, he, rfl⟩ := List.mem_map.1 hx
          rcases (hmem e).1 he with rfl | he
          · left; rfl
          · right; exact List.mem_map.2 ⟨e, he, rfl⟩
        · rintro (rfl | hx)
          · exact List.mem_map.2 ⟨(x, v), (hmem _).2 (Or.inl rfl), rfl⟩
          · obtain ⟨e, he, rfl⟩ := List.mem_map.1 hx
            exact List.mem_map.2 ⟨e, (hmem e).2 (Or.inr he), rfl⟩
      simp only [List.map_cons, List.nodup_cons]
      constructor
      · rintro ⟨h1, h2, h3, h4⟩
        refine ⟨⟨fun hm => h2 k hm ((hkeys k).2 (Or.inl rfl)), h1⟩, ?_, h3, ?_⟩
        · intro x hx
          rcases List.mem_cons.1 hx with rfl | hx
          · exact hkn
          · exact fun hm => h2 x hx ((hkeys x).2 (Or.inr hm))
        · intro e; rw [h4, hmem]; simp only [List.mem_cons]
          constructor
          · rintro ((h | h) | h)
            · exact Or.inr (Or.inl h)
            · exact Or.inl h
            · exact Or.inr (Or.inr h)
          · rintro (h | h | h)
            · exact Or.inl (Or.inr h)
            · exact Or.inl (Or.inl h)
            · exact Or.inr h
      · rintro ⟨⟨h1, h1'⟩, h2, h3, h4⟩
        refine ⟨h1', ?_, h3, ?_⟩
        · intro x hx hm
          rcases (hkeys x).1 hm with rfl | hm
          · exact h1 hx
          · exact h2 x (by simp [hx]) hm
        · intro e; rw [h4, hmem]; simp only [List.mem_cons]
          constructor
          · rintro (h | h | h)
            · exact Or.inl (Or.inr h)
            · exact Or.inl (Or.inl h)
            · exact Or.inr h
          · rintro ((h | h) | h)
            · exact Or.inr (Or.inl h)
            · exact Or.inl h
            · exact Or.inr (Or.inr h)

end Alaya.DiskManifest
