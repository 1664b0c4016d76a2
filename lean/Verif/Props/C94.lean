import Verif.Lemmas.QuantIndex

/-! C94: insertions, removals and searches on a quantised in-memory index. -/
namespace Alaya.QuantIndex
open Alaya Alaya.Pools Alaya.Spec Alaya.MemSearch Alaya.MemSearch.Spec Alaya.GraphUpdate Alaya.GraphUpdate.Spec Alaya.QuantIndex.Spec

variable {V C : Type} {enc : V → C} {dq : C → C → Int} {junk : C → Nat → Int} {ord : List Nat → List Nat} {d : V → V → Int} {fmax : Int}

/-- Every proper history ends without exception or undefined behaviour; the build space then holds exactly the vectors and marks the
specification says, the insertions have returned the ids it says, and the code of every row is the code of its vector. -/
theorem C94_history (ho : ∀ l, (ord l).Perm l) (ops : List (Op V)) : ∀ (s : QIx V C), QInv enc s →
    proper s.rawCap s.ix.maxNbrs ops s.raw.length →
    ∃ s', (∀ extra, s.run enc dq junk ord (s.rawCap + 1 + extra) ops = some (some (s', (contents s.rawCap ops s.abs).2))) ∧
      QInv enc s' ∧ s'.abs = (contents s.rawCap ops s.abs).1 ∧ s'.rawCap = s.rawCap ∧
      s'.ix.vecs = s'.raw.map enc ∧ s'.ix.live = s'.rawLive := by
  induction ops with
  | nil => intro s h _; exact ⟨s, fun _ => rfl, h, rfl, rfl, h.code, h.live.symm⟩
  | cons op ops ih =>
    intro s h hp
    have habs := h.absLen
    have hcap : s.raw.length ≤ s.rawCap := by rw [h.cap, ← h.len]; exact h.ix.core.graph.rows
    cases op with
    | insert q ef =>
      obtain ⟨hef, hp⟩ := hp
      obtain ⟨hfull, hroom⟩ := insert_step (dq := dq) (junk := junk) ho s h q ef hef
      by_cases hc : s.raw.length < s.rawCap
      · rw [if_pos hc] at hp
        obtain ⟨s1, i1, a1, c1, m1, e1⟩ := hroom hc
        have hv1 : s1.raw.length = s.raw.length + 1 := by
          have := congrArg List.length a1
          rw [i1.absLen, List.length_append, habs] at this
          simpa using this
        obtain ⟨s', e2, i2, a2, c2, r⟩ := ih s1 i1 (by rw [c1, m1, hv1]; exact hp)
        rw [c1, a1] at a2 e2
        refine ⟨s', ?_, i2, ?_, by rw [c2, c1], r⟩
        · intro extra
          unfold QIx.run
          have := e1 (s.rawCap - s.raw.length + extra)
          rw [show s.raw.length + 1 + (s.rawCap - s.raw.length + extra) = s.rawCap + 1 + extra by omega] at this
          rw [this]
          simp only
          rw [e2 extra]
          simp only [contents, habs, if_pos hc]
        · rw [a2]
          simp only [contents, habs, if_pos hc]
      · rw [if_neg hc] at hp
        obtain ⟨s', e2, i2, a2, c2, r⟩ := ih s h hp
        refine ⟨s', ?_, i2, ?_, c2, r⟩
        · intro extra
          unfold QIx.run
          have := hfull (by omega) (s.rawCap - s.raw.length + extra)
          rw [show s.raw.length + 1 + (s.rawCap - s.raw.length + extra) = s.rawCap + 1 + extra by omega] at this
          rw [this]
          simp only
          rw [e2 extra]
          simp only [contents, habs, if_neg hc]
        · rw [a2]
          simp only [contents, habs, if_neg hc]
    | remove id =>
      obtain ⟨hid, h2, hp⟩ := hp
      obtain ⟨s1, e1, i1, a1, c1, m1⟩ := remove_step s h id hid h2
      have hv1 : s1.raw.length = s.raw.length := by
        have := congrArg List.length a1
        rw [i1.absLen, List.length_modify, habs] at this
        exact this
      obtain ⟨s', e2, i2, a2, c2, r⟩ := ih s1 i1 (by rw [c1, m1, hv1]; exact hp)
      rw [c1, a1] at a2 e2
      refine ⟨s', ?_, i2, a2, by rw [c2, c1], r⟩
      intro extra
      unfold QIx.run
      rw [e1]
      exact e2 extra

/-- The index made by `fit` is in order, if the graph is. -/
theorem C94_fit (enc : V → C) (vectors : List V) (g : MGraph) (maxNbrs : Nat) (hv : vectors ≠ []) (hg : GraphOk g vectors.length)
    (hs : g.rows.length ≤ 2147483648) (hm : 0 < maxNbrs) (he : g.overlay = none → g.eps ≠ [])
    (ho : ∀ o, g.overlay = some o → ∀ i, vectors.length ≤ i → i < g.rows.length → o.levels[i]? = some 0 ∧ ∃ l, o.lists[i]? = some l)
    (hr : (∀ u, u < vectors.length → nbrs g.rows u ≠ []) ∨ vectors.length = 1) :
    QInv enc (QIx.fit enc vectors g maxNbrs) ∧ (QIx.fit enc vectors g maxNbrs).abs = vectors.map (fun v => (v, true)) := by
  have hl : (vectors.map enc).length = vectors.length := List.length_map _
  refine ⟨⟨⟨⟨by rw [show (QIx.fit enc vectors g maxNbrs).ix.vecs.length = vectors.length from hl]; exact hg, hs, by simp [QIx.fit], hm,
    by simp [QIx.fit], by simp [QIx.fit], by simp [QIx.fit], by simp [QIx.fit], ?_, ?_⟩, rfl, ?_, ?_⟩, rfl, rfl, rfl⟩, ?_⟩
  · intro o h i hi
    exact ho o h i (by simpa [QIx.fit] using hi)
  · refine ⟨?_, he⟩
    simp only [QIx.fit, List.length_map]
    exact List.length_pos_iff.mpr hv
  · intro u hu
    cases hu
  · rcases hr with hr | hr
    · exact .inl (fun u hu => hr u (by simpa [QIx.fit] using hu))
    · obtain ⟨v, rfl⟩ := List.length_eq_one_iff.mp hr
      exact .inr ⟨rfl, rfl⟩
  · simp only [QIx.abs, QIx.fit]
    clear hv hg ho hr hl
    induction vectors with
    | nil => rfl
    | cons v vs ih => simp [ih]

theorem score_label (c : List (V × Bool)) (q : V) (i : Nat) : (score d fmax c q i).label = i := by
  unfold score
  split <;> rfl

theorem score_live {c : List (V × Bool)} {q : V} {i : Nat} (hf : ∀ v, d q v < fmax) (h : isLive c i = true) :
    (score d fmax c q i).dist < fmax := by
  unfold isLive at h
  unfold score
  split at h
  · next v b e =>
    rw [e]
    subst h
    exact hf v
  · cases h

theorem score_gone {c : List (V × Bool)} {q : V} {i : Nat} (h : isLive c i = false) : (score d fmax c q i).dist = fmax := by
  unfold isLive at h
  unfold score
  split at h
  · next v b e =>
    rw [e]
    subst h
    rfl
  · next e => rw [e]

/-- A search ends and returns the best `topk`, by true distance, of at most `ef` distinct rows that it has reached; removed rows count
as farther than all others and come last.  It keeps `ef` rows, or all that can be reached. -/
theorem C94_search (H : TopK.StdHeap TopK.Hit TopK.Hit.lt) (s : QIx V C) (h : QInv enc s) (q : V) (topk ef : Nat) (hef : 0 < ef)
    (hk : topk ≤ ef) (hf : ∀ v, d q v < fmax) :
    ∃ (S cands : List Nat) (best : List TopK.Hit), S ≠ [] ∧ (∀ u ∈ S, u < s.abs.length) ∧
      cands.Nodup ∧ cands.length ≤ ef ∧ (∀ c ∈ cands, c < s.abs.length ∧ Reach s.ix.g.rows S c) ∧
      (∀ R : List Nat, R.Nodup → (∀ i ∈ R, Reach s.ix.g.rows S i) → min ef R.length ≤ cands.length) ∧
      Best TopK.hitLe topk best (cands.map (score d fmax s.abs q)) ∧
      (best.map TopK.Hit.label).Nodup ∧
      best.Pairwise (fun a b => isLive s.abs b.label = true → isLive s.abs a.label = true) ∧
      ∀ extra, s.search enc dq junk H d fmax q topk ef (s.raw.length + 1 + extra) =
        some (some (best ++ List.replicate (topk - best.length) ⟨noId, fmax⟩)) := by
  obtain ⟨S, cands, best, hs, h1, h2, h3, h4, h5, h6⟩ := rerank_walk H s.ix.g s.ix.vecs.length h.ix.core.graph
    (nearCode dq junk s.ix (enc q)) (s.exact d fmax q) topk ef hef hk ⟨noId, fmax⟩
  have hmap : cands.map (fun i => (⟨i, s.exact d fmax q i⟩ : TopK.Hit)) = cands.map (score d fmax s.abs q) :=
    List.map_congr_left (fun i _ => exact_score h q i)
  rw [hmap] at h5
  have hS : S ≠ [] ∧ ∀ u ∈ S, u < s.ix.vecs.length := by
    cases ho : s.ix.g.overlay with
    | none =>
      rw [hs.1 ho]
      exact ⟨h.ix.core.seeds.2 ho, h.ix.core.graph.eps⟩
    | some o =>
      obtain ⟨u, e, hu, _⟩ := hs.2 o ho
      rw [e]
      exact ⟨by simp, by intro v hv; simp at hv; rw [hv]; exact hu⟩
  have hlab : (best.map TopK.Hit.label).Nodup := by
    obtain ⟨_, _, rest, hp, _⟩ := h5
    have := hp.map TopK.Hit.label
    rw [List.map_map, List.map_append, show (TopK.Hit.label ∘ score d fmax s.abs q) = id from funext (fun i => score_label _ _ i),
      List.map_id] at this
    exact (List.nodup_append.mp (this.nodup_iff.mp h1)).1
  have hval : ∀ x ∈ best, x = score d fmax s.abs q x.label := by
    intro x hx
    obtain ⟨t, _, rfl⟩ := List.mem_map.mp (Best.mem h5 hx)
    rw [score_label]
  refine ⟨S, cands, best, hS.1, ?_, h1, h2, ?_, h4, h5, hlab, ?_, ?_⟩
  · intro u hu
    rw [h.absLen, ← h.len]; exact hS.2 u hu
  · intro c hc
    rw [h.absLen, ← h.len]; exact h3 c hc
  · refine h5.1.imp_of_mem ?_
    intro a b ha hb hab hlb
    cases hla : isLive s.abs a.label with
    | true => rfl
    | false =>
      have e1 : a.dist = fmax := by rw [hval a ha]; exact score_gone hla
      have e2 : b.dist < fmax := by rw [hval b hb]; exact score_live hf hlb
      rcases hab with h' | ⟨h', _⟩ <;> omega
  · intro extra
    unfold QIx.search
    have := h6 extra
    rw [h.len] at this ⊢
    rw [this]
    have hl := h5.2.1
    rw [List.length_map] at hl
    rw [hl]

theorem split_len (p : Nat → Bool) (l : List Nat) : l.length = (l.filter p).length + (l.filter (fun i => !p i)).length := by
  induction l with
  | nil => rfl
  | cons a l ih =>
    rw [List.filter_cons, List.filter_cons]
    cases p a <;> simp <;> omega

/-- Of distinct rows all but at most `goneCount` are live. -/
theorem live_count (c : List (V × Bool)) (l : List Nat) (hl : l.Nodup) (hr : ∀ i ∈ l, i < c.length) :
    l.length ≤ (l.filter (isLive c)).length + goneCount c := by
  have h1 : l.length = (l.filter (isLive c)).length + (l.filter (fun i => !isLive c i)).length :=
    split_len _ _
  have h2 : (l.filter (fun i => !isLive c i)).length ≤ goneCount c := by
    unfold goneCount
    refine nodup_subset_length (hl.filter _) ?_
    intro i hi
    rw [List.mem_filter] at hi ⊢
    exact ⟨List.mem_range.mpr (hr i hi.1), hi.2⟩
  omega

theorem live_gone (c : List (V × Bool)) : c.length = (liveIds c).length + goneCount c := by
  unfold liveIds goneCount
  have := split_len (isLive c) (List.range c.length)
  rw [List.length_range] at this
  exact this

/-- If enough live rows are among the candidates, only live rows are returned. -/
theorem best_live {c : List (V × Bool)} {q : V} (hf : ∀ v, d q v < fmax) {cands : List Nat} {topk : Nat} {best : List TopK.Hit}
    (hb : Best TopK.hitLe topk best (cands.map (score d fmax c q))) (hk : topk ≤ (cands.filter (isLive c)).length) :
    best.length = topk ∧ ∀ x ∈ best, isLive c x.label = true := by
  obtain ⟨hsort, hlen, rest, hp, hrest⟩ := hb
  have hval : ∀ x ∈ best ++ rest, x = score d fmax c q x.label := by
    intro x hx
    obtain ⟨t, _, rfl⟩ := List.mem_map.mp (hp.mem_iff.mpr hx)
    rw [score_label]
  have hle := List.length_filter_le (isLive c) cands
  rw [List.length_map] at hlen
  refine ⟨by omega, ?_⟩
  intro x hx
  cases hl : isLive c x.label with
  | true => rfl
  | false =>
    exfalso
    have hp2 := (hp.filter (fun y => isLive c y.label)).length_eq
    rw [List.filter_map, show ((fun y : TopK.Hit => isLive c y.label) ∘ score d fmax c q) = isLive c from
      funext (fun i => by simp [score_label]), List.length_map, List.filter_append, List.length_append] at hp2
    have hr0 : rest.filter (fun y => isLive c y.label) = [] := by
      rw [List.filter_eq_nil_iff]
      intro r hr hlr
      have e1 : x.dist = fmax := by rw [hval x (List.mem_append_left _ hx)]; exact score_gone hl
      have e2 : r.dist < fmax := by rw [hval r (List.mem_append_right _ hr)]; exact score_live hf hlr
      rcases hrest r hr x hx with h' | ⟨h', _⟩ <;> omega
    have hlt : (best.filter (fun y => isLive c y.label)).length < best.length := by
      rw [List.length_filter_lt_length_iff_exists]
      exact ⟨x, hx, by rw [hl]; simp⟩
    rw [hr0, List.length_nil] at hp2
    omega

/-- On a connected graph: when `ef` is at least `topk` plus the number of removed rows and there are `topk` rows left, exactly `topk`
rows are returned and none of them has been removed, however coarse the codes are. -/
theorem C94_enough (H : TopK.StdHeap TopK.Hit TopK.Hit.lt) (s : QIx V C) (h : QInv enc s) (q : V) (topk ef : Nat) (hef : 0 < ef)
    (hk : topk + goneCount s.abs ≤ ef) (hf : ∀ v, d q v < fmax)
    (hc : ∀ u v, u < s.abs.length → v < s.abs.length → Reach s.ix.g.rows [u] v) (hlive : topk ≤ (liveIds s.abs).length) :
    ∃ best : List TopK.Hit, best.length = topk ∧ (best.map TopK.Hit.label).Nodup ∧ best.Pairwise TopK.hitLe ∧
      (∀ x ∈ best, isLive s.abs x.label = true ∧ x = score d fmax s.abs q x.label) ∧
      ∀ extra, s.search enc dq junk H d fmax q topk ef (s.raw.length + 1 + extra) = some (some best) := by
  obtain ⟨S, cands, best, hS, hSl, h1, h2, h3, h4, h5, h6, -, h7⟩ := C94_search (dq := dq) (junk := junk) H s h q topk ef hef (by omega) hf
  have hreach : ∀ i ∈ List.range s.abs.length, Reach s.ix.g.rows S i := by
    intro i hi
    obtain ⟨u, S', rfl⟩ := List.exists_cons_of_ne_nil hS
    have := hc u i (hSl u List.mem_cons_self) (List.mem_range.mp hi)
    clear hi
    induction this with
    | seed hv => simp at hv; subst hv; exact .seed List.mem_cons_self
    | step _ hm ih => exact .step ih hm
  have hn := h4 (List.range s.abs.length) List.nodup_range hreach
  rw [List.length_range] at hn
  have hg := live_gone s.abs
  have hcnt := live_count s.abs cands h1 (fun i hi => (h3 i hi).1)
  obtain ⟨b1, b2⟩ := best_live hf h5 (by omega)
  refine ⟨best, b1, h6, h5.1, ?_, ?_⟩
  · intro x hx
    refine ⟨b2 x hx, ?_⟩
    obtain ⟨t, _, rfl⟩ := List.mem_map.mp (Best.mem h5 hx)
    rw [score_label]
  · intro extra
    rw [h7 extra, b1, Nat.sub_self]
    simp

/-- When `ef` covers a connected index, the answer is exactly the `topk` nearest rows, by true distance, among those that have not been
removed: the codes do not matter. -/
theorem C94_exact (H : TopK.StdHeap TopK.Hit TopK.Hit.lt) (s : QIx V C) (h : QInv enc s) (q : V) (topk ef : Nat) (hk : topk ≤ ef)
    (hfe : s.abs.length ≤ ef) (hf : ∀ v, d q v < fmax)
    (hc : ∀ u v, u < s.abs.length → v < s.abs.length → Reach s.ix.g.rows [u] v) (hlive : topk ≤ (liveIds s.abs).length) :
    ∃ best : List TopK.Hit, Best TopK.hitLe topk best ((liveIds s.abs).map (score d fmax s.abs q)) ∧
      ∀ extra, s.search enc dq junk H d fmax q topk ef (s.raw.length + 1 + extra) = some (some best) := by
  have hpos : 0 < s.abs.length := by rw [h.absLen, ← h.len]; exact h.ix.core.seeds.1
  obtain ⟨S, cands, best, hS, hSl, h1, h2, h3, h4, h5, h6, -, h7⟩ :=
    C94_search (dq := dq) (junk := junk) H s h q topk ef (by omega) hk hf
  have hreach : ∀ i ∈ List.range s.abs.length, Reach s.ix.g.rows S i := by
    intro i hi
    obtain ⟨u, S', rfl⟩ := List.exists_cons_of_ne_nil hS
    have := hc u i (hSl u List.mem_cons_self) (List.mem_range.mp hi)
    clear hi
    induction this with
    | seed hv => simp at hv; subst hv; exact .seed List.mem_cons_self
    | step _ hm ih => exact .step ih hm
  have hn := h4 (List.range s.abs.length) List.nodup_range hreach
  rw [List.length_range] at hn
  have hg := live_gone s.abs
  have hcnt := live_count s.abs cands h1 (fun i hi => (h3 i hi).1)
  obtain ⟨b1, b2⟩ := best_live hf h5 (by omega)
  obtain ⟨hsort, hlen, rest, hp, hrest⟩ := h5
  -- the candidates are all rows
  have hall : (List.range s.abs.length).Perm cands := by
    refine perm_of_nodup_mem List.nodup_range h1 (fun i => ⟨fun hi => ?_, fun hi => List.mem_range.mpr (h3 i hi).1⟩)
    by_cases hin : i ∈ cands
    · exact hin
    · exfalso
      have := nodup_subset_length (l1 := i :: cands) (l2 := List.range s.abs.length) (List.nodup_cons.mpr ⟨hin, h1⟩) (by
        intro j hj
        rcases List.mem_cons.mp hj with rfl | hj
        · exact hi
        · exact List.mem_range.mpr (h3 j hj).1)
      rw [List.length_cons, List.length_range] at this
      omega
  have hp2 : ((liveIds s.abs).map (score d fmax s.abs q)).Perm (best ++ rest.filter (fun y => isLive s.abs y.label)) := by
    have hfb : best.filter (fun y => isLive s.abs y.label) = best := List.filter_eq_self.mpr (by intro x hx; simpa using b2 x hx)
    have e := (((hall.map (score d fmax s.abs q)).trans hp)).filter (fun y => isLive s.abs y.label)
    rw [List.filter_map, show ((fun y : TopK.Hit => isLive s.abs y.label) ∘ score d fmax s.abs q) = isLive s.abs from
      funext (fun i => by simp [score_label]), List.filter_append, hfb] at e
    exact e
  refine ⟨best, ⟨hsort, ?_, _, hp2, ?_⟩, ?_⟩
  · rw [List.length_map]; omega
  · intro r hr x hx
    exact hrest r (List.mem_filter.mp hr).1 x hx
  · intro extra
    rw [h7 extra, b1, Nat.sub_self]
    simp

end Alaya.QuantIndex
