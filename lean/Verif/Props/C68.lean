import Verif.Lemmas.HybridSearch
import Verif.Props.C54

/-! C68: search with a metadata filter. -/
namespace Alaya.Hybrid
open Alaya Alaya.Pools Alaya.Spec Alaya.MemSearch Alaya.MemSearch.Spec Alaya.Hybrid.Spec

/-- The executor is consistent: the index fast path lists the selected rows once each, and selected rows are rows of the space. -/
structure FltOk (f : Flt) (n : Nat) : Prop where
  empty : f.empty = true → f.fast = none
  fast : ∀ l, f.fast = some l → l.Nodup ∧ ∀ q, q ∈ l ↔ f.sel q = true
  lt : ∀ q, f.sel q = true → q < n

/-- 32-bit ids, a well-formed graph, and without quantisation one distance. -/
structure SpaceOk (s : Space) : Prop where
  w : s.w = 1
  graph : GraphOk s.g s.n
  same : s.quant = false → s.dist = s.exact

/-- Every row can be reached in the graph from wherever the search starts. -/
def AllReachable (s : Space) : Prop := ∀ S, Seeds s.g s.n s.dist S → ∀ i, i < s.n → Reach s.g.rows S i

/-- The executor modelled for C54 is consistent in this sense and takes the decisions of `Flt`. -/
theorem C68_executor (cfg : StoreCfg) (hc : cfg.id.Ok) (st : Store) (m : RecordMap) (h : Represents cfg st m) (f : Filter) (n : Nat)
    (hn : ∀ id r, m.get id = some r → id < n) (hnb : n ≤ cfg.id.bound) (hs : FilterSafe cfg m f) (hne : f.isEmpty = false) :
    ∃ e b cnt, FilterExec.new cfg st f n = .ok e ∧ e.blockAll cfg st = .ok (b, cnt) ∧
      FltOk ⟨f.isEmpty, e.fast.map Prod.fst, sel m f⟩ n ∧
      (∀ id, id < n → e.match cfg st id = .ok (Flt.test ⟨f.isEmpty, e.fast.map Prod.fst, sel m f⟩ id)) ∧
      (∀ id, id < n → b.get id = some (!Flt.test ⟨f.isEmpty, e.fast.map Prod.fst, sel m f⟩ id)) ∧
      cnt = Flt.count ⟨f.isEmpty, e.fast.map Prod.fst, sel m f⟩ n := by
  obtain ⟨e, b, cnt, h1, h2, h3, h4, h5, -⟩ := C54_blocked_bitset_exact_partial cfg hc st m h f n hn hnb hs
  obtain ⟨e', h1', -, -, hfast⟩ := exec_new_spec hc h.rel f n hn hs
  rw [h1] at h1'
  cases h1'
  have hlt : ∀ q, sel m f q = true → q < n := by
    intro q hq
    unfold sel at hq
    cases hg : m.get q with
    | none => rw [hg] at hq; cases hq
    | some r => exact hn q r hg
  have hok : FltOk ⟨f.isEmpty, e.fast.map Prod.fst, sel m f⟩ n := by
    refine ⟨fun he => ?_, ?_, hlt⟩
    · simp only at he; rw [hne] at he; cases he
    · intro l hl
      cases hp : e.fast with
      | none => simp [hp] at hl
      | some p =>
        simp [hp] at hl
        subst hl
        obtain ⟨_, _, a, b, _⟩ := hfast p hp
        exact ⟨a, b⟩
  have htest : ∀ id, Flt.test ⟨f.isEmpty, e.fast.map Prod.fst, sel m f⟩ id = sel m f id := by
    intro id
    unfold Flt.test
    simp only [hne, Bool.false_eq_true, if_false]
    cases hp : e.fast with
    | none => rfl
    | some p =>
      have := (hok.fast p.1 (by simp [hp])).2 id
      simp only [Option.map_some]
      cases hv : sel m f id with
      | true => simpa using this.mpr hv
      | false => simp only [decide_eq_false_iff_not]; intro hx; exact Bool.false_ne_true (hv.symm.trans (this.mp hx))
  refine ⟨e, b, cnt, h1, h2, hok, ?_, ?_, ?_⟩
  · intro id hid
    rw [h5 id hid, htest, hne]; rfl
  · intro id hid
    rw [htest]
    unfold sel
    cases hg : m.get id with
    | none => rw [(h4 hne).1 id hid hg]; rfl
    | some r => rw [h3 id r hg]
  · rw [(h4 hne).2]
    unfold Flt.count
    simp only [hne, Bool.false_eq_true, if_false]
    cases hp : e.fast with
    | none => rfl
    | some p =>
      obtain ⟨_, _, h2', h3', _⟩ := hfast p hp
      simp only [Option.map_some]
      rw [List.countP_eq_length_filter]
      refine (List.Perm.length_eq ?_).symm
      rw [List.perm_ext_iff_of_nodup h2' (List.Nodup.sublist List.filter_sublist List.nodup_range)]
      intro q
      rw [List.mem_filter, List.mem_range, h3']
      exact ⟨fun hq => ⟨hlt q hq, hq⟩, fun hq => hq.2⟩

theorem test_eq {f : Flt} {n : Nat} (hf : FltOk f n) (hne : f.empty = false) (q : Nat) : f.test q = f.sel q := by
  unfold Flt.test
  simp only [hne, Bool.false_eq_true, if_false]
  cases hp : f.fast with
  | none => rfl
  | some l =>
    have := (hf.fast l hp).2 q
    simp only
    cases hv : f.sel q with
    | true => simpa using this.mpr hv
    | false => simp only [decide_eq_false_iff_not]; intro hx; rw [this.mp hx] at hv; cases hv

/-- The selected rows. -/
def picked (f : Flt) (n : Nat) : List Nat := (List.range n).filter f.sel

theorem picked_nodup (f : Flt) (n : Nat) : (picked f n).Nodup := List.Nodup.sublist List.filter_sublist List.nodup_range

theorem mem_picked {f : Flt} {n : Nat} (hf : FltOk f n) {q : Nat} : q ∈ picked f n ↔ f.sel q = true := by
  unfold picked
  rw [List.mem_filter, List.mem_range]
  exact ⟨fun h => h.2, fun h => ⟨hf.lt q h, h⟩⟩

theorem count_eq {f : Flt} {n : Nat} (hf : FltOk f n) (hne : f.empty = false) : f.count n = (picked f n).length := by
  unfold Flt.count
  simp only [hne, Bool.false_eq_true, if_false]
  cases hp : f.fast with
  | none => simp only; rw [List.countP_eq_length_filter]; rfl
  | some l =>
    simp only
    obtain ⟨h1, h2⟩ := hf.fast l hp
    refine (List.Perm.length_eq ?_)
    rw [List.perm_ext_iff_of_nodup h1 (picked_nodup f n)]
    intro q
    rw [h2, mem_picked hf]

theorem finite_nodup {dmax : Int} {exact : Nat → Int} {off : List Nat} (h : off.Nodup) : (finite dmax exact off).Nodup :=
  h.sublist List.filter_sublist

theorem finite_sub {dmax : Int} {exact : Nat → Int} {off : List Nat} {v : Nat} (h : v ∈ finite dmax exact off) : v ∈ off :=
  (List.mem_filter.mp h).1

/-- The rows the exact scan looks at, in this order. -/
def order (f : Flt) (n : Nat) : List Nat := match f.fast with | some l => l | none => (List.range n).filter f.test

/-- The exact scan. -/
theorem brute_spec (s : Space) (f : Flt) (hf : FltOk f s.n) (hne : f.empty = false) {topk : Nat} (hk : 0 < topk) :
    ∃ hits, Nearest s.exact topk hits (finite s.dmax s.exact (picked f s.n)) ∧
      ∀ h0 : List Nat, h0.length ≤ hits.length →
        s.brute topk f (h0 ++ List.replicate (topk - h0.length) noId) =
          some (hits ++ List.replicate (topk - hits.length) noId, hits.length) := by
  obtain ⟨b, e, hb⟩ := (BInv.new s.dmax s.exact topk).insertAll hk (order f s.n)
  have hp : (order f s.n).Perm (picked f s.n) := by
    unfold order
    cases hfa : f.fast with
    | none =>
      simp only
      rw [show f.test = f.sel from funext (test_eq hf hne)]
      exact List.Perm.refl _
    | some l =>
      simp only
      obtain ⟨h1, h2⟩ := hf.fast l hfa
      rw [List.perm_ext_iff_of_nodup h1 (picked_nodup f s.n)]
      intro q
      rw [h2, mem_picked hf]
  obtain ⟨hn, hl⟩ := hb.ids
  refine ⟨b.ids topk, Nearest.perm hn (by simpa [finite] using hp.filter _), ?_⟩
  intro h0 hh
  have hdef : ∀ words, s.brute topk f words = match SBuf.insertAll s.dmax s.exact (order f s.n) (SBuf.new topk) with
      | none => none
      | some b => some (copyOut words (b.ids topk), min b.size topk) := fun _ => rfl
  rw [hdef, e]
  simp only
  have hlt : (b.ids topk).length ≤ topk := by rw [hn.2.1]; omega
  congr 2
  · unfold copyOut
    congr 1
    rw [List.drop_append, List.drop_of_length_le hh, List.nil_append, List.drop_replicate]
    congr 1
    omega
  · omega

theorem ne_noId {s : Space} (hs : SpaceOk s) {v : Nat} (h : v < s.n) : v ≠ noId := by
  have := hs.graph.small
  unfold noId
  omega

/-- The search in the graph that skips the rows that do not match. -/
theorem masked_spec (s : Space) (hs : SpaceOk s) (f : Flt) (hf : FltOk f s.n) (hne : f.empty = false) {topk ef : Nat} (hk : 0 < topk)
    (hef : 0 < ef) :
    ∃ off hits, off.Nodup ∧ (∀ v ∈ off, f.sel v = true) ∧ Nearest s.exact topk hits (finite s.dmax s.exact off) ∧
      (∀ extra, s.masked topk ef (s.n + 1 + extra) f = some (hits ++ List.replicate (topk - hits.length) noId)) ∧
      (s.n ≤ ef → AllReachable s → off.Perm (picked f s.n)) := by
  obtain ⟨S, st, e1, h1, hS, ha, hb⟩ := start_spec hs.graph s.dist hef
  obtain ⟨b, st', popped, k1, k2, k3, k4, k5⟩ := drain_spec (exact := s.exact) (dmax := s.dmax) (cap := topk) hs.graph hef hk
    (fun i => !f.test i) s.n h1 (by simpa [shown] using BInv.new s.dmax s.exact topk) (by omega)
  obtain ⟨hn, hl⟩ := k4.ids
  have hmem : ∀ v, v ∈ shown (fun i => !f.test i) popped ↔ v ∈ popped.map Prod.fst ∧ f.sel v = true := by
    intro v
    unfold shown
    rw [List.mem_filter]
    simp [test_eq hf hne]
  have hnd : (shown (fun i => !f.test i) popped).Nodup := (popped_ids_nodup k2).sublist List.filter_sublist
  refine ⟨shown (fun i => !f.test i) popped, b.ids topk, hnd, fun v hv => ((hmem v).mp hv).2, hn, ?_, ?_⟩
  · intro extra
    unfold Space.masked
    rw [e1]
    simp only
    rw [show s.n + 1 + extra = s.n + (1 + extra) by omega, k1]
    simp only
    rw [hs.w, copyOut_blank]
  · intro hfe hr
    rw [List.perm_ext_iff_of_nodup hnd (picked_nodup f s.n)]
    intro q
    rw [hmem, mem_picked hf]
    constructor
    · exact fun h => h.2
    · intro hq
      refine ⟨?_, hq⟩
      have hSl : ∀ v ∈ S, v < s.n := fun v hv => h1.lt v (hS v hv)
      obtain ⟨hp, hall⟩ := k2.all k3 (fun v hv => k5 v (hS v hv)) (R := List.range s.n)
        (fun i hi => List.mem_range.mpr (reach_lt hs.graph hSl hi)) (by simpa using hfe)
      have hqs := hall q (hr S ⟨ha, hb⟩ q (hf.lt q hq))
      have := LInv.all_popped k2.q k3 _ (hp.mem_iff.mp (List.mem_map.mpr ⟨q, hqs, rfl⟩))
      exact List.mem_map.mpr ⟨_, this, rfl⟩

theorem flatMap_one {α : Type} (l : List α) (f : α → Option Nat) (g : α → Nat) (h : ∀ x ∈ l, wordsOf 1 (f x) = [g x]) :
    l.flatMap (fun x => wordsOf 1 (f x)) = l.map g := by
  induction l with
  | nil => rfl
  | cons a t ih =>
    rw [List.flatMap_cons, List.map_cons, h a List.mem_cons_self, ih (fun x hx => h x (List.mem_cons_of_mem _ hx))]
    rfl

theorem wordsOf_one (v : Nat) : wordsOf 1 (if v = noId then none else some v) = [v] := by
  by_cases h : v = noId
  · rw [if_pos h, h]; rfl
  · rw [if_neg h]; rfl

/-- The plain search. -/
theorem plain_spec (s : Space) (hs : SpaceOk s) {topk ef : Nat} (hk : 0 < topk) (hke : topk ≤ ef) :
    ∃ hits : List Nat, hits.Nodup ∧ hits.length ≤ topk ∧ (∀ v ∈ hits, v < s.n) ∧ hits.Pairwise (fun a b => s.exact a ≤ s.exact b) ∧
      (∀ extra, s.plain topk ef (s.n + 1 + extra) = some (some (hits ++ List.replicate (topk - hits.length) noId))) ∧
      (s.n ≤ ef → AllReachable s → Nearest s.exact topk hits (List.range s.n)) := by
  obtain ⟨S, st, popped, e, h, hu, hS, ha, hb⟩ := walk_spec hs.graph s.dist (ef := ef) (by omega)
  have hSl : ∀ v ∈ S, v < s.n := fun v hv => h.lt v (hS v hv)
  have hnd : (st.pool.entries.map Prod.fst).Nodup := by
    obtain ⟨_, _, rest, hp, _⟩ := h.q.best
    have := (hp.map Prod.fst).nodup_iff.mp h.candNodup
    rw [List.map_append] at this
    exact (List.nodup_append.mp this).1
  have hent : ∀ x ∈ st.pool.entries, x.2 = s.dist x.1 ∧ x.1 < s.n := by
    intro x hx
    obtain ⟨t, ht, rfl⟩ := List.mem_map.mp (Best.mem h.q.best hx)
    exact ⟨rfl, h.lt t ht⟩
  have hes : st.pool.entries.length = st.pool.size := entries_size h.q
  have hsz : st.pool.size ≤ ef := h.q.size
  have hperm : s.n ≤ ef → AllReachable s → (List.range s.n).Perm (st.pool.entries.map Prod.fst) := by
    intro hfe hr
    obtain ⟨hp, hall⟩ := h.all hu hS (R := List.range s.n) (fun i hi => List.mem_range.mpr (reach_lt hs.graph hSl hi)) (by simpa using hfe)
    have h1 := hp.map Prod.fst
    rw [List.map_map, show (Prod.fst ∘ MemSearch.cand s.dist) = id from rfl, List.map_id] at h1
    refine List.Perm.trans ?_ h1
    exact perm_of_nodup_mem List.nodup_range h.nd (fun x =>
      ⟨fun hx => hall x (hr S ⟨ha, hb⟩ x (List.mem_range.mp hx)), fun hx => List.mem_range.mpr (h.lt x hx)⟩)
  unfold Space.plain
  cases hq : s.quant with
  | false =>
    have hsame := hs.same hq
    refine ⟨(st.pool.entries.take (min st.pool.size topk)).map Prod.fst, ?_, by simp; omega, ?_, ?_, ?_, ?_⟩
    · rw [List.map_take]; exact hnd.sublist (List.take_sublist _ _)
    · intro v hv
      obtain ⟨x, hx, rfl⟩ := List.mem_map.mp hv
      exact (hent x (List.mem_of_mem_take hx)).2
    · rw [List.pairwise_map]
      refine (h.q.best.1.sublist (List.take_sublist _ _)).imp_of_mem ?_
      intro a b ha hb hab
      rw [← hsame, ← (hent a (List.mem_of_mem_take ha)).1, ← (hent b (List.mem_of_mem_take hb)).1]
      exact hab
    · intro extra
      simp only [Bool.false_eq_true, if_false]
      unfold solo
      rw [if_neg (by omega), e extra]
      simp only
      rw [hs.w, flatMap_one _ _ (fun x : Nat × Option Int => x.1) (fun x _ => wordsOf_one _)]
      unfold padded
      simp only [List.map_append, List.map_map, List.map_replicate, List.length_map]
      rfl
    · intro hfe hr
      have hp := hperm hfe hr
      have hmin : st.pool.entries.take (min st.pool.size topk) = st.pool.entries.take topk := by
        rw [List.take_eq_take_iff]; omega
      rw [hmin]
      have hcand : st.pool.entries = (st.pool.entries.map Prod.fst).map (MemSearch.cand s.exact) := by
        rw [List.map_map]
        conv => lhs; rw [← List.map_id st.pool.entries]
        apply List.map_congr_left
        intro x hx
        show x = (x.1, s.exact x.1)
        rw [← hsame, ← (hent x hx).1]
      have hbest : Best leD topk (st.pool.entries.take topk) ((List.range s.n).map (MemSearch.cand s.exact)) := by
        have hpm : ((List.range s.n).map (MemSearch.cand s.exact)).Perm st.pool.entries := by
          rw [hcand]; exact hp.map _
        refine ⟨h.q.best.1.sublist (List.take_sublist _ _), by rw [List.length_take, hpm.length_eq], st.pool.entries.drop topk, ?_, ?_⟩
        · rw [List.take_append_drop]; exact hpm
        · intro r hr e he
          have : (st.pool.entries.take topk ++ st.pool.entries.drop topk).Pairwise leD := by
            rw [List.take_append_drop]; exact h.q.best.1
          exact (List.pairwise_append.mp this).2.2 e he r hr
      exact nearest_of hbest
  | true =>
    obtain ⟨best, hbest, eb⟩ := TopK.C29_rerank_exact s.heap s.exact (st.pool.entries.map Prod.fst) topk ⟨noId, 0⟩
    have hbm : ∀ x ∈ best, x.dist = s.exact x.label ∧ x.label ∈ st.pool.entries.map Prod.fst := by
      intro x hx
      obtain ⟨i, hi, rfl⟩ := List.mem_map.mp (Best.mem hbest hx)
      exact ⟨rfl, hi⟩
    have hlabels : ∀ l : List Nat, (l.map (fun i => (⟨i, s.exact i⟩ : TopK.Hit))).map TopK.Hit.label = l := by
      intro l; rw [List.map_map]; exact List.map_id _
    have hbp : ∃ rest : List Nat, (st.pool.entries.map Prod.fst).Perm (best.map TopK.Hit.label ++ rest) ∧
        ∀ r ∈ rest, ∀ e ∈ best.map TopK.Hit.label, s.exact e ≤ s.exact r := by
      obtain ⟨_, _, rest, hp, hr⟩ := hbest
      refine ⟨rest.map TopK.Hit.label, ?_, ?_⟩
      · have := hp.map TopK.Hit.label
        rw [hlabels, List.map_append] at this
        exact this
      · intro r hr' e he
        obtain ⟨r', hr1, rfl⟩ := List.mem_map.mp hr'
        obtain ⟨e', he1, rfl⟩ := List.mem_map.mp he
        have hrd : r'.dist = s.exact r'.label := by
          obtain ⟨i, _, rfl⟩ := List.mem_map.mp (hp.mem_iff.mpr (List.mem_append_right _ hr1)); rfl
        rw [← hrd, ← (hbm e' he1).1]
        rcases hr r' hr1 e' he1 with q | q <;> omega
    have hlen := hbest.2.1
    rw [List.length_map] at hlen
    have hsorted : (best.map TopK.Hit.label).Pairwise (fun a b => s.exact a ≤ s.exact b) := by
      rw [List.pairwise_map]
      refine hbest.1.imp_of_mem ?_
      intro a b ha hb hab
      rw [← (hbm a ha).1, ← (hbm b hb).1]
      rcases hab with q | q <;> omega
    refine ⟨best.map TopK.Hit.label, ?_, by simp; omega, ?_, hsorted, ?_, ?_⟩
    · obtain ⟨rest, hp, _⟩ := hbp
      exact (List.nodup_append.mp (hp.nodup_iff.mp hnd)).1
    · intro v hv
      obtain ⟨x, hx, rfl⟩ := List.mem_map.mp hv
      obtain ⟨y, hy, e⟩ := List.mem_map.mp (hbm x hx).2
      rw [← e]; exact (hent y hy).2
    · intro extra
      simp only [if_true]
      unfold soloRerank
      rw [if_neg (by omega), e extra]
      simp only
      rw [eb]
      simp only
      rw [hs.w, flatMap_one _ _ TopK.Hit.label (fun x _ => wordsOf_one _)]
      rw [List.map_append, List.map_replicate, List.length_map]
      rw [List.length_map] at hlen
      have : topk - min topk st.pool.entries.length = topk - best.length := by omega
      rw [this, List.length_map]
    · intro hfe hr
      have hp := hperm hfe hr
      obtain ⟨rest, hp2, hr2⟩ := hbp
      refine ⟨hsorted, ?_, rest, hp.trans hp2, hr2⟩
      rw [List.length_map, hlen, hp.length_eq]

/-- Everything about `execute_bitset_prefilter`. -/
theorem bitset_spec (s : Space) (hs : SpaceOk s) (f : Flt) (hf : FltOk f s.n) (hne : f.empty = false) {topk ef : Nat} (hk : 0 < topk)
    (hke : topk ≤ ef) :
    ∃ hits k, hits.Nodup ∧ hits.length ≤ k ∧ k ≤ topk ∧ (∀ v ∈ hits, f.sel v = true) ∧
      hits.Pairwise (fun a b => s.exact a ≤ s.exact b) ∧
      (∀ extra, s.bitset topk ef (s.n + 1 + extra) f (blank s.w topk) =
        some (some (hits ++ List.replicate (topk - hits.length) noId, k))) ∧
      ((∀ v, f.sel v = true → s.exact v ≤ s.dmax) → (picked f s.n).length < s.n → hits.length = min topk (picked f s.n).length) ∧
      ((∀ v, f.sel v = true → s.exact v ≤ s.dmax) → s.n ≤ ef → AllReachable s → Nearest s.exact topk hits (picked f s.n)) := by
  have hle : (picked f s.n).length ≤ s.n := by
    have := List.length_filter_le f.sel (List.range s.n)
    simpa [picked] using this
  have hfin : (∀ v, f.sel v = true → s.exact v ≤ s.dmax) → finite s.dmax s.exact (picked f s.n) = picked f s.n :=
    fun h => finite_all (fun v hv => h v ((mem_picked hf).mp hv))
  unfold Space.bitset
  simp only [count_eq hf hne]
  by_cases h0 : (picked f s.n).length = 0
  · simp only [if_pos h0]
    have hnil : picked f s.n = [] := List.length_eq_zero_iff.mp h0
    refine ⟨[], 0, by simp, by simp, by omega, by simp, by simp, ?_, ?_, ?_⟩
    · intro extra
      rw [hs.w]
      simp [blank]
    · intro _ _; simp [h0]
    · intro _ _ _; rw [hnil]; exact ⟨by simp, by simp, [], by simp, by simp⟩
  · simp only [if_neg h0]
    by_cases hall : (picked f s.n).length = s.n
    · simp only [if_pos hall]
      have hsel : ∀ v, v < s.n → f.sel v = true := by
        intro v hv
        have hfil : (List.range s.n).filter f.sel = List.range s.n :=
          List.Sublist.eq_of_length List.filter_sublist (by simpa [picked] using hall)
        exact (List.filter_eq_self.mp hfil) v (List.mem_range.mpr hv)
      obtain ⟨hits, p1, p2, p3, p4, p5, p6⟩ := plain_spec s hs hk hke
      have hlen : hits.length ≤ s.n := by
        have := nodup_subset_length (l2 := List.range s.n) p1 (fun v hv => List.mem_range.mpr (p3 v hv))
        simpa using this
      refine ⟨hits, min topk s.n, p1, by omega, by omega, fun v hv => hsel v (p3 v hv), p4, ?_, by intro _ h; omega, ?_⟩
      · intro extra
        rw [p5 extra]
      · intro _ hfe hr
        have hpe : picked f s.n = List.range s.n := List.Sublist.eq_of_length List.filter_sublist (by simpa [picked] using hall)
        rw [hpe]
        exact p6 hfe hr
    · simp only [if_neg hall]
      obtain ⟨hits, hn, hb⟩ := brute_spec s f hf hne hk
      have hnd := Nearest.nodup hn (finite_nodup (picked_nodup f s.n))
      have hselb : ∀ v ∈ hits, f.sel v = true := fun v hv => (mem_picked hf).mp (finite_sub (Nearest.mem hn hv))
      have hlenb : hits.length ≤ topk := by rw [hn.2.1]; omega
      have hblank : blank s.w topk = [] ++ List.replicate (topk - ([] : List Nat).length) noId := by
        rw [hs.w]; simp [blank]
      have hcomplete : (∀ v, f.sel v = true → s.exact v ≤ s.dmax) → hits.length = min topk (picked f s.n).length := by
        intro h; rw [hn.2.1, hfin h]
      by_cases hbp : s.brutePays topk (picked f s.n).length = true
      · simp only [if_pos hbp]
        refine ⟨hits, hits.length, hnd, Nat.le_refl _, hlenb, hselb, hn.1, ?_, fun h _ => hcomplete h, ?_⟩
        · intro extra
          rw [hblank, hb [] (by simp)]
          rfl
        · intro h _ _
          have := hn
          rw [hfin h] at this
          exact this
      · simp only [if_neg hbp]
        have hadj : s.adjustEf topk ef (picked f s.n).length = min s.n (max ef (s.expected topk s.n (picked f s.n).length +
            s.expected topk s.n (picked f s.n).length / 2)) := by
          unfold Space.adjustEf
          rw [if_neg (by omega)]
        obtain ⟨off, h0', a1, a2, a3, a4, a5⟩ := masked_spec s hs f hf hne (topk := topk)
          (ef := s.adjustEf topk ef (picked f s.n).length) hk (by rw [hadj]; omega)
        have hlen0 : h0'.length ≤ topk := by rw [a3.2.1]; omega
        have hsel0 : ∀ v ∈ h0', f.sel v = true := fun v hv => a2 v (finite_sub (Nearest.mem a3 hv))
        have hnd0 := Nearest.nodup a3 (finite_nodup a1)
        have hcnt : s.counted topk (h0' ++ List.replicate (topk - h0'.length) noId) = h0'.length :=
          counted_padded s hs.w hlen0 (fun v hv => ne_noId hs (hf.lt v (hsel0 v hv)))
        have hcmp : h0'.length ≤ hits.length := by
          have : (finite s.dmax s.exact off).length ≤ (finite s.dmax s.exact (picked f s.n)).length := by
            refine nodup_subset_length (finite_nodup a1) ?_
            intro v hv
            have := List.mem_filter.mp hv
            exact List.mem_filter.mpr ⟨(mem_picked hf).mpr (a2 v this.1), this.2⟩
          rw [a3.2.1, hn.2.1]; omega
        by_cases hunder : h0'.length < min topk (picked f s.n).length
        · refine ⟨hits, hits.length, hnd, Nat.le_refl _, hlenb, hselb, hn.1, ?_, fun h _ => hcomplete h, ?_⟩
          · intro extra
            rw [a4 extra]
            simp only
            rw [hcnt, if_pos hunder, hb h0' hcmp]
            rfl
          · intro h _ _
            have := hn
            rw [hfin h] at this
            exact this
        · refine ⟨h0', h0'.length, hnd0, Nat.le_refl _, hlen0, hsel0, a3.1, ?_, ?_, ?_⟩
          · intro extra
            rw [a4 extra]
            simp only
            rw [hcnt, if_neg hunder]
          · intro h _
            have := hcomplete h
            omega
          · intro h hfe hr
            have hp := a5 (by rw [hadj]; omega) hr
            have := Nearest.perm a3 (List.Perm.filter _ hp)
            have hfin' := hfin h
            unfold finite at hfin'
            rw [hfin'] at this
            exact this

/-- `execute_iterative_filter`. -/
theorem iterative_spec (s : Space) (hs : SpaceOk s) (f : Flt) (hf : FltOk f s.n) (hne : f.empty = false) {topk ef : Nat} (hk : 0 < topk)
    (hef : 0 < ef) :
    ∃ hits, hits.Nodup ∧ hits.length ≤ topk ∧ (∀ v ∈ hits, f.sel v = true) ∧ hits.Pairwise (fun a b => s.exact a ≤ s.exact b) ∧
      ∀ extra, s.iterative topk ef (s.n + 1 + extra) f (blank s.w topk) =
        some (hits ++ List.replicate (topk - hits.length) noId, hits.length) := by
  obtain ⟨S, st, e1, h1, hS, ha, hb⟩ := start_spec hs.graph s.dist hef
  obtain ⟨b, off, st', popped, k1, k2, k3, k4⟩ := iterLoop_spec s hs.graph hef f hk (s.n + 1) h1 (BInv.new s.dmax s.exact topk)
    (by simp) (by simp)
  obtain ⟨hn, hl⟩ := k3.ids
  have hnd : off.Nodup := ((popped_ids_nodup k2).sublist List.filter_sublist).sublist k4
  refine ⟨b.ids topk, Nearest.nodup hn (finite_nodup hnd), by rw [hn.2.1]; omega, ?_, hn.1, ?_⟩
  · intro v hv
    have := k4.subset (finite_sub (Nearest.mem hn hv))
    rw [← test_eq hf hne]
    exact (List.mem_filter.mp this).2
  · intro extra
    unfold Space.iterative
    rw [e1]
    simp only
    have := k1 extra (1 + extra)
    rw [show s.n + (1 + extra) = s.n + 1 + extra by omega] at this
    rw [this]
    simp only
    rw [hs.w, copyOut_blank, hl]
    have := k3.size
    congr 2
    omega

/-- For every filter that is not empty, every hint and every parameter the call accepts: the search ends without exception or access
outside of its arrays; it returns at most `topk` distinct rows that match the filter, nearest first, with their item ids, then padding.
Without the iterative hint and with finite distances, the number of rows is the smaller of `topk` and the number of matching rows
(unless every row matches), and with `ef` at least the number of rows, all of them reachable, the rows are the nearest ones.
`_partial`: 32-bit ids, consistent executor (see `C68_executor`), and the restrictions named. -/
theorem C68_filtered_search_partial (s : Space) (hs : SpaceOk s) (f : Flt) (hf : FltOk f s.n) (hne : f.empty = false) (topk ef : Nat)
    (hk : 0 < topk) (hke : topk ≤ ef) (hint : Hint) :
    ∃ hits out, (∀ extra, s.hybrid topk ef (s.n + 1 + extra) hint f = some (some out)) ∧ Answer f.sel s.exact s.item topk hits out ∧
      (hint ≠ .iterative → (∀ v, f.sel v = true → s.exact v ≤ s.dmax) →
        ((picked f s.n).length < s.n → hits.length = min topk (picked f s.n).length) ∧
        (s.n ≤ ef → AllReachable s → Nearest s.exact topk hits (picked f s.n))) := by
  have hfin : (∀ v, f.sel v = true → s.exact v ≤ s.dmax) → finite s.dmax s.exact (picked f s.n) = picked f s.n :=
    fun h => finite_all (fun v hv => h v ((mem_picked hf).mp hv))
  have hblank : blank s.w topk = [] ++ List.replicate (topk - ([] : List Nat).length) noId := by
    rw [hs.w]; simp [blank]
  have viaBitset : ∃ hits out, (∀ extra, (match s.bitset topk ef (s.n + 1 + extra) f (blank s.w topk) with
        | none => none
        | some none => some none
        | some (some r) => some (some (s.items topk r))) = some (some out)) ∧ Answer f.sel s.exact s.item topk hits out ∧
      (hint ≠ .iterative → (∀ v, f.sel v = true → s.exact v ≤ s.dmax) →
        ((picked f s.n).length < s.n → hits.length = min topk (picked f s.n).length) ∧
        (s.n ≤ ef → AllReachable s → Nearest s.exact topk hits (picked f s.n))) := by
    obtain ⟨hits, k, b1, b2, b3, b4, b5, b6, b7, b8⟩ := bitset_spec s hs f hf hne hk hke
    refine ⟨hits, _, fun extra => by rw [b6 extra], ?_, fun _ h => ⟨b7 h, b8 h⟩⟩
    exact items_answer s hs.w (by omega) (fun v hv => ne_noId hs (hf.lt v (b4 v hv))) b1 b4 b5 b2 b3
  unfold Space.hybrid
  simp only [if_neg (show ¬(topk = 0 ∨ ef < topk) by omega), hne, Bool.false_eq_true, if_false]
  cases hint with
  | noIterative => exact viaBitset
  | auto =>
    simp only
    by_cases hbp : (f.fast.isSome && s.brutePays topk ((f.fast.getD []).length)) = true
    · simp only [hbp, if_true]
      obtain ⟨hits, hn, hb⟩ := brute_spec s f hf hne hk
      have hnd := Nearest.nodup hn (finite_nodup (picked_nodup f s.n))
      have hselb : ∀ v ∈ hits, f.sel v = true := fun v hv => (mem_picked hf).mp (finite_sub (Nearest.mem hn hv))
      have hlenb : hits.length ≤ topk := by rw [hn.2.1]; omega
      refine ⟨hits, s.items topk (hits ++ List.replicate (topk - hits.length) noId, hits.length), ?_, ?_, ?_⟩
      · intro extra
        rw [hblank, hb [] (by simp)]
        rfl
      · exact items_answer s hs.w hlenb (fun v hv => ne_noId hs (hf.lt v (hselb v hv))) hnd hselb hn.1 (Nat.le_refl _) hlenb
      · intro _ h
        have h2 := hn
        rw [hfin h] at h2
        exact ⟨fun _ => h2.2.1, fun _ _ => h2⟩
    · simp only [hbp]
      exact viaBitset
  | iterative =>
    obtain ⟨hits, c1, c2, c3, c4, c5⟩ := iterative_spec s hs f hf hne (topk := topk) (ef := ef) hk (by omega)
    refine ⟨hits, s.items topk (hits ++ List.replicate (topk - hits.length) noId, hits.length), ?_, ?_, fun h => absurd rfl h⟩
    · intro extra
      simp only
      rw [c5 extra]
      rfl
    · exact items_answer s hs.w c2 (fun v hv => ne_noId hs (hf.lt v (c3 v hv))) c1 c3 c4 (Nat.le_refl _) c2

/-- The brute-force search returns the nearest matching rows, and all of them if there are at most `topk` (finite distances). -/
theorem C68_brute_force_exact (s : Space) (hw : s.w = 1) (hsm : s.n ≤ 2147483648) (f : Flt) (hf : FltOk f s.n) (hne : f.empty = false)
    (topk : Nat) (hk : 0 < topk) (hd : ∀ v, f.sel v = true → s.exact v ≤ s.dmax) :
    ∃ hits out, s.hybridBrute topk f = some (some out) ∧ Answer f.sel s.exact s.item topk hits out ∧
      Nearest s.exact topk hits (picked f s.n) := by
  obtain ⟨hits, hn, hb⟩ := brute_spec s f hf hne hk
  have hselb : ∀ v ∈ hits, f.sel v = true := fun v hv => (mem_picked hf).mp (finite_sub (Nearest.mem hn hv))
  have hnd := Nearest.nodup hn (finite_nodup (picked_nodup f s.n))
  have hlenb : hits.length ≤ topk := by rw [hn.2.1]; omega
  have hblank : blank s.w topk = [] ++ List.replicate (topk - ([] : List Nat).length) noId := by
    rw [hw]; simp [blank]
  refine ⟨hits, s.items topk (hits ++ List.replicate (topk - hits.length) noId, hits.length), ?_, ?_, ?_⟩
  · unfold Space.hybridBrute
    rw [if_neg (by omega), hblank, hb [] (by simp)]
  · refine items_answer s hw hlenb ?_ hnd hselb hn.1 (Nat.le_refl _) hlenb
    intro v hv
    have := hf.lt v (hselb v hv)
    unfold noId
    omega
  · rw [finite_all (fun v hv => hd v ((mem_picked hf).mp hv))] at hn
    exact hn

/-- `topk = 0` and `ef < topk` are refused before anything is read. -/
theorem C68_bad_parameters_refused (s : Space) (f : Flt) (topk ef fuel : Nat) (hint : Hint) (h : topk = 0 ∨ ef < topk) :
    s.hybrid topk ef fuel hint f = some none := by
  unfold Space.hybrid
  rw [if_pos h]

/-! ### What does not hold -/

/-- A space of `n` rows with the given rows, 32-bit ids. -/
def exSpace (rows : List (List Nat)) (w : Nat) (exact : Nat → Int) : Space :=
  ⟨⟨rows, [0], none⟩, rows.length, w, exact, exact, fun i => ["a", "b", "c", "d", "e", "f", "g", "h", "i"].getD i "", 1000,
    fun n => n * 93 / 100, fun k n m => k * n / m, false, TopK.sortedHeap TopK.Hit.weak⟩

/-- With 64-bit ids the results are written as 32-bit words, two into one id: two matching rows, no item id is returned. -/
theorem C68_wide_ids_refuted :
    (exSpace [[1, noId], [2, noId], [0, noId]] 2 (fun i => i)).hybridBrute 2 ⟨false, none, fun i => decide (i = 1 ∨ i = 2)⟩ =
      some (some ([some (1 + 4294967296 * 2), none], ["", ""])) ∧
    (exSpace [[1, noId], [2, noId], [0, noId]] 1 (fun i => i)).hybridBrute 2 ⟨false, none, fun i => decide (i = 1 ∨ i = 2)⟩ =
      some (some ([some 1, some 2], ["b", "c"])) := by decide +kernel

/-- If every row matches, rows that cannot be reached in the graph are not returned although `topk` asks for all. -/
theorem C68_all_match_unreachable_refuted :
    (exSpace [[1, noId], [0, noId], [0, noId]] 1 (fun i => i)).hybrid 3 10 4 .noIterative ⟨false, none, fun i => decide (i < 3)⟩ =
      some (some ([some 0, some 1, none], ["a", "b", ""])) := by decide +kernel

/-- A matching row at infinite distance is dropped even if there is room. -/
theorem C68_infinite_distance_refuted :
    (exSpace [[1, noId], [0, noId], [0, noId]] 1 (fun i => if i = 2 then 1001 else i)).hybridBrute 3 ⟨false, none, fun i => decide (i = 0 ∨ i = 2)⟩ =
      some (some ([some 0, none, none], ["a", "", ""])) := by decide +kernel

/-- With the iterative hint a matching, reachable row is missed: the candidate list of `ef` nodes has dropped it. -/
theorem C68_iterative_incomplete_refuted :
    (exSpace [[1, 2, 3, noId], [0, noId], [0, noId], [0, noId]] 1 (fun i => i)).hybrid 1 2 5 .iterative ⟨false, none, fun i => decide (i = 3)⟩ =
      some (some ([none], [""])) ∧
    (exSpace [[1, 2, 3, noId], [0, noId], [0, noId], [0, noId]] 1 (fun i => i)).hybrid 1 2 5 .auto ⟨false, none, fun i => decide (i = 3)⟩ =
      some (some ([some 3], ["d"])) := by decide +kernel

/-! ### A concrete case -/

theorem ringRow (n u : Nat) (h : u < n) : ((List.range n).map (fun i => [(i + 1) % n, noId]))[u]? = some [(u + 1) % n, noId] := by
  rw [List.getElem?_map, List.getElem?_range h]; rfl

theorem ring_nbrs (n u : Nat) (h : u < n) (hn : n ≤ 2147483648) :
    nbrs ((List.range n).map (fun i => [(i + 1) % n, noId])) u = [(u + 1) % n] := by
  unfold nbrs
  rw [ringRow n u h]
  have : (u + 1) % n ≠ 4294967295 := by have := Nat.mod_lt (u + 1) (y := n) (by omega); omega
  simp [this, noId]

/-- Nine rows in a ring meet the hypotheses. -/
theorem ring_ok : SpaceOk (exSpace ((List.range 9).map (fun i => [(i + 1) % 9, noId])) 1 (fun i => i)) := by
  refine ⟨rfl, ⟨by decide, by decide, ?_, by decide, by simp [exSpace]⟩, fun _ => rfl⟩
  intro u hu v hv
  have hu' : u < 9 := hu
  rw [show (exSpace ((List.range 9).map (fun i => [(i + 1) % 9, noId])) 1 (fun i => i)).g.rows =
    (List.range 9).map (fun i => [(i + 1) % 9, noId]) from rfl, ring_nbrs 9 u hu' (by omega)] at hv
  simp at hv
  show v < 9
  omega

theorem ring_reachable : AllReachable (exSpace ((List.range 9).map (fun i => [(i + 1) % 9, noId])) 1 (fun i => i)) := by
  intro S hS i hi
  have h0 : S = [0] := hS.1 rfl
  subst h0
  have hi' : i < 9 := hi
  clear hi
  induction i with
  | zero => exact .seed (by simp)
  | succ i ih =>
    refine .step (ih (by omega)) ?_
    have := ring_nbrs 9 i (by omega) (by omega)
    show i + 1 ∈ nbrs ((List.range 9).map (fun i => [(i + 1) % 9, noId])) i
    rw [this]
    simp
    omega

example : FltOk ⟨false, none, fun i => decide (i < 8) && decide (i % 2 = 1 ∨ i > 1)⟩ 9 :=
  ⟨fun _ => rfl, by simp, by intro q hq; simp at hq; show q < 9; omega⟩
/-- Seven of nine rows match: the masked search in the graph. -/
example : (exSpace ((List.range 9).map (fun i => [(i + 1) % 9, noId])) 1 (fun i => i)).hybrid 2 9 10 .auto
    ⟨false, none, fun i => decide (i < 8) && decide (i % 2 = 1 ∨ i > 1)⟩ = some (some ([some 1, some 2], ["b", "c"])) := by decide +kernel
/-- With `ef = 2` it also works: the way leads through rows that do not match. -/
example : (exSpace ((List.range 9).map (fun i => [(i + 1) % 9, noId])) 1 (fun i => -i)).hybrid 2 2 10 .auto
    ⟨false, none, fun i => decide (i < 8) && decide (i % 2 = 1 ∨ i > 1)⟩ = some (some ([some 7, some 6], ["h", "g"])) := by decide +kernel
/-- Index fast path and exact scan. -/
example : (exSpace ((List.range 9).map (fun i => [(i + 1) % 9, noId])) 1 (fun i => -i)).hybrid 2 2 10 .auto
    ⟨false, some [4, 2], fun i => decide (i = 2 ∨ i = 4)⟩ = some (some ([some 4, some 2], ["e", "c"])) := by decide +kernel

end Alaya.Hybrid
