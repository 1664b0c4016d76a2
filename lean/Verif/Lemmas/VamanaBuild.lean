import Verif.Model.VamanaBuild
import Verif.Lemmas.GreedySearch
import Verif.Props.C28

namespace Alaya.VBuild
open Alaya.Pools Alaya.Spec

/-- Parameters for which the builder is used. -/
structure Cfg.Ok (c : Cfg) : Prop where
  n : c.medoid < c.n
  R : 0 < c.R
  L : 0 < c.L
  maxc : 0 < c.maxc
  chunk : 0 < c.chunk
  one : F32.le F32.one c.alpha = true
  big : F32.gt F32.big c.alpha = true

theorem prune_none {A : Type} (F : Arith A) (loc : Nat) (alpha : A) (range maxc fuel : Nat) :
    prune F loc [] alpha range maxc fuel = some [] := by
  unfold prune; rw [if_pos rfl]

/-- What the pruning does. -/
theorem Cfg.prune_spec {c : Cfg} (hc : c.Ok) {loc : Nat} {pool : List Nbr} (hn : (pool.map Nbr.id).Nodup) (hloc : ∀ p ∈ pool, p.id ≠ loc) :
    ∃ l, c.prune loc pool = some l ∧ l.length ≤ c.R ∧ loc ∉ l ∧ l.Nodup ∧ (∀ i ∈ l, ∃ p ∈ pool, p.id = i) ∧ (pool ≠ [] → l ≠ []) := by
  have hinf : c.alpha ≠ .inf := by
    intro e
    have := hc.big
    rw [e] at this
    exact absurd this (by decide)
  obtain ⟨l, hl⟩ := C28_terminates_partial c.upd loc pool c.alpha c.R c.maxc hinf
  have e := hl 487 (Nat.le_refl _)
  obtain ⟨h1, h2, h3⟩ := C28_subset (F32.arith c.upd) loc pool c.alpha c.R c.maxc 487 l e
  refine ⟨l, e, h1, h2, C28_nodup_partial c.upd loc pool c.alpha c.R c.maxc 487 l hc.big hn e, h3, ?_⟩
  intro hp
  obtain ⟨n, _, hh, _⟩ := C28_nearest c.upd loc pool c.alpha c.R c.maxc 487 l hc.one hc.R hc.maxc hp hloc e
  intro hnil
  rw [hnil] at hh
  cases hh

theorem poolOf_spec (d : Nat → Int) (self : Nat) : ∀ (l : List Nat) (acc : List Nbr), (acc.map Nbr.id).Nodup → (∀ p ∈ acc, p.id ≠ self) →
    ((poolOf d self l acc).map Nbr.id).Nodup ∧ (∀ p ∈ poolOf d self l acc, p.id ≠ self) ∧
    (∀ i, (∃ p ∈ poolOf d self l acc, p.id = i) ↔ (∃ p ∈ acc, p.id = i) ∨ (i ∈ l ∧ i ≠ self)) := by
  intro l
  induction l with
  | nil => intro acc h1 h2; exact ⟨h1, h2, by intro i; simp [poolOf]⟩
  | cons v vs ih =>
    intro acc h1 h2
    unfold poolOf
    split
    · rename_i hv
      obtain ⟨a, b, d'⟩ := ih acc h1 h2
      refine ⟨a, b, fun i => ?_⟩
      rw [d' i]
      constructor
      · rintro (h | ⟨h, h'⟩)
        · exact .inl h
        · exact .inr ⟨List.mem_cons_of_mem _ h, h'⟩
      · rintro (h | ⟨h, h'⟩)
        · exact .inl h
        · rcases List.mem_cons.mp h with h | h
          · exact absurd (h.trans hv) h'
          · exact .inr ⟨h, h'⟩
    · rename_i hv
      split
      · rename_i hany
        obtain ⟨q, hq, e⟩ := List.any_eq_true.mp hany
        have e : q.id = v := by simpa using e
        obtain ⟨a, b, d'⟩ := ih acc h1 h2
        refine ⟨a, b, fun i => ?_⟩
        rw [d' i]
        constructor
        · rintro (h | ⟨h, h'⟩)
          · exact .inl h
          · exact .inr ⟨List.mem_cons_of_mem _ h, h'⟩
        · rintro (h | ⟨h, h'⟩)
          · exact .inl h
          · rcases List.mem_cons.mp h with h | h
            · exact .inl ⟨q, hq, e.trans h.symm⟩
            · exact .inr ⟨h, h'⟩
      · rename_i hany
        have hnot : ∀ q ∈ acc, q.id ≠ v := by
          intro q hq e
          exact hany (List.any_eq_true.mpr ⟨q, hq, by simpa using e⟩)
        obtain ⟨a, b, d'⟩ := ih (acc ++ [⟨v, d v, false⟩])
          (by
            rw [List.map_append, List.nodup_append]
            refine ⟨h1, by simp, ?_⟩
            intro x hx y hy
            obtain ⟨q, hq, e⟩ := List.mem_map.mp hx
            have : y = v := by simpa using hy
            rw [← e, this]
            exact hnot q hq)
          (by
            intro p hp
            rcases List.mem_append.mp hp with hp | hp
            · exact h2 p hp
            · have : p = ⟨v, d v, false⟩ := by simpa using hp
              rw [this]; exact hv)
        refine ⟨a, b, fun i => ?_⟩
        rw [d' i]
        constructor
        · rintro (⟨p, hp, e⟩ | ⟨h, h'⟩)
          · rcases List.mem_append.mp hp with hp | hp
            · exact .inl ⟨p, hp, e⟩
            · have : p = ⟨v, d v, false⟩ := by simpa using hp
              rw [this] at e
              right
              rw [← e]
              exact ⟨List.mem_cons_self, hv⟩
          · exact .inr ⟨List.mem_cons_of_mem _ h, h'⟩
        · rintro (⟨p, hp, e⟩ | ⟨h, h'⟩)
          · exact .inl ⟨p, List.mem_append_left _ hp, e⟩
          · rcases List.mem_cons.mp h with h | h
            · exact .inl ⟨⟨v, d v, false⟩, by simp, h.symm⟩
            · exact .inr ⟨h, h'⟩

/-- State of the search for a node while the graph changes. -/
structure TInv (c : Cfg) (d : Nat → Int) (s : Scratch) (pool : List Nbr) : Prop where
  q : QInv c.L s.pool (s.touched.map (cand d)) (pool.map Nbr.key)
  vlen : s.visited.length = c.n
  vis : ∀ i, i < c.n → s.visited[i]? = some (decide (i ∈ s.touched))
  tnd : s.touched.Nodup
  tlt : ∀ t ∈ s.touched, t < c.n

theorem TInv.scratch {c : Cfg} {d : Nat → Int} {s : Scratch} {pool : List Nbr} (h : TInv c d s pool) : ScratchOk s := by
  refine ⟨fun t ht => by rw [h.vlen]; exact h.tlt t ht, fun i hi => ?_⟩
  have hil := (List.getElem?_eq_some_iff.mp hi).1
  rw [h.vlen] at hil
  rw [h.vis i hil] at hi
  simpa using hi

theorem TInv.visit {c : Cfg} {d : Nat → Int} {s : Scratch} {pool : List Nbr} {m : Nat} (h : TInv c d s pool) (hm : m ∉ s.touched)
    (hlt : m < c.n) : ∃ s', s.visit d m = some s' ∧ TInv c d s' pool ∧ s'.touched = s.touched ++ [m] := by
  obtain ⟨q, vlen, vis, tnd, tlt⟩ := h
  unfold Scratch.visit setAt
  rw [if_pos (by omega)]
  simp only
  obtain ⟨p', r, e1, h1, -⟩ := q.insert ⟨m, d m, false⟩ (by
    intro x hx hid
    obtain ⟨t, ht, rfl⟩ := List.mem_map.mp hx
    have : t = m := hid
    subst this; rfl)
  rw [e1]
  simp only
  have hk : Nbr.key ⟨m, d m, false⟩ = cand d m := rfl
  rw [hk, if_neg (by
    intro hx
    obtain ⟨t, ht, he⟩ := List.mem_map.mp hx
    have : t = m := congrArg Prod.fst he
    subst this; exact hm ht)] at h1
  refine ⟨_, rfl, ⟨by simpa using h1, by simpa using vlen, ?_, ?_, ?_⟩, rfl⟩
  · intro i hi
    simp only
    rw [List.getElem?_set]
    by_cases him : m = i
    · subst him; rw [if_pos rfl, if_pos (by omega)]; simp
    · rw [if_neg him, vis i hi]
      have : i ≠ m := fun h => him h.symm
      simp [this]
  · rw [List.nodup_append]
    refine ⟨tnd, by simp, ?_⟩
    intro a ha b hb
    simp at hb; subst hb
    intro hab; subst hab; exact hm ha
  · intro t ht
    rcases List.mem_append.mp ht with h' | h'
    · exact tlt t h'
    · simp at h'; omega

theorem TInv.visitAll {c : Cfg} {d : Nat → Int} {pool : List Nbr} (l : List Nat) : ∀ {s : Scratch}, TInv c d s pool → (∀ m ∈ l, m < c.n) →
    ∃ s', s.visitAll d l = some s' ∧ TInv c d s' pool ∧ (∀ t ∈ s.touched, t ∈ s'.touched) ∧ (∀ m ∈ l, m ∈ s'.touched) ∧
      (l = [] → s'.touched = s.touched) := by
  induction l with
  | nil => intro s h _; exact ⟨s, rfl, h, fun t ht => ht, by simp, fun _ => rfl⟩
  | cons m l ih =>
    intro s h hlt
    unfold Scratch.visitAll
    rw [h.vis m (hlt m (by simp))]
    by_cases hm : m ∈ s.touched
    · simp only [hm, decide_true]
      obtain ⟨s', e, h1, h2, h3, _⟩ := ih h (fun k hk => hlt k (by simp [hk]))
      refine ⟨s', e, h1, h2, ?_, by simp⟩
      intro k hk
      rcases List.mem_cons.mp hk with rfl | hk
      · exact h2 _ hm
      · exact h3 k hk
    · simp only [hm, decide_false]
      obtain ⟨s1, e1, h1, ht1⟩ := h.visit hm (hlt m (by simp))
      rw [e1]
      simp only
      obtain ⟨s2, e2, k1, k2, k3, _⟩ := ih h1 (fun k hk => hlt k (by simp [hk]))
      refine ⟨s2, e2, k1, fun t ht => k2 t (by rw [ht1]; simp [ht]), ?_, by simp⟩
      intro k hk
      rcases List.mem_cons.mp hk with rfl | hk
      · exact k2 _ (by rw [ht1]; simp)
      · exact k3 k hk

theorem TInv.start {c : Cfg} (hc : c.Ok) (d : Nat → Int) {s : Scratch} (h : ScratchOk s) :
    ∃ s0 s1, s.prepare c.n c.L = some s0 ∧ s0.visit d c.medoid = some s1 ∧ TInv c d s1 [] ∧ s1.touched = [c.medoid] := by
  have h0 : TInv c d ⟨List.replicate c.n false, [], s.pool.reset c.L⟩ [] := by
    refine ⟨QInv.reset _ _, by simp, ?_, by simp, by simp⟩
    intro i hi
    simp [hi]
  obtain ⟨s1, e1, h1, ht⟩ := h0.visit (m := c.medoid) (by simp) hc.n
  exact ⟨_, s1, prepare_ok h _ _, e1, h1, by simpa using ht⟩

theorem TInv.pool_lt {c : Cfg} {d : Nat → Int} {s : Scratch} {pool : List Nbr} (h : TInv c d s pool) :
    (pool.map Nbr.id).Nodup ∧ ∀ p ∈ pool, p.id ∈ s.touched := by
  have hsub : ∀ p ∈ pool, ∃ t ∈ s.touched, p.key = cand d t := by
    intro p hp
    obtain ⟨t, ht, e⟩ := List.mem_map.mp (h.q.psub p.key (List.mem_map.mpr ⟨p, hp, rfl⟩))
    exact ⟨t, ht, e.symm⟩
  refine ⟨?_, fun p hp => ?_⟩
  · have hn := h.q.pnd
    clear h
    induction pool with
    | nil => exact List.nodup_nil
    | cons p pool ih =>
      rw [List.map_cons, List.nodup_cons] at hn ⊢
      refine ⟨fun hm => hn.1 ?_, ih (fun q hq => hsub q (List.mem_cons_of_mem _ hq)) hn.2⟩
      obtain ⟨q, hq, e⟩ := List.mem_map.mp hm
      obtain ⟨t, _, e1⟩ := hsub p List.mem_cons_self
      obtain ⟨t', _, e2⟩ := hsub q (List.mem_cons_of_mem _ hq)
      refine List.mem_map.mpr ⟨q, hq, ?_⟩
      have a1 : p.id = t := congrArg Prod.fst e1
      have a2 : q.id = t' := congrArg Prod.fst e2
      rw [e1, e2, ← a1, ← a2, e]
  · obtain ⟨t, ht, e⟩ := hsub p hp
    have : p.id = t := congrArg Prod.fst e
    rw [this]; exact ht

theorem TInv.pool_len {c : Cfg} {d : Nat → Int} {s : Scratch} {pool : List Nbr} (h : TInv c d s pool) : pool.length ≤ c.n := by
  obtain ⟨h1, h2⟩ := h.pool_lt
  have := nodup_subset_length (l2 := List.range c.n) h1 (by
    intro i hi
    obtain ⟨p, hp, rfl⟩ := List.mem_map.mp hi
    simpa using h.tlt _ (h2 p hp))
  simpa using this

/-- One round. -/
theorem TInv.expand {c : Cfg} {d : Nat → Int} {s : Scratch} {pool : List Nbr} (h : TInv c d s pool) (hu : s.pool.hasUnexpanded = true) :
    ∃ q nb, s.pool.closest = some (q, nb) ∧ TInv c d { s with pool := q } (pool ++ [nb]) ∧ nb.id ∈ s.touched := by
  obtain ⟨q', x, e1, h1, h2, -, -, -⟩ := h.q.closest hu
  have hxo : x.key ∈ s.touched.map (cand d) := Best.mem h.q.best h2
  obtain ⟨t, ht, hte⟩ := List.mem_map.mp hxo
  have hxt : x.id = t := (congrArg Prod.fst hte).symm
  refine ⟨q', x, e1, ⟨by rw [List.map_append]; exact h1, h.vlen, h.vis, h.tnd, h.tlt⟩, by rw [hxt]; exact ht⟩

/-- At the end as many nodes have been expanded as the queue can hold, or all that were seen. -/
theorem TInv.full {c : Cfg} {d : Nat → Int} {s : Scratch} {pool : List Nbr} (h : TInv c d s pool) (hu : s.pool.hasUnexpanded = false) :
    min c.L s.touched.length ≤ pool.length := by
  obtain ⟨_, hlen, rest, hp, _⟩ := h.q.best
  have hel := h.q.len
  have hall : ∀ e ∈ s.pool.entries, e.key ∈ pool.map Nbr.key := by
    intro e he
    obtain ⟨i, hi⟩ := List.getElem?_of_mem he
    have hil := (List.getElem?_eq_some_iff.mp hi).1
    have hc1 : ¬ s.pool.cur < s.pool.size := by simpa [NPQ.hasUnexpanded] using hu
    exact (h.q.flag e he).mp (h.q.cur.2.1 i e (by omega) hi)
  have hnd := h.q.keys_nodup
  have := nodup_subset_length hnd (by
    intro k hk
    obtain ⟨e, he, rfl⟩ := List.mem_map.mp hk
    exact hall e he)
  simp only [List.length_map] at this hlen
  omega

end Alaya.VBuild
