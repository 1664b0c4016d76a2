import Verif.Model.HybridSearch
import Verif.Spec.HybridSearch
import Verif.Props.C67

namespace Alaya.Hybrid
open Alaya Alaya.Pools Alaya.Spec Alaya.MemSearch Alaya.MemSearch.Spec Alaya.Hybrid.Spec

/-! ### The result buffer -/

theorem lbLoop_spec {data : List (Nat × Int)} {d : Int} {size : Nat} (hlen : size ≤ data.length)
    (hs : ∀ (i j : Nat) (ei ej : Nat × Int), i ≤ j → j < size → data[i]? = some ei → data[j]? = some ej → ei.2 ≤ ej.2) (f : Nat) :
    ∀ lo len, len ≤ f + 1 → 1 ≤ len → lo + len ≤ size →
    (∀ (i : Nat) (e : Nat × Int), i < lo → data[i]? = some e → e.2 < d) →
    (∀ (i : Nat) (e : Nat × Int), lo + len ≤ i → i < size → data[i]? = some e → d ≤ e.2) →
    ∃ lo', lbLoop data d f lo len = some lo' ∧ lo' < size ∧
      (∀ (i : Nat) (e : Nat × Int), i < lo' → data[i]? = some e → e.2 < d) ∧
      (∀ (i : Nat) (e : Nat × Int), lo' + 1 ≤ i → i < size → data[i]? = some e → d ≤ e.2) := by
  induction f with
  | zero =>
    intro lo len h1 h2 h3 ha hb
    have : len = 1 := by omega
    subst this
    exact ⟨lo, rfl, by omega, ha, hb⟩
  | succ f ih =>
    intro lo len h1 h2 h3 ha hb
    unfold lbLoop
    by_cases hl : 1 < len
    · rw [if_pos hl]
      have hme : data[lo + len / 2 - 1]? = some data[lo + len / 2 - 1] := List.getElem?_eq_getElem (by omega)
      rw [hme]
      generalize data[lo + len / 2 - 1] = e at *
      simp only
      by_cases he : e.2 < d
      · rw [if_pos he]
        refine ih _ _ (by omega) (by omega) (by omega) ?_ ?_
        · intro i ei hi hie
          have := hs i (lo + len / 2 - 1) ei e (by omega) (by omega) hie hme
          omega
        · intro i ei hi hi2 hie
          exact hb i ei (by omega) hi2 hie
      · rw [if_neg he]
        refine ih _ _ (by omega) (by omega) (by omega) ha ?_
        intro i ei hi hi2 hie
        have := hs (lo + len / 2 - 1) i e ei (by omega) hi2 hme hie
        omega
    · rw [if_neg hl]
      have : len = 1 := by omega
      subst this
      exact ⟨lo, rfl, by omega, ha, hb⟩

theorem search_spec {b : SBuf} {d : Int} (hlen : b.size ≤ b.data.length)
    (hs : ∀ (i j : Nat) (ei ej : Nat × Int), i ≤ j → j < b.size → b.data[i]? = some ei → b.data[j]? = some ej → ei.2 ≤ ej.2) :
    ∃ lo, b.search d = some lo ∧ lo ≤ b.size ∧ (∀ (i : Nat) (e : Nat × Int), i < lo → b.data[i]? = some e → e.2 < d) ∧
      (∀ (i : Nat) (e : Nat × Int), lo ≤ i → i < b.size → b.data[i]? = some e → d ≤ e.2) := by
  unfold SBuf.search
  by_cases h0 : b.size = 0
  · rw [h0]
    exact ⟨0, rfl, by omega, by intro i e hi; omega, by intro i e hi hi2; omega⟩
  · obtain ⟨lo, e1, h1, ha, hb⟩ := lbLoop_spec (d := d) hlen hs b.size 0 b.size (by omega) (by omega) (by omega)
      (by intro i e hi; omega) (by intro i e hi hi2; omega)
    rw [e1]
    simp only
    rw [if_pos h1]
    have hme : b.data[lo]? = some b.data[lo] := List.getElem?_eq_getElem (by omega)
    rw [hme]
    generalize b.data[lo] = e at *
    simp only
    by_cases he : e.2 < d
    · rw [if_pos he]
      refine ⟨lo + 1, rfl, by omega, ?_, hb⟩
      intro i ei hi hie
      by_cases h : i = lo
      · subst h; rw [hme] at hie; cases hie; exact he
      · exact ha i ei (by omega) hie
    · rw [if_neg he]
      refine ⟨lo, rfl, by omega, ha, ?_⟩
      intro i ei hi hi2 hie
      by_cases h : i = lo
      · subst h; rw [hme] at hie; cases hie; omega
      · exact hb i ei (by omega) hi2 hie

/-- The candidates among `off` whose distance is a finite number, with their distances. -/
def finite (dmax : Int) (exact : Nat → Int) (off : List Nat) : List Nat := off.filter (fun v => decide (exact v ≤ dmax))

structure BInv (dmax : Int) (exact : Nat → Int) (cap : Nat) (b : SBuf) (off : List Nat) : Prop where
  hcap : b.cap = cap
  dlen : b.data.length = cap + 1
  size : b.size ≤ cap
  best : Best leD cap (b.data.take b.size) ((finite dmax exact off).map (MemSearch.cand exact))

theorem BInv.new (dmax : Int) (exact : Nat → Int) (cap : Nat) : BInv dmax exact cap (SBuf.new cap) [] :=
  ⟨rfl, by simp [SBuf.new], by simp [SBuf.new], by simpa [SBuf.new, finite] using Best.nil⟩

theorem BInv.insert {dmax : Int} {exact : Nat → Int} {cap : Nat} {b : SBuf} {off : List Nat} (h : BInv dmax exact cap b off) (hc : 0 < cap)
    (v : Nat) : ∃ b', b.insert dmax v (exact v) = some b' ∧ BInv dmax exact cap b' (off ++ [v]) := by
  obtain ⟨hcap, dlen, hsize, best⟩ := h
  have hel : (b.data.take b.size).length = b.size := by rw [List.length_take]; omega
  have hsorted : ∀ (i j : Nat) (ei ej : Nat × Int), i ≤ j → j < b.size → b.data[i]? = some ei → b.data[j]? = some ej → ei.2 ≤ ej.2 := by
    intro i j ei ej hij hj hi hej
    by_cases he : i = j
    · subst he; rw [hi] at hej; cases hej; exact Int.le_refl _
    · have hpw := best.1
      rw [List.pairwise_iff_getElem] at hpw
      have := hpw i j (by omega) (by omega) (by omega)
      rw [List.getElem_take, List.getElem_take] at this
      have hbi := (List.getElem?_eq_some_iff.mp hi)
      have hbj := (List.getElem?_eq_some_iff.mp hej)
      obtain ⟨_, rfl⟩ := hbi
      obtain ⟨_, rfl⟩ := hbj
      exact this
  have hfin : ∀ y ∈ b.data.take b.size, y.2 ≤ dmax := by
    intro y hy
    obtain ⟨t, ht, rfl⟩ := List.mem_map.mp (Best.mem best hy)
    have := (List.mem_filter.mp ht).2
    show exact t ≤ dmax
    simpa using this
  have hlast : b.size = b.cap → ∃ last, b.data[b.size - 1]? = some last ∧ (∀ y ∈ b.data.take b.size, y.2 ≤ last.2) ∧ last.2 ≤ dmax := by
    intro hf
    have hle : b.data[b.size - 1]? = some b.data[b.size - 1] := List.getElem?_eq_getElem (by omega)
    refine ⟨_, hle, ?_, ?_⟩
    · intro y hy
      obtain ⟨i, hi⟩ := List.getElem?_of_mem hy
      have hil := (List.getElem?_eq_some_iff.mp hi).1
      rw [List.getElem?_take, if_pos (by omega)] at hi
      exact hsorted i (b.size - 1) y _ (by omega) (by omega) hi hle
    · apply hfin
      have : (b.data.take b.size)[b.size - 1]? = some b.data[b.size - 1] := by rw [List.getElem?_take, if_pos (by omega), hle]
      exact List.mem_of_getElem? this
  have hfa : finite dmax exact (off ++ [v]) = finite dmax exact off ++ (if exact v ≤ dmax then [v] else []) := by
    unfold finite
    rw [List.filter_append]
    by_cases hv : exact v ≤ dmax <;> simp [hv]
  obtain ⟨t, ht, hle, href⟩ : ∃ t, b.topDist dmax = some t ∧ t ≤ dmax ∧ (t < exact v → exact v ≤ dmax → b.size = cap ∧ ∀ y ∈ b.data.take b.size, y.2 ≤ t) := by
    unfold SBuf.topDist
    by_cases h0 : b.size = 0 ∨ b.cap = 0
    · rw [if_pos h0]; exact ⟨_, rfl, Int.le_refl _, by intro a b; omega⟩
    · rw [if_neg h0]
      by_cases hf : b.size = b.cap
      · rw [if_pos hf]
        obtain ⟨last, k1, k2, k3⟩ := hlast hf
        rw [k1]
        exact ⟨last.2, rfl, k3, fun _ _ => ⟨by omega, k2⟩⟩
      · rw [if_neg hf]; exact ⟨_, rfl, Int.le_refl _, by intro a b; omega⟩
  unfold SBuf.insert
  rw [if_neg (by omega), ht]
  simp only
  by_cases hd : exact v > t
  · rw [if_pos hd]
    refine ⟨b, rfl, hcap, dlen, hsize, ?_⟩
    rw [hfa]
    by_cases hv : exact v ≤ dmax
    · rw [if_pos hv, List.map_append]
      obtain ⟨hfull, hall⟩ := href hd hv
      refine Best.refuse best (by omega) ?_
      intro y hy
      have := hall y hy
      show y.2 ≤ exact v
      omega
    · rw [if_neg hv, List.append_nil]; exact best
  · rw [if_neg hd]
    have hv : exact v ≤ dmax := by omega
    obtain ⟨lo, e1, h1, ha, hb⟩ := search_spec (b := b) (d := exact v) (by omega) hsorted
    rw [e1]
    simp only
    obtain ⟨d', f1, f2, f3⟩ := insertAt_spec (data := b.data) (lo := lo) (size := b.size) (v, exact v) h1 (by omega)
    rw [f1]
    simp only
    refine ⟨_, rfl, hcap, by rw [f2, dlen], by simp only; split <;> omega, ?_⟩
    rw [hfa, if_pos hv, List.map_append]
    have hbb := Best.insert (fun a b c (x : leD a b) (y : leD b c) => Int.le_trans x y) best (lo := lo) (x := (v, exact v)) (by
      intro e he
      obtain ⟨k, hk⟩ := List.getElem?_of_mem he
      rw [List.getElem?_take] at hk
      split at hk
      · rw [List.getElem?_take] at hk
        split at hk
        · have := ha k e (by omega) hk
          show e.2 ≤ exact v
          omega
        · cases hk
      · cases hk) (by
      intro e he
      obtain ⟨k, hk⟩ := List.getElem?_of_mem he
      rw [List.getElem?_drop, List.getElem?_take] at hk
      split at hk
      · exact hb (lo + k) e (by omega) (by omega) hk
      · cases hk)
    have he : d'.take (if b.size < b.cap then b.size + 1 else b.size) =
        ((b.data.take b.size).take lo ++ (v, exact v) :: (b.data.take b.size).drop lo).take cap := by
      rw [f3 _ (by split <;> omega), List.take_eq_take_iff]
      have : ((b.data.take b.size).take lo ++ (v, exact v) :: (b.data.take b.size).drop lo).length = b.size + 1 := by
        simp; omega
      rw [this]
      split <;> omega
    show Best leD cap (d'.take _) _
    rw [he]
    exact hbb

theorem BInv.insertAll {dmax : Int} {exact : Nat → Int} {cap : Nat} (hc : 0 < cap) (vs : List Nat) : ∀ {b : SBuf} {off : List Nat},
    BInv dmax exact cap b off → ∃ b', b.insertAll dmax exact vs = some b' ∧ BInv dmax exact cap b' (off ++ vs) := by
  induction vs with
  | nil => intro b off h; exact ⟨b, rfl, by simpa using h⟩
  | cons v vs ih =>
    intro b off h
    obtain ⟨b1, e1, h1⟩ := h.insert hc v
    obtain ⟨b2, e2, h2⟩ := ih h1
    refine ⟨b2, ?_, by simpa using h2⟩
    unfold SBuf.insertAll
    rw [e1]
    exact e2

/-- From candidates with distances to candidates. -/
theorem nearest_of {exact : Nat → Int} {k : Nat} {c : List (Nat × Int)} {l : List Nat} (h : Best leD k c (l.map (MemSearch.cand exact))) :
    Nearest exact k (c.map Prod.fst) l := by
  obtain ⟨h1, h2, rest, hp, hr⟩ := h
  have hc : ∀ y ∈ c ++ rest, y.2 = exact y.1 := by
    intro y hy
    obtain ⟨t, _, rfl⟩ := List.mem_map.mp (hp.mem_iff.mpr hy)
    rfl
  refine ⟨?_, by simpa using h2, rest.map Prod.fst, ?_, ?_⟩
  · rw [List.pairwise_map]
    refine h1.imp_of_mem ?_
    intro a b ha hb hab
    rw [← hc a (by simp [ha]), ← hc b (by simp [hb])]
    exact hab
  · have := hp.map Prod.fst
    rw [List.map_map, show (Prod.fst ∘ MemSearch.cand exact) = id from rfl, List.map_id, List.map_append] at this
    exact this
  · intro r hr' e he
    obtain ⟨r', hr1, rfl⟩ := List.mem_map.mp hr'
    obtain ⟨e', he1, rfl⟩ := List.mem_map.mp he
    rw [← hc r' (by simp [hr1]), ← hc e' (by simp [he1])]
    exact hr r' hr1 e' he1

theorem BInv.ids {dmax : Int} {exact : Nat → Int} {cap : Nat} {b : SBuf} {off : List Nat} (h : BInv dmax exact cap b off) :
    Nearest exact cap (b.ids cap) (finite dmax exact off) ∧ (b.ids cap).length = b.size := by
  have hel : (b.data.take b.size).length = b.size := by rw [List.length_take]; have := h.dlen; have := h.size; omega
  have e : b.ids cap = (b.data.take b.size).map Prod.fst := by
    unfold SBuf.ids
    rw [List.take_of_length_le (by have := h.size; omega)]
  rw [e]
  exact ⟨nearest_of h.best, by simpa using hel⟩

theorem finite_all {dmax : Int} {exact : Nat → Int} {off : List Nat} (h : ∀ v ∈ off, exact v ≤ dmax) : finite dmax exact off = off := by
  unfold finite
  rw [List.filter_eq_self]
  intro v hv
  simpa using h v hv

theorem Nearest.mem {exact : Nat → Int} {k : Nat} {hits l : List Nat} (h : Nearest exact k hits l) {v : Nat} (hv : v ∈ hits) : v ∈ l :=
  Best.mem h hv

theorem Nearest.nodup {exact : Nat → Int} {k : Nat} {hits l : List Nat} (h : Nearest exact k hits l) (hl : l.Nodup) : hits.Nodup := by
  obtain ⟨_, _, rest, hp, _⟩ := h
  exact (List.nodup_append.mp (hp.nodup_iff.mp hl)).1

theorem Nearest.perm {exact : Nat → Int} {k : Nat} {hits l l' : List Nat} (h : Nearest exact k hits l) (hl : l.Perm l') :
    Nearest exact k hits l' := by
  obtain ⟨h1, h2, rest, hp, hr⟩ := h
  exact ⟨h1, by rw [h2, hl.length_eq], rest, hl.symm.trans hp, hr⟩

/-! ### The iterator -/

theorem next_spec {g : MGraph} {n : Nat} (hg : GraphOk g n) {S : List Nat} {dist : Nat → Int} {ef : Nat} (hef : 0 < ef)
    (blocked : Nat → Bool) (fuel : Nat) : ∀ {s : St} {popped : List (Nat × Int)}, MInv g n S dist ef s popped [] →
    n ≤ fuel + popped.length →
    ∃ s' r l, (∀ extra, next g n dist blocked (fuel + extra) s = some (s', r)) ∧ MInv g n S dist ef s' (popped ++ l) [] ∧
      (∀ t ∈ s.seen, t ∈ s'.seen) ∧
      ((r = none ∧ (∀ x ∈ l, blocked x.1 = true) ∧ s'.pool.hasNext = false) ∨
        ∃ v l0, r = some v ∧ l = l0 ++ [(v, dist v)] ∧ (∀ x ∈ l0, blocked x.1 = true) ∧ blocked v = false) := by
  have done : ∀ {s : St} (f : Nat), s.pool.hasNext = false → next g n dist blocked f s = some (s, none) := by
    intro s f hu
    cases f with
    | zero => unfold next; rw [if_neg (by rw [hu]; simp)]
    | succ f => unfold next; rw [if_neg (by rw [hu]; simp)]
  induction fuel with
  | zero =>
    intro s popped h hf
    have hu : s.pool.hasNext = false := by
      cases hu : s.pool.hasNext with
      | false => rfl
      | true => have := h.popped_lt hu; omega
    exact ⟨s, none, [], fun extra => done _ hu, by simpa using h, fun t ht => ht, .inl ⟨rfl, by simp, hu⟩⟩
  | succ fuel ih =>
    intro s popped h hf
    cases hu : s.pool.hasNext with
    | false => exact ⟨s, none, [], fun extra => done _ hu, by simpa using h, fun t ht => ht, .inl ⟨rfl, by simp, hu⟩⟩
    | true =>
      obtain ⟨p, x, row, s2, e1, e2, f1, f2, f3, -, hxd, -⟩ := h.round hg hef hu
      have hx : x = (x.1, dist x.1) := by rw [← hxd]
      have hstep : ∀ extra, next g n dist blocked (fuel + 1 + extra) s =
          if blocked x.1 then next g n dist blocked (fuel + extra) s2 else some (s2, some x.1) := by
        intro extra
        rw [show fuel + 1 + extra = (fuel + extra) + 1 by omega]
        conv => lhs; unfold next
        rw [if_pos hu, e1]
        simp only
        rw [e2]
        simp only
        rw [f1]
      cases hb : blocked x.1 with
      | false =>
        refine ⟨s2, some x.1, [x], ?_, f2, f3, .inr ⟨x.1, [], rfl, by rw [← hx]; rfl, by simp, hb⟩⟩
        intro extra
        rw [hstep, hb]; rfl
      | true =>
        obtain ⟨s3, r, l, k1, k2, k3, k4⟩ := ih f2 (by simp; omega)
        refine ⟨s3, r, x :: l, ?_, by simpa using k2, fun t ht => k3 t (f3 t ht), ?_⟩
        · intro extra
          rw [hstep, hb, if_pos rfl]
          exact k1 extra
        · rcases k4 with ⟨a, b, c⟩ | ⟨v, l0, a, b, c, d⟩
          · left
            refine ⟨a, ?_, c⟩
            intro y hy
            rcases List.mem_cons.mp hy with rfl | hy
            · exact hb
            · exact b y hy
          · right
            refine ⟨v, x :: l0, a, by rw [b]; rfl, ?_, d⟩
            intro y hy
            rcases List.mem_cons.mp hy with rfl | hy
            · exact hb
            · exact c y hy

theorem popped_le {g : MGraph} {n : Nat} {S : List Nat} {dist : Nat → Int} {ef : Nat} {s : St} {popped : List (Nat × Int)}
    {todo : List Nat} (h : MInv g n S dist ef s popped todo) : popped.length ≤ n := by
  have h1 := nodup_subset_length (l2 := s.seen.map (MemSearch.cand dist)) h.q.pnd h.q.psub
  have := h.slen
  simp at h1; omega

/-- The expanded nodes that are not blocked, in order. -/
def shown (blocked : Nat → Bool) (popped : List (Nat × Int)) : List Nat := (popped.map Prod.fst).filter (fun v => !blocked v)

theorem shown_append (blocked : Nat → Bool) (a b : List (Nat × Int)) : shown blocked (a ++ b) = shown blocked a ++ shown blocked b := by
  simp [shown]

theorem shown_blocked {blocked : Nat → Bool} {l : List (Nat × Int)} (h : ∀ x ∈ l, blocked x.1 = true) : shown blocked l = [] := by
  unfold shown
  rw [List.filter_eq_nil_iff]
  intro a ha
  obtain ⟨x, hx, rfl⟩ := List.mem_map.mp ha
  rw [h x hx]; simp

theorem drain_spec {g : MGraph} {n : Nat} (hg : GraphOk g n) {S : List Nat} {dist exact : Nat → Int} {dmax : Int} {ef cap : Nat}
    (hef : 0 < ef) (hc : 0 < cap) (blocked : Nat → Bool) (f : Nat) : ∀ {s : St} {popped : List (Nat × Int)} {b : SBuf},
    MInv g n S dist ef s popped [] → BInv dmax exact cap b (shown blocked popped) → n ≤ f + popped.length →
    ∃ b' s' popped', (∀ extra extra', drain g n dist exact dmax blocked (n + extra') (f + extra) s b = some b') ∧
      MInv g n S dist ef s' popped' [] ∧ s'.pool.hasNext = false ∧ BInv dmax exact cap b' (shown blocked popped') ∧
      ∀ t ∈ s.seen, t ∈ s'.seen := by
  induction f with
  | zero =>
    intro s popped b h hb hf
    obtain ⟨s', r, l, k1, k2, k3, k4⟩ := next_spec hg hef blocked n h (by omega)
    have := popped_le k2
    have hpl : l = [] := by
      have h2 := popped_le k2
      rw [List.length_append] at h2
      exact List.length_eq_zero_iff.mp (by omega)
    rcases k4 with ⟨rfl, a2, a3⟩ | ⟨v, l0, a1, a2, a3, a4⟩
    · refine ⟨b, s', popped ++ l, ?_, k2, a3, ?_, k3⟩
      · intro extra extra'
        cases h : 0 + extra with
        | zero => unfold drain; rw [k1]
        | succ m => unfold drain; rw [k1]
      · rw [shown_append, shown_blocked a2, List.append_nil]; exact hb
    · rw [hpl] at a2; simp at a2
  | succ f ih =>
    intro s popped b h hb hf
    obtain ⟨s', r, l, k1, k2, k3, k4⟩ := next_spec hg hef blocked n h (by omega)
    rcases k4 with ⟨rfl, a2, a3⟩ | ⟨v, l0, rfl, a2, a3, a4⟩
    · refine ⟨b, s', popped ++ l, ?_, k2, a3, ?_, k3⟩
      · intro extra extra'
        rw [show f + 1 + extra = (f + extra) + 1 by omega]
        unfold drain; rw [k1]
      · rw [shown_append, shown_blocked a2, List.append_nil]; exact hb
    · obtain ⟨b1, e1, h1⟩ := hb.insert hc v
      have hsh : shown blocked (popped ++ l) = shown blocked popped ++ [v] := by
        rw [shown_append, a2, shown_append, shown_blocked a3]
        simp [shown, a4]
      obtain ⟨b2, s2, popped2, m1, m2, m3, m4, m5⟩ := ih k2 (by rw [hsh]; exact h1) (by rw [a2]; simp; omega)
      refine ⟨b2, s2, popped2, ?_, m2, m3, m4, fun t ht => m5 t (k3 t ht)⟩
      intro extra extra'
      rw [show f + 1 + extra = (f + extra) + 1 by omega]
      unfold drain
      rw [k1]
      simp only
      rw [e1]
      exact m1 extra extra'

theorem nextBatch_spec {g : MGraph} {n : Nat} (hg : GraphOk g n) {S : List Nat} {dist : Nat → Int} {ef : Nat} (hef : 0 < ef) (k : Nat) :
    ∀ {s : St} {popped : List (Nat × Int)}, MInv g n S dist ef s popped [] →
    ∃ s' l, (∀ extra, nextBatch g n dist (n + extra) k s = some (s', l)) ∧ MInv g n S dist ef s' (popped ++ l.map (MemSearch.cand dist)) [] := by
  induction k with
  | zero => intro s popped h; exact ⟨s, [], fun _ => rfl, by simpa using h⟩
  | succ k ih =>
    intro s popped h
    obtain ⟨s', r, l, k1, k2, k3, k4⟩ := next_spec hg hef (fun _ => false) n h (by omega)
    have nob : ∀ {l : List (Nat × Int)}, (∀ x ∈ l, (fun _ : Nat => false) x.1 = true) → l = [] := by
      intro l hl
      cases l with
      | nil => rfl
      | cons a l => have := hl a List.mem_cons_self; cases this
    rcases k4 with ⟨rfl, a2, a3⟩ | ⟨v, l0, rfl, a2, a3, a4⟩
    · have := nob a2
      subst this
      refine ⟨s', [], ?_, by simpa using k2⟩
      intro extra
      unfold nextBatch
      rw [k1]
    · have := nob a3
      subst this
      rw [a2] at k2
      obtain ⟨s2, l2, m1, m2⟩ := ih k2
      refine ⟨s2, v :: l2, ?_, by simpa [MemSearch.cand] using m2⟩
      intro extra
      unfold nextBatch
      rw [k1]
      simp only
      rw [m1]

theorem takeBatch_spec {dmax : Int} {exact : Nat → Int} {cap : Nat} (hc : 0 < cap) (f : Flt) (topk : Nat) (vs : List Nat) :
    ∀ {b : SBuf} {off : List Nat}, BInv dmax exact cap b off →
    ∃ b' off', takeBatch dmax exact f topk vs b = some b' ∧ BInv dmax exact cap b' (off ++ off') ∧ off'.Sublist (vs.filter f.test) := by
  induction vs with
  | nil => intro b off h; exact ⟨b, [], rfl, by simpa using h, by simp⟩
  | cons v vs ih =>
    intro b off h
    unfold takeBatch
    by_cases ht : f.test v = true
    · rw [if_pos ht]
      obtain ⟨b1, e1, h1⟩ := h.insert hc v
      rw [e1]
      simp only
      have hfl : (v :: vs).filter f.test = v :: vs.filter f.test := List.filter_cons_of_pos ht
      by_cases hs : b1.size = topk
      · rw [if_pos hs]
        exact ⟨b1, [v], rfl, h1, by rw [hfl]; simp⟩
      · rw [if_neg hs]
        obtain ⟨b2, off2, e2, h2, hsub⟩ := ih h1
        exact ⟨b2, v :: off2, e2, by simpa using h2, by rw [hfl]; exact hsub.cons_cons v⟩
    · rw [if_neg ht]
      obtain ⟨b2, off2, e2, h2, hsub⟩ := ih h
      exact ⟨b2, off2, e2, h2, by rw [List.filter_cons_of_neg ht]; exact hsub⟩

theorem iterLoop_spec (s : Space) (hg : GraphOk s.g s.n) {S : List Nat} {ef : Nat} (hef : 0 < ef) (f : Flt) {topk : Nat} (hk : 0 < topk)
    (r : Nat) : ∀ {st : St} {popped : List (Nat × Int)} {b : SBuf} {off : List Nat},
    MInv s.g s.n S s.dist ef st popped [] → BInv s.dmax s.exact topk b off → off.Sublist ((popped.map Prod.fst).filter f.test) →
    s.n < r + popped.length →
    ∃ b' off' st' popped', (∀ extra extra', iterLoop s f topk (s.n + extra') (r + extra) st b = some b') ∧
      MInv s.g s.n S s.dist ef st' popped' [] ∧ BInv s.dmax s.exact topk b' off' ∧
      off'.Sublist ((popped'.map Prod.fst).filter f.test) := by
  induction r with
  | zero => intro st popped b off h _ _ hf; have := popped_le h; omega
  | succ r ih =>
    intro st popped b off h hb hsub hf
    by_cases hs : b.size < topk
    · obtain ⟨st1, l, k1, k2⟩ := nextBatch_spec hg hef (topk - b.size) h
      cases l with
      | nil =>
        refine ⟨b, off, st, popped, ?_, h, hb, hsub⟩
        intro extra extra'
        rw [show r + 1 + extra = (r + extra) + 1 by omega]
        unfold iterLoop
        rw [if_pos hs, k1]
      | cons v vs =>
        obtain ⟨b1, off1, e1, h1, hsub1⟩ := takeBatch_spec (cap := topk) hk f topk (v :: vs) hb
        have hm : ((popped ++ (v :: vs).map (MemSearch.cand s.dist)).map Prod.fst) = popped.map Prod.fst ++ (v :: vs) := by
          rw [List.map_append, List.map_map, show (Prod.fst ∘ MemSearch.cand s.dist) = id from rfl, List.map_id]
        obtain ⟨b2, off2, st2, popped2, m1, m2, m3, m4⟩ := ih k2 h1
          (by rw [hm, List.filter_append]; exact hsub.append hsub1) (by simp; omega)
        refine ⟨b2, off2, st2, popped2, ?_, m2, m3, m4⟩
        intro extra extra'
        rw [show r + 1 + extra = (r + extra) + 1 by omega]
        unfold iterLoop
        rw [if_pos hs, k1]
        simp only
        rw [e1]
        exact m1 extra extra'
    · refine ⟨b, off, st, popped, ?_, h, hb, hsub⟩
      intro extra extra'
      rw [show r + 1 + extra = (r + extra) + 1 by omega]
      unfold iterLoop
      rw [if_neg hs]

theorem popped_ids_nodup {g : MGraph} {n : Nat} {S : List Nat} {dist : Nat → Int} {ef : Nat} {s : St} {popped : List (Nat × Int)}
    {todo : List Nat} (h : MInv g n S dist ef s popped todo) : (popped.map Prod.fst).Nodup := by
  have hd : ∀ x ∈ popped, x.2 = dist x.1 := by
    intro x hx
    obtain ⟨t, _, rfl⟩ := List.mem_map.mp (h.q.psub x hx)
    rfl
  unfold List.Nodup
  rw [List.pairwise_map]
  refine h.q.pnd.imp_of_mem ?_
  intro a b ha hb hab he
  apply hab
  rw [Prod.ext_iff]
  exact ⟨he, by rw [hd a ha, hd b hb, he]⟩

theorem popped_ids_lt {g : MGraph} {n : Nat} {S : List Nat} {dist : Nat → Int} {ef : Nat} {s : St} {popped : List (Nat × Int)}
    {todo : List Nat} (h : MInv g n S dist ef s popped todo) : ∀ v ∈ popped.map Prod.fst, v < n ∧ v ∈ s.seen := by
  intro v hv
  obtain ⟨x, hx, rfl⟩ := List.mem_map.mp hv
  obtain ⟨t, ht, rfl⟩ := List.mem_map.mp (h.q.psub x hx)
  exact ⟨h.lt t ht, ht⟩

/-! ### The output arrays -/

theorem readIds_one (topk : Nat) (ws : List Nat) (h : ws.length = topk) :
    readIds 1 topk ws = ws.map (fun a => if a = noId then none else some a) := by
  apply List.ext_getElem
  · simp [readIds, h]
  · intro i h1 h2
    have hi : i < ws.length := by simpa using h2
    simp only [readIds, List.getElem_map, List.getElem_range, readId, Nat.mul_one]
    have : (ws.drop i).take 1 = [ws[i]] := by
      rw [List.drop_eq_getElem_cons hi]; rfl
    rw [this]
    by_cases ha : ws[i] = noId
    · simp [ha]
    · simp [ha, valueOf]

theorem copyOut_blank (topk : Nat) (hits : List Nat) : copyOut (blank 1 topk) hits = hits ++ List.replicate (topk - hits.length) noId := by
  simp [copyOut, blank]

theorem read_padded {topk : Nat} {hits : List Nat} (hl : hits.length ≤ topk) (hn : ∀ h ∈ hits, h ≠ noId) :
    readIds 1 topk (hits ++ List.replicate (topk - hits.length) noId) = hits.map some ++ List.replicate (topk - hits.length) none := by
  rw [readIds_one _ _ (by simp; omega), List.map_append]
  congr 1
  · apply List.map_congr_left
    intro a ha
    rw [if_neg (hn a ha)]
  · simp

theorem items_answer (s : Space) (hw : s.w = 1) {topk : Nat} {hits : List Nat} {sel : Nat → Bool} (hl : hits.length ≤ topk)
    (hn : ∀ h ∈ hits, h ≠ noId) (hnd : hits.Nodup) (hsel : ∀ h ∈ hits, sel h = true)
    (hsort : hits.Pairwise (fun a b => s.exact a ≤ s.exact b)) {k : Nat} (hk : hits.length ≤ k) (hk2 : k ≤ topk) :
    Answer sel s.exact s.item topk hits (s.items topk (hits ++ List.replicate (topk - hits.length) noId, k)) := by
  unfold Space.items
  rw [hw]
  simp only
  rw [read_padded hl hn]
  refine ⟨rfl, ?_, hl, hnd, hsel, hsort⟩
  simp only
  rw [List.take_append, List.length_map, List.take_of_length_le (by simpa using hk), List.map_append, List.map_map, List.append_assoc]
  congr 1
  rw [List.take_replicate, List.map_replicate]
  show List.replicate _ "" ++ List.replicate _ "" = _
  rw [List.replicate_append_replicate]
  congr 1
  omega

theorem counted_padded (s : Space) (hw : s.w = 1) {topk : Nat} {hits : List Nat} (hl : hits.length ≤ topk) (hn : ∀ h ∈ hits, h ≠ noId) :
    s.counted topk (hits ++ List.replicate (topk - hits.length) noId) = hits.length := by
  unfold Space.counted
  rw [hw, read_padded hl hn]
  have : (hits.map some ++ List.replicate (topk - hits.length) none).takeWhile Option.isSome = hits.map some := by
    clear hl hn
    generalize topk - hits.length = m
    induction hits with
    | nil => cases m <;> simp [List.replicate_succ]
    | cons a l ih => simp [ih]
  rw [this]; simp

end Alaya.Hybrid
