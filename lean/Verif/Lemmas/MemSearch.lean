import Verif.Model.MemSearch
import Verif.Spec.MemSearch
import Verif.Lemmas.LinearPool
import Verif.Lemmas.ListAux

namespace Alaya.MemSearch
open Alaya Alaya.Pools Alaya.Spec Alaya.MemSearch.Spec

/-- The overlay graph of a graph with `n` nodes is well formed. -/
structure OverlayOk (o : Overlay) (n : Nat) : Prop where
  ep : o.ep < n
  level : ∀ i, i < n → ∃ lv l, o.levels[i]? = some lv ∧ o.lists[i]? = some l ∧ lv * o.maxNbrs ≤ l.length
  edge : ∀ i lv level blk, i < n → o.levels[i]? = some lv → 1 ≤ level → level ≤ lv → o.block level i = some blk →
    ∀ v ∈ blk.takeWhile (· ≠ noId), v < n ∧ ∃ lv', o.levels[v]? = some lv' ∧ level ≤ lv'

/-- The base layer and the entry points are well formed. -/
structure GraphOk (g : MGraph) (n : Nat) : Prop where
  rows : n ≤ g.rows.length
  small : n ≤ 2147483648
  edge : ∀ u, u < n → ∀ v ∈ nbrs g.rows u, v < n
  eps : ∀ e ∈ g.eps, e < n
  overlay : ∀ o, g.overlay = some o → OverlayOk o n

/-! ### The way down -/

theorem nearer_spec (dist : Nat → Int) (P : Nat → Prop) (list : List Nat) : ∀ (r : (Nat × Int) × Bool),
    (∀ v ∈ list.takeWhile (· ≠ noId), P v) → P r.1.1 → r.1.2 = dist r.1.1 →
    P (nearer dist list r).1.1 ∧ (nearer dist list r).1.2 = dist (nearer dist list r).1.1 ∧
      (nearer dist list r).1.2 ≤ r.1.2 ∧ ((nearer dist list r).2 = true → r.2 = true ∨ (nearer dist list r).1.2 < r.1.2) := by
  induction list with
  | nil => intro r _ h1 h2; exact ⟨h1, h2, Int.le_refl _, fun h => .inl h⟩
  | cons v vs ih =>
    intro r h h1 h2
    unfold nearer
    by_cases hv : v = noId
    · rw [if_pos hv]; exact ⟨h1, h2, Int.le_refl _, fun h => .inl h⟩
    · rw [if_neg hv]
      have htw : (v :: vs).takeWhile (· ≠ noId) = v :: vs.takeWhile (· ≠ noId) := by
        rw [List.takeWhile_cons]; simp [hv]
      rw [htw] at h
      by_cases hd : dist v < r.1.2
      · rw [if_pos hd]
        obtain ⟨a, b, c, d⟩ := ih ((v, dist v), true) (fun w hw => h w (List.mem_cons_of_mem _ hw)) (h v List.mem_cons_self) rfl
        refine ⟨a, b, by have := c; simp only at this; omega, fun _ => .inr (by have := c; simp only at this; omega)⟩
      · rw [if_neg hd]
        exact ih r (fun w hw => h w (List.mem_cons_of_mem _ hw)) h1 h2

/-- Number of nodes strictly nearer than `d`. -/
def below (n : Nat) (dist : Nat → Int) (d : Int) : Nat := (List.range n).countP (fun i => decide (dist i < d))

theorem below_le (n : Nat) (dist : Nat → Int) (d : Int) : below n dist d ≤ n := by
  have := List.countP_le_length (p := fun i => decide (dist i < d)) (l := List.range n)
  simpa [below] using this

theorem countP_lt {α : Type} {p q : α → Bool} {l : List α} (h : ∀ x ∈ l, p x = true → q x = true) {a : α} (ha : a ∈ l)
    (hq : q a = true) (hp : p a = false) : l.countP p < l.countP q := by
  induction l with
  | nil => cases ha
  | cons b t ih =>
    rw [List.countP_cons, List.countP_cons]
    have hmono : t.countP p ≤ t.countP q := List.countP_mono_left (fun x hx => h x (List.mem_cons_of_mem _ hx))
    rcases List.mem_cons.mp ha with rfl | ha
    · rw [if_pos hq, if_neg (by rw [hp]; simp)]; omega
    · have := ih (fun x hx => h x (List.mem_cons_of_mem _ hx)) ha
      by_cases hb : p b = true
      · rw [if_pos hb, if_pos (h b List.mem_cons_self hb)]; omega
      · rw [if_neg hb]; split <;> omega

theorem below_lt {n : Nat} {dist : Nat → Int} {d : Int} {v : Nat} (hv : v < n) (h : dist v < d) :
    below n dist (dist v) < below n dist d := by
  unfold below
  refine countP_lt (a := v) ?_ (by simpa using hv) (by simpa using h) (by simp)
  intro x _ hx
  simp at hx ⊢
  omega

/-- A node that may be visited on a level. -/
def OnLevel (o : Overlay) (n level v : Nat) : Prop := v < n ∧ ∃ lv, o.levels[v]? = some lv ∧ level ≤ lv

theorem block_some {o : Overlay} {n level v : Nat} (h : OverlayOk o n) (hv : OnLevel o n level v) (hl : 1 ≤ level) :
    ∃ blk, o.block level v = some blk ∧ ∀ w ∈ blk.takeWhile (· ≠ noId), OnLevel o n level w := by
  obtain ⟨hv, lv, e1, hle⟩ := hv
  obtain ⟨lv', l, e2, e3, hlen⟩ := h.level v hv
  rw [e1] at e2
  cases e2
  have hle2 : level * o.maxNbrs ≤ l.length := Nat.le_trans (Nat.mul_le_mul_right _ hle) hlen
  have hb : o.block level v = some ((l.drop ((level - 1) * o.maxNbrs)).take o.maxNbrs) := by
    unfold Overlay.block
    rw [e3]
    simp only
    rw [if_pos ⟨hl, hle2⟩]
  exact ⟨_, hb, fun w hw => h.edge v lv level _ hv e1 hl hle hb w hw⟩

theorem onLevel_spec {o : Overlay} {n : Nat} (h : OverlayOk o n) (dist : Nat → Int) {level : Nat} (hl : 1 ≤ level) (fuel : Nat) :
    ∀ (u : Nat × Int), OnLevel o n level u.1 → u.2 = dist u.1 → below n dist u.2 < fuel →
    ∃ u', (∀ extra, o.onLevel dist level (fuel + extra) u = some u') ∧ OnLevel o n level u'.1 ∧ u'.2 = dist u'.1 ∧ u'.2 ≤ u.2 := by
  induction fuel with
  | zero => intro u _ _ hf; omega
  | succ fuel ih =>
    intro u hu hd hf
    obtain ⟨blk, e1, hb⟩ := block_some h hu hl
    obtain ⟨a, b, c, d⟩ := nearer_spec dist (OnLevel o n level) blk (u, false) hb hu hd
    cases hch : (nearer dist blk (u, false)).2 with
    | false =>
      refine ⟨_, fun extra => ?_, a, b, c⟩
      rw [show fuel + 1 + extra = (fuel + extra) + 1 by omega]
      unfold Overlay.onLevel
      rw [e1]
      simp only [hch]
      rfl
    | true =>
      have hlt : (nearer dist blk (u, false)).1.2 < u.2 := by
        rcases d hch with q | q
        · cases q
        · exact q
      have hbl : below n dist (nearer dist blk (u, false)).1.2 < below n dist u.2 := by
        rw [b]; exact below_lt a.1 (by rw [← b]; exact hlt)
      obtain ⟨u', k1, k2, k3, k4⟩ := ih (nearer dist blk (u, false)).1 a b (by omega)
      refine ⟨u', fun extra => ?_, k2, k3, by omega⟩
      rw [show fuel + 1 + extra = (fuel + extra) + 1 by omega]
      unfold Overlay.onLevel
      rw [e1]
      simp only [hch, if_true]
      exact k1 extra

theorem down_spec {o : Overlay} {n : Nat} (h : OverlayOk o n) (dist : Nat → Int) (level : Nat) :
    ∀ (u : Nat × Int), OnLevel o n level u.1 → u.2 = dist u.1 →
    ∃ u', (∀ extra, o.down dist (n + 1 + extra) level u = some u') ∧ u'.1 < n ∧ u'.2 = dist u'.1 ∧ u'.2 ≤ u.2 := by
  induction level with
  | zero => intro u hu hd; exact ⟨u, fun _ => rfl, hu.1, hd, Int.le_refl _⟩
  | succ level ih =>
    intro u hu hd
    have hb := below_le n dist u.2
    obtain ⟨u1, k1, k2, k3, k4⟩ := onLevel_spec h dist (level := level + 1) (by omega) (n + 1) u hu hd (by omega)
    obtain ⟨u2, m1, m2, m3, m4⟩ := ih u1 ⟨k2.1, by obtain ⟨lv, a, b⟩ := k2.2; exact ⟨lv, a, by omega⟩⟩ k3
    refine ⟨u2, fun extra => ?_, m2, m3, by omega⟩
    unfold Overlay.down
    rw [k1 extra]
    exact m1 extra

/-! ### The search -/

/-- The candidate of a node. -/
def cand (dist : Nat → Int) (i : Nat) : Nat × Int := (i, dist i)

/-- State of the search: `popped` are the expanded candidates, `todo` the rest of the row of the last one, `S` the seeds. -/
structure MInv (g : MGraph) (n : Nat) (S : List Nat) (dist : Nat → Int) (ef : Nat) (s : St) (popped : List (Nat × Int))
    (todo : List Nat) : Prop where
  q : LInv ef s.pool (s.seen.map (cand dist)) popped
  nd : s.seen.Nodup
  lt : ∀ t ∈ s.seen, t < n
  reach : ∀ t ∈ s.seen, Reach g.rows S t
  closed : ∀ x ∈ popped, ∀ v ∈ nbrs g.rows x.1, v ∈ s.seen ∨ v ∈ todo

theorem bits_ge (n : Nat) : n ≤ bits n := by unfold bits; omega

theorem MInv.candNodup {g : MGraph} {n : Nat} {S : List Nat} {dist : Nat → Int} {ef : Nat} {s : St} {popped : List (Nat × Int)}
    {todo : List Nat} (h : MInv g n S dist ef s popped todo) : ((s.seen.map (cand dist)).map Prod.fst).Nodup := by
  rw [List.map_map]
  have : (Prod.fst ∘ cand dist) = id := rfl
  rw [this, List.map_id]
  exact h.nd

theorem MInv.slen {g : MGraph} {n : Nat} {S : List Nat} {dist : Nat → Int} {ef : Nat} {s : St} {popped : List (Nat × Int)}
    {todo : List Nat} (h : MInv g n S dist ef s popped todo) : s.seen.length ≤ n := by
  have := nodup_subset_length (l2 := List.range n) h.nd (by intro t ht; simpa using h.lt t ht)
  simpa using this

theorem MInv.visit {g : MGraph} {n : Nat} {S : List Nat} {dist : Nat → Int} {ef : Nat} (hef : 0 < ef) (hn : n ≤ 2147483648) {s : St}
    {popped : List (Nat × Int)} {v : Nat} {todo : List Nat} (h : MInv g n S dist ef s popped (v :: todo)) (hv : v < n)
    (hr : Reach g.rows S v) :
    ∃ s', s.visit n dist v = some s' ∧ MInv g n S dist ef s' popped todo ∧ v ∈ s'.seen ∧ ∀ t ∈ s.seen, t ∈ s'.seen := by
  obtain ⟨q, nd, lt, reach, closed⟩ := h
  unfold St.visit
  rw [if_pos (Nat.lt_of_lt_of_le hv (bits_ge n))]
  by_cases hm : v ∈ s.seen
  · rw [if_pos hm]
    refine ⟨s, rfl, ⟨q, nd, lt, reach, ?_⟩, hm, fun t ht => ht⟩
    intro x hx w hw
    rcases closed x hx w hw with h' | h'
    · exact .inl h'
    · rcases List.mem_cons.mp h' with rfl | h'
      · exact .inl hm
      · exact .inr h'
  · rw [if_neg hm]
    obtain ⟨p', b, e1, h1⟩ := q.insert hef (u := v) (d := dist v) (by omega) (by
      intro hx
      obtain ⟨t, ht, he⟩ := List.mem_map.mp hx
      have : t = v := congrArg Prod.fst he
      subst this; exact hm ht)
    rw [e1]
    refine ⟨_, rfl, ⟨?_, ?_, ?_, ?_, ?_⟩, by simp, fun t ht => by simp [ht]⟩
    · simpa [cand] using h1
    · simp only
      rw [List.nodup_append]
      refine ⟨nd, by simp, ?_⟩
      intro a ha b hb
      simp at hb; subst hb
      intro hab; subst hab; exact hm ha
    · intro t ht
      rcases List.mem_append.mp ht with h' | h'
      · exact lt t h'
      · simp at h'; omega
    · intro t ht
      rcases List.mem_append.mp ht with h' | h'
      · exact reach t h'
      · simp at h'; subst h'; exact hr
    · intro x hx w hw
      simp only [List.mem_append, List.mem_singleton]
      rcases closed x hx w hw with h' | h'
      · exact .inl (.inl h')
      · rcases List.mem_cons.mp h' with h' | h'
        · exact .inl (.inr h')
        · exact .inr h'

theorem MInv.scan {g : MGraph} {n : Nat} {S : List Nat} {dist : Nat → Int} {ef : Nat} (hef : 0 < ef) (hn : n ≤ 2147483648)
    {popped : List (Nat × Int)} (row : List Nat) : ∀ {s : St},
    MInv g n S dist ef s popped (row.takeWhile (· ≠ noId)) → (∀ v ∈ row.takeWhile (· ≠ noId), v < n ∧ Reach g.rows S v) →
    ∃ s', St.scan n dist row s = some s' ∧ MInv g n S dist ef s' popped [] ∧ ∀ t ∈ s.seen, t ∈ s'.seen := by
  induction row with
  | nil => intro s h _; exact ⟨s, rfl, h, fun t ht => ht⟩
  | cons v vs ih =>
    intro s h hr
    unfold St.scan
    by_cases hv : v = noId
    · rw [if_pos hv]
      have : (v :: vs).takeWhile (· ≠ noId) = [] := by rw [List.takeWhile_cons]; simp [hv]
      rw [this] at h
      exact ⟨s, rfl, h, fun t ht => ht⟩
    · rw [if_neg hv]
      have htw : (v :: vs).takeWhile (· ≠ noId) = v :: vs.takeWhile (· ≠ noId) := by
        rw [List.takeWhile_cons]; simp [hv]
      rw [htw] at h hr
      obtain ⟨s1, e1, h1, -, hsub⟩ := h.visit hef hn (hr v List.mem_cons_self).1 (hr v List.mem_cons_self).2
      rw [e1]
      obtain ⟨s2, e2, h2, hsub2⟩ := ih h1 (fun w hw => hr w (List.mem_cons_of_mem _ hw))
      exact ⟨s2, e2, h2, fun t ht => hsub2 t (hsub t ht)⟩

theorem MInv.seeds {g : MGraph} {n : Nat} {S : List Nat} {dist : Nat → Int} {ef : Nat} (hef : 0 < ef) (hn : n ≤ 2147483648)
    (l : List Nat) : ∀ {s : St}, MInv g n S dist ef s [] [] → (∀ v ∈ l, v < n ∧ v ∈ S) →
    ∃ s', St.seeds n dist l s = some s' ∧ MInv g n S dist ef s' [] [] ∧ (∀ t ∈ s.seen, t ∈ s'.seen) ∧ ∀ v ∈ l, v ∈ s'.seen := by
  induction l with
  | nil => intro s h _; exact ⟨s, rfl, h, fun t ht => ht, by simp⟩
  | cons v vs ih =>
    intro s h hr
    unfold St.seeds
    have h0 : MInv g n S dist ef s [] [v] := ⟨h.q, h.nd, h.lt, h.reach, by simp⟩
    obtain ⟨s1, e1, h1, hv, hsub⟩ := h0.visit hef hn (hr v List.mem_cons_self).1 (.seed (hr v List.mem_cons_self).2)
    rw [e1]
    obtain ⟨s2, e2, h2, hsub2, hall⟩ := ih h1 (fun w hw => hr w (List.mem_cons_of_mem _ hw))
    refine ⟨s2, e2, h2, fun t ht => hsub2 t (hsub t ht), ?_⟩
    intro w hw
    rcases List.mem_cons.mp hw with rfl | hw
    · exact hsub2 _ hv
    · exact hall w hw

theorem MInv.new (g : MGraph) (n : Nat) (S : List Nat) (dist : Nat → Int) (ef : Nat) : MInv g n S dist ef ⟨LinearPool.new ef, []⟩ [] [] :=
  ⟨by simpa using LInv.new ef, by simp, by simp, by simp, by simp⟩

/-- After `initialize_search` the marked nodes are exactly the seeds. -/
theorem start_spec {g : MGraph} {n : Nat} (hg : GraphOk g n) (dist : Nat → Int) {ef : Nat} (hef : 0 < ef) :
    ∃ S s, (∀ extra, g.start n dist (n + 1 + extra) ⟨LinearPool.new ef, []⟩ = some s) ∧ MInv g n S dist ef s [] [] ∧
      (∀ v ∈ S, v ∈ s.seen) ∧ (g.overlay = none → S = g.eps) ∧
      (∀ o, g.overlay = some o → ∃ u, S = [u] ∧ u < n ∧ dist u ≤ dist o.ep) := by
  unfold MGraph.start
  cases ho : g.overlay with
  | none =>
    simp only
    obtain ⟨s, e, h, -, hall⟩ := MInv.seeds (g := g) (S := g.eps) (dist := dist) hef hg.small g.eps (MInv.new g n g.eps dist ef)
      (fun v hv => ⟨hg.eps v hv, hv⟩)
    exact ⟨g.eps, s, fun _ => e, h, hall, fun _ => rfl, by simp⟩
  | some o =>
    have h := hg.overlay o ho
    obtain ⟨lv, l, e1, -, -⟩ := h.level o.ep h.ep
    simp only [e1]
    obtain ⟨u, k1, k2, k3, k4⟩ := down_spec h dist lv (o.ep, dist o.ep) ⟨h.ep, lv, e1, Nat.le_refl _⟩ rfl
    have h0 : MInv g n [u.1] dist ef ⟨LinearPool.new ef, []⟩ [] [u.1] := ⟨by simpa using LInv.new ef, by simp, by simp, by simp, by simp⟩
    obtain ⟨s, e2, h2, hv, -⟩ := h0.visit hef hg.small k2 (.seed (by simp))
    refine ⟨[u.1], s, fun extra => ?_, h2, ?_, by simp, ?_⟩
    · rw [k1 extra]
      exact e2
    · intro v hv'
      simp at hv'; subst hv'; exact hv
    · intro o' ho'
      cases ho'
      exact ⟨u.1, rfl, k2, by rw [← k3]; exact k4⟩

theorem nbrs_row {g : MGraph} {u : Nat} {row : List Nat} (h : g.rows[u]? = some row) : nbrs g.rows u = row.takeWhile (· ≠ noId) := by
  unfold nbrs
  rw [h]
  rfl

/-- One round of the loop. -/
theorem MInv.round {g : MGraph} {n : Nat} (hg : GraphOk g n) {S : List Nat} {dist : Nat → Int} {ef : Nat} (hef : 0 < ef) {s : St}
    {popped : List (Nat × Int)} (h : MInv g n S dist ef s popped []) (hu : s.pool.hasNext = true) :
    ∃ p x row s', s.pool.pop = some (p, x) ∧ g.rows[x.1]? = some row ∧ St.scan n dist row ⟨p, s.seen⟩ = some s' ∧
      MInv g n S dist ef s' (popped ++ [x]) [] ∧ (∀ t ∈ s.seen, t ∈ s'.seen) ∧ x.1 ∈ s.seen ∧ x.2 = dist x.1 ∧ x ∉ popped := by
  obtain ⟨p, x, e1, h1, h2, h3, -, -⟩ := h.q.pop h.candNodup hu
  obtain ⟨t, ht, hte⟩ := List.mem_map.mp (Best.mem h.q.best h2)
  have hxt : x.1 = t := (congrArg Prod.fst hte).symm
  have hxd : x.2 = dist x.1 := by rw [← hte]; rfl
  have hxs : x.1 ∈ s.seen := by rw [hxt]; exact ht
  have hxl : x.1 < n := h.lt _ hxs
  have hrl := hg.rows
  have hgx : g.rows[x.1]? = some g.rows[x.1] := List.getElem?_eq_getElem (by omega)
  have hrow := nbrs_row hgx
  have hs : MInv g n S dist ef ⟨p, s.seen⟩ (popped ++ [x]) (g.rows[x.1].takeWhile (· ≠ noId)) := by
    refine ⟨h1, h.nd, h.lt, h.reach, ?_⟩
    intro y hy w hw
    rcases List.mem_append.mp hy with h' | h'
    · rcases h.closed y h' w hw with h'' | h''
      · exact .inl h''
      · cases h''
    · simp at h'; subst h'
      right; rw [← hrow]; exact hw
  obtain ⟨s2, f1, f2, f3⟩ := hs.scan hef hg.small g.rows[x.1] (by
    intro v hv
    rw [← hrow] at hv
    exact ⟨hg.edge _ hxl v hv, .step (h.reach _ hxs) hv⟩)
  exact ⟨p, x, _, s2, e1, hgx, f1, f2, f3, hxs, hxd, h3⟩

theorem MInv.popped_lt {g : MGraph} {n : Nat} {S : List Nat} {dist : Nat → Int} {ef : Nat} {s : St} {popped : List (Nat × Int)}
    (h : MInv g n S dist ef s popped []) (hu : s.pool.hasNext = true) : popped.length < n := by
  obtain ⟨q', x, e1, h1, -⟩ := h.q.pop h.candNodup hu
  have hl := nodup_subset_length (l2 := s.seen.map (cand dist)) h1.pnd h1.psub
  have := h.slen
  simp at hl; omega

theorem loop_done {g : MGraph} {n : Nat} {dist : Nat → Int} {s : St} (f : Nat) (hu : s.pool.hasNext = false) : loop g n dist f s = some s := by
  cases f with
  | zero => unfold loop; rw [if_neg (by rw [hu]; simp)]
  | succ f => unfold loop; rw [if_neg (by rw [hu]; simp)]

theorem MInv.loop {g : MGraph} {n : Nat} (hg : GraphOk g n) {S : List Nat} {dist : Nat → Int} {ef : Nat} (hef : 0 < ef) (fuel : Nat) :
    ∀ {s : St} {popped : List (Nat × Int)}, MInv g n S dist ef s popped [] → n ≤ fuel + popped.length →
    ∃ s' popped', (∀ extra, MemSearch.loop g n dist (fuel + extra) s = some s') ∧ MInv g n S dist ef s' popped' [] ∧
      s'.pool.hasNext = false ∧ ∀ t ∈ s.seen, t ∈ s'.seen := by
  induction fuel with
  | zero =>
    intro s popped h hf
    have hu : s.pool.hasNext = false := by
      cases hu : s.pool.hasNext with
      | false => rfl
      | true => have := h.popped_lt hu; omega
    exact ⟨s, popped, fun extra => loop_done _ hu, h, hu, fun t ht => ht⟩
  | succ fuel ih =>
    intro s popped h hf
    cases hu : s.pool.hasNext with
    | false => exact ⟨s, popped, fun extra => loop_done _ hu, h, hu, fun t ht => ht⟩
    | true =>
      obtain ⟨p, x, row, s2, e1, e2, f1, f2, f3, -⟩ := h.round hg hef hu
      obtain ⟨s3, popped', k1, k2, k3, k4⟩ := ih f2 (by simp; omega)
      refine ⟨s3, popped', ?_, k2, k3, fun t ht => k4 t (f3 t ht)⟩
      intro extra
      rw [show fuel + 1 + extra = (fuel + extra) + 1 by omega]
      unfold MemSearch.loop
      rw [if_pos hu, e1]
      simp only
      rw [e2]
      simp only
      rw [f1]
      exact k1 extra

/-- When nothing is left to expand, every stored candidate has been expanded. -/
theorem LInv.all_popped {cap : Nat} {p : LinearPool} {off popped : List (Nat × Int)} (h : LInv cap p off popped)
    (hn : p.hasNext = false) : ∀ y ∈ p.entries, y ∈ popped := by
  intro y hy
  obtain ⟨e', he', rfl⟩ := List.mem_map.mp hy
  obtain ⟨i, hi⟩ := List.getElem?_of_mem he'
  have hil := (List.getElem?_eq_some_iff.mp hi).1
  have hc1 : ¬ p.cur < p.size := by simpa [LinearPool.hasNext] using hn
  have hel := h.entries_len
  exact (h.flag e' he').mp (h.cur.2.1 i e' (by omega) hi)

theorem entries_size {cap : Nat} {p : LinearPool} {off popped : List (Nat × Int)} (h : LInv cap p off popped) :
    p.entries.length = p.size := by
  have := h.entries_len
  unfold LinearPool.entries
  simpa using this

/-- The whole walk. -/
theorem walk_spec {g : MGraph} {n : Nat} (hg : GraphOk g n) (dist : Nat → Int) {ef : Nat} (hef : 0 < ef) :
    ∃ S s popped, (∀ extra, walk g n dist ef (n + 1 + extra) = some s) ∧ MInv g n S dist ef s popped [] ∧ s.pool.hasNext = false ∧
      (∀ v ∈ S, v ∈ s.seen) ∧ (g.overlay = none → S = g.eps) ∧
      (∀ o, g.overlay = some o → ∃ u, S = [u] ∧ u < n ∧ dist u ≤ dist o.ep) := by
  obtain ⟨S, s0, e0, h0, hS, ha, hb⟩ := start_spec hg dist hef
  obtain ⟨s1, popped, k1, k2, k3, k4⟩ := h0.loop hg hef n (by omega)
  refine ⟨S, s1, popped, ?_, k2, k3, fun v hv => k4 v (hS v hv), ha, hb⟩
  intro extra
  unfold walk
  rw [e0 extra]
  simp only
  rw [show n + 1 + extra = n + (1 + extra) by omega]
  exact k1 _

/-- With a pool at least as large as the reachable set, the pool holds all of it. -/
theorem MInv.all {g : MGraph} {n : Nat} {S : List Nat} {dist : Nat → Int} {ef : Nat} {s : St} {popped : List (Nat × Int)}
    (h : MInv g n S dist ef s popped []) (hu : s.pool.hasNext = false) (hS : ∀ v ∈ S, v ∈ s.seen) {R : List Nat}
    (hRr : ∀ i, Reach g.rows S i → i ∈ R) (hRl : R.length ≤ ef) :
    (s.seen.map (cand dist)).Perm s.pool.entries ∧ ∀ i, Reach g.rows S i → i ∈ s.seen := by
  have hsR : s.seen.length ≤ R.length := nodup_subset_length h.nd (fun t ht => hRr t (h.reach t ht))
  obtain ⟨hsort, hlen, rest, hp, -⟩ := h.q.best
  have hrest : rest = [] := by
    have h1 := hp.length_eq
    simp only [List.length_append, List.length_map] at h1 hlen
    have : rest.length = 0 := by omega
    exact List.length_eq_zero_iff.mp this
  subst hrest
  rw [List.append_nil] at hp
  refine ⟨hp, ?_⟩
  intro i hi
  induction hi with
  | seed hv => exact hS _ hv
  | step _ hm ih =>
    have := LInv.all_popped h.q hu _ (hp.mem_iff.mp (List.mem_map.mpr ⟨_, ih, rfl⟩))
    rcases h.closed _ this _ hm with h' | h'
    · exact h'
    · cases h'

end Alaya.MemSearch
