import Verif.Model.GreedySearch
import Verif.Spec.Reach
import Verif.Lemmas.NPQ
import Verif.Lemmas.ListAux

namespace Alaya.Pools
open Spec

theorem QInv.reset (q : NPQ) (cap : Nat) : QInv cap (q.reset cap) [] [] := by
  refine ⟨rfl, ?_, by simp [NPQ.reset], ?_, by simp, ?_, by simp [NPQ.reset, NPQ.entries], by simp, by simp⟩
  · unfold NPQ.reset
    simp only
    split
    · simp; omega
    · omega
  · simpa [NPQ.entries, NPQ.reset] using Best.nil
  · refine ⟨by simp [NPQ.reset], ?_, ?_⟩
    · intro i e h; simp [NPQ.reset] at h
    · intro e h; simp [NPQ.reset, NPQ.entries] at h

/-- The neighbours named in the graph exist (checked by `VamanaReader`). -/
def GraphOk (g : Graph) : Prop := ∀ nbrs ∈ g, ∀ m ∈ nbrs, m < g.length

/-- The candidate of a node. -/
def cand (dist : Nat → Int) (i : Nat) : Nat × Int := (i, dist i)

/-- State of the search: `popped` are the expanded candidates, `todo` the neighbours of the last one still to visit. -/
structure SInv (g : Graph) (start : Nat) (dist : Nat → Int) (list : Nat) (s : Scratch) (popped : List (Nat × Int))
    (todo : List Nat) : Prop where
  q : QInv list s.pool (s.touched.map (cand dist)) popped
  vlen : s.visited.length = g.length
  vis : ∀ i, i < g.length → s.visited[i]? = some (decide (i ∈ s.touched))
  tnd : s.touched.Nodup
  tlt : ∀ t ∈ s.touched, t < g.length
  reach : ∀ t ∈ s.touched, Reach g start t
  closed : ∀ x ∈ popped, ∀ nbrs, g[x.1]? = some nbrs → ∀ m ∈ nbrs, m ∈ s.touched ∨ m ∈ todo

theorem SInv.tlen {g : Graph} {start : Nat} {dist : Nat → Int} {list : Nat} {s : Scratch} {popped : List (Nat × Int)}
    {todo : List Nat} (h : SInv g start dist list s popped todo) : s.touched.length ≤ g.length := by
  have := nodup_subset_length (l2 := List.range g.length) h.tnd (by intro t ht; simpa using h.tlt t ht)
  simpa using this

theorem SInv.visit {g : Graph} {start : Nat} {dist : Nat → Int} {list : Nat} {s : Scratch} {popped : List (Nat × Int)}
    {m : Nat} {todo : List Nat} (h : SInv g start dist list s popped (m :: todo)) (hm : m ∉ s.touched)
    (hlt : m < g.length) (hr : Reach g start m) :
    ∃ s', s.visit dist m = some s' ∧ SInv g start dist list s' popped todo ∧ s'.touched = s.touched ++ [m] := by
  obtain ⟨q, vlen, vis, tnd, tlt, reach, closed⟩ := h
  unfold Scratch.visit setAt
  rw [if_pos (by omega)]
  simp only
  obtain ⟨p', r, e1, h1, -⟩ := q.insert ⟨m, dist m, false⟩ (by
    intro x hx hid
    obtain ⟨t, ht, rfl⟩ := List.mem_map.mp hx
    have : t = m := hid
    subst this; rfl)
  rw [e1]
  simp only
  have hk : Nbr.key ⟨m, dist m, false⟩ = cand dist m := rfl
  rw [hk, if_neg (by
    intro hx
    obtain ⟨t, ht, he⟩ := List.mem_map.mp hx
    have : t = m := congrArg Prod.fst he
    subst this; exact hm ht)] at h1
  refine ⟨_, rfl, ⟨by simpa using h1, by simpa using vlen, ?_, ?_, ?_, ?_, ?_⟩, rfl⟩
  · intro i hi
    simp only
    rw [List.getElem?_set]
    by_cases him : m = i
    · subst him; rw [if_pos rfl, if_pos (by omega)]; simp
    · rw [if_neg him, vis i hi]
      have : i ≠ m := fun h => him h.symm
      simp [this]
  · rw [List.nodup_append]
    refine ⟨tnd, by simp, ?_⟩
    intro a ha b hb
    simp at hb; subst hb
    intro hab; subst hab; exact hm ha
  · intro t ht
    rcases List.mem_append.mp ht with h' | h'
    · exact tlt t h'
    · simp at h'; omega
  · intro t ht
    rcases List.mem_append.mp ht with h' | h'
    · exact reach t h'
    · simp at h'; subst h'; exact hr
  · intro x hx nbrs hn k hk
    simp only [List.mem_append, List.mem_singleton]
    rcases closed x hx nbrs hn k hk with h' | h'
    · exact Or.inl (Or.inl h')
    · rcases List.mem_cons.mp h' with h' | h'
      · exact Or.inl (Or.inr h')
      · exact Or.inr h'

theorem SInv.visitAll {g : Graph} {start : Nat} {dist : Nat → Int} {list : Nat} {popped : List (Nat × Int)}
    (todo : List Nat) : ∀ {s : Scratch}, SInv g start dist list s popped todo → (∀ m ∈ todo, m < g.length) →
    (∀ m ∈ todo, Reach g start m) →
    ∃ s', s.visitAll dist todo = some s' ∧ SInv g start dist list s' popped [] ∧ ∀ t ∈ s.touched, t ∈ s'.touched := by
  induction todo with
  | nil => intro s h _ _; exact ⟨s, rfl, h, fun t ht => ht⟩
  | cons m todo ih =>
    intro s h hlt hr
    unfold Scratch.visitAll
    rw [h.vis m (hlt m (by simp))]
    by_cases hm : m ∈ s.touched
    · simp only [hm, decide_true]
      have h' : SInv g start dist list s popped todo := by
        obtain ⟨q, vlen, vis, tnd, tlt, reach, closed⟩ := h
        refine ⟨q, vlen, vis, tnd, tlt, reach, ?_⟩
        intro x hx nbrs hn k hk
        rcases closed x hx nbrs hn k hk with h' | h'
        · exact Or.inl h'
        · rcases List.mem_cons.mp h' with h' | h'
          · subst h'; exact Or.inl hm
          · exact Or.inr h'
      exact ih h' (fun k hk => hlt k (by simp [hk])) (fun k hk => hr k (by simp [hk]))
    · simp only [hm, decide_false]
      obtain ⟨s1, e1, h1, ht1⟩ := h.visit hm (hlt m (by simp)) (hr m (by simp))
      rw [e1]
      simp only
      obtain ⟨s2, e2, h2, ht2⟩ := ih h1 (fun k hk => hlt k (by simp [hk])) (fun k hk => hr k (by simp [hk]))
      exact ⟨s2, e2, h2, fun t ht => ht2 t (by rw [ht1]; simp [ht])⟩

theorem SInv.loop {g : Graph} (hg : GraphOk g) {start : Nat} {dist : Nat → Int} {list : Nat} (fuel : Nat) :
    ∀ {s : Scratch} {popped : List (Nat × Int)}, SInv g start dist list s popped [] → g.length ≤ fuel + popped.length →
    ∃ s' popped', (∀ extra, Scratch.loop g dist (fuel + extra) s = some s') ∧ SInv g start dist list s' popped' [] ∧
      s'.pool.hasUnexpanded = false ∧ ∀ t ∈ s.touched, t ∈ s'.touched := by
  have hbound : ∀ {s : Scratch} {popped : List (Nat × Int)}, SInv g start dist list s popped [] →
      s.pool.hasUnexpanded = true → popped.length < g.length := by
    intro s popped h hu
    obtain ⟨q', x, e1, h1, h2⟩ := h.q.closest hu
    have hl := nodup_subset_length (l2 := s.touched.map (cand dist)) h1.pnd h1.psub
    have := h.tlen
    simp at hl; omega
  have hdone : ∀ {s : Scratch} (f : Nat), s.pool.hasUnexpanded = false → Scratch.loop g dist f s = some s := by
    intro s f hu
    cases f with
    | zero => unfold Scratch.loop; rw [if_neg (by rw [hu]; simp)]
    | succ f => unfold Scratch.loop; rw [if_neg (by rw [hu]; simp)]
  induction fuel with
  | zero =>
    intro s popped h hf
    have hu : s.pool.hasUnexpanded = false := by
      cases hu : s.pool.hasUnexpanded with
      | false => rfl
      | true => have := hbound h hu; omega
    exact ⟨s, popped, fun extra => hdone _ hu, h, hu, fun t ht => ht⟩
  | succ fuel ih =>
    intro s popped h hf
    cases hu : s.pool.hasUnexpanded with
    | false => exact ⟨s, popped, fun extra => hdone _ hu, h, hu, fun t ht => ht⟩
    | true =>
      obtain ⟨q', x, e1, h1, h2, h3, -, -⟩ := h.q.closest hu
      have hxo : x.key ∈ s.touched.map (cand dist) := Best.mem h.q.best h2
      obtain ⟨t, ht, hte⟩ := List.mem_map.mp hxo
      have hxt : x.id = t := (congrArg Prod.fst hte).symm
      have hxl : x.id < g.length := by rw [hxt]; exact h.tlt t ht
      have hgx : g[x.id]? = some g[x.id] := List.getElem?_eq_getElem hxl
      have hmem : g[x.id] ∈ g := List.getElem_mem hxl
      have hs : SInv g start dist list { s with pool := q' } (popped ++ [x.key]) g[x.id] := by
        obtain ⟨q, vlen, vis, tnd, tlt, reach, closed⟩ := h
        refine ⟨h1, vlen, vis, tnd, tlt, reach, ?_⟩
        intro y hy nbrs hn k hk
        rcases List.mem_append.mp hy with h' | h'
        · rcases closed y h' nbrs hn k hk with h'' | h''
          · exact Or.inl h''
          · cases h''
        · simp at h'; subst h'
          right
          have : g[x.id]? = some nbrs := hn
          rw [hgx] at this
          cases this; exact hk
      obtain ⟨s2, f1, f2, f3⟩ := hs.visitAll g[x.id] (hg _ hmem) (by
        intro m hm
        refine Reach.step ?_ hgx hm
        rw [hxt]; exact h.reach t ht)
      obtain ⟨s3, popped', k1, k2, k3, k4⟩ := ih f2 (by simp; omega)
      refine ⟨s3, popped', ?_, k2, k3, fun t ht => k4 t (f3 t ht)⟩
      intro extra
      rw [show fuel + 1 + extra = (fuel + extra) + 1 by omega]
      unfold Scratch.loop
      rw [if_pos hu, e1]
      simp only
      rw [hgx]
      simp only
      rw [f1]
      exact k1 extra

/-- What earlier searches leave behind: every marked node is in the list of touched nodes. -/
def ScratchOk (s : Scratch) : Prop :=
  (∀ t ∈ s.touched, t < s.visited.length) ∧ ∀ i : Nat, s.visited[i]? = some true → i ∈ s.touched

theorem clearAll_ok (ids : List Nat) : ∀ (vs : List Bool), (∀ t ∈ ids, t < vs.length) → (∀ i : Nat, vs[i]? = some true → i ∈ ids) →
    clearAll vs ids = some (List.replicate vs.length false) := by
  induction ids with
  | nil =>
    intro vs _ h2
    unfold clearAll
    congr 1
    apply List.ext_getElem?
    intro i
    rw [List.getElem?_replicate]
    split
    · rename_i hi
      rw [List.getElem?_eq_getElem hi]
      cases hv : vs[i] with
      | false => rfl
      | true => have := h2 i (by rw [List.getElem?_eq_getElem hi, hv]); cases this
    · rw [List.getElem?_eq_none (by omega)]
  | cons id ids ih =>
    intro vs h1 h2
    unfold clearAll setAt
    rw [if_pos (h1 id (by simp))]
    simp only
    rw [ih (vs.set id false) (by intro t ht; simpa using h1 t (by simp [ht])) ?_]
    · simp
    · intro i hi
      rw [List.getElem?_set] at hi
      split at hi
      · split at hi
        · cases hi
        · cases hi
      · rename_i hne
        rcases List.mem_cons.mp (h2 i hi) with h' | h'
        · exact absurd h'.symm hne
        · exact h'

theorem prepare_ok {s : Scratch} (h : ScratchOk s) (n list : Nat) :
    s.prepare n list = some ⟨List.replicate n false, [], s.pool.reset list⟩ := by
  unfold Scratch.prepare
  by_cases hn : s.visited.length = n
  · rw [if_pos hn, clearAll_ok s.touched s.visited h.1 h.2, hn]
  · rw [if_neg hn]

theorem search_run (g : Graph) (hg : GraphOk g) (start : Nat) (hst : start < g.length) (dist : Nat → Int)
    (list : Nat) (s : Scratch) (h : ScratchOk s) :
    ∃ s0 s1 s2 popped, s.prepare g.length list = some s0 ∧ s0.visit dist start = some s1 ∧
      (∀ extra, Scratch.loop g dist (g.length + extra) s1 = some s2) ∧ SInv g start dist list s2 popped [] ∧
      s2.pool.hasUnexpanded = false ∧ start ∈ s2.touched := by
  have h0 : SInv g start dist list ⟨List.replicate g.length false, [], s.pool.reset list⟩ [] [start] := by
    refine ⟨QInv.reset _ _, by simp, ?_, by simp, by simp, by simp, by simp⟩
    intro i hi
    simp [hi]
  obtain ⟨s1, e1, h1, ht⟩ := h0.visit (m := start) (by simp) hst Reach.start
  obtain ⟨s2, popped, k1, k2, k3, k4⟩ := h1.loop hg g.length (by omega)
  exact ⟨_, s1, s2, popped, prepare_ok h _ _, e1, k1, k2, k3, k4 start (by rw [ht]; simp)⟩

end Alaya.Pools
