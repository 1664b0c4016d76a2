import Verif.Lemmas.Hnsw

/-! Every step of the HNSW construction keeps the invariant, has no undefined behaviour and lowers a measure. -/
namespace Alaya.Hnsw

/-- Number of labels nearer than `d`. -/
def rank (c : Cfg) (label : Nat) (d : Int) : Nat := ((List.range c.n).filter (fun x => c.dist label x < d)).length

theorem rank_le (c : Cfg) (label : Nat) (d : Int) : rank c label d ≤ c.n := by
  have := List.length_filter_le (fun x => decide (c.dist label x < d)) (List.range c.n)
  simpa [rank] using this

theorem rank_lt {c : Cfg} {label v : Nat} {d : Int} (hv : v < c.n) (h : c.dist label v < d) : rank c label (c.dist label v) < rank c label d := by
  unfold rank
  have hsub : ((List.range c.n).filter (fun x => c.dist label x < c.dist label v)).Subperm
      (((List.range c.n).filter (fun x => c.dist label x < d)).erase v) := by
    apply List.subperm_of_subset (List.Pairwise.filter _ List.nodup_range)
    intro x hx
    rw [List.mem_filter] at hx
    have hx2 : c.dist label x < c.dist label v := by simpa using hx.2
    have hne : x ≠ v := by intro e; subst e; omega
    rw [List.mem_erase_of_ne hne, List.mem_filter]
    exact ⟨hx.1, by simpa using (by omega : c.dist label x < d)⟩
  have hm : v ∈ (List.range c.n).filter (fun x => c.dist label x < d) := by
    rw [List.mem_filter, List.mem_range]; exact ⟨hv, by simpa using h⟩
  have h1 := hsub.length_le
  have h2 := List.length_erase_of_mem hm
  have h3 := List.length_pos_of_mem hm
  omega

/-- Bound for the steps that remain. -/
def Node.w (c : Cfg) (x : Node) : Nat :=
  match x.ph with
  | .wait => 0
  | .enter => (x.level + 1) * (2 * c.n + 3) + (x.ml.getD 0 - x.level) * (c.n + 1) + c.n + 2
  | .descend lv _ d => (x.level + 1) * (2 * c.n + 3) + (lv - x.level) * (c.n + 1) + rank c x.label d
  | .search lv st => lv * (2 * c.n + 3) + (c.n + 2) + st.w c.n
  | .link lv rest _ => lv * (2 * c.n + 3) + rest.length + 1
  | .done => 0

def Node.waits (x : Node) : Nat := if x.cls = 0 then 1 else 0

/-- The measure: calls to come, insertions before `global_`, bound for the rest. -/
def State.mu (c : Cfg) (s : State) : Nat × Nat × Nat := (s.todo.length, (s.nodes.map Node.waits).sum, (s.nodes.map (Node.w c)).sum)

def Lt (a b : Nat × Nat × Nat) : Prop := Prod.Lex (· < ·) (Prod.Lex (· < ·) (· < ·)) a b

theorem Lt.wf : WellFounded Lt := by
  exact (Prod.lex Nat.lt_wfRel (Prod.lex Nat.lt_wfRel Nat.lt_wfRel)).wf

theorem sum_set {l : List Nat} : ∀ {i a b : Nat}, l[i]? = some a → (l.set i b).sum + a = l.sum + b := by
  induction l with
  | nil => intro i a b h; simp at h
  | cons x xs ih =>
    intro i a b h
    cases i with
    | zero => simp at h; subst h; simp; omega
    | succ i =>
      have := ih (i := i) (a := a) (b := b) (by simpa using h)
      simp; omega

theorem sum_map_set {f : Node → Nat} {l : List Node} {i : Nat} {a b : Node} (h : l[i]? = some a) :
    ((l.set i b).map f).sum + f a = (l.map f).sum + f b := by
  rw [List.map_set]
  exact sum_set (by rw [List.getElem?_map, h]; rfl)

/-- The outcome of a step is fine. -/
def StepOk (c : Cfg) (s : State) (o : Out) : Prop := o ≠ .ub ∧ ∀ s', o = .ok s' → Inv c s' ∧ Lt (s'.mu c) (s.mu c)

theorem StepOk.blocked {c : Cfg} {s : State} : StepOk c s .blocked := ⟨by simp, by intro s' h; cases h⟩

theorem Lt.of_w {c : Cfg} {s s' : State} (ht : s'.todo = s.todo) (h1 : (s'.nodes.map Node.waits).sum = (s.nodes.map Node.waits).sum)
    (h2 : (s'.nodes.map (Node.w c)).sum < (s.nodes.map (Node.w c)).sum) : Lt (s'.mu c) (s.mu c) := by
  unfold Lt State.mu
  rw [ht, h1]
  exact Prod.Lex.right _ (Prod.Lex.right _ h2)

theorem Lt.set {c : Cfg} {s s' : State} {i : Nat} {x x' : Node} (hi : s.nodes[i]? = some x) (hn : s'.nodes = s.nodes.set i x')
    (ht : s'.todo = s.todo) (hc : x.cls ≠ 0) (hc' : x'.cls ≠ 0) (hw : x'.w c < x.w c) : Lt (s'.mu c) (s.mu c) := by
  refine Lt.of_w ht ?_ ?_
  · rw [hn]
    have := sum_map_set (f := Node.waits) (b := x') hi
    simp only [Node.waits, hc, hc', if_false] at this
    exact this
  · rw [hn]
    have := sum_map_set (f := Node.w c) (b := x') hi
    omega

theorem phase_eq {s : State} {i : Nat} {x : Node} (hi : s.nodes[i]? = some x) (p : Ph) :
    s.phase i p = { s with nodes := s.nodes.set i { x with ph := p } } := by
  unfold State.phase; rw [hi]

theorem ext_of_set {s : State} {i : Nat} {x : Node} (hi : s.nodes[i]? = some x) : i < s.nodes.length :=
  (List.getElem?_eq_some_iff.mp hi).1

/-- From one working phase to another, lists unchanged. -/
theorem phase_ok {c : Cfg} {s : State} (h : Inv c s) {i : Nat} {x : Node} (hi : s.nodes[i]? = some x) (hc : x.cls = 1) (p : Ph)
    (hp : ({ x with ph := p } : Node).cls = 1) (hlk : ∀ l, Linked x l → Linked { x with ph := p } l)
    (hne : Linked { x with ph := p } 0 → Linked x 0) (hw : ({ x with ph := p } : Node).w c < x.w c)
    (hph : ∀ s' : State, s'.nodes = s.nodes.set i { x with ph := p } → Ext s s' → PhOk c s' i { x with ph := p }) :
    StepOk c s (.ok (s.phase i p)) := by
  refine ⟨by simp, fun s' e => ?_⟩
  have e : s.phase i p = s' := by injection e
  rw [phase_eq hi] at e
  have hn : s'.nodes = s.nodes.set i { x with ph := p } := by rw [← e]
  have hnode := h.node i x hi
  refine ⟨(h.set hi hn (by rw [← e]) ?_ rfl rfl hlk (fun L e1 e2 => ⟨L, e1, e2⟩) ?_ ?_).1, ?_⟩
  · intro hd; unfold Node.cls at hc; rw [hd] at hc; simp at hc
  · refine h.glob.same ?_ (by rw [← e]) (by rw [← e]) (by rw [← e])
    rw [hn]
    refine map_set_same _ hi ?_
    simp only [hp, hc]
  · intro hext
    exact ⟨hnode.len, fun l L el => (hnode.list l L el).ext hext, fun h0 hl => hnode.ne h0 (hne hl), hph s' hn hext⟩
  · exact Lt.set hi hn (by rw [← e]) (by omega) (by omega) hw

theorem cls_of {x : Node} (h1 : x.ph ≠ .wait) (h2 : x.ph ≠ .done) : x.cls = 1 := by
  unfold Node.cls
  cases h : x.ph <;> simp_all

theorem not_linked {x : Node} {l : Nat} (h : x.ph = .wait ∨ x.ph = .enter ∨ ∃ lv u d, x.ph = .descend lv u d) : ¬ Linked x l := by
  unfold Linked
  rcases h with h | h | ⟨lv, u, d, h⟩ <;> rw [h] <;> simp

theorem start_w (d : Nat → Int) (u n : Nat) : (Srch.start d u).w n = 1 + (n - 1) := rfl

theorem mul_mono {a b k : Nat} (h : a ≤ b) : a * k ≤ b * k := Nat.mul_le_mul_right k h

/-- Entering a search of layer `lv` from `u`. -/
theorem search_phOk {c : Cfg} {s s' : State} {i : Nat} {x : Node} {lv u : Nat} (hm : 0 < c.m) (hlv : lv ≤ x.level) (hext : Ext s s') (hi : i < s.nodes.length)
    (hu : s.Lk u lv) : PhOk c s' i { x with ph := .search lv (.start (s.dist c i) u) } := by
  have hef : 0 < c.ef := by unfold Cfg.ef; omega
  refine ⟨hlv, ?_⟩
  have := SOk.start (d := s.dist c i) (P := fun v => s.Lk v lv) (F := s.Dn) hef hu
  exact this.mono (fun v => hext.lk) (fun v => hext.dn) (fun v hv => (hext.dist hi hv.lt).symm)

theorem PickOk.popAll {pk : Pick} (hpk : PickOk pk) {dd : Nat → Nat → Int} {m : Nat} (hm : 0 < m) {q : List Cand} (hq : (q.map Prod.snd).Nodup)
    (hne : q ≠ []) :
    (popAll pk (heur dd m q).length (heur dd m q)).Nodup ∧ (popAll pk (heur dd m q).length (heur dd m q)).length ≤ m ∧
    (∀ v ∈ popAll pk (heur dd m q).length (heur dd m q), ∃ x ∈ q, x.2 = v) ∧ popAll pk (heur dd m q).length (heur dd m q) ≠ [] := by
  obtain ⟨h1, h2, h3, h4⟩ := heur_spec (dd := dd) hm hq
  have hp := popAll_perm hpk _ (heur dd m q) rfl
  refine ⟨hp.nodup_iff.mpr h2, by rw [hp.length_eq]; simpa using h1, fun v hv => ?_, fun he => ?_⟩
  · obtain ⟨x, hx, e⟩ := List.mem_map.mp (hp.mem_iff.mp hv)
    exact ⟨x, h3 x hx, e⟩
  · rw [he] at hp
    have := hp.length_eq
    simp at this
    exact h4 hne (List.length_eq_zero_iff.mp this.symm)

theorem Cfg.m_le_cap (c : Cfg) (lv : Nat) : c.m ≤ c.cap lv := by unfold Cfg.cap; split <;> omega

/-- The own list is written. -/
theorem connect_ok {c : Cfg} {s : State} (h : Inv c s) (hm : 0 < c.m) {pk : Pick} (hpk : PickOk pk) {i : Nat} {x : Node} (hi : s.nodes[i]? = some x)
    {lv : Nat} {st : Srch} (hph : x.ph = .search lv st) (hall : ∀ t ∈ st.top, s.Dn t.2) : StepOk c s (s.connect c pk i lv st.top) := by
  have hnode := h.node i x hi
  have hp := hnode.ph
  unfold PhOk at hp
  rw [hph] at hp
  obtain ⟨hlv, hs⟩ := hp
  obtain ⟨k1, k2, k3, k4⟩ := hpk.popAll (dd := s.dist c) hm hs.top_nd hs.top_ne
  unfold State.connect
  simp only
  revert k1 k2 k3 k4
  generalize popAll pk (heur (s.dist c) c.m st.top).length (heur (s.dist c) c.m st.top) = sel
  intro k1 k2 k3 k4
  obtain ⟨nxt, hnxt⟩ : ∃ nxt, sel.getLast? = some nxt := by
    cases hg : sel.getLast? with
    | none => exact absurd (List.getLast?_eq_none_iff.mp hg) k4
    | some y => exact ⟨y, rfl⟩
  rw [hnxt]
  simp only
  have hlt : lv < x.links.length := by rw [hnode.len]; omega
  have hcap : sel.length ≤ c.cap lv := Nat.le_trans k2 (c.m_le_cap lv)
  have hilt := ext_of_set hi
  have hwr : s.write c i lv sel = some { s with nodes := s.nodes.set i { x with links := x.links.set lv sel } } := by
    unfold State.write; rw [hi]; simp only; rw [if_pos ⟨hlt, hcap⟩]
  rw [hwr]
  simp only
  have hi2 : ({ s with nodes := s.nodes.set i { x with links := x.links.set lv sel } } : State).nodes[i]? =
      some { x with links := x.links.set lv sel } := List.getElem?_set_self hilt
  rw [phase_eq hi2]
  simp only [List.set_set]
  have hsel : ∀ y ∈ sel, s.DnL y lv := by
    intro y hy
    obtain ⟨t, ht, e⟩ := k3 y hy
    subst e
    exact (hs.vis _ (hs.top_vis t ht)).dn (hall t ht).free
  have hnot : ¬ s.Lk i lv := by
    rintro ⟨y, e, hy⟩
    rw [hi] at e
    cases e
    unfold Linked at hy
    rw [hph] at hy
    exact Nat.lt_irrefl _ hy.2
  have hnd : ¬ s.Dn i := by
    rintro ⟨y, e, hy⟩
    rw [hi] at e
    cases e
    rw [hph] at hy
    cases hy
  have hisel : i ∉ sel := fun hin => hnd (hsel i hin).dn
  have hnxtm : nxt ∈ sel := List.mem_of_getLast? hnxt
  refine ⟨by simp, fun s' e => ?_⟩
  injection e with e
  set x' : Node := { x with links := x.links.set lv sel, ph := .link lv sel nxt } with hx'
  have hn : s'.nodes = s.nodes.set i x' := by rw [← e]
  have ht : s'.todo = s.todo := by rw [← e]
  have hlk : ∀ l, Linked x l → Linked x' l := by
    intro l hl
    unfold Linked at hl ⊢
    rw [hph] at hl
    rw [hx']
    exact ⟨hl.1, Nat.le_of_lt hl.2⟩
  have hlen' : sel.length ≤ c.n := by
    have hsub : sel.Subperm (List.range s.nodes.length) :=
      List.subperm_of_subset k1 (fun y hy => List.mem_range.mpr ((hsel y hy).lk (Nat.le_refl _)).lt)
    have := hsub.length_le
    have := h.base.length
    simp only [List.length_range] at *
    omega
  refine ⟨(h.set hi hn ht (by rw [hph]; simp) rfl rfl hlk ?_ ?_ ?_).1, ?_⟩
  · intro L e1 e2
    rw [hx']
    by_cases h0 : lv = 0
    · subst h0
      exact ⟨sel, List.getElem?_set_self hlt, k4⟩
    · exact ⟨L, by simp only; rw [List.getElem?_set_ne h0]; exact e1, e2⟩
  · refine h.glob.same ?_ (by rw [← e]) (by rw [← e]) (by rw [← e])
    rw [hn]
    refine map_set_same _ hi ?_
    simp [hx', Node.cls, hph]
  · intro hext
    refine ⟨by rw [hx']; simp only [List.length_set]; exact hnode.len, ?_, ?_, ?_⟩
    · intro l L el
      rw [hx'] at el
      simp only at el
      by_cases hl : l = lv
      · subst hl
        rw [List.getElem?_set_self hlt] at el
        cases el
        exact ⟨k1, hisel, hcap, fun y hy => hext.lk ((hsel y hy).lk (Nat.le_refl _))⟩
      · rw [List.getElem?_set_ne (Ne.symm hl)] at el
        exact (hnode.list l L el).ext hext
    · intro h0 hl L el
      rw [hx'] at el hl
      simp only at el
      unfold Linked at hl
      have hl0 : lv = 0 := by simpa using hl.2
      subst hl0
      rw [List.getElem?_set_self hlt] at el
      cases el
      exact k4
    · refine ⟨hlv, k1, hext.dnl (hsel nxt hnxtm), fun y hy => ⟨hext.dnl (hsel y hy), ?_⟩, ?_⟩
      · intro z L ez eL hin
        have hyi : y ≠ i := fun he => hisel (he ▸ hy)
        rw [nodes_set hn hyi] at ez
        exact hnot (((h.node y z ez).list lv L eL).lk i hin)
      · intro hi0 hl0
        obtain ⟨y, hy⟩ := List.exists_mem_of_ne_nil sel k4
        by_cases hy0 : y = 0
        · exact .inl (hy0 ▸ hy)
        · right
          obtain ⟨z, ez, hz, _⟩ := hsel y hy
          have := (h.node y z ez).ph
          unfold PhOk at this
          rw [hz] at this
          exact hext.first (this hy0)
  · refine Lt.set hi hn ht ?_ ?_ ?_
    · simp [Node.cls, hph]
    · simp [hx', Node.cls]
    · have e1 : x'.w c = lv * (2 * c.n + 3) + sel.length + 1 := by rw [hx']; rfl
      have e2 : x.w c = lv * (2 * c.n + 3) + (c.n + 2) + st.w c.n := by unfold Node.w; rw [hph]
      omega

/-- One neighbour is connected. -/
theorem link_ok {c : Cfg} {s : State} (h : Inv c s) (hm : 0 < c.m) {pk : Pick} (hpk : PickOk pk) {i : Nat} {x : Node} (hi : s.nodes[i]? = some x)
    {lv y nxt : Nat} {rest : List Nat} (hph : x.ph = .link lv (y :: rest) nxt) : s.free y = true ∧ StepOk c s (s.run c pk i) := by
  have hnode := h.node i x hi
  have hp := hnode.ph
  unfold PhOk at hp
  rw [hph] at hp
  obtain ⟨hlv, hrn, hnx, hrest, hfirst⟩ := hp
  obtain ⟨hyd, hyno⟩ := hrest y List.mem_cons_self
  have hyf : s.free y = true := hyd.dn.free
  refine ⟨hyf, ?_⟩
  obtain ⟨L, z, ez, eL, er, hL⟩ := h.read (hyd.lk (Nat.le_refl _))
  have hyi : y ≠ i := by
    intro he
    subst he
    rw [hi] at ez
    cases ez
    obtain ⟨w, ew, hw, _⟩ := hyd
    rw [hi] at ew
    cases ew
    rw [hph] at hw
    cases hw
  have hyn := hyno z L ez eL
  have hzn := h.node y z ez
  have hcapm := c.m_le_cap lv
  have hilk : s.Lk i lv := ⟨x, hi, hlv, by rw [hph]; exact Nat.le_refl _⟩
  -- the new list
  have hnew : (newList c pk s i y lv L).Nodup ∧ (newList c pk s i y lv L).length ≤ c.cap lv ∧
      (∀ v ∈ newList c pk s i y lv L, v ∈ L ∨ v = i) ∧ newList c pk s i y lv L ≠ [] := by
    unfold newList
    split
    · rename_i hlen
      refine ⟨?_, by simp; omega, fun v hv => by simpa using hv, by simp⟩
      rw [List.nodup_append]
      refine ⟨hL.nd, by simp, ?_⟩
      intro a ha b hb e
      have : b = i := by simpa using hb
      subst this
      subst e
      exact hyn ha
    · have hq : (((s.dist c i y, i) :: L.map (fun x => (s.dist c x y, x))).map Prod.snd).Nodup := by
        simp only [List.map_cons, List.map_map]
        rw [List.nodup_cons]
        have : (Prod.snd ∘ fun x => (s.dist c x y, x)) = (id : Nat → Nat) := by funext a; rfl
        rw [this, List.map_id]
        exact ⟨hyn, hL.nd⟩
      obtain ⟨k1, k2, k3, k4⟩ := hpk.popAll (dd := s.dist c) (m := c.cap lv) (by omega) hq (by simp)
      refine ⟨k1, k2, fun v hv => ?_, k4⟩
      obtain ⟨t, ht, e⟩ := k3 v hv
      rcases List.mem_cons.mp ht with rfl | ht
      · exact .inr e.symm
      · obtain ⟨a, ha, e2⟩ := List.mem_map.mp ht
        left
        rw [← e, ← e2]
        exact ha
  obtain ⟨n1, n2, n3, n4⟩ := hnew
  have hylt := ext_of_set ez
  have hilt := ext_of_set hi
  have hlt : lv < z.links.length := (List.getElem?_eq_some_iff.mp eL).1
  unfold State.run
  rw [hi]
  simp only
  rw [hph]
  simp only
  rw [hyf]
  simp only [not_true, if_false]
  rw [er]
  simp only
  generalize newList c pk s i y lv L = L' at n1 n2 n3 n4
  have hwr : s.write c y lv L' = some { s with nodes := s.nodes.set y { z with links := z.links.set lv L' } } := by
    unfold State.write; rw [ez]; simp only; rw [if_pos ⟨hlt, n2⟩]
  rw [hwr]
  simp only
  set z' : Node := { z with links := z.links.set lv L' } with hz'
  have hi2 : (s.nodes.set y z')[i]? = some x := by
    rw [List.getElem?_set_ne hyi]; exact hi
  rw [phase_eq (s := { s with nodes := s.nodes.set y z' }) hi2]
  refine ⟨by simp, fun s' e => ?_⟩
  injection e with e
  set x' : Node := { x with ph := .link lv rest nxt } with hx'
  have hn : s'.nodes = (s.nodes.set y z').set i x' := by rw [← e]
  have ht : s'.todo = s.todo := by rw [← e]
  have hlk : ∀ l, Linked x l ↔ Linked x' l := by
    intro l
    unfold Linked
    rw [hph]
  have gi : s'.nodes[i]? = some x' := by
    rw [hn, List.getElem?_set_self (by simpa using hilt)]
  have gy : s'.nodes[y]? = some z' := by
    rw [hn, List.getElem?_set_ne (Ne.symm hyi), List.getElem?_set_self hylt]
  have go : ∀ j : Nat, j ≠ i → j ≠ y → s'.nodes[j]? = s.nodes[j]? := by
    intro j h1 h2
    rw [hn, List.getElem?_set_ne (Ne.symm h1), List.getElem?_set_ne (Ne.symm h2)]
  have gz : ∀ (l : Nat) (M : List Nat), z'.links[l]? = some M → (l = lv ∧ M = L') ∨ (l ≠ lv ∧ z.links[l]? = some M) := by
    intro l M el
    rw [hz'] at el
    simp only at el
    by_cases hl : l = lv
    · subst hl
      rw [List.getElem?_set_self hlt] at el
      cases el
      exact .inl ⟨rfl, rfl⟩
    · rw [List.getElem?_set_ne (Ne.symm hl)] at el
      exact .inr ⟨hl, el⟩
  have hadd0 : ∀ (l : Nat) (M' : List Nat), z'.links[l]? = some M' → ∃ M : List Nat, z.links[l]? = some M ∧ ∀ v ∈ M', v ∈ M ∨ v = i := by
    intro l M' el
    rcases gz l M' el with ⟨rfl, rfl⟩ | ⟨_, e2⟩
    · exact ⟨L, eL, n3⟩
    · exact ⟨M', e2, fun v hv => .inl hv⟩
  have hext : Ext s s' := by
    refine ⟨fun j w ew => ?_, ?_⟩
    · by_cases hj : j = i
      · subst hj
        rw [hi] at ew
        cases ew
        exact ⟨x', gi, rfl, rfl, fun l => (hlk l).mp, fun hd => by rw [hph] at hd; cases hd⟩
      · by_cases hj2 : j = y
        · subst hj2
          rw [ez] at ew
          cases ew
          exact ⟨z', gy, rfl, rfl, fun l hl => hl, fun hd => hd⟩
        · exact ⟨w, by rw [go j hj hj2]; exact ew, rfl, rfl, fun l hl => hl, fun hd => hd⟩
    · rintro ⟨w, M, e1, e2, e3⟩
      by_cases h0 : 0 = i
      · rw [h0, hi] at e1
        cases e1
        exact ⟨x', M, by rw [h0]; exact gi, e2, e3⟩
      · by_cases h1 : 0 = y
        · rw [h1, ez] at e1
          cases e1
          by_cases h2 : lv = 0
          · exact ⟨z', L', by rw [h1]; exact gy, by rw [hz']; simp only; rw [h2]; exact List.getElem?_set_self (h2 ▸ hlt), n4⟩
          · exact ⟨z', M, by rw [h1]; exact gy, by rw [hz']; simp only; rw [List.getElem?_set_ne h2]; exact e2, e3⟩
        · exact ⟨w, M, by rw [go 0 h0 h1]; exact e1, e2, e3⟩
  have hadd : ∀ (a : Nat) (b b' : Node), s.nodes[a]? = some b → b.ph = .done → s'.nodes[a]? = some b' →
      ∀ (l : Nat) (M' : List Nat), b'.links[l]? = some M' → ∃ M : List Nat, b.links[l]? = some M ∧ ∀ v ∈ M', v ∈ M ∨ v = i := by
    intro a b b' ea hb eb' l M' el
    by_cases ha : a = i
    · subst ha
      rw [hi] at ea
      cases ea
      rw [hph] at hb
      cases hb
    · by_cases ha2 : a = y
      · subst ha2
        rw [ez] at ea
        cases ea
        rw [gy] at eb'
        cases eb'
        exact hadd0 l M' el
      · rw [go a ha ha2, ea] at eb'
        cases eb'
        exact ⟨M', el, fun v hv => .inl hv⟩
  refine ⟨⟨h.base.of_eq ?_ ht, fun j w ew => ?_, ?_⟩, ?_⟩
  · rw [hn, map_set_same Node.label hi2 (b := x') rfl]
    exact map_set_same Node.label ez (b := z') rfl
  · by_cases hj : j = i
    · subst hj
      rw [gi] at ew
      cases ew
      refine ⟨hnode.len, fun l M el => (hnode.list l M el).ext hext, fun h0 hl => hnode.ne h0 ((hlk 0).mpr hl), ?_⟩
      refine ⟨hlv, (List.nodup_cons.mp hrn).2, hext.dnl hnx, fun a ha => ?_, fun h0 hl0 => ?_⟩
      · obtain ⟨a1, a2⟩ := hrest a (List.mem_cons_of_mem _ ha)
        refine ⟨hext.dnl a1, fun b M eb eM => ?_⟩
        have hay : a ≠ y := fun he => (List.nodup_cons.mp hrn).1 (he ▸ ha)
        have hai : a ≠ j := by
          intro he
          subst he
          obtain ⟨b0, eb0, hb0, _⟩ := a1
          rw [hi] at eb0
          cases eb0
          rw [hph] at hb0
          cases hb0
        rw [go a hai hay] at eb
        exact a2 b M eb eM
      · rcases hfirst h0 hl0 with h1 | h1
        · rcases List.mem_cons.mp h1 with h2 | h2
          · right
            refine ⟨z', L', by rw [h2]; exact gy, ?_, n4⟩
            rw [hz']
            simp only
            subst hl0
            exact List.getElem?_set_self hlt
          · exact .inl h2
        · exact .inr (hext.first h1)
    · by_cases hj2 : j = y
      · subst hj2
        rw [gy] at ew
        cases ew
        refine NodeOk.ext hext hj hzn ez rfl rfl (by rw [hz']; simp) (fun l M el => ?_) hadd
        rcases gz l M el with ⟨rfl, rfl⟩ | ⟨_, e2⟩
        · refine .inr ⟨⟨n1, ?_, n2, fun v hv => ?_⟩, n4⟩
          · intro hin
            rcases n3 _ hin with h1 | h1
            · exact hL.self h1
            · exact hyi h1
          · rcases n3 v hv with h1 | h1
            · exact hext.lk (hL.lk v h1)
            · rw [h1]; exact hext.lk hilk
        · exact .inl e2
      · rw [go j hj hj2] at ew
        exact NodeOk.ext hext hj (h.node j w ew) ew rfl rfl rfl (fun l M el => .inl el) hadd
  · refine h.glob.same ?_ (by rw [← e]) (by rw [← e]) (by rw [← e])
    rw [hn, map_set_same _ hi2 (by simp [hx', Node.cls, hph])]
    exact map_set_same _ ez (by simp [hz', Node.cls])
  · refine Lt.of_w ht ?_ ?_
    · rw [hn, map_set_same Node.waits hi2 (b := x') (by unfold Node.waits Node.cls; rw [hph])]
      rw [map_set_same Node.waits ez (b := z') (by rw [hz']; rfl)]
    · have h1 := sum_map_set (f := Node.w c) (b := x') hi2
      rw [map_set_same (Node.w c) ez (b := z') (by rw [hz']; rfl)] at h1
      rw [hn]
      have e1 : x'.w c = lv * (2 * c.n + 3) + rest.length + 1 := by rw [hx']; rfl
      have e2 : x.w c = lv * (2 * c.n + 3) + (rest.length + 1) + 1 := by unfold Node.w; rw [hph]; rfl
      omega

end Alaya.Hnsw
