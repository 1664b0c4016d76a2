import Verif.Lemmas.HnswStep

/-! All steps of the HNSW construction, and progress. -/
namespace Alaya.Hnsw

theorem holder_iff {c : Cfg} {s : State} (h : Inv c s) {i : Nat} {x : Node} (hi : s.nodes[i]? = some x) (hc : x.cls = 1) :
    s.glob = some i ↔ x.ml.all (· < x.level) = true := by
  constructor
  · intro hg
    obtain ⟨y, e, _, _, h4⟩ := h.glob.holder i hg
    rw [hi] at e
    cases e
    exact h4
  · intro ha
    by_contra hg
    obtain ⟨ml, M, e, _, h3, _⟩ := h.glob.other i x hi hc hg
    rw [e] at ha
    simp at ha
    omega

/-- The insertion ends. -/
theorem finish_ok {c : Cfg} {s : State} (h : Inv c s) {i : Nat} {x : Node} (hi : s.nodes[i]? = some x) (hc : x.cls = 1) (hw : 0 < x.w c)
    (hne : i ≠ 0 → Linked x 0) (hfirst : i ≠ 0 → s.firstHas) : StepOk c s (s.finish i) := by
  have hnode := h.node i x hi
  have hilt := ext_of_set hi
  have hact : x.ph ≠ .done := by intro hd; unfold Node.cls at hc; rw [hd] at hc; simp at hc
  refine ⟨by unfold State.finish; rw [hi]; simp, fun s' e => ?_⟩
  unfold State.finish at e
  rw [hi] at e
  simp only at e
  set x' : Node := { x with ph := .done } with hx'
  have hiff := holder_iff h hi hc
  have hx'c : x'.cls = 2 := rfl
  have hlk : ∀ l, Linked x l → Linked x' l := fun l hl => ⟨hl.1, trivial⟩
  have hfin : ∀ s'' : State, s''.nodes = s.nodes.set i x' → s''.todo = s.todo → GlobOk s'' → Inv c s'' ∧ Lt (s''.mu c) (s.mu c) := by
    intro s'' hn ht hg
    refine ⟨(h.set hi hn ht hact rfl rfl hlk (fun L e1 e2 => ⟨L, e1, e2⟩) hg ?_).1, Lt.set hi hn ht (by omega) (by omega) ?_⟩
    · intro hext
      exact ⟨hnode.len, fun l L el => (hnode.list l L el).ext hext, fun h0 _ => hnode.ne h0 (hne h0), fun h0 => hext.first (hfirst h0)⟩
    · have : x'.w c = 0 := rfl
      omega
  have hother : ∀ (j : Nat) (y : Node), (s.nodes.set i x')[j]? = some y → (j = i ∧ y = x') ∨ (j ≠ i ∧ s.nodes[j]? = some y) := by
    intro j y ej
    by_cases hj : j = i
    · subst hj
      rw [List.getElem?_set_self hilt] at ej
      cases ej
      exact .inl ⟨rfl, rfl⟩
    · rw [List.getElem?_set_ne (Ne.symm hj)] at ej
      exact .inr ⟨hj, ej⟩
  by_cases hg : s.glob = some i
  · have hall := hiff.mp hg
    rw [if_pos hall] at e
    rw [phase_eq (s := { s with ent := some i, maxl := some x.level }) hi] at e
    simp only [hg, if_true] at e
    injection e with e
    obtain ⟨y, ey, _, hml, _⟩ := h.glob.holder i hg
    rw [hi] at ey
    cases ey
    refine hfin s' (by rw [← e]) (by rw [← e]) ?_
    have e1 : s'.nodes = s.nodes.set i x' := by rw [← e]
    have e2 : s'.ent = some i := by rw [← e]
    have e3 : s'.maxl = some x.level := by rw [← e]
    have e4 : s'.glob = none := by rw [← e]
    refine ⟨?_, ?_, ?_, ?_, ?_⟩
    · intro k hk
      rw [e2] at hk
      cases hk
      exact ⟨x', by rw [e1]; exact List.getElem?_set_self hilt, rfl, e3⟩
    · intro hk
      rw [e2] at hk
      cases hk
    · intro k hk
      rw [e4] at hk
      cases hk
    · intro j y hj hyc _
      rw [e1] at hj
      rcases hother j y hj with ⟨_, rfl⟩ | ⟨hji, hj⟩
      · rw [hx'c] at hyc; omega
      · obtain ⟨ml, M, a1, a2, a3, a4⟩ := h.glob.other j y hj hyc (by rw [hg]; intro hh; injection hh with hh; exact hji hh.symm)
        rw [hml, a2] at hall
        simp at hall
        exact ⟨ml, x.level, a1, e3, a3, by omega⟩
    · intro j y hj hyc
      rw [e1] at hj
      rcases hother j y hj with ⟨_, rfl⟩ | ⟨hji, hj⟩
      · exact ⟨x.level, e3, Nat.le_refl _⟩
      · obtain ⟨M, a2, a3⟩ := h.glob.over j y hj hyc
        rw [hml, a2] at hall
        simp at hall
        exact ⟨x.level, e3, by omega⟩
  · have hall : ¬ x.ml.all (· < x.level) = true := fun ha => hg (hiff.mpr ha)
    rw [if_neg hall] at e
    rw [phase_eq hi] at e
    simp only [hg, if_false] at e
    injection e with e
    obtain ⟨ml, M, b1, b2, b3, b4⟩ := h.glob.other i x hi hc hg
    refine hfin s' (by rw [← e]) (by rw [← e]) ?_
    have e1 : s'.nodes = s.nodes.set i x' := by rw [← e]
    have e2 : s'.ent = s.ent := by rw [← e]
    have e3 : s'.maxl = s.maxl := by rw [← e]
    have e4 : s'.glob = s.glob := by rw [← e]
    have hkeep : ∀ (j : Nat) (y : Node), s.nodes[j]? = some y → j ≠ i → s'.nodes[j]? = some y := by
      intro j y hj hji
      rw [nodes_set e1 hji]; exact hj
    refine ⟨?_, ?_, ?_, ?_, ?_⟩
    · intro k hk
      rw [e2] at hk
      obtain ⟨y, a1, a2, a3⟩ := h.glob.ent k hk
      refine ⟨y, hkeep k y a1 ?_, a2, by rw [e3]; exact a3⟩
      intro hki
      subst hki
      rw [hi] at a1
      cases a1
      omega
    · intro hk
      rw [e2] at hk
      have := (h.glob.noent hk).1
      rw [b2] at this
      cases this
    · intro k hk
      rw [e4] at hk
      obtain ⟨y, a1, a2, a3, a4⟩ := h.glob.holder k hk
      exact ⟨y, hkeep k y a1 (fun hki => hg (hki ▸ hk)), a2, by rw [e3]; exact a3, a4⟩
    · intro j y hj hyc hgj
      rw [e1] at hj
      rw [e4] at hgj
      rcases hother j y hj with ⟨_, rfl⟩ | ⟨hji, hj⟩
      · rw [hx'c] at hyc; omega
      · rw [e3]; exact h.glob.other j y hj hyc hgj
    · intro j y hj hyc
      rw [e1] at hj
      rcases hother j y hj with ⟨_, rfl⟩ | ⟨hji, hj⟩
      · exact ⟨M, by rw [e3]; exact b2, by show x.level ≤ M; omega⟩
      · rw [e3]; exact h.glob.over j y hj hyc

/-- Taking `global_` and reading `maxlevel_`. -/
theorem wait_ok {c : Cfg} {s : State} (h : Inv c s) {pk : Pick} {i : Nat} {x : Node} (hi : s.nodes[i]? = some x) (hph : x.ph = .wait) :
    StepOk c s (s.run c pk i) := by
  have hnode := h.node i x hi
  have hilt := ext_of_set hi
  unfold State.run
  rw [hi]
  simp only
  rw [hph]
  simp only
  by_cases hg : s.glob = none
  · simp only [hg, ne_eq, not_true, if_false]
    refine ⟨by simp, fun s' e => ?_⟩
    injection e with e
    set x' : Node := { x with ml := s.maxl, ph := .enter } with hx'
    have e1 : s'.nodes = s.nodes.set i x' := by rw [← e]; split <;> rfl
    have e2 : s'.ent = s.ent := by rw [← e]; split <;> rfl
    have e3 : s'.maxl = s.maxl := by rw [← e]; split <;> rfl
    have ht : s'.todo = s.todo := by rw [← e]; split <;> rfl
    have e4 : s'.glob = if s.maxl.any (x.level ≤ ·) then none else some i := by
      rw [← e]; split
      · rfl
      · rfl
    have hx'c : x'.cls = 1 := rfl
    have hxc : x.cls = 0 := by unfold Node.cls; rw [hph]
    have hother : ∀ (j : Nat) (y : Node), s'.nodes[j]? = some y → (j = i ∧ y = x') ∨ (j ≠ i ∧ s.nodes[j]? = some y) := by
      intro j y ej
      rw [e1] at ej
      by_cases hj : j = i
      · subst hj
        rw [List.getElem?_set_self hilt] at ej
        cases ej
        exact .inl ⟨rfl, rfl⟩
      · rw [List.getElem?_set_ne (Ne.symm hj)] at ej
        exact .inr ⟨hj, ej⟩
    have hglob : GlobOk s' := by
      refine ⟨?_, ?_, ?_, ?_, ?_⟩
      · intro k hk
        rw [e2] at hk
        obtain ⟨y, a1, a2, a3⟩ := h.glob.ent k hk
        refine ⟨y, ?_, a2, by rw [e3]; exact a3⟩
        rw [nodes_set e1]
        · exact a1
        · intro hki
          subst hki
          rw [hi] at a1
          cases a1
          omega
      · intro hk
        rw [e2] at hk
        obtain ⟨a1, a2, a3⟩ := h.glob.noent hk
        refine ⟨by rw [e3]; exact a1, by rw [e1]; simpa using a2, fun y hy => ?_⟩
        obtain ⟨j, hj⟩ := List.getElem?_of_mem hy
        rcases hother j y hj with ⟨_, rfl⟩ | ⟨hji, hj⟩
        · exact ⟨(a3 x (List.mem_of_getElem? hi)).1, by rw [hx'c]; omega⟩
        · exact a3 y (List.mem_of_getElem? hj)
      · intro k hk
        rw [e4] at hk
        split at hk
        · cases hk
        · rename_i hany
          injection hk with hk
          subst hk
          refine ⟨x', by rw [e1]; exact List.getElem?_set_self hilt, rfl, by rw [e3], ?_⟩
          rw [hx']
          simp only
          cases hm : s.maxl with
          | none => rfl
          | some M => rw [hm] at hany; simp at hany ⊢; omega
      · intro j y hj hyc hgj
        rcases hother j y hj with ⟨rfl, rfl⟩ | ⟨hji, hj⟩
        · rw [e4] at hgj
          split at hgj
          · rename_i hany
            cases hm : s.maxl with
            | none => rw [hm] at hany; simp at hany
            | some M =>
              rw [hm] at hany
              simp at hany
              exact ⟨M, M, hm, by rw [e3]; exact hm, hany, Nat.le_refl _⟩
          · exact absurd rfl hgj
        · rw [e3]; exact h.glob.other j y hj hyc (by rw [hg]; simp)
      · intro j y hj hyc
        rcases hother j y hj with ⟨rfl, rfl⟩ | ⟨hji, hj⟩
        · rw [hx'c] at hyc; omega
        · rw [e3]; exact h.glob.over j y hj hyc
    refine ⟨(h.set hi e1 ht (by rw [hph]; simp) rfl rfl (fun l hl => absurd hl (not_linked (.inl hph))) (fun L a b => ⟨L, a, b⟩) hglob ?_).1, ?_⟩
    · intro hext
      exact ⟨hnode.len, fun l L el => (hnode.list l L el).ext hext, fun _ hl => absurd hl (not_linked (.inr (.inl rfl))), trivial⟩
    · unfold Lt State.mu
      rw [ht]
      refine Prod.Lex.right _ (Prod.Lex.left _ _ ?_)
      rw [e1]
      have := sum_map_set (f := Node.waits) (b := x') hi
      simp only [Node.waits, hxc, hx'c] at this ⊢
      simp at this ⊢
      omega
  · rw [if_pos hg]
    exact .blocked

theorem enter_ok {c : Cfg} {s : State} (h : Inv c s) (hm : 0 < c.m) {pk : Pick} {i : Nat} {x : Node} (hi : s.nodes[i]? = some x)
    (hph : x.ph = .enter) : StepOk c s (s.run c pk i) ∧ s.run c pk i ≠ .blocked := by
  have hilt := ext_of_set hi
  have hc : x.cls = 1 := cls_of (by rw [hph]; simp) (by rw [hph]; simp)
  have hw : x.w c = (x.level + 1) * (2 * c.n + 3) + (x.ml.getD 0 - x.level) * (c.n + 1) + c.n + 2 := by unfold Node.w; rw [hph]
  have hnl : ∀ l, ¬ Linked x l := fun l => not_linked (.inr (.inl hph))
  have hlen := h.base.length
  unfold State.run
  rw [hi]
  simp only
  rw [hph]
  simp only
  cases hent : s.ent with
  | none =>
    simp only
    obtain ⟨a1, a2, a3⟩ := h.glob.noent hent
    have hi0 : i = 0 := by omega
    have hall : x.ml.all (· < x.level) = true := by
      refine (holder_iff h hi hc).mp ?_
      by_contra hg
      obtain ⟨_, M, _, b2, _⟩ := h.glob.other i x hi hc hg
      rw [a1] at b2
      cases b2
    have e : State.finish { s with ent := some 0, maxl := some x.level } i = s.finish i := by
      unfold State.finish
      rw [hi]
      simp only
      rw [if_pos hall, if_pos hall]
    rw [e]
    refine ⟨finish_ok h hi hc (by omega) (fun h0 => absurd hi0 h0) (fun h0 => absurd hi0 h0), ?_⟩
    unfold State.finish
    rw [hi]
    simp
  | some u =>
    simp only
    obtain ⟨y, ey, hyc, hmx⟩ := h.glob.ent u hent
    have hult := ext_of_set ey
    rw [if_neg (by omega)]
    have hyd : y.ph = .done := by
      unfold Node.cls at hyc
      cases hy : y.ph <;> rw [hy] at hyc <;> simp_all
    have hml : ∃ ml, x.ml = some ml ∧ ml ≤ y.level := by
      by_cases hg : s.glob = some i
      · obtain ⟨z, ez, _, hz, _⟩ := h.glob.holder i hg
        rw [hi] at ez
        cases ez
        exact ⟨y.level, by rw [hz]; exact hmx, Nat.le_refl _⟩
      · obtain ⟨ml, M, b1, b2, b3, b4⟩ := h.glob.other i x hi hc hg
        rw [hmx] at b2
        cases b2
        exact ⟨ml, b1, b4⟩
    obtain ⟨ml, eml, hle⟩ := hml
    rw [eml]
    simp only
    have hud : ∀ l, l ≤ y.level → s.DnL u l := fun l hl => ⟨y, ey, hyd, hl⟩
    by_cases hlt : x.level < ml
    · rw [if_pos hlt]
      refine ⟨phase_ok h hi hc _ rfl (fun l hl => absurd hl (hnl l)) (fun hl => absurd hl (not_linked (.inr (.inr ⟨_, _, _, rfl⟩)))) ?_ ?_, by simp⟩
      · rw [hw, eml]
        have := rank_le c x.label (s.dist c i u)
        show (x.level + 1) * (2 * c.n + 3) + (ml - x.level) * (c.n + 1) + rank c x.label (s.dist c i u) < _
        simp only [Option.getD_some]
        omega
      · intro s' hn hext
        exact ⟨hlt, (hext.dist hilt hult).symm, hext.lk ((hud ml hle).lk (Nat.le_refl _))⟩
    · rw [if_neg hlt]
      refine ⟨phase_ok h hi hc _ rfl (fun l hl => absurd hl (hnl l)) ?_ ?_ ?_, by simp⟩
      · intro hl
        have := hl.2
        simp at this
      · rw [hw]
        show (min x.level ml) * (2 * c.n + 3) + (c.n + 2) + (1 + (c.n - 1)) < _
        have := mul_mono (k := 2 * c.n + 3) (Nat.min_le_left x.level ml)
        rw [Nat.add_mul]
        omega
      · intro s' hn hext
        exact search_phOk hm (Nat.min_le_left _ _) hext hilt ((hud _ (by omega)).lk (Nat.le_refl _))

theorem descend_ok {c : Cfg} {s : State} (h : Inv c s) (hm : 0 < c.m) {pk : Pick} {i : Nat} {x : Node} (hi : s.nodes[i]? = some x)
    {lv u : Nat} {d : Int} (hph : x.ph = .descend lv u d) :
    StepOk c s (s.run c pk i) ∧ (s.free u = true → s.run c pk i ≠ .blocked) := by
  have hilt := ext_of_set hi
  have hc : x.cls = 1 := cls_of (by rw [hph]; simp) (by rw [hph]; simp)
  have hw : x.w c = (x.level + 1) * (2 * c.n + 3) + (lv - x.level) * (c.n + 1) + rank c x.label d := by unfold Node.w; rw [hph]
  have hnl : ∀ l, ¬ Linked x l := fun l => not_linked (.inr (.inr ⟨_, _, _, hph⟩))
  have hp := (h.node i x hi).ph
  unfold PhOk at hp
  rw [hph] at hp
  obtain ⟨hlv, hd, hu⟩ := hp
  have hlen := h.base.length
  have hlab : s.label i = x.label := by unfold State.label; rw [hi]; rfl
  obtain ⟨L, y, ey, eL, er, hL⟩ := h.read hu
  unfold State.run
  rw [hi]
  simp only
  rw [hph]
  simp only
  by_cases hf : s.free u = true
  · simp only [hf, not_true, if_false]
    rw [er]
    simp only
    obtain ⟨k1, k2, k3, k4⟩ := nearer_spec (s.dist c i) L (u, d, false) hd
    generalize nearer (s.dist c i) L (u, d, false) = r at k1 k2 k3 k4
    have hrl : s.Lk r.1 lv := by
      rcases k2 with k2 | k2
      · rw [k2]; exact hu
      · exact hL.lk _ k2
    by_cases hch : r.2.2 = true
    · rw [if_pos hch]
      have hlt2 : r.2.1 < d := by
        rcases k4 with k4 | k4
        · rw [k4] at hch; cases hch
        · exact k4.2
      refine ⟨phase_ok h hi hc _ rfl (fun l hl => absurd hl (hnl l)) (fun hl => absurd hl (not_linked (.inr (.inr ⟨_, _, _, rfl⟩)))) ?_ ?_, by simp⟩
      · rw [hw]
        show (x.level + 1) * (2 * c.n + 3) + (lv - x.level) * (c.n + 1) + rank c x.label r.2.1 < _
        have hr : rank c x.label r.2.1 < rank c x.label d := by
          have e : r.2.1 = c.dist x.label (s.label r.1) := by rw [k1]; unfold State.dist; rw [hlab]
          rw [e]
          refine rank_lt ?_ (by rw [← e]; exact hlt2)
          obtain ⟨z, ez, _⟩ := hrl
          have : s.label r.1 = z.label := by unfold State.label; rw [ez]; rfl
          rw [this]
          exact h.base.lt _ (List.mem_append_left _ (List.mem_map.mpr ⟨z, List.mem_of_getElem? ez, rfl⟩))
        omega
      · intro s' hn hext
        exact ⟨hlv, by rw [hext.dist hilt hrl.lt]; exact k1, hext.lk hrl⟩
    · rw [if_neg hch]
      have hr : r = (u, d, false) := by
        rcases k4 with k4 | k4
        · exact k4
        · exact absurd k4.1 hch
      subst hr
      have hud := hu.dn hf
      by_cases hlt : x.level < lv - 1
      · rw [if_pos hlt]
        refine ⟨phase_ok h hi hc _ rfl (fun l hl => absurd hl (hnl l)) (fun hl => absurd hl (not_linked (.inr (.inr ⟨_, _, _, rfl⟩)))) ?_ ?_, by simp⟩
        · rw [hw]
          show (x.level + 1) * (2 * c.n + 3) + (lv - 1 - x.level) * (c.n + 1) + rank c x.label d < _
          have e : lv - x.level = (lv - 1 - x.level) + 1 := by omega
          rw [e, Nat.add_mul (lv - 1 - x.level)]
          omega
        · intro s' hn hext
          exact ⟨hlt, by rw [hext.dist hilt hu.lt]; exact hd, hext.lk (hud.lk (by omega))⟩
      · rw [if_neg hlt]
        refine ⟨phase_ok h hi hc _ rfl (fun l hl => absurd hl (hnl l)) ?_ ?_ ?_, by simp⟩
        · intro hl
          have := hl.2
          simp at this
        · rw [hw]
          show x.level * (2 * c.n + 3) + (c.n + 2) + (1 + (c.n - 1)) < _
          rw [Nat.add_mul x.level]
          omega
        · intro s' hn hext
          exact search_phOk hm (Nat.le_refl _) hext hilt (hud.lk (by omega))
  · simp only [hf]
    exact ⟨.blocked, fun h' => absurd h' (by simp)⟩

theorem search_ok {c : Cfg} {s : State} (h : Inv c s) (hm : 0 < c.m) {pk : Pick} (hpk : PickOk pk) {i : Nat} {x : Node} (hi : s.nodes[i]? = some x)
    {lv : Nat} {st : Srch} (hph : x.ph = .search lv st) :
    StepOk c s (s.run c pk i) ∧ ((∀ v, s.Lk v lv → s.free v = true) → s.run c pk i ≠ .blocked) := by
  have hilt := ext_of_set hi
  have hc : x.cls = 1 := cls_of (by rw [hph]; simp) (by rw [hph]; simp)
  have hw : x.w c = lv * (2 * c.n + 3) + (c.n + 2) + st.w c.n := by unfold Node.w; rw [hph]
  have hp := (h.node i x hi).ph
  unfold PhOk at hp
  rw [hph] at hp
  obtain ⟨hlv, hs⟩ := hp
  have hlen := h.base.length
  have hef : 0 < c.ef := by unfold Cfg.ef; omega
  have hcn : s.connect c pk i lv st.top ≠ .blocked := by
    unfold State.connect
    simp only
    split
    · simp
    · split <;> simp
  unfold State.run
  rw [hi]
  simp only
  rw [hph]
  simp only
  by_cases hce : st.cand = []
  · rw [if_pos hce]
    refine ⟨connect_ok h hm hpk hi hph (fun t ht => ?_), fun _ => hcn⟩
    rcases hs.opened t ht with h1 | h1
    · exact h1
    · rw [hce] at h1; cases h1
  · rw [if_neg hce]
    obtain ⟨n1, n2⟩ := next_spec hpk hce
    generalize next pk st.cand = e at n1 n2
    by_cases hbr : st.lb < e.1 ∧ st.top.length = c.ef
    · rw [if_pos hbr]
      refine ⟨connect_ok h hm hpk hi hph (fun t ht => ?_), fun _ => hcn⟩
      rcases hs.opened t ht with h1 | h1
      · exact h1
      · have := n2 t h1
        have := hs.lb t ht
        omega
    · rw [if_neg hbr]
      have hev : s.Lk e.2 lv := hs.vis _ (hs.cand_vis e n1)
      by_cases hf : s.free e.2 = true
      · simp only [hf, not_true, if_false]
        obtain ⟨L, y, ey, eL, er, hL⟩ := h.read hev
        rw [er]
        simp only
        have hed : s.Dn e.2 := (hev.dn hf).dn
        have hs0 : SOk (s.dist c i) (fun v => s.Lk v lv) s.Dn c.ef { st with cand := st.cand.erase e } :=
          { top_ne := hs.top_ne, top_len := hs.top_len, top_nd := hs.top_nd, top_vis := hs.top_vis, vis := hs.vis, vis_nd := hs.vis_nd,
            dist := hs.dist, lb := hs.lb
            cand_vis := fun t ht => hs.cand_vis t (List.mem_of_mem_erase ht)
            opened := by
              intro t ht
              rcases hs.opened t ht with h1 | h1
              · exact .inl h1
              · by_cases hte : t = e
                · rw [hte]; exact .inl hed
                · exact .inr ((List.mem_erase_of_ne hte).mpr h1) }
        obtain ⟨g1, g2⟩ := scan_spec hpk hef c.n (fun v (hv : s.Lk v lv) => by have := hv.lt; omega) L _ (fun v hv => hL.lk v hv) hs0
        refine ⟨phase_ok h hi hc _ rfl ?_ ?_ ?_ ?_, fun _ => by simp⟩
        · intro l hl
          unfold Linked at hl ⊢
          rw [hph] at hl
          exact hl
        · intro hl
          have := hl.2
          simp at this
        · rw [hw]
          show lv * (2 * c.n + 3) + (c.n + 2) + (scan (s.dist c i) c.ef pk L { st with cand := st.cand.erase e }).w c.n < _
          have h1 : ({ st with cand := st.cand.erase e } : Srch).w c.n + 1 = st.w c.n := by
            unfold Srch.w
            simp only
            have := List.length_erase_of_mem n1
            have := List.length_pos_of_mem n1
            omega
          omega
        · intro s' hn hext
          exact ⟨hlv, g1.mono (fun v => hext.lk) (fun v => hext.dn) (fun v hv => (hext.dist hilt hv.lt).symm)⟩
      · simp only [hf]
        exact ⟨.blocked, fun h' => absurd (h' _ hev) hf⟩

theorem link_end_ok {c : Cfg} {s : State} (h : Inv c s) (hm : 0 < c.m) {pk : Pick} {i : Nat} {x : Node} (hi : s.nodes[i]? = some x)
    {lv nxt : Nat} (hph : x.ph = .link lv [] nxt) : StepOk c s (s.run c pk i) ∧ s.run c pk i ≠ .blocked := by
  have hilt := ext_of_set hi
  have hc : x.cls = 1 := cls_of (by rw [hph]; simp) (by rw [hph]; simp)
  have hw : x.w c = lv * (2 * c.n + 3) + 0 + 1 := by unfold Node.w; rw [hph]; rfl
  have hp := (h.node i x hi).ph
  unfold PhOk at hp
  rw [hph] at hp
  obtain ⟨hlv, _, hnx, _, hfirst⟩ := hp
  unfold State.run
  rw [hi]
  simp only
  rw [hph]
  cases lv with
  | zero =>
    simp only
    refine ⟨finish_ok h hi hc (by omega) (fun _ => ?_) (fun h0 => ?_), ?_⟩
    · unfold Linked; rw [hph]; exact ⟨Nat.zero_le _, Nat.le_refl _⟩
    · rcases hfirst h0 rfl with h1 | h1
      · cases h1
      · exact h1
    · unfold State.finish; rw [hi]; simp
  | succ lv =>
    simp only
    refine ⟨phase_ok h hi hc _ rfl ?_ ?_ ?_ ?_, by simp⟩
    · intro l hl
      unfold Linked at hl ⊢
      rw [hph] at hl
      exact hl
    · intro hl
      have := hl.2
      simp at this
    · rw [hw]
      show lv * (2 * c.n + 3) + (c.n + 2) + (1 + (c.n - 1)) < _
      rw [Nat.add_mul lv]
      omega
    · intro s' hn hext
      exact search_phOk hm (by omega) hext hilt (hnx.lk (by omega))

theorem run_ok {c : Cfg} {s : State} (h : Inv c s) (hm : 0 < c.m) {pk : Pick} (hpk : PickOk pk) (i : Nat) : StepOk c s (s.run c pk i) := by
  cases hi : s.nodes[i]? with
  | none => unfold State.run; rw [hi]; exact .blocked
  | some x =>
    cases hph : x.ph with
    | wait => exact wait_ok h hi hph
    | enter => exact (enter_ok h hm hi hph).1
    | descend lv u d => exact (descend_ok h hm hi hph).1
    | search lv st => exact (search_ok h hm hpk hi hph).1
    | link lv rest nxt =>
      cases rest with
      | nil => exact (link_end_ok h hm hi hph).1
      | cons y rest => exact (link_ok h hm hpk hi hph).2
    | done => unfold State.run; rw [hi]; simp only; rw [hph]; exact .blocked

/-- A new insertion. -/
theorem begin_ok {c : Cfg} {s : State} (h : Inv c s) (label level : Nat) : StepOk c s (s.begin c label level) := by
  unfold State.begin
  split
  · exact .blocked
  rename_i hin
  have hin : label ∈ s.todo := by simpa using hin
  split
  · exact .blocked
  rename_i hzero
  split
  · exact .blocked
  have hlen := h.base.length
  have hpos := List.length_pos_of_mem hin
  have hnl : label ∉ s.nodes.map Node.label := by
    intro hm
    exact (List.nodup_append.mp h.base.nd).2.2 label hm label hin rfl
  split
  · rename_i hany
    obtain ⟨x, hx, e⟩ := List.any_eq_true.mp hany
    exact absurd (List.mem_map.mpr ⟨x, hx, by simpa using e⟩) hnl
  split
  · omega
  refine ⟨by simp, fun s' e => ?_⟩
  injection e with e
  set x' : Node := ⟨label, level, none, List.replicate (level + 1) [], .wait⟩ with hx'
  have e1 : s'.nodes = s.nodes ++ [x'] := by rw [← e]
  have e2 : s'.todo = s.todo.erase label := by rw [← e]
  have e3 : s'.ent = s.ent := by rw [← e]
  have e4 : s'.glob = s.glob := by rw [← e]
  have e5 : s'.maxl = s.maxl := by rw [← e]
  have hold : ∀ (j : Nat) (y : Node), s.nodes[j]? = some y → s'.nodes[j]? = some y := by
    intro j y ej
    rw [e1, List.getElem?_append_left (ext_of_set ej)]; exact ej
  have hnew : ∀ (j : Nat) (y : Node), s'.nodes[j]? = some y → s.nodes[j]? = some y ∨ (j = s.nodes.length ∧ y = x') := by
    intro j y ej
    rw [e1] at ej
    by_cases hj : j < s.nodes.length
    · rw [List.getElem?_append_left hj] at ej; exact .inl ej
    · rw [List.getElem?_append_right (by omega)] at ej
      have hlt := (List.getElem?_eq_some_iff.mp ej).1
      simp at hlt
      have : j = s.nodes.length := by omega
      subst this
      simp at ej
      exact .inr ⟨rfl, ej.symm⟩
  have hext : Ext s s' := by
    refine ⟨fun j y ej => ⟨y, hold j y ej, rfl, rfl, fun _ hl => hl, fun hd => hd⟩, ?_⟩
    rintro ⟨y, L, a1, a2, a3⟩
    exact ⟨y, L, hold 0 y a1, a2, a3⟩
  have hx'c : x'.cls = 0 := rfl
  refine ⟨⟨⟨?_, ?_, ?_, ?_⟩, ?_, ⟨?_, ?_, ?_, ?_, ?_⟩⟩, ?_⟩
  · have hp : (s'.nodes.map Node.label ++ s'.todo).Perm (s.nodes.map Node.label ++ s.todo) := by
      rw [e1, e2, List.map_append, List.append_assoc]
      exact List.Perm.append_left _ (List.perm_cons_erase hin).symm
    exact hp.nodup_iff.mpr h.base.nd
  · intro l hl
    rw [e1, e2, List.map_append] at hl
    rcases List.mem_append.mp hl with hl | hl
    · rcases List.mem_append.mp hl with hl | hl
      · exact h.base.lt l (List.mem_append_left _ hl)
      · have : l = label := by simpa [hx'] using hl
        rw [this]
        exact h.base.lt label (List.mem_append_right _ hin)
    · exact h.base.lt l (List.mem_append_right _ (List.mem_of_mem_erase hl))
  · intro l hl
    rw [e1, e2, List.map_append]
    rcases List.mem_append.mp (h.base.all l hl) with h1 | h1
    · exact List.mem_append_left _ (List.mem_append_left _ h1)
    · by_cases he : l = label
      · subst he
        exact List.mem_append_left _ (List.mem_append_right _ (by simp [hx']))
      · exact List.mem_append_right _ ((List.mem_erase_of_ne he).mpr h1)
  · intro _
    rw [e1, List.map_append]
    by_cases hl : label = 0
    · exact List.mem_append_right _ (by simp [hx', hl])
    · refine List.mem_append_left _ (h.base.zero (fun he => ?_))
      rw [he] at hzero
      exact hzero ⟨hl, by simp⟩
  · intro j y ej
    rcases hnew j y ej with h1 | ⟨rfl, rfl⟩
    · refine NodeOk.ext (i := s.nodes.length) hext (by have := ext_of_set h1; omega) (h.node j y h1) h1 rfl rfl rfl (fun l L el => .inl el) ?_
      intro a b b' ea hb eb' l M' el
      rw [hold a b ea] at eb'
      cases eb'
      exact ⟨M', el, fun v hv => .inl hv⟩
    · refine ⟨by simp [hx'], fun l L el => ?_, fun _ hl => absurd hl (not_linked (.inl rfl)), trivial⟩
      have hL : L = [] := by
        rw [hx'] at el
        simp only at el
        have := List.mem_of_getElem? el
        exact List.eq_of_mem_replicate this
      subst hL
      exact ⟨List.nodup_nil, by simp, by simp, by simp⟩
  · intro k hk
    rw [e3] at hk
    obtain ⟨y, a1, a2, a3⟩ := h.glob.ent k hk
    exact ⟨y, hold k y a1, a2, by rw [e5]; exact a3⟩
  · intro hk
    rw [e3] at hk
    obtain ⟨a1, a2, a3⟩ := h.glob.noent hk
    have hl0 : label = 0 := by
      by_contra hl
      refine hzero ⟨hl, fun hany => ?_⟩
      obtain ⟨y, hy, ey⟩ := List.any_eq_true.mp hany
      have ey : y.label = 0 ∧ y.ph = .done := by simpa using ey
      refine (a3 y hy).2 ?_
      unfold Node.cls
      rw [ey.2]
    have hnil : s.nodes = [] := by
      by_contra hne
      obtain ⟨y, hy⟩ := List.exists_mem_of_ne_nil _ hne
      refine hnl ?_
      rw [hl0, ← (a3 y hy).1]
      exact List.mem_map.mpr ⟨y, hy, rfl⟩
    refine ⟨by rw [e5]; exact a1, by rw [e1, hnil]; simp, fun y hy => ?_⟩
    rw [e1, hnil] at hy
    have : y = x' := by simpa using hy
    rw [this]
    exact ⟨hl0, by rw [hx'c]; omega⟩
  · intro k hk
    rw [e4] at hk
    obtain ⟨y, a1, a2, a3, a4⟩ := h.glob.holder k hk
    exact ⟨y, hold k y a1, a2, by rw [e5]; exact a3, a4⟩
  · intro j y ej hyc hgj
    rw [e4] at hgj
    rcases hnew j y ej with h1 | ⟨rfl, rfl⟩
    · rw [e5]; exact h.glob.other j y h1 hyc hgj
    · rw [hx'c] at hyc; omega
  · intro j y ej hyc
    rcases hnew j y ej with h1 | ⟨rfl, rfl⟩
    · rw [e5]; exact h.glob.over j y h1 hyc
    · rw [hx'c] at hyc; omega
  · unfold Lt State.mu
    refine Prod.Lex.left _ _ ?_
    rw [e2, List.length_erase_of_mem hin]
    omega

theorem init_inv (c : Cfg) : Inv c (.init c) := by
  refine ⟨⟨?_, ?_, ?_, ?_⟩, ?_, ⟨?_, ?_, ?_, ?_, ?_⟩⟩ <;> simp [State.init, List.nodup_range]

/-! ### Progress -/

/-- A thread at work that is stuck waits for one that is further. -/
theorem some_runs {c : Cfg} {s : State} (h : Inv c s) (hm : 0 < c.m) {pk : Pick} (hpk : PickOk pk) :
    ∀ (i : Nat) (x : Node), s.nodes[i]? = some x → x.ph ≠ .done → ∃ j, s.run c pk j ≠ .blocked := by
  have link : ∀ (i : Nat) (x : Node), s.nodes[i]? = some x → ∀ lv rest nxt, x.ph = .link lv rest nxt → s.run c pk i ≠ .blocked := by
    intro i x hi lv rest nxt hph
    cases rest with
    | nil => exact (link_end_ok h hm hi hph).2
    | cons y rest =>
      obtain ⟨hf, _⟩ := link_ok h hm hpk hi hph
      unfold State.run
      rw [hi]
      simp only
      rw [hph]
      simp only [hf, not_true, if_false]
      split
      · simp
      · split <;> simp
  have lk : ∀ (v lv : Nat), s.Lk v lv → s.free v ≠ true →
      ∃ y, s.nodes[v]? = some y ∧ ((∃ l' rest nxt, y.ph = .link l' rest nxt) ∨ (∃ l' st, y.ph = .search l' st ∧ l' < lv)) := by
    rintro v lv ⟨y, ey, hy⟩ hf
    refine ⟨y, ey, ?_⟩
    unfold Linked at hy
    cases hph : y.ph with
    | done => exact absurd (State.Dn.free ⟨y, ey, hph⟩) hf
    | link l' rest nxt => exact .inl ⟨l', rest, nxt, rfl⟩
    | search l' st => rw [hph] at hy; exact .inr ⟨l', st, rfl, hy.2⟩
    | wait => rw [hph] at hy; exact absurd hy.2 (by simp)
    | enter => rw [hph] at hy; exact absurd hy.2 (by simp)
    | descend _ _ _ => rw [hph] at hy; exact absurd hy.2 (by simp)
  -- searches, by the level
  have srch : ∀ (lv i : Nat) (x : Node) (st : Srch), s.nodes[i]? = some x → x.ph = .search lv st → ∃ j, s.run c pk j ≠ .blocked := by
    intro lv
    induction lv using Nat.strongRecOn with
    | _ lv ih =>
      intro i x st hi hph
      by_cases hall : ∀ v, s.Lk v lv → s.free v = true
      · exact ⟨i, (search_ok h hm hpk hi hph).2 hall⟩
      · have : ∃ v, s.Lk v lv ∧ s.free v ≠ true := by
          by_contra hn
          exact hall (fun v hv => by by_contra hf; exact hn ⟨v, hv, hf⟩)
        obtain ⟨v, hv, hf⟩ := this
        obtain ⟨y, ey, h1 | h1⟩ := lk v lv hv hf
        · obtain ⟨l', rest, nxt, e⟩ := h1
          exact ⟨v, link v y ey l' rest nxt e⟩
        · obtain ⟨l', st', e, hlt⟩ := h1
          exact ih l' hlt v y st' ey e
  have low : ∀ (i : Nat) (x : Node), s.nodes[i]? = some x → x.ph ≠ .done → x.ph ≠ .wait → ∃ j, s.run c pk j ≠ .blocked := by
    intro i x hi hd hw
    cases hph : x.ph with
    | wait => exact absurd hph hw
    | done => exact absurd hph hd
    | enter => exact ⟨i, (enter_ok h hm hi hph).2⟩
    | link lv rest nxt => exact ⟨i, link i x hi lv rest nxt hph⟩
    | search lv st => exact srch lv i x st hi hph
    | descend lv u d =>
      by_cases hf : s.free u = true
      · exact ⟨i, (descend_ok h hm hi hph).2 hf⟩
      · have hp := (h.node i x hi).ph
        unfold PhOk at hp
        rw [hph] at hp
        obtain ⟨y, ey, h1 | h1⟩ := lk u lv hp.2.2 hf
        · obtain ⟨l', rest, nxt, e⟩ := h1
          exact ⟨u, link u y ey l' rest nxt e⟩
        · obtain ⟨l', st', e, _⟩ := h1
          exact srch l' u y st' ey e
  intro i x hi hd
  by_cases hw : x.ph = .wait
  · cases hg : s.glob with
    | none =>
      refine ⟨i, ?_⟩
      unfold State.run
      rw [hi]
      simp only
      rw [hw]
      simp [hg]
    | some k =>
      obtain ⟨y, ey, hc, _⟩ := h.glob.holder k hg
      refine low k y ey ?_ ?_
      · intro e; unfold Node.cls at hc; rw [e] at hc; simp at hc
      · intro e; unfold Node.cls at hc; rw [e] at hc; simp at hc
  · exact low i x hi hd hw

end Alaya.Hnsw
