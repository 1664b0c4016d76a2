import Verif.Lemmas.Nsg

namespace Alaya.Nsg

/-- `b` stands in the row of `a`. -/
def Edge (g : G) (a b : Nat) : Prop := some b ∈ g.getD a []

inductive Reach (g : G) (a : Nat) : Nat → Prop
  | refl : Reach g a a
  | step {b c : Nat} : Reach g a b → Edge g b c → Reach g a c

theorem Reach.cons {g : G} {a b c : Nat} (h : Edge g a b) (hr : Reach g b c) : Reach g a c := by
  induction hr with
  | refl => exact .step .refl h
  | step _ h1 h2 => exact .step h2 h1

/-! ### Linking -/

theorem visit_full (e : Env) (d : Nat → Int) (s : SSt) (id : Nat) : s.full.length ≤ (visit e d s id).full.length := by
  unfold visit
  split
  · exact Nat.le_refl _
  · split
    · simp
    · split <;> simp

theorem expand_full (e : Env) (d : Nat → Int) (g : G) (x : Nat) : ∀ (m : Nat) (s : SSt),
    s.full.length ≤ (expand e d g x m s).full.length := by
  intro m
  induction m with
  | zero => intro s; exact Nat.le_refl _
  | succ m ih =>
    intro s
    unfold expand
    split
    · exact ih s
    · exact Nat.le_trans (ih s) (visit_full e d _ _)

theorem walk_full (e : Env) (d : Nat → Int) (g : G) (w : Nat) : ∀ (fuel k : Nat) (s : SSt) {s' : SSt}, walk e d g w fuel k s = some s' →
    s.full.length ≤ s'.full.length := by
  intro fuel
  induction fuel with
  | zero => intro k s s' h; cases h
  | succ fuel ih =>
    intro k s s' h
    unfold walk at h
    split at h
    · cases h; exact Nat.le_refl _
    · split at h
      · simp only at h
        have h1 := ih _ _ h
        refine Nat.le_trans ?_ h1
        exact expand_full e d g _ w { s with pool := s.pool.set k _, upd := s.pool.length }
      · exact ih _ _ h

theorem search_full {e : Env} (hn : 0 < e.n) {fuel : Nat} {d : Nat → Int} {g : G} {w ep : Nat} {s : SSt}
    (h : search e fuel d g w ep = some s) : e.ef ≤ s.full.length := by
  unfold search at h
  obtain ⟨ids, vis, num, h0, h1, h2, h3, _⟩ := seed_spec e g w ep hn (min e.ef w)
  rw [h0] at h
  split at h
  · cases h
  · rename_i ids' vis' hf
    obtain ⟨h4, _, _⟩ := fill_spec e hn _ _ _ _ _ hf h1 h2 h3
    have := walk_full e d g w _ _ _ h
    simpa [h4] using this

theorem more_lt {e : Env} {vis : Vis} {knng : G} {q : Nat} {p : Node} (h : p ∈ more e vis knng q) : p.1 < e.n := by
  unfold more at h
  obtain ⟨i, _, hi⟩ := List.mem_filterMap.1 h
  split at hi
  · split at hi
    · rename_i hc; cases hi; exact hc.1
    · cases hi
  · cases hi

theorem syncPrune_spec {e : Env} (hs : Sorts e.srt) (hR : 0 < e.R) {knng : G} {q : Nat} {s : SSt} {g g' : G} (hg : GraphOk e.n e.R g)
    (hok : SOk e s) (h : syncPrune e knng q s g = some g') : GraphOk e.n e.R g' := by
  have hmem : ∀ p ∈ e.srt (s.full ++ more e s.vis knng q), p.1 < e.n := by
    intro p hp
    rcases List.mem_append.1 ((hs _).mem_iff.1 hp) with hp | hp
    · exact hok.full p hp
    · exact more_lt hp
  have key : ∀ (p : Node) (ps : List Node) (k : Nat), (∀ x ∈ p :: ps, x.1 < e.n) →
      GraphOk e.n e.R (writeRow g q e.R ((prune e [p] (ps.take k)).map Prod.fst)) := by
    intro p ps k hps
    obtain ⟨h1, h2, _, _⟩ := prune_spec e (ps.take k) [p] (by simp; omega) (by simp)
    refine hg.set (rowOk_of (by simpa using h1) ?_)
    intro x hx
    obtain ⟨r, hr, rfl⟩ := List.mem_map.1 hx
    rcases h2 r hr with hr | hr
    · rw [List.mem_singleton.1 hr]; exact hps p List.mem_cons_self
    · exact hps r (List.mem_cons_of_mem _ (List.mem_of_mem_take hr))
  unfold syncPrune at h
  simp only at h
  split at h
  · cases h
  · rename_i p ps hp
    rw [hp] at hmem
    split at h
    · split at h
      · cases h
      · cases h
        exact key _ _ _ (fun x hx => hmem x (List.mem_cons_of_mem _ hx))
    · cases h
      exact key _ _ _ hmem

theorem syncPrune_some {e : Env} (hs : Sorts e.srt) (knng : G) (q : Nat) {s : SSt} (g : G) (hf : 2 ≤ s.full.length) :
    ∃ g', syncPrune e knng q s g = some g' := by
  have hl : 2 ≤ (e.srt (s.full ++ more e s.vis knng q)).length := by
    rw [(hs _).length_eq]; simp; omega
  unfold syncPrune
  simp only
  split
  · rename_i h0; rw [h0] at hl; simp at hl
  · rename_i p ps h0
    split
    · split
      · rw [h0] at hl; simp at hl
      · exact ⟨_, rfl⟩
    · exact ⟨_, rfl⟩

theorem linkUp_spec {e : Env} (hs : Sorts e.srt) (hR : 0 < e.R) (hn : 0 < e.n) {fuel : Nat} {knng : G} {ep : Nat} :
    ∀ (m : Nat) {g : G}, linkUp e fuel knng ep m = some g → GraphOk e.n e.R g := by
  intro m
  induction m with
  | zero => intro g h; cases h; exact empty_ok _ _
  | succ m ih =>
    intro g h
    unfold linkUp at h
    split at h
    · cases h
    · rename_i g1 h1
      split at h
      · cases h
      · rename_i s h2
        exact syncPrune_spec hs hR (ih h1) (search_spec hn h2).1 h

theorem linkUp_mono {e : Env} {fuel : Nat} {knng : G} {ep : Nat} (extra : Nat) : ∀ (m : Nat) {g : G},
    linkUp e fuel knng ep m = some g → linkUp e (fuel + extra) knng ep m = some g := by
  intro m
  induction m with
  | zero => intro g h; exact h
  | succ m ih =>
    intro g h
    unfold linkUp at h ⊢
    split at h
    · cases h
    · rename_i g1 h1
      rw [ih h1]
      simp only
      split at h
      · cases h
      · rename_i s h2
        rw [search_mono h2 extra]
        exact h

theorem linkUp_ends {e : Env} (hs : Sorts e.srt) (hn : 0 < e.n) (h2 : 2 ≤ e.ef) (hef : e.ef ≤ e.n) (hf : Fair e.n e.gen) (knng : G)
    (ep : Nat) : ∀ m, ∃ fuel g, linkUp e fuel knng ep m = some g := by
  intro m
  induction m with
  | zero => exact ⟨0, _, rfl⟩
  | succ m ih =>
    obtain ⟨f1, g1, h1⟩ := ih
    obtain ⟨f2, s, h3⟩ := search_ends hn hef hf (e.dist m) knng e.width ep
    obtain ⟨g', hg'⟩ := syncPrune_some (s := s) hs knng m g1 (Nat.le_trans h2 (search_full hn h3))
    refine ⟨f1 + f2, g', ?_⟩
    unfold linkUp
    rw [linkUp_mono f2 m h1]
    simp only
    have := search_mono h3 f1
    rw [Nat.add_comm] at this
    rw [this]
    exact hg'

/-! ### Reverse links -/

theorem getD_set_self {g : G} {i : Nat} {row : List (Option Nat)} (h : i < g.length) : (g.set i row).getD i [] = row := by
  rw [List.getD_eq_getElem?_getD, List.getElem?_set_self h]; rfl

theorem getD_set_ne {g : G} {i j : Nat} {row : List (Option Nat)} (h : i ≠ j) : (g.set i row).getD j [] = g.getD j [] := by
  rw [List.getD_eq_getElem?_getD, List.getElem?_set_ne h, ← List.getD_eq_getElem?_getD]

theorem put_spec {n R : Nat} {g : G} (hg : GraphOk n R g) {i x : Nat} (hi : i < n) (hx : x < n) (hl : (ids (g.getD i [])).length < R) :
    ∃ g', put g i (ids (g.getD i [])).length x = some g' ∧ GraphOk n R g' ∧ g'.getD i [] = (g.getD i []).set (ids (g.getD i [])).length (some x) ∧
      ids (g'.getD i []) = ids (g.getD i []) ++ [x] ∧ ∀ j, j ≠ i → g'.getD j [] = g.getD j [] := by
  have hrow := hg.row hi
  obtain ⟨h1, h2⟩ := hrow.append hl hx
  have hlen : i < g.length := by rw [hg.1]; exact hi
  refine ⟨_, ?_, hg.set h1, getD_set_self hlen, ?_, fun j hj => getD_set_ne (Ne.symm hj)⟩
  · unfold put
    rw [if_pos ⟨hlen, by rw [hrow.length]; exact hl⟩]
  · rw [getD_set_self hlen, h2]

theorem reverseOne_spec {e : Env} (hs : Sorts e.srt) (hR : 0 < e.R) {g : G} (hg : GraphOk e.n e.R g) {q des : Nat} (hq : q < e.n)
    (hd : des < e.n) : ∃ g', reverseOne e g q des = some g' ∧ GraphOk e.n e.R g' := by
  have hrow := hg.row hd
  obtain ⟨L, h1, h2, h3⟩ := hrow
  have hid : ids (g.getD des []) = L := by rw [h1, ids_row]
  have hlen : des < g.length := by rw [hg.1]; exact hd
  unfold reverseOne
  simp only [hid]
  split
  · exact ⟨g, rfl, hg⟩
  · split
    · rename_i hfull
      simp only [List.length_append, List.length_map, List.length_singleton] at hfull
      have hperm := hs (L.map (fun x => (x, (0 : Int))) ++ [(q, (des : Int))])
      have hmem : ∀ p ∈ e.srt (L.map (fun x => (x, (0 : Int))) ++ [(q, (des : Int))]), p.1 < e.n := by
        intro p hp
        rcases List.mem_append.1 (hperm.mem_iff.1 hp) with hp | hp
        · obtain ⟨x, hx, rfl⟩ := List.mem_map.1 hp; exact h3 x hx
        · rw [List.mem_singleton.1 hp]; exact hq
      split
      · rename_i h0
        have := hperm.length_eq
        rw [h0] at this
        simp at this
      · rename_i p ps h0
        rw [h0] at hmem
        obtain ⟨h4, h5, _, _⟩ := prune_spec e ps [p] (by simp; omega) (by simp)
        have hle : ((prune e [p] ps).map Prod.fst).length ≤ (g.getD des []).length := by
          rw [(hg.row hd).length]; simpa using h4
        rw [if_pos ⟨hlen, hle⟩]
        refine ⟨_, rfl, hg.set ?_⟩
        have hLR : L.length = e.R := by omega
        refine ⟨(prune e [p] ps).map Prod.fst ++ L.drop ((prune e [p] ps).map Prod.fst).length, ?_, ?_, ?_⟩
        · rw [h1, hLR]
          have hz : e.R - ((prune e [p] ps).map Prod.fst ++ L.drop ((prune e [p] ps).map Prod.fst).length).length = 0 := by
            simp only [List.length_append, List.length_drop, hLR, List.length_map]; omega
          rw [hz]
          simp
        · simp only [List.length_append, List.length_drop, hLR, List.length_map]; omega
        · intro x hx
          rcases List.mem_append.1 hx with hx | hx
          · obtain ⟨r, hr, rfl⟩ := List.mem_map.1 hx
            rcases h5 r hr with hr | hr
            · rw [List.mem_singleton.1 hr]; exact hmem p List.mem_cons_self
            · exact hmem r (List.mem_cons_of_mem _ hr)
          · exact h3 x (List.mem_of_mem_drop hx)
    · rename_i hfull
      simp only [List.length_append, List.length_map, List.length_singleton] at hfull
      obtain ⟨g', h4, h5, _⟩ := put_spec hg hd hq (by rw [hid]; omega)
      rw [hid] at h4
      exact ⟨g', h4, h5⟩

theorem reverseFrom_spec {e : Env} (hs : Sorts e.srt) (hR : 0 < e.R) {q : Nat} (hq : q < e.n) : ∀ (k i : Nat) {g : G},
    GraphOk e.n e.R g → ∃ g', reverseFrom e q k i g = some g' ∧ GraphOk e.n e.R g' := by
  intro k
  induction k with
  | zero => intro i g h; exact ⟨g, rfl, h⟩
  | succ k ih =>
    intro i g h
    unfold reverseFrom
    cases hd : g.at q i with
    | none => exact ⟨g, rfl, h⟩
    | some des =>
      obtain ⟨g1, h1, h2⟩ := reverseOne_spec hs hR h hq (h.lt (at_some hd)).2
      simp only [h1]
      exact ih (i + 1) h2

theorem reverseAll_spec {e : Env} (hs : Sorts e.srt) (hR : 0 < e.R) : ∀ (q : Nat) {g : G}, q ≤ e.n → GraphOk e.n e.R g →
    ∃ g', reverseAll e q g = some g' ∧ GraphOk e.n e.R g' := by
  intro q
  induction q with
  | zero => intro g _ h; exact ⟨g, rfl, h⟩
  | succ q ih =>
    intro g hq h
    obtain ⟨g1, h1, h2⟩ := ih (by omega) h
    unfold reverseAll
    simp only [h1]
    exact reverseFrom_spec hs hR (by omega) e.R 0 h2

/-- The copy changes nothing: a row has no gaps. -/
theorem compact_spec {e : Env} {g : G} (hg : GraphOk e.n e.R g) :
    (compact e g).1 = g ∧ (compact e g).2.length = g.length ∧ ∀ i, (compact e g).2.getD i 0 = (ids (g.getD i [])).length := by
  refine ⟨?_, by simp [compact], ?_⟩
  · simp only [compact]
    conv_rhs => rw [← List.map_id g]
    apply List.map_congr_left
    intro row hr
    obtain ⟨L, h1, h2, _⟩ := hg.2 row hr
    rw [h1, filterMap_row, range_row L e.R h2]
    rfl
  · intro i
    simp only [compact, List.getD_eq_getElem?_getD, List.getElem?_map]
    cases hi : g[i]? with
    | none => rfl
    | some row =>
      obtain ⟨L, h1, _, _⟩ := hg.2 row (List.mem_of_getElem? hi)
      simp only [Option.map_some, Option.getD_some]
      rw [h1, filterMap_row, ids_row]

/-! ### Depth-first search -/

theorem nextOf_some {g : G} {vis : Vis} {x y : Nat} (h : nextOf g vis x = some y) : Edge g x y ∧ vis.has y = false := by
  unfold nextOf at h
  have h1 := List.find?_some h
  have h2 := List.mem_of_find?_eq_some h
  obtain ⟨o, ho, he⟩ := List.mem_filterMap.1 h2
  simp only [id] at he
  subst he
  exact ⟨ho, by simpa using h1⟩

theorem nextOf_none {g : G} {vis : Vis} {x : Nat} (h : nextOf g vis x = none) {y : Nat} (hy : Edge g x y) : vis.has y = true := by
  unfold nextOf at h
  rw [List.find?_eq_none] at h
  have := h y (List.mem_filterMap.2 ⟨some y, hy, rfl⟩)
  simpa using this

theorem dfsLoop_spec {g : G} {R : Nat} : ∀ (fuel : Nat) (stack : List Nat) (vis : Vis) (cnt : Nat) {vis' : Vis} {cnt' : Nat} (pre : Nat → Prop),
    GraphOk vis.length R g → dfsLoop g fuel stack vis cnt = some (vis', cnt') →
    (∀ x, vis.has x = true → x ∈ stack ∨ pre x ∨ ∀ y, Edge g x y → vis.has y = true) →
    vis'.length = vis.length ∧ cnt' + unvis vis' = cnt + unvis vis ∧ (∀ x, vis.has x = true → vis'.has x = true) ∧
    (∀ x, vis'.has x = true → pre x ∨ ∀ y, Edge g x y → vis'.has y = true) ∧
    ∀ x, vis'.has x = true → vis.has x = true ∨ ∃ r ∈ stack, Reach g r x := by
  intro fuel
  induction fuel with
  | zero => intro stack vis cnt vis' cnt' pre hg h; cases h
  | succ fuel ih =>
    intro stack vis cnt vis' cnt' pre hg h hinv
    cases stack with
    | nil =>
      simp only [dfsLoop] at h
      cases h
      refine ⟨rfl, rfl, fun x hx => hx, fun x hx => ?_, fun x hx => .inl hx⟩
      rcases hinv x hx with h1 | h1
      · simp at h1
      · exact h1
    | cons a stack =>
      simp only [dfsLoop] at h
      split at h
      · rename_i hnone
        obtain ⟨h1, h2, h3, h4, h5⟩ := ih stack vis cnt pre hg h (by
          intro x hx
          rcases hinv x hx with h1 | h1
          · rcases List.mem_cons.1 h1 with h1 | h1
            · exact .inr (.inr (fun y hy => nextOf_none hnone (by rw [h1] at hy; exact hy)))
            · exact .inl h1
          · exact .inr h1)
        refine ⟨h1, h2, h3, h4, fun x hx => ?_⟩
        rcases h5 x hx with h5 | ⟨r, hr, h5⟩
        · exact .inl h5
        · exact .inr ⟨r, List.mem_cons_of_mem _ hr, h5⟩
      · rename_i y hy
        obtain ⟨he, hv⟩ := nextOf_some hy
        have hylt : y < vis.length := (hg.lt he).2
        have hm : ∀ z, vis.has z = true → (vis.mark y).has z = true := fun z hz => has_mark.2 (.inl hz)
        obtain ⟨h1, h2, h3, h4, h5⟩ := ih (y :: a :: stack) (vis.mark y) (cnt + 1) pre (by rw [mark_length]; exact hg) h (by
          intro x hx
          rcases has_mark.1 hx with hx | ⟨hx, _⟩
          · rcases hinv x hx with h1 | h1 | h1
            · exact .inl (List.mem_cons_of_mem _ h1)
            · exact .inr (.inl h1)
            · exact .inr (.inr (fun z hz => hm z (h1 z hz)))
          · rw [hx]; exact .inl List.mem_cons_self)
        have hu := unvis_mark hylt hv
        refine ⟨by rw [h1, mark_length], by omega, fun x hx => h3 x (hm x hx), h4, fun x hx => ?_⟩
        rcases h5 x hx with h5 | ⟨r, hr, h5⟩
        · rcases has_mark.1 h5 with h5 | ⟨h5, _⟩
          · exact .inl h5
          · rw [h5]; exact .inr ⟨a, List.mem_cons_self, .step .refl he⟩
        · rcases List.mem_cons.1 hr with hr | hr
          · subst hr
            refine .inr ⟨a, List.mem_cons_self, ?_⟩
            exact Reach.cons he (by assumption)
          · exact .inr ⟨r, hr, h5⟩

theorem dfsLoop_ends (g : G) {R : Nat} : ∀ (fuel : Nat) (stack : List Nat) (vis : Vis) (cnt : Nat), GraphOk vis.length R g →
    2 * unvis vis + stack.length < fuel → ∃ r, dfsLoop g fuel stack vis cnt = some r := by
  intro fuel
  induction fuel with
  | zero => intro stack vis cnt _ h; omega
  | succ fuel ih =>
    intro stack vis cnt hg h
    cases stack with
    | nil => exact ⟨_, rfl⟩
    | cons a stack =>
      simp only [dfsLoop]
      split
      · exact ih _ _ _ hg (by simp at h; omega)
      · rename_i y hy
        obtain ⟨he, hv⟩ := nextOf_some hy
        have hu := unvis_mark ((hg.lt he).2) hv
        exact ih _ _ _ (by rw [mark_length]; exact hg) (by simp at h ⊢; omega)

theorem dfsLoop_mono (g : G) : ∀ (fuel : Nat) (stack : List Nat) (vis : Vis) (cnt : Nat) {r : Vis × Nat},
    dfsLoop g fuel stack vis cnt = some r → ∀ extra, dfsLoop g (fuel + extra) stack vis cnt = some r := by
  intro fuel
  induction fuel with
  | zero => intro stack vis cnt r h; cases h
  | succ fuel ih =>
    intro stack vis cnt r h extra
    rw [Nat.succ_add]
    cases stack with
    | nil => exact h
    | cons a stack =>
      simp only [dfsLoop] at h ⊢
      split at h
      · exact ih _ _ _ h extra
      · exact ih _ _ _ h extra

theorem unvis_false (n : Nat) : unvis (List.replicate n false) = n := by simp [unvis]

theorem has_false (n x : Nat) : Vis.has (List.replicate n false) x = false := by
  unfold Vis.has
  rw [List.getD_eq_getElem?_getD, List.getElem?_replicate]
  split <;> rfl

/-- From an unvisited start the search marks exactly what can be reached. -/
theorem dfs_reach {g : G} {n R : Nat} (hg : GraphOk n R g) {root : Nat} (hr : root < n) {fuel : Nat} {vis' : Vis} {cnt : Nat}
    (h : dfs g fuel (List.replicate n false) root 0 = some (vis', cnt)) :
    vis'.length = n ∧ (∀ x, vis'.has x = true ↔ Reach g root x) ∧ cnt + 1 + unvis vis' = n := by
  unfold dfs at h
  rw [has_false] at h
  simp only [Bool.false_eq_true, if_false] at h
  have hlen : (Vis.mark (List.replicate n false) root).length = n := by rw [mark_length]; simp
  have honly : ∀ x, (Vis.mark (List.replicate n false) root).has x = true → x = root := by
    intro x hx
    rcases has_mark.1 hx with hx | ⟨hx, _⟩
    · rw [has_false] at hx; cases hx
    · exact hx
  obtain ⟨h1, h2, h3, h4, h5⟩ := dfsLoop_spec fuel [root] _ 0 (fun _ => False) (by rw [hlen]; exact hg) h
    (fun x hx => .inl (by rw [honly x hx]; simp))
  have hu := unvis_mark (vis := List.replicate n false) (x := root) (by simpa using hr) (has_false n root)
  rw [unvis_false] at hu
  refine ⟨by rw [h1, hlen], fun x => ⟨fun hx => ?_, fun hx => ?_⟩, by omega⟩
  · rcases h5 x hx with h5 | ⟨r, hr', h5⟩
    · rw [honly x h5]; exact .refl
    · rw [List.mem_singleton.1 hr'] at h5; exact h5
  · induction hx with
    | refl => exact h3 root (has_mark.2 (.inr ⟨rfl, by simpa using hr⟩))
    | step _ he ih =>
      rcases h4 _ ih with h6 | h6
      · exact h6.elim
      · exact h6 _ he

/-! ### Attaching -/

theorem drawNode_lt {e : Env} (hn : 0 < e.n) {vis : Vis} {deg : List Nat} {id : Nat} : ∀ (fuel t : Nat) {x t' : Nat},
    drawNode e vis deg id fuel t = some (x, t') → x < e.n ∧ deg.getD x 0 < e.R ∧ vis.has x = false := by
  intro fuel
  induction fuel with
  | zero => intro t x t' h; cases h
  | succ fuel ih =>
    intro t x t' h
    unfold drawNode at h
    simp only at h
    split at h
    · rename_i hc; cases h; exact ⟨Nat.mod_lt _ hn, hc.2.1, hc.1⟩
    · exact ih _ h

theorem drawNode_none {e : Env} (hn : 0 < e.n) {vis : Vis} {deg : List Nat} {id : Nat}
    (h : ∀ x, x < e.n → vis.has x = false → deg.getD x 0 < e.R → x = id) : ∀ (fuel t : Nat), drawNode e vis deg id fuel t = none := by
  intro fuel
  induction fuel with
  | zero => intro t; rfl
  | succ fuel ih =>
    intro t
    unfold drawNode
    simp only
    rw [if_neg]
    · exact ih _
    · rintro ⟨h1, h2, h3⟩
      exact h3 (h _ (Nat.mod_lt _ hn) h1 h2)

def DegOk (g : G) (deg : List Nat) : Prop := deg.length = g.length ∧ ∀ i, deg.getD i 0 = (ids (g.getD i [])).length

theorem edge_iff {n R : Nat} {g : G} (hg : GraphOk n R g) {a b : Nat} (ha : a < n) : Edge g a b ↔ b ∈ ids (g.getD a []) := by
  obtain ⟨L, h1, _, _⟩ := hg.row ha
  unfold Edge
  rw [h1, ids_row]
  simp [List.mem_replicate]

theorem attach_spec {e : Env} (hs : Sorts e.srt) (hn : 0 < e.n) {fuel ep t : Nat} {g : G} {deg : List Nat} {vis : Vis}
    (hg : GraphOk e.n e.R g) (hd : DegOk g deg) {g' : G} {deg' : List Nat} {t' x : Nat}
    (h : attach e fuel ep t g deg vis = some (g', deg', t', x)) :
    GraphOk e.n e.R g' ∧ DegOk g' deg' ∧ x < e.n ∧ ∀ a b, Edge g a b → Edge g' a b := by
  unfold attach at h
  split at h
  · cases h
  · rename_i id hid
    have hidn : id < e.n := List.mem_range.1 (List.mem_of_find?_eq_some hid)
    split at h
    · cases h
    · rename_i s hsr
      have hok := (search_spec hn hsr).1
      simp only at h
      have key : ∀ (x : Nat) (t2 : Nat), x < e.n → deg.getD x 0 < e.R →
          (put g x (deg.getD x 0) id).map (fun g => (g, deg.set x (deg.getD x 0 + 1), t2, x)) = some (g', deg', t', x) →
          GraphOk e.n e.R g' ∧ DegOk g' deg' ∧ ∀ a b, Edge g a b → Edge g' a b := by
        intro x t2 hx hlt hput
        rw [hd.2 x] at hlt hput
        obtain ⟨g1, h1, h2, h3, h4, h5⟩ := put_spec hg hx hidn hlt
        rw [h1] at hput
        simp only [Option.map_some, Option.some.injEq, Prod.mk.injEq] at hput
        obtain ⟨rfl, rfl, _, _⟩ := hput
        refine ⟨h2, ⟨by rw [List.length_set, hd.1, hg.1, h2.1], fun i => ?_⟩, fun a b hab => ?_⟩
        · by_cases hi : i = x
          · subst hi
            rw [List.getD_eq_getElem?_getD, List.getElem?_set_self (by rw [hd.1, hg.1]; exact hx), h4]
            simp
          · rw [List.getD_eq_getElem?_getD, List.getElem?_set_ne (Ne.symm hi), ← List.getD_eq_getElem?_getD, h5 i hi]
            exact hd.2 i
        · have ha := (hg.lt hab).1
          by_cases hax : a = x
          · subst hax
            rw [edge_iff hg ha] at hab
            rw [edge_iff h2 ha, h4]
            exact List.mem_append_left _ hab
          · unfold Edge
            rw [h5 a hax]; exact hab
      have hshape : ∀ (x2 t2 : Nat), (put g x2 (deg.getD x2 0) id).map (fun g => (g, deg.set x2 (deg.getD x2 0 + 1), t2, x2)) =
          some (g', deg', t', x) → x2 = x := by
        intro x2 t2 h
        cases hp : put g x2 (deg.getD x2 0) id with
        | none => rw [hp] at h; cases h
        | some g1 =>
          rw [hp] at h
          simp only [Option.map_some, Option.some.injEq, Prod.mk.injEq] at h
          exact h.2.2.2
      split at h
      · cases h
      · rename_i x2 t2 hpick
        have hx2 := hshape x2 t2 h
        subst hx2
        have hprop : x2 < e.n ∧ deg.getD x2 0 < e.R := by
          split at hpick
          · rename_i p hp
            cases hpick
            have h1 := List.find?_some hp
            have h2 := List.mem_of_find?_eq_some hp
            simp only [decide_eq_true_eq] at h1
            exact ⟨hok.full p ((hs _).mem_iff.1 h2), h1.1⟩
          · have := drawNode_lt hn _ _ hpick
            exact ⟨this.1, this.2.1⟩
        obtain ⟨h1, h2, h3⟩ := key x2 t2 hprop.1 hprop.2 h
        exact ⟨h1, h2, hprop.1, h3⟩

theorem treeGrow_spec {e : Env} (hs : Sorts e.srt) (hn : 0 < e.n) {fuel ep : Nat} : ∀ (k t : Nat) {g : G} {deg : List Nat} {vis : Vis}
    {root cnt : Nat} {g' : G}, GraphOk e.n e.R g → DegOk g deg → treeGrow e fuel ep k t g deg vis root cnt = some g' →
    GraphOk e.n e.R g' ∧ ∀ a b, Edge g a b → Edge g' a b := by
  intro k
  induction k with
  | zero => intro t g deg vis root cnt g' _ _ h; cases h
  | succ k ih =>
    intro t g deg vis root cnt g' hg hd h
    unfold treeGrow at h
    split at h
    · cases h
    · split at h
      · cases h; exact ⟨hg, fun a b h => h⟩
      · split at h
        · cases h
        · rename_i g1 deg1 t1 x1 h1
          obtain ⟨h2, h3, _, h4⟩ := attach_spec hs hn hg hd h1
          obtain ⟨h5, h6⟩ := ih _ h2 h3 h
          exact ⟨h5, fun a b hab => h6 a b (h4 a b hab)⟩

theorem Reach.mono {g g' : G} (h : ∀ a b, Edge g a b → Edge g' a b) {a b : Nat} (hr : Reach g a b) : Reach g' a b := by
  induction hr with
  | refl => exact .refl
  | step _ he ih => exact .step ih (h _ _ he)

/-! ### Endless loops -/

theorem seed_exact (e : Env) (g : G) (w ep : Nat)
    (hd : ∀ i j x, g.at ep i = some x → g.at ep j = some x → i = j) : ∀ m, ∃ ids vis num, seed e g w ep m = (ids, vis, num) ∧
    vis.length = e.n ∧ unvis vis + num = e.n ∧ ∀ x, vis.has x = true → ∃ i, i < m ∧ g.at ep i = some x := by
  intro m
  induction m with
  | zero => exact ⟨_, _, _, rfl, by simp, by simp [unvis], fun x hx => by rw [has_false] at hx; cases hx⟩
  | succ m ih =>
    obtain ⟨ids, vis, num, h0, h1, h2, h3⟩ := ih
    simp only [seed, h0]
    cases hg : g.at ep m with
    | none =>
      refine ⟨ids, vis, num, rfl, h1, h2, fun x hx => ?_⟩
      obtain ⟨i, hi, hx⟩ := h3 x hx
      exact ⟨i, by omega, hx⟩
    | some id =>
      simp only
      split
      · rename_i hid
        have hv : vis.has id = false := by
          cases hv : vis.has id with
          | false => rfl
          | true =>
            obtain ⟨i, hi, hx⟩ := h3 id hv
            have := hd i m id hx hg
            omega
        have hu := unvis_mark (by rw [h1]; exact hid) hv
        refine ⟨_, _, _, rfl, by rw [mark_length, h1], by omega, fun x hx => ?_⟩
        rcases has_mark.1 hx with hx | ⟨hx, _⟩
        · obtain ⟨i, hi, hx⟩ := h3 x hx
          exact ⟨i, by omega, hx⟩
        · rw [hx]; exact ⟨m, by omega, hg⟩
      · refine ⟨ids, vis, num, rfl, h1, h2, fun x hx => ?_⟩
        obtain ⟨i, hi, hx⟩ := h3 x hx
        exact ⟨i, by omega, hx⟩

theorem fill_endless (e : Env) (hn : 0 < e.n) (hef : e.n < e.ef) : ∀ (fuel t : Nat) (ids : List Nat) (vis : Vis) (num : Nat),
    vis.length = e.n → unvis vis + num = e.n → fill e fuel t (ids, vis, num) = none := by
  intro fuel
  induction fuel with
  | zero => intro t ids vis num _ _; rfl
  | succ fuel ih =>
    intro t ids vis num h1 h2
    unfold fill
    rw [if_pos (by omega)]
    simp only
    split
    · exact ih _ _ _ _ h1 h2
    · rename_i hv
      have hu := unvis_mark (vis := vis) (x := e.gen t % e.n) (by rw [h1]; exact Nat.mod_lt _ hn) (by simpa using hv)
      exact ih _ _ _ _ (by rw [mark_length, h1]) (by omega)

theorem search_endless (e : Env) (hn : 0 < e.n) (hef : e.n < e.ef) (d : Nat → Int) (g : G) (w ep : Nat)
    (hd : ∀ i j x, g.at ep i = some x → g.at ep j = some x → i = j) (fuel : Nat) : search e fuel d g w ep = none := by
  obtain ⟨ids, vis, num, h0, h1, h2, _⟩ := seed_exact e g w ep hd (min e.ef w)
  unfold search
  rw [h0, fill_endless e hn hef _ _ _ _ _ h1 h2]

theorem isort_sorts : Sorts isort := by
  intro l
  induction l with
  | nil => exact .refl _
  | cons a l ih =>
    unfold isort at ih ⊢
    rw [List.foldr_cons]
    generalize List.foldr _ [] l = acc at ih ⊢
    have h1 : (acc.takeWhile (fun y => decide (y.2 < a.2)) ++ a :: acc.dropWhile (fun y => decide (y.2 < a.2))).Perm (a :: acc) := by
      refine List.perm_middle.trans ?_
      rw [List.takeWhile_append_dropWhile]
    exact h1.trans (ih.cons a)

end Alaya.Nsg
