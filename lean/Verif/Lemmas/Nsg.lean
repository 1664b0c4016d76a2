import Verif.Model.Nsg
import Mathlib.Tactic.Common
import Mathlib.Data.List.Basic
import Mathlib.Tactic.Linarith

namespace Alaya.Nsg

/-! ### Rows -/

/-- Ids of vectors, then only `kEmptyId`. -/
def RowOk (n R : Nat) (row : List (Option Nat)) : Prop :=
  ∃ L : List Nat, row = L.map some ++ List.replicate (R - L.length) none ∧ L.length ≤ R ∧ ∀ x ∈ L, x < n

def GraphOk (n R : Nat) (g : G) : Prop := g.length = n ∧ ∀ row ∈ g, RowOk n R row

theorem RowOk.length {n R : Nat} {row : List (Option Nat)} (h : RowOk n R row) : row.length = R := by
  obtain ⟨L, rfl, h2, _⟩ := h
  simp; omega

theorem ids_row (L : List Nat) (k : Nat) : ids (L.map some ++ List.replicate k none) = L := by
  induction L with
  | nil => cases k with
    | zero => rfl
    | succ k => rfl
  | cons a L ih => simp only [List.map_cons, List.cons_append, ids, ih]

theorem filterMap_row (L : List Nat) (k : Nat) : (L.map some ++ List.replicate k none).filterMap id = L := by
  rw [List.filterMap_append, List.filterMap_map]
  have : (List.replicate k (none : Option Nat)).filterMap id = [] := by
    rw [List.filterMap_eq_nil_iff]
    intro a ha
    rw [(List.mem_replicate.1 ha).2]; rfl
  rw [this]
  simp

theorem range_row (L : List Nat) (R : Nat) (h : L.length ≤ R) :
    (List.range R).map (fun b => L[b]?) = L.map some ++ List.replicate (R - L.length) none := by
  apply List.ext_getElem
  · simp; omega
  · intro i h1 h2
    simp only [List.getElem_map, List.getElem_range]
    by_cases hi : i < L.length
    · rw [List.getElem_append_left (by simpa using hi)]
      simp [hi]
    · rw [List.getElem_append_right (by simpa using hi)]
      simp only [List.getElem_replicate]
      rw [List.getElem?_eq_none (by omega)]

theorem rowOk_of {n R : Nat} {L : List Nat} (h : L.length ≤ R) (hx : ∀ x ∈ L, x < n) :
    RowOk n R ((List.range R).map (fun b => L[b]?)) := ⟨L, range_row L R h, h, hx⟩

theorem GraphOk.row {n R : Nat} {g : G} (h : GraphOk n R g) {i : Nat} (hi : i < n) : RowOk n R (g.getD i []) := by
  have : i < g.length := by rw [h.1]; exact hi
  rw [List.getD_eq_getElem?_getD, List.getElem?_eq_getElem this]
  exact h.2 _ (List.getElem_mem this)

theorem GraphOk.set {n R : Nat} {g : G} (h : GraphOk n R g) {i : Nat} {row : List (Option Nat)} (hr : RowOk n R row) :
    GraphOk n R (g.set i row) := by
  refine ⟨by simp [h.1], ?_⟩
  intro r hm
  rcases List.mem_or_eq_of_mem_set hm with h1 | h1
  · exact h.2 r h1
  · rw [h1]; exact hr

theorem empty_ok (n R : Nat) : GraphOk n R (empty n R) := by
  refine ⟨by simp [empty], ?_⟩
  intro row hr
  rw [(List.mem_replicate.1 hr).2]
  exact ⟨[], by simp, by simp, by simp⟩

theorem at_some {g : G} {i j x : Nat} (h : g.at i j = some x) : some x ∈ g.getD i [] := by
  unfold G.at at h
  rw [List.getD_eq_getElem?_getD (l := g.getD i [])] at h
  cases hj : (g.getD i [])[j]? with
  | none => rw [hj] at h; cases h
  | some y =>
    rw [hj] at h
    simp only [Option.getD_some] at h
    rw [h] at hj
    exact List.mem_of_getElem? hj

theorem GraphOk.lt {n R : Nat} {g : G} (h : GraphOk n R g) {i x : Nat} (hx : some x ∈ g.getD i []) : i < n ∧ x < n := by
  have hi : i < n := by
    by_contra hc
    rw [List.getD_eq_getElem?_getD, List.getElem?_eq_none (by rw [h.1]; omega)] at hx
    simp at hx
  obtain ⟨L, h1, _, h3⟩ := h.row hi
  rw [h1] at hx
  simp only [List.mem_append, List.mem_map, Option.some.injEq, exists_eq_right, List.mem_replicate] at hx
  rcases hx with hx | ⟨_, hx⟩
  · exact ⟨hi, h3 x hx⟩
  · cases hx

/-- Writing behind the last id of a row. -/
theorem RowOk.append {n R x : Nat} {row : List (Option Nat)} (h : RowOk n R row) (hl : (ids row).length < R) (hx : x < n) :
    RowOk n R (row.set (ids row).length (some x)) ∧ ids (row.set (ids row).length (some x)) = ids row ++ [x] := by
  obtain ⟨L, h1, h2, h3⟩ := h
  have hid : ids row = L := by rw [h1, ids_row]
  rw [hid] at hl ⊢
  have key : row.set L.length (some x) = (L ++ [x]).map some ++ List.replicate (R - (L ++ [x]).length) none := by
    rw [h1, List.set_append_right _ _ (by simp)]
    simp only [List.length_map, Nat.sub_self, List.map_append, List.map_cons, List.map_nil, List.append_assoc, List.length_append,
      List.length_singleton]
    have : R - L.length = (R - (L.length + 1)) + 1 := by omega
    rw [this, List.replicate_succ]
    rfl
  refine ⟨⟨L ++ [x], key, by simp; omega, ?_⟩, by rw [key, ids_row]⟩
  intro y hy
  rcases List.mem_append.1 hy with hy | hy
  · exact h3 y hy
  · rw [List.mem_singleton.1 hy]; exact hx

/-! ### Pruning -/

theorem prune_spec (e : Env) (ps : List Node) : ∀ res : List Node, res.length ≤ e.R → (res.map Prod.fst).Nodup →
    (prune e res ps).length ≤ e.R ∧ (∀ p ∈ prune e res ps, p ∈ res ∨ p ∈ ps) ∧ ((prune e res ps).map Prod.fst).Nodup ∧
    res.length ≤ (prune e res ps).length := by
  induction ps with
  | nil => intro res h hn; exact ⟨h, fun p hp => .inl hp, hn, Nat.le_refl _⟩
  | cons p ps ih =>
    intro res h hn
    unfold prune
    by_cases hl : res.length < e.R
    · rw [if_pos hl]
      cases ho : occluded e res p with
      | true =>
        simp only [if_true]
        obtain ⟨h1, h2, h3, h4⟩ := ih res h hn
        exact ⟨h1, fun q hq => (h2 q hq).imp id (List.mem_cons_of_mem _), h3, h4⟩
      | false =>
        simp only [Bool.false_eq_true, if_false]
        have hnew : p.1 ∉ res.map Prod.fst := by
          intro hm
          obtain ⟨r, hr, he⟩ := List.mem_map.1 hm
          have : occluded e res p = true := by
            rw [occluded, List.any_eq_true]
            exact ⟨r, hr, by simp [he]⟩
          rw [ho] at this; cases this
        obtain ⟨h1, h2, h3, h4⟩ := ih (res ++ [p]) (by simp; omega) (by
          rw [List.map_append, List.nodup_append]
          refine ⟨hn, by simp, ?_⟩
          intro a ha b hb
          simp only [List.map_cons, List.map_nil, List.mem_singleton] at hb
          rintro rfl
          rw [hb] at ha
          exact hnew ha)
        refine ⟨h1, fun q hq => ?_, h3, by simp at h4; omega⟩
        rcases h2 q hq with h | h
        · rcases List.mem_append.1 h with h | h
          · exact .inl h
          · rw [List.mem_singleton.1 h]; exact .inr List.mem_cons_self
        · exact .inr (List.mem_cons_of_mem _ h)
    · rw [if_neg hl]
      exact ⟨h, fun q hq => .inl hq, hn, Nat.le_refl _⟩

/-- What is asked of `std::sort`. -/
def Sorts (srt : List Node → List Node) : Prop := ∀ l, (srt l).Perm l

/-! ### The search -/

theorem mark_length (vis : Vis) (x : Nat) : (vis.mark x).length = vis.length := by simp [Vis.mark]

theorem has_mark {vis : Vis} {x y : Nat} : (vis.mark x).has y = true ↔ vis.has y = true ∨ (y = x ∧ x < vis.length) := by
  unfold Vis.mark Vis.has
  rw [List.getD_eq_getElem?_getD, List.getD_eq_getElem?_getD]
  by_cases e : x = y
  · subst e
    by_cases hx : x < vis.length
    · rw [List.getElem?_set_self hx]; simp [hx]
    · rw [List.set_eq_of_length_le (by omega)]; simp [hx]
  · rw [List.getElem?_set_ne e]
    simp [Ne.symm e]

theorem has_lt {vis : Vis} {x : Nat} (h : vis.has x = true) : x < vis.length := by
  unfold Vis.has at h
  rw [List.getD_eq_getElem?_getD] at h
  by_contra hc
  rw [List.getElem?_eq_none (by omega)] at h
  cases h

/-- The number of unvisited vectors. -/
def unvis (vis : Vis) : Nat := vis.count false

theorem unvis_mark {vis : Vis} {x : Nat} (hx : x < vis.length) (h : vis.has x = false) : unvis (vis.mark x) + 1 = unvis vis := by
  induction vis generalizing x with
  | nil => simp at hx
  | cons a vis ih =>
    cases x with
    | zero =>
      have : a = false := by simpa [Vis.has] using h
      subst this
      simp [Vis.mark, unvis]
    | succ x =>
      have := ih (x := x) (by simpa using hx) (by simpa [Vis.has] using h)
      simp only [Vis.mark, unvis, List.set_cons_succ, List.count_cons] at this ⊢
      omega

theorem unvis_mark_le (vis : Vis) (x : Nat) : unvis (vis.mark x) ≤ unvis vis := by
  by_cases hx : x < vis.length
  · cases h : vis.has x with
    | false => have := unvis_mark hx h; omega
    | true =>
      have : vis.mark x = vis := by
        unfold Vis.mark
        apply List.ext_getElem (by simp)
        intro i h1 h2
        by_cases e : x = i
        · subst e
          have h3 : vis[x]? = some vis[x] := List.getElem?_eq_getElem hx
          unfold Vis.has at h
          rw [List.getD_eq_getElem?_getD, h3] at h
          simp at h
          simp [h]
        · rw [List.getElem_set_ne e]
      rw [this]
  · have : vis.mark x = vis := List.set_eq_of_length_le (by omega)
    rw [this]

theorem unvis_le (vis : Vis) : unvis vis ≤ vis.length := List.count_le_length

theorem exists_unvis {vis : Vis} (h : 0 < unvis vis) : ∃ x, x < vis.length ∧ vis.has x = false := by
  have hm : false ∈ vis := List.count_pos_iff.1 h
  obtain ⟨i, hi, he⟩ := List.getElem_of_mem hm
  exact ⟨i, hi, by simp [Vis.has, List.getD_eq_getElem?_getD, List.getElem?_eq_getElem hi, he]⟩

theorem seed_spec (e : Env) (g : G) (w ep : Nat) (hn : 0 < e.n) : ∀ i, ∃ ids vis num, seed e g w ep i = (ids, vis, num) ∧
    ids.length = e.ef ∧ (∀ x ∈ ids, x < e.n) ∧ vis.length = e.n ∧ e.n ≤ unvis vis + num := by
  intro i
  induction i with
  | zero =>
    refine ⟨_, _, _, rfl, by simp, ?_, by simp, by simp [unvis]⟩
    intro x hx; rw [(List.mem_replicate.1 hx).2]; exact hn
  | succ i ih =>
    obtain ⟨ids, vis, num, h0, h1, h2, h3, h4⟩ := ih
    simp only [seed, h0]
    cases hg : g.at ep i with
    | none => exact ⟨ids, vis, num, rfl, h1, h2, h3, h4⟩
    | some id =>
      simp only
      split
      · rename_i hid
        refine ⟨_, _, _, rfl, by simp [h1], ?_, by simp [mark_length, h3], ?_⟩
        · intro x hx
          rcases List.mem_or_eq_of_mem_set hx with hx | hx
          · exact h2 x hx
          · rw [hx]; exact hid
        · cases hv : vis.has id with
          | false => have := unvis_mark (by rw [h3]; exact hid) hv; omega
          | true =>
            have h5 : unvis (vis.mark id) = unvis vis := by
              have h6 : vis.mark id = vis := by
                unfold Vis.mark
                apply List.ext_getElem (by simp)
                intro j h1 h2
                by_cases e' : id = j
                · subst e'
                  unfold Vis.has at hv
                  rw [List.getD_eq_getElem?_getD, List.getElem?_eq_getElem h2] at hv
                  simp at hv
                  simp [hv]
                · rw [List.getElem_set_ne e']
              rw [h6]
            omega
      · exact ⟨ids, vis, num, rfl, h1, h2, h3, h4⟩

theorem fill_spec (e : Env) (hn : 0 < e.n) : ∀ (fuel t : Nat) (ids : List Nat) (vis : Vis) (num : Nat) {ids' : List Nat} {vis' : Vis},
    fill e fuel t (ids, vis, num) = some (ids', vis') → ids.length = e.ef → (∀ x ∈ ids, x < e.n) → vis.length = e.n →
    ids'.length = e.ef ∧ (∀ x ∈ ids', x < e.n) ∧ vis'.length = e.n := by
  intro fuel
  induction fuel with
  | zero => intro t ids vis num ids' vis' h; cases h
  | succ fuel ih =>
    intro t ids vis num ids' vis' h h1 h2 h3
    unfold fill at h
    split at h
    · simp only at h
      split at h
      · exact ih _ _ _ _ h h1 h2 h3
      · refine ih _ _ _ _ h (by simp [h1]) ?_ (by simp [mark_length, h3])
        intro x hx
        rcases List.mem_or_eq_of_mem_set hx with hx | hx
        · exact h2 x hx
        · rw [hx]; exact Nat.mod_lt _ hn
    · cases h; exact ⟨h1, h2, h3⟩

theorem sortNbrs_perm (l : List Nbr) : (sortNbrs l).Perm l := by
  induction l with
  | nil => exact .refl _
  | cons a l ih =>
    unfold sortNbrs at ih ⊢
    rw [List.foldr_cons]
    generalize List.foldr _ [] l = acc at ih ⊢
    have h1 : (acc.takeWhile (fun y => decide (y.d < a.d ∨ (y.d = a.d ∧ y.id < a.id))) ++ a ::
      acc.dropWhile (fun y => decide (y.d < a.d ∨ (y.d = a.d ∧ y.id < a.id)))).Perm (a :: acc) := by
      refine List.perm_middle.trans ?_
      rw [List.takeWhile_append_dropWhile]
    exact h1.trans (ih.cons a)

theorem insertPool_spec (pool : List Nbr) (nn : Nbr) : (insertPool pool nn).1.length = pool.length ∧
    (∀ p ∈ (insertPool pool nn).1, p ∈ pool ∨ p = nn) := by
  unfold insertPool
  split
  · exact ⟨rfl, fun p hp => .inl hp⟩
  · split
    · exact ⟨rfl, fun p hp => .inl hp⟩
    · rename_i l hl
      split
      · exact ⟨rfl, fun p hp => .inl hp⟩
      · simp only
        generalize hk : (pool.dropLast.reverse.dropWhile (fun p => decide (nn.d < p.d))).reverse = keep
        have hsuf := List.dropWhile_suffix (fun p : Nbr => decide (nn.d < p.d)) (l := pool.dropLast.reverse)
        have hpre : keep <+: pool.dropLast := by
          rw [← hk]
          have := List.reverse_prefix.2 hsuf
          rwa [List.reverse_reverse] at this
        have hlen := hpre.length_le
        have hne : pool ≠ [] := by intro e; rw [e] at hl; cases hl
        have hpos : 0 < pool.length := List.length_pos_iff.2 hne
        simp only [List.length_dropLast] at hlen
        refine ⟨by simp; omega, ?_⟩
        intro p hp
        rcases List.mem_append.1 hp with hp | hp
        · exact .inl (List.dropLast_subset pool (hpre.subset hp))
        · rcases List.mem_cons.1 hp with hp | hp
          · exact .inr hp
          · exact .inl (List.dropLast_subset pool (List.mem_of_mem_drop hp))

/-- What the search keeps. -/
structure SOk (e : Env) (s : SSt) : Prop where
  pool : ∀ p ∈ s.pool, p.id < e.n
  full : ∀ p ∈ s.full, p.1 < e.n
  vis : s.vis.length = e.n

theorem visit_spec (e : Env) (d : Nat → Int) (s : SSt) (id : Nat) (h : SOk e s) :
    SOk e (visit e d s id) ∧ (visit e d s id).pool.length = s.pool.length ∧
    ((visit e d s id) = s ∨ unvis (visit e d s id).vis < unvis s.vis) := by
  unfold visit
  split
  · exact ⟨h, rfl, .inl rfl⟩
  · rename_i hc
    rw [not_or] at hc
    have hid : id < e.n := by omega
    have hv : s.vis.has id = false := by simpa using hc.2
    have hu := unvis_mark (by rw [h.vis]; exact hid) hv
    have hfull : ∀ p ∈ s.full ++ [(id, d id)], p.1 < e.n := by
      intro p hp
      rcases List.mem_append.1 hp with hp | hp
      · exact h.full p hp
      · rw [List.mem_singleton.1 hp]; exact hid
    have hvis : (s.vis.mark id).length = e.n := by rw [mark_length, h.vis]
    split
    · exact ⟨⟨h.pool, hfull, hvis⟩, rfl, .inr (by simp only; omega)⟩
    · split
      · exact ⟨⟨h.pool, hfull, hvis⟩, rfl, .inr (by simp only; omega)⟩
      · obtain ⟨h1, h2⟩ := insertPool_spec s.pool ⟨id, d id, true⟩
        refine ⟨⟨?_, hfull, hvis⟩, h1, .inr (by simp only; omega)⟩
        intro p hp
        rcases h2 p hp with hp | hp
        · exact h.pool p hp
        · rw [hp]; exact hid

theorem expand_spec (e : Env) (d : Nat → Int) (g : G) (x : Nat) : ∀ (m : Nat) (s : SSt), SOk e s →
    SOk e (expand e d g x m s) ∧ (expand e d g x m s).pool.length = s.pool.length ∧
    ((expand e d g x m s) = s ∨ unvis (expand e d g x m s).vis < unvis s.vis) := by
  intro m
  induction m with
  | zero => intro s h; exact ⟨h, rfl, .inl rfl⟩
  | succ m ih =>
    intro s h
    obtain ⟨h1, h2, h3⟩ := ih s h
    unfold expand
    split
    · exact ⟨h1, h2, h3⟩
    · rename_i id _
      obtain ⟨h4, h5, h6⟩ := visit_spec e d (expand e d g x m s) id h1
      refine ⟨h4, h5.trans h2, ?_⟩
      rcases h6 with h6 | h6
      · rw [h6]; exact h3
      · rcases h3 with h3 | h3
        · rw [h3] at h6 ⊢; exact .inr h6
        · exact .inr (by omega)

theorem set_flag {e : Env} {s : SSt} (h : SOk e s) {k : Nat} {p : Nbr} (hp : s.pool[k]? = some p) (u : Nat) :
    SOk e { s with pool := s.pool.set k { p with flag := false }, upd := u } := by
  refine ⟨?_, h.full, h.vis⟩
  intro q hq
  rcases List.mem_or_eq_of_mem_set hq with hq | hq
  · exact h.pool q hq
  · rw [hq]; exact h.pool p (List.mem_of_getElem? hp)

theorem walk_spec (e : Env) (d : Nat → Int) (g : G) (w : Nat) : ∀ (fuel k : Nat) (s : SSt) {s' : SSt}, walk e d g w fuel k s = some s' →
    SOk e s → SOk e s' ∧ s'.pool.length = s.pool.length := by
  intro fuel
  induction fuel with
  | zero => intro k s s' h; cases h
  | succ fuel ih =>
    intro k s s' h hs
    unfold walk at h
    split at h
    · cases h; exact ⟨hs, rfl⟩
    · rename_i p hp
      split at h
      · obtain ⟨h1, h2, _⟩ := expand_spec e d g p.id w _ (set_flag hs hp s.pool.length)
        obtain ⟨h3, h4⟩ := ih _ _ h h1
        exact ⟨h3, by rw [h4, h2]; simp⟩
      · exact ih _ _ h hs

theorem first_ok {e : Env} (d : Nat → Int) {ids : List Nat} {vis : Vis} (h : ∀ x ∈ ids, x < e.n) (hv : vis.length = e.n) :
    SOk e ⟨sortNbrs (ids.map (fun i => ⟨i, d i, true⟩)), vis, ids.map (fun i => (i, d i)), 0⟩ := by
  refine ⟨?_, ?_, hv⟩
  · intro p hp
    have := (sortNbrs_perm _).mem_iff.1 hp
    obtain ⟨i, hi, rfl⟩ := List.mem_map.1 this
    exact h i hi
  · intro p hp
    obtain ⟨i, hi, rfl⟩ := List.mem_map.1 hp
    exact h i hi

theorem search_spec {e : Env} (hn : 0 < e.n) {fuel : Nat} {d : Nat → Int} {g : G} {w ep : Nat} {s : SSt}
    (h : search e fuel d g w ep = some s) : SOk e s ∧ s.pool.length = e.ef := by
  unfold search at h
  obtain ⟨ids, vis, num, h0, h1, h2, h3, _⟩ := seed_spec e g w ep hn (min e.ef w)
  rw [h0] at h
  split at h
  · cases h
  · rename_i ids' vis' hf
    obtain ⟨h4, h5, h6⟩ := fill_spec e hn _ _ _ _ _ hf h1 h2 h3
    obtain ⟨h7, h8⟩ := walk_spec e d g w _ _ _ h (first_ok d h5 h6)
    refine ⟨h7, ?_⟩
    rw [h8, (sortNbrs_perm _).length_eq]; simp [h4]

/-! ### The search ends -/

theorem walk_ends (e : Env) (d : Nat → Int) (g : G) (w : Nat) : ∀ (fuel k : Nat) (s : SSt), SOk e s →
    unvis s.vis * (s.pool.length + 1) + (s.pool.length - k) < fuel → ∃ s', walk e d g w fuel k s = some s' := by
  intro fuel
  induction fuel with
  | zero => intro k s _ h; omega
  | succ fuel ih =>
    intro k s hs hm
    unfold walk
    split
    · exact ⟨s, rfl⟩
    · rename_i p hp
      have hk : k < s.pool.length := (List.getElem?_eq_some_iff.1 hp).1
      split
      · obtain ⟨h1, h2, h3⟩ := expand_spec e d g p.id w _ (set_flag hs hp s.pool.length)
        apply ih _ _ h1
        rw [h2]
        simp only [List.length_set] at h2 ⊢
        rcases h3 with h3 | h3
        · rw [h3]
          simp only
          rw [if_neg (by omega)]
          omega
        · simp only at h3
          have h4 : (unvis (expand e d g p.id w
            { s with pool := s.pool.set k { p with flag := false }, upd := s.pool.length }).vis + 1) * (s.pool.length + 1) ≤
              unvis s.vis * (s.pool.length + 1) := Nat.mul_le_mul_right _ h3
          rw [Nat.succ_mul] at h4
          omega
      · exact ih _ _ hs (by omega)

/-- Every vector is drawn again and again. -/
def Fair (n : Nat) (f : Nat → Nat) : Prop := ∀ x, x < n → ∀ j, ∃ i, j ≤ i ∧ f i % n = x

theorem fill_mono (e : Env) : ∀ (fuel t : Nat) (a : List Nat × Vis × Nat) {r : List Nat × Vis}, fill e fuel t a = some r →
    ∀ extra, fill e (fuel + extra) t a = some r := by
  intro fuel
  induction fuel with
  | zero => intro t a r h; cases h
  | succ fuel ih =>
    intro t ⟨ids, vis, num⟩ r h extra
    rw [Nat.succ_add]
    unfold fill at h ⊢
    split
    · rename_i hn
      rw [if_pos hn] at h
      simp only at h ⊢
      split
      · rename_i hv
        rw [if_pos hv] at h
        exact ih _ _ h extra
      · rename_i hv
        rw [if_neg hv] at h
        exact ih _ _ h extra
    · rename_i hn
      rw [if_neg hn] at h
      exact h

theorem fill_ends (e : Env) (hf : Fair e.n e.gen) (hn : 0 < e.n) : ∀ (c t : Nat) (ids : List Nat) (vis : Vis) (num : Nat),
    vis.length = e.n → e.ef ≤ e.n → e.n ≤ unvis vis + num → e.ef - num ≤ c → ∃ fuel r, fill e fuel t (ids, vis, num) = some r := by
  intro c
  induction c with
  | zero =>
    intro t ids vis num h1 h2 h3 h4
    refine ⟨1, (ids, vis), ?_⟩
    unfold fill
    rw [if_neg (by omega)]
  | succ c ih =>
    intro t ids vis num h1 h2 h3 h4
    by_cases hd : num < e.ef
    · obtain ⟨x, hx, hv⟩ := exists_unvis (vis := vis) (by omega)
      rw [h1] at hx
      obtain ⟨i, hi, he⟩ := hf x hx t
      have key : ∀ (m t : Nat), t ≤ i → i - t = m → ∃ fuel r, fill e fuel t (ids, vis, num) = some r := by
        intro m
        induction m with
        | zero =>
          intro t ht hm
          have : t = i := by omega
          subst this
          obtain ⟨fuel, r, hr⟩ := ih (t + 1) (ids.set num x) (vis.mark x) (num + 1) (by rw [mark_length, h1]) h2
            (by have := unvis_mark (by rw [h1]; exact hx) hv; omega) (by omega)
          refine ⟨fuel + 1, r, ?_⟩
          unfold fill
          rw [if_pos hd]
          simp only [he, hv]
          exact hr
        | succ m ihm =>
          intro t ht hm
          cases hvt : vis.has (e.gen t % e.n) with
          | true =>
            obtain ⟨fuel, r, hr⟩ := ihm (t + 1) (by omega) (by omega)
            refine ⟨fuel + 1, r, ?_⟩
            unfold fill
            rw [if_pos hd]
            simp only [hvt]
            exact hr
          | false =>
            obtain ⟨fuel, r, hr⟩ := ih (t + 1) (ids.set num (e.gen t % e.n)) (vis.mark (e.gen t % e.n)) (num + 1)
              (by rw [mark_length, h1]) h2
              (by have := unvis_mark (by rw [h1]; exact Nat.mod_lt _ hn) hvt; omega) (by omega)
            refine ⟨fuel + 1, r, ?_⟩
            unfold fill
            rw [if_pos hd]
            simp only [hvt]
            exact hr
      exact key (i - t) t hi rfl
    · refine ⟨1, (ids, vis), ?_⟩
      unfold fill
      rw [if_neg hd]

theorem walk_mono (e : Env) (d : Nat → Int) (g : G) (w : Nat) : ∀ (fuel k : Nat) (s : SSt) {s' : SSt}, walk e d g w fuel k s = some s' →
    ∀ extra, walk e d g w (fuel + extra) k s = some s' := by
  intro fuel
  induction fuel with
  | zero => intro k s s' h; cases h
  | succ fuel ih =>
    intro k s s' h extra
    rw [Nat.succ_add]
    unfold walk at h ⊢
    split
    · rename_i hp; rw [hp] at h; exact h
    · rename_i p hp
      rw [hp] at h
      simp only at h
      split
      · rename_i hf
        rw [if_pos hf] at h
        exact ih _ _ h extra
      · rename_i hf
        rw [if_neg hf] at h
        exact ih _ _ h extra

theorem search_mono {e : Env} {fuel : Nat} {d : Nat → Int} {g : G} {w ep : Nat} {s : SSt} (h : search e fuel d g w ep = some s)
    (extra : Nat) : search e (fuel + extra) d g w ep = some s := by
  unfold search at h ⊢
  split at h
  · cases h
  · rename_i ids vis hf
    rw [fill_mono e _ _ _ hf extra]
    exact walk_mono e d g w _ _ _ h extra

theorem search_ends {e : Env} (hn : 0 < e.n) (hef : e.ef ≤ e.n) (hf : Fair e.n e.gen) (d : Nat → Int) (g : G) (w ep : Nat) :
    ∃ fuel s, search e fuel d g w ep = some s := by
  obtain ⟨ids, vis, num, h0, h1, h2, h3, h4⟩ := seed_spec e g w ep hn (min e.ef w)
  obtain ⟨fuel, ⟨ids', vis'⟩, hr⟩ := fill_ends e hf hn (e.ef - num) 0 ids vis num h3 hef h4 (Nat.le_refl _)
  obtain ⟨h5, h6, h7⟩ := fill_spec e hn _ _ _ _ _ hr h1 h2 h3
  let s0 : SSt := ⟨sortNbrs (ids'.map (fun i => ⟨i, d i, true⟩)), vis', ids'.map (fun i => (i, d i)), 0⟩
  have hs0 : SOk e s0 := first_ok d h6 h7
  let f2 := unvis s0.vis * (s0.pool.length + 1) + s0.pool.length + 1
  obtain ⟨s', hs'⟩ := walk_ends e d g w f2 0 s0 hs0 (by simp only [f2]; omega)
  refine ⟨fuel + f2, s', ?_⟩
  unfold search
  rw [h0, fill_mono e _ _ _ hr f2]
  have := walk_mono e d g w _ _ _ hs' fuel
  rw [Nat.add_comm] at this
  exact this

end Alaya.Nsg
