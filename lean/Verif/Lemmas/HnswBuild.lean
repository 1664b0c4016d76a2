import Verif.Lemmas.HnswRun
import Verif.Lemmas.MemSearch
import Mathlib.Data.List.Nodup

/-! The graph copied out of the finished HNSW construction. -/
namespace Alaya.Hnsw
open Alaya.MemSearch Alaya.MemSearch.Spec

theorem collect_spec {α β : Type} {f : α → Option β} : ∀ {l : List α}, (∀ a ∈ l, ∃ b, f a = some b) →
    ∃ bs, collect f l = some bs ∧ bs.length = l.length ∧ ∀ (k : Nat) a, l[k]? = some a → bs[k]? = f a := by
  intro l
  induction l with
  | nil => intro _; exact ⟨[], rfl, rfl, fun k a h => by simp at h⟩
  | cons a l ih =>
    intro h
    obtain ⟨b, eb⟩ := h a List.mem_cons_self
    obtain ⟨bs, e1, e2, e3⟩ := ih (fun x hx => h x (List.mem_cons_of_mem _ hx))
    refine ⟨b :: bs, by simp [collect, eb, e1], by simp [e2], fun k x hk => ?_⟩
    cases k with
    | zero => simp at hk; subst hk; simpa using eb.symm
    | succ k => simpa using e3 k x (by simpa using hk)

/-- The row of a list of labels. -/
def rowOf (r : Nat) (ids : List Nat) : List Nat := ids ++ List.replicate (r - ids.length) noId

theorem fill_spec {r : Nat} {ids : List Nat} (h : ids.length ≤ r) : fill (256 ^ 4 - 1) r ids = some (rowOf r ids) := by
  unfold fill rowOf noId
  rw [if_pos h]

theorem rowOf_length {r : Nat} {ids : List Nat} (h : ids.length ≤ r) : (rowOf r ids).length = r := by
  unfold rowOf
  rw [List.length_append, List.length_replicate]
  omega

theorem rowOf_takeWhile {r : Nat} {ids : List Nat} (h : ∀ x ∈ ids, x ≠ noId) : (rowOf r ids).takeWhile (· ≠ noId) = ids := by
  unfold rowOf
  rw [List.takeWhile_append_of_pos (by simpa using h)]
  cases hk : r - ids.length with
  | zero => simp
  | succ k => simp [List.replicate_succ]

/-- A list of a level, in labels. -/
structure IdsOk (c : Cfg) (label cap : Nat) (ids : List Nat) : Prop where
  nd : ids.Nodup
  self : label ∉ ids
  len : ids.length ≤ cap
  lt : ∀ v ∈ ids, v < c.n

section
variable {c : Cfg} {s : State} (h : Inv c s) (hf : s.finished)
include h hf

theorem finished_length : s.nodes.length = c.n := by
  have := h.base.length
  rw [hf.1] at this
  simpa using this

theorem label_lt {j : Nat} {x : Node} (hj : s.nodes[j]? = some x) : x.label < c.n :=
  h.base.lt _ (List.mem_append_left _ (List.mem_map.mpr ⟨x, List.mem_of_getElem? hj, rfl⟩))

omit hf in
theorem label_inj {i j : Nat} {x y : Node} (hi : s.nodes[i]? = some x) (hj : s.nodes[j]? = some y) (e : x.label = y.label) : i = j := by
  have hnd : (s.nodes.map Node.label).Nodup := (List.nodup_append.mp h.base.nd).1
  have hil : i < (s.nodes.map Node.label).length := by simpa using ext_of_set hi
  refine (List.Nodup.getElem_inj_iff hnd (hi := hil) (hj := by simpa using ext_of_set hj)).mp ?_
  have h1 := List.getElem?_eq_some_iff.mp hi
  have h2 := List.getElem?_eq_some_iff.mp hj
  obtain ⟨_, h1⟩ := h1
  obtain ⟨_, h2⟩ := h2
  simp [h1, h2, e]

theorem lookup_spec {label : Nat} (hl : label < c.n) : ∃ x, s.nodes[s.lookup label]? = some x ∧ x.label = label := by
  have hm : label ∈ s.nodes.map Node.label := by
    have := h.base.all label hl
    rw [hf.1, List.append_nil] at this
    exact this
  obtain ⟨x, hx, e⟩ := List.mem_map.mp hm
  have hany : s.nodes.any (fun x => x.label = label) = true := List.any_eq_true.mpr ⟨x, hx, by simpa using e⟩
  unfold State.lookup
  rw [if_pos hany]
  have hlt : s.nodes.findIdx (fun x => decide (x.label = label)) < s.nodes.length := List.findIdx_lt_length_of_exists ⟨x, hx, by simpa using e⟩
  refine ⟨_, List.getElem?_eq_getElem hlt, ?_⟩
  have := List.findIdx_getElem (w := hlt)
  simpa using this

theorem list_spec {j l : Nat} {x : Node} {L : List Nat} (hj : s.nodes[j]? = some x) (hL : x.links[l]? = some L) :
    s.labels c L = some (L.map s.label) ∧ IdsOk c x.label (c.cap l) (L.map s.label) ∧
    ∀ v ∈ L.map s.label, ∃ y, s.nodes[s.lookup v]? = some y ∧ l ≤ y.level := by
  have ok := (h.node j x hj).list l L hL
  have hlen := finished_length h hf
  have hlab : ∀ y ∈ L, ∃ z, s.nodes[y]? = some z ∧ s.label y = z.label ∧ l ≤ z.level := by
    intro y hy
    obtain ⟨z, ez, hz⟩ := ok.lk y hy
    exact ⟨z, ez, by unfold State.label; rw [ez]; rfl, hz.1⟩
  refine ⟨?_, ⟨?_, ?_, by simpa using ok.len, ?_⟩, ?_⟩
  · unfold State.labels
    rw [if_pos]
    rw [List.all_eq_true]
    intro y hy
    have := (ok.lk y hy).lt
    simp only [decide_eq_true_eq]
    omega
  · refine List.Nodup.map_on ?_ ok.nd
    intro a ha b hb e
    obtain ⟨z, ez, e1, _⟩ := hlab a ha
    obtain ⟨w, ew, e2, _⟩ := hlab b hb
    exact label_inj h ez ew (by rw [← e1, ← e2]; exact e)
  · intro hin
    obtain ⟨a, ha, e⟩ := List.mem_map.mp hin
    obtain ⟨z, ez, e1, _⟩ := hlab a ha
    have := label_inj h ez hj (by rw [← e1]; exact e)
    subst this
    exact ok.self ha
  · intro v hv
    obtain ⟨a, ha, e⟩ := List.mem_map.mp hv
    obtain ⟨z, ez, e1, _⟩ := hlab a ha
    rw [← e, e1]
    exact label_lt h hf ez
  · intro v hv
    obtain ⟨a, ha, e⟩ := List.mem_map.mp hv
    obtain ⟨z, ez, e1, hz⟩ := hlab a ha
    obtain ⟨y, ey, hy⟩ := lookup_spec h hf (label := v) (by rw [← e, e1]; exact label_lt h hf ez)
    have := label_inj h ey ez (by rw [hy, ← e, e1])
    rw [this] at ey ⊢
    rw [ez] at ey
    cases ey
    exact ⟨z, ez, hz⟩

theorem row0_spec {r label : Nat} (hr : c.m * 2 ≤ r) (hl : label < c.n) :
    ∃ ids, s.row0 c 4 r label = some (rowOf r ids) ∧ IdsOk c label (c.m * 2) ids ∧ (2 ≤ c.n → ids ≠ []) := by
  obtain ⟨x, ex, hx⟩ := lookup_spec h hf hl
  have hn := h.node _ x ex
  have hlt : 0 < x.links.length := by rw [hn.len]; omega
  obtain ⟨L, eL⟩ : ∃ L, x.links[0]? = some L := ⟨_, List.getElem?_eq_getElem hlt⟩
  obtain ⟨k1, k2, _⟩ := list_spec h hf ex eL
  refine ⟨L.map s.label, ?_, hx ▸ k2, ?_⟩
  · unfold State.row0
    rw [ex]
    simp only [eL]
    unfold words
    rw [if_neg (by decide)]
    simp only
    rw [List.take_length, k1]
    simp only
    exact fill_spec (Nat.le_trans k2.len hr)
  · intro hn2 he
    have hL : L = [] := by simpa using he
    have hdone : ∀ (j : Nat) (y : Node), s.nodes[j]? = some y → y.ph = .done := fun j y ey => hf.2 y (List.mem_of_getElem? ey)
    by_cases h0 : s.lookup label = 0
    · have hlen := finished_length h hf
      obtain ⟨y, ey⟩ : ∃ y, s.nodes[1]? = some y := ⟨_, List.getElem?_eq_getElem (by omega)⟩
      have := (h.node 1 y ey).ph
      unfold PhOk at this
      rw [hdone 1 y ey] at this
      obtain ⟨z, M, a1, a2, a3⟩ := this (by omega)
      rw [h0, a1] at ex
      cases ex
      rw [eL] at a2
      cases a2
      exact a3 hL
    · exact hn.ne h0 (by unfold Linked; rw [hdone _ x ex]; exact ⟨Nat.zero_le _, trivial⟩) L eL hL

theorem block_spec {r label lv : Nat} {x : Node} (hr : c.m * 2 ≤ r) (ex : s.nodes[s.lookup label]? = some x) (hx : x.label = label)
    (h1 : 1 ≤ lv) (h2 : lv ≤ x.level) :
    ∃ ids, s.block c 4 r x lv = some (rowOf r ids) ∧ IdsOk c label c.m ids ∧ ∀ v ∈ ids, ∃ y, s.nodes[s.lookup v]? = some y ∧ lv ≤ y.level := by
  have hn := h.node _ x ex
  have hlt : lv < x.links.length := by rw [hn.len]; omega
  obtain ⟨L, eL⟩ : ∃ L, x.links[lv]? = some L := ⟨_, List.getElem?_eq_getElem hlt⟩
  obtain ⟨k1, k2, k3⟩ := list_spec h hf ex eL
  have hcap : c.cap lv = c.m := by unfold Cfg.cap; rw [if_neg (by omega)]
  rw [hcap] at k2
  refine ⟨L.map s.label, ?_, hx ▸ k2, k3⟩
  unfold State.block
  rw [eL]
  simp only [k1]
  exact fill_spec (by have := k2.len; omega)

theorem blocks_spec {r label : Nat} {x : Node} (hr : c.m * 2 ≤ r) (ex : s.nodes[s.lookup label]? = some x) (hx : x.label = label) :
    ∀ lv, lv ≤ x.level → ∃ bs, s.blocks c 4 r x lv = some bs ∧ bs.length = lv * r ∧
      ∀ k, 1 ≤ k → k ≤ lv → some ((bs.drop ((k - 1) * r)).take r) = s.block c 4 r x k := by
  intro lv
  induction lv with
  | zero => intro _; exact ⟨[], rfl, by simp, fun k a b => by omega⟩
  | succ lv ih =>
    intro hle
    obtain ⟨bs, e1, e2, e3⟩ := ih (by omega)
    obtain ⟨ids, f1, f2, _⟩ := block_spec h hf hr ex hx (lv := lv + 1) (by omega) hle
    have hrl : (rowOf r ids).length = r := rowOf_length (by have := f2.len; omega)
    refine ⟨bs ++ rowOf r ids, ?_, ?_, ?_⟩
    · unfold State.blocks
      rw [e1]
      simp only [f1]
    · rw [List.length_append, e2, hrl, Nat.add_mul]
      omega
    · intro k hk1 hk2
      by_cases hk : k = lv + 1
      · subst hk
        rw [f1, Nat.add_sub_cancel, ← e2, List.drop_left, List.take_of_length_le (by omega)]
      · have hle2 : (k - 1) * r + r ≤ lv * r := by
          have : k - 1 + 1 ≤ lv := by omega
          have := Nat.mul_le_mul_right r this
          rw [Nat.add_mul] at this
          omega
        rw [← e3 k hk1 (by omega), List.drop_append_of_le_length (by omega), List.take_append_of_le_length]
        rw [List.length_drop]
        omega

end

end Alaya.Hnsw
