import Verif.Lemmas.GreedySearch

/-! C27: greedy graph search. -/
namespace Alaya.Pools
open Spec

theorem perm_of_nodup_mem {α : Type} [DecidableEq α] : ∀ {l1 l2 : List α}, l1.Nodup → l2.Nodup → (∀ x, x ∈ l1 ↔ x ∈ l2) → l1.Perm l2 := by
  intro l1
  induction l1 with
  | nil =>
    intro l2 _ _ h
    cases l2 with
    | nil => exact List.Perm.nil
    | cons b t => have := (h b).mpr (by simp); cases this
  | cons a t ih =>
    intro l2 h1 h2 h
    have ha : a ∈ l2 := (h a).mp (by simp)
    refine List.Perm.trans ?_ (List.perm_cons_erase ha).symm
    rw [List.nodup_cons] at h1
    refine (ih h1.2 (h2.erase a) ?_).cons a
    intro x
    rw [h2.mem_erase_iff]
    constructor
    · intro hx
      exact ⟨fun e => h1.1 (e ▸ hx), (h x).mp (by simp [hx])⟩
    · rintro ⟨hne, hx⟩
      rcases List.mem_cons.mp ((h x).mpr hx) with h' | h'
      · exact absurd h' hne
      · exact h'

/-- On every valid graph the search terminates (after at most as many rounds as there are nodes), stays inside its
arrays, and returns at most `topK` distinct ids in ascending (distance, id) order, each reachable from the entry point
and with its true distance. -/
theorem C27_search_sound (g : Graph) (hg : GraphOk g) (start : Nat) (hst : start < g.length) (dist : Nat → Int)
    (topK list : Nat) (hk : 0 < topK) (hl : topK ≤ list) (s : Scratch) (hs : ScratchOk s) :
    ∃ s2 hits, (∀ extra, search g start dist topK list (g.length + extra) s = some (some (s2, hits))) ∧ ScratchOk s2 ∧
      hits.length ≤ topK ∧ (hits.map Prod.fst).Nodup ∧
      hits.Pairwise (fun a b => a.2 < b.2 ∨ (a.2 = b.2 ∧ a.1 ≤ b.1)) ∧
      ∀ h ∈ hits, Reach g start h.1 ∧ h.2 = dist h.1 := by
  obtain ⟨s0, s1, s2, popped, e0, e1, e2, h, hu, hstart⟩ := search_run g hg start hst dist list s hs
  refine ⟨s2, (s2.pool.entries.take (min topK s2.pool.size)).map (fun e => (e.id, e.dist)), ?_, ?_, ?_, ?_, ?_, ?_⟩
  · intro extra
    unfold search
    rw [if_neg (by omega), if_neg (by omega), if_neg (by omega), e0]
    simp only
    rw [e1]
    simp only
    rw [e2 extra]
  · refine ⟨fun t ht => by rw [h.vlen]; exact h.tlt t ht, ?_⟩
    intro i hi
    have hil := (List.getElem?_eq_some_iff.mp hi).1
    rw [h.vlen] at hil
    rw [h.vis i hil] at hi
    simpa using hi
  · simp; omega
  · rw [List.map_map]
    have hnd : ((s2.touched.map (cand dist)).map Prod.fst).Nodup := by
      rw [List.map_map]
      have : (Prod.fst ∘ cand dist) = id := rfl
      rw [this, List.map_id]; exact h.tnd
    obtain ⟨_, _, rest, hp, _⟩ := h.q.best
    have := (hp.map Prod.fst).nodup_iff.mp hnd
    rw [List.map_append, List.map_map] at this
    have h1 := (List.nodup_append.mp this).1
    rw [List.map_take]
    exact h1.sublist (List.take_sublist _ _)
  · rw [List.map_take]
    exact h.q.best.1.sublist (List.take_sublist _ _)
  · intro x hx
    rw [List.map_take] at hx
    have hx' := Best.mem h.q.best (List.mem_of_mem_take hx)
    obtain ⟨t, ht, rfl⟩ := List.mem_map.mp hx'
    exact ⟨h.reach t ht, rfl⟩

/-- If the search list is at least as large as the reachable set, the result is the exact top-k of that set. -/
theorem C27_exact_when_list_large (g : Graph) (hg : GraphOk g) (start : Nat) (hst : start < g.length) (dist : Nat → Int)
    (topK list : Nat) (hk : 0 < topK) (hl : topK ≤ list) (s : Scratch) (hs : ScratchOk s) (R : List Nat) (hR : R.Nodup)
    (hRr : ∀ i, i ∈ R ↔ Reach g start i) (hRl : R.length ≤ list) :
    ∃ s2 hits, (∀ extra, search g start dist topK list (g.length + extra) s = some (some (s2, hits))) ∧
      Best (fun a b => a.2 < b.2 ∨ (a.2 = b.2 ∧ a.1 ≤ b.1)) topK hits (R.map (fun i => (i, dist i))) := by
  obtain ⟨s0, s1, s2, popped, e0, e1, e2, h, hu, hstart⟩ := search_run g hg start hst dist list s hs
  refine ⟨s2, (s2.pool.entries.take (min topK s2.pool.size)).map (fun e => (e.id, e.dist)), ?_, ?_⟩
  · intro extra
    unfold search
    rw [if_neg (by omega), if_neg (by omega), if_neg (by omega), e0]
    simp only
    rw [e1]
    simp only
    rw [e2 extra]
  · -- nothing was left out
    have htR : s2.touched.length ≤ R.length := nodup_subset_length h.tnd (fun t ht => (hRr t).mpr (h.reach t ht))
    obtain ⟨hsort, hlen, rest, hp, -⟩ := h.q.best
    have hrest : rest = [] := by
      have h1 := hp.length_eq
      simp only [List.length_append, List.length_map] at h1 hlen
      have : rest.length = 0 := by omega
      exact List.length_eq_zero_iff.mp this
    subst hrest
    rw [List.append_nil] at hp
    have hall : ∀ t ∈ s2.touched, cand dist t ∈ popped := by
      intro t ht
      have hm := hp.mem_iff.mp (List.mem_map.mpr ⟨t, ht, rfl⟩)
      obtain ⟨e, he, hek⟩ := List.mem_map.mp hm
      obtain ⟨i, hi⟩ := List.getElem?_of_mem he
      have hil := (List.getElem?_eq_some_iff.mp hi).1
      have hel := h.q.len
      have hc1 : ¬ s2.pool.cur < s2.pool.size := by simpa [NPQ.hasUnexpanded] using hu
      have := (h.q.flag e he).mp (h.q.cur.2.1 i e (by omega) hi)
      rwa [hek] at this
    have hclosed : ∀ i, Reach g start i → i ∈ s2.touched := by
      intro i hi
      induction hi with
      | start => exact hstart
      | step hu hn hm ih =>
        rcases h.closed _ (hall _ ih) _ hn _ hm with h' | h'
        · exact h'
        · cases h'
    have hperm : (R.map (cand dist)).Perm (s2.pool.entries.map Nbr.key) := by
      refine List.Perm.trans (List.Perm.map _ ?_) hp
      exact perm_of_nodup_mem hR h.tnd (fun x => ⟨fun hx => hclosed x ((hRr x).mp hx), fun hx => (hRr x).mpr (h.reach x hx)⟩)
    have hel := h.q.len
    have hRlen : R.length = s2.pool.size := by have := hperm.length_eq; simp at this; omega
    have hmin : (s2.pool.entries.take (min topK s2.pool.size)).map (fun e => (e.id, e.dist)) =
        (s2.pool.entries.map Nbr.key).take topK := by
      rw [List.map_take]
      show (s2.pool.entries.map Nbr.key).take _ = _
      rw [List.take_eq_take_iff]; simp; omega
    rw [hmin]
    refine ⟨hsort.sublist (List.take_sublist _ _), by simp; omega, (s2.pool.entries.map Nbr.key).drop topK, ?_, ?_⟩
    · rw [List.take_append_drop]; exact hperm
    · intro r hr e he
      have : ((s2.pool.entries.map Nbr.key).take topK ++ (s2.pool.entries.map Nbr.key).drop topK).Pairwise leL := by
        rw [List.take_append_drop]; exact hsort
      exact (List.pairwise_append.mp this).2.2 e he r hr

/-- Bad parameters are refused before anything is read. -/
theorem C27_bad_parameters (g : Graph) (start : Nat) (dist : Nat → Int) (topK list fuel : Nat) (s : Scratch)
    (h : topK = 0 ∨ list < topK) : search g start dist topK list fuel s = some none := by
  unfold search
  rcases h with h | h
  · rw [if_pos h]
  · rw [if_neg (by omega)]
    by_cases hl : list = 0
    · rw [if_pos hl]
    · rw [if_neg hl, if_pos h]

example : GraphOk [[1, 2, 2], [0, 1], [3], [0], [4]] := by
  unfold GraphOk; decide
example : ScratchOk ⟨[false, true], [1], NPQ.new 0⟩ := by
  refine ⟨by simp, ?_⟩
  intro i hi
  match i with
  | 0 => simp at hi
  | 1 => simp
  | n + 2 => simp at hi
/-- Node 4 is not reachable; a leftover mark of an earlier search does not matter. -/
example : (search [[1, 2, 2], [0, 1], [3], [0], [4]] 0 (fun i => [5, 3, 9, 3, 0].getD i 0) 3 4 5
    ⟨[false, false, false, true, false], [3], NPQ.new 1⟩).map (fun r => r.map Prod.snd) =
    some (some [(1, 3), (3, 3), (0, 5)]) := by decide

end Alaya.Pools
