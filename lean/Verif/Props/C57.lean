import Verif.Model.Reconnect
import Verif.Props.C28
import Verif.Spec.DiskBeam

/-
C57: reconnecting keeps neighbour lists well formed.
-/
namespace Alaya.Reconnect
open Alaya Alaya.Pools

/-- A neighbour list of `node`. -/
structure WellFormed (degree node : Nat) (dead : Nat → Bool) (l : List Nat) : Prop where
  short : l.length ≤ degree
  self : node ∉ l
  once : l.Nodup
  live : ∀ v ∈ l, dead v = false

/-- Nodes are published, not removed, while the call runs (removals hold `update_serial_mutex_`); `dead` is the end. -/
def Settles (deadAt : Nat → Nat → Bool) (dead : Nat → Bool) : Prop :=
  (∀ t t' v, t ≤ t' → deadAt t v = false → deadAt t' v = false) ∧ ∀ t v, deadAt t v = false → dead v = false

/-- `nth_element` leaves the elements; the first `m` are among them. -/
def NthOk (nth : Nat → List Nbr → List Nbr) : Prop := ∀ m l, (nth m l).Perm l

def AccOk (node : Nat) (dead : Nat → Bool) (a : Acc) : Prop := node ∉ a.cand ∧ a.cand.Nodup ∧ ∀ v ∈ a.cand, dead v = false

theorem push_ok {deadAt : Nat → Nat → Bool} {dead : Nat → Bool} (hs : Settles deadAt dead) {node : Nat} {a : Acc} (h : AccOk node dead a)
    (v : Nat) : AccOk node dead (push deadAt node a v) ∧ (∀ x ∈ a.cand, x ∈ (push deadAt node a v).cand) ∧ a.t ≤ (push deadAt node a v).t ∧
      (v ≠ node → deadAt a.t v = false → v ∈ (push deadAt node a v).cand) := by
  unfold push
  by_cases hc : v ≠ node ∧ deadAt a.t v = false ∧ v ∉ a.cand
  · rw [if_pos hc]
    refine ⟨⟨?_, ?_, ?_⟩, fun x hx => List.mem_append_left _ hx, Nat.le_succ _, fun _ _ => List.mem_append_right _ (by simp)⟩
    · intro q
      rcases List.mem_append.mp q with q | q
      · exact h.1 q
      · exact hc.1 (List.mem_singleton.mp q).symm
    · show (a.cand ++ [v]).Nodup
      rw [List.nodup_append]
      refine ⟨h.2.1, by simp, ?_⟩
      intro x hx y hy
      rw [List.mem_singleton.mp hy]
      rintro rfl
      exact hc.2.2 hx
    · intro x hx
      rcases List.mem_append.mp hx with q | q
      · exact h.2.2 x q
      · rw [List.mem_singleton.mp q]; exact hs.2 _ _ hc.2.1
  · rw [if_neg hc]
    refine ⟨h, fun x hx => hx, Nat.le_succ _, ?_⟩
    intro h1 h2
    by_cases hm : v ∈ a.cand
    · exact hm
    · exact absurd ⟨h1, h2, hm⟩ hc

theorem pull_ok {deadAt : Nat → Nat → Bool} {dead : Nat → Bool} (hs : Settles deadAt dead) {node : Nat} : ∀ (os : List Nat) (k : Nat) (a : Acc),
    AccOk node dead a → AccOk node dead (pull deadAt node k os a) ∧ (∀ x ∈ a.cand, x ∈ (pull deadAt node k os a).cand) ∧
      a.t ≤ (pull deadAt node k os a).t
  | [], k, a, h => by
    have e : pull deadAt node k [] a = a := by cases k <;> rfl
    rw [e]
    exact ⟨h, fun x hx => hx, Nat.le_refl _⟩
  | o :: os, 0, a, h => ⟨h, fun x hx => hx, Nat.le_refl _⟩
  | o :: os, k + 1, a, h => by
    unfold pull
    have h1 : AccOk node dead ⟨a.t + 1, a.cand⟩ := h
    by_cases hc : o = node ∨ deadAt a.t o = true
    · rw [if_pos hc]
      obtain ⟨q1, q2, q3⟩ := pull_ok hs os (k + 1) _ h1
      exact ⟨q1, q2, Nat.le_trans (Nat.le_succ _) q3⟩
    · rw [if_neg hc]
      obtain ⟨p1, p2, p3, _⟩ := push_ok hs h1 o
      obtain ⟨q1, q2, q3⟩ := pull_ok hs os k _ p1
      exact ⟨q1, fun x hx => q2 x (p2 x hx), Nat.le_trans (Nat.le_trans (Nat.le_succ _) p3) q3⟩

theorem scan_ok {deadAt : Nat → Nat → Bool} {dead : Nat → Bool} (hs : Settles deadAt dead) {node : Nat} (removed : Nat → Option (List Nat)) :
    ∀ (vs : List Nat) (a : Acc), AccOk node dead a → AccOk node dead (scan deadAt node removed vs a) ∧
      (∀ x ∈ a.cand, x ∈ (scan deadAt node removed vs a).cand) ∧
      (∀ v ∈ vs, v ≠ node → deadAt a.t v = false → v ∈ (scan deadAt node removed vs a).cand)
  | [], a, h => ⟨h, fun x hx => hx, by simp⟩
  | v :: vs, a, h => by
    have h1 : AccOk node dead ⟨a.t + 1, a.cand⟩ := h
    unfold scan
    by_cases h2 : v = node
    · rw [if_pos h2]
      obtain ⟨q1, q2, q3⟩ := scan_ok hs removed vs a h
      refine ⟨q1, q2, ?_⟩
      intro x hx hne hd
      rcases List.mem_cons.mp hx with q | q
      · exact absurd (q.trans h2) hne
      · exact q3 x q hne hd
    · rw [if_neg h2]
      by_cases h3 : deadAt a.t v = false
      · rw [if_pos h3]
        obtain ⟨p1, p2, p3, p4⟩ := push_ok hs h1 v
        obtain ⟨q1, q2, q3⟩ := scan_ok hs removed vs _ p1
        refine ⟨q1, fun x hx => q2 x (p2 x hx), ?_⟩
        intro x hx hne hd
        rcases List.mem_cons.mp hx with q | q
        · rw [q]
          exact q2 v (p4 h2 (hs.1 _ _ _ (Nat.le_succ _) h3))
        · exact q3 x q hne (hs.1 _ _ _ (Nat.le_trans (Nat.le_succ _) p3) hd)
      · rw [if_neg h3]
        cases removed v with
        | none =>
          obtain ⟨q1, q2, q3⟩ := scan_ok hs removed vs _ h1
          refine ⟨q1, q2, ?_⟩
          intro x hx hne hd
          rcases List.mem_cons.mp hx with q | q
          · rw [q] at hd; exact absurd hd h3
          · exact q3 x q hne (hs.1 _ _ _ (Nat.le_succ _) hd)
        | some os =>
          obtain ⟨p1, p2, p3⟩ := pull_ok hs os 5 _ h1
          obtain ⟨q1, q2, q3⟩ := scan_ok hs removed vs _ p1
          refine ⟨q1, fun x hx => q2 x (p2 x hx), ?_⟩
          intro x hx hne hd
          rcases List.mem_cons.mp hx with q | q
          · rw [q] at hd; exact absurd hd h3
          · exact q3 x q hne (hs.1 _ _ _ (Nat.le_trans (Nat.le_succ _) p3) hd)

theorem extras_ok {deadAt : Nat → Nat → Bool} {dead : Nat → Bool} (hs : Settles deadAt dead) {node : Nat} : ∀ (vs : List Nat) (a : Acc),
    AccOk node dead a → AccOk node dead (vs.foldl (push deadAt node) a) ∧ (∀ x ∈ a.cand, x ∈ (vs.foldl (push deadAt node) a).cand) ∧
      a.t ≤ (vs.foldl (push deadAt node) a).t ∧
      (∀ v ∈ vs, v ≠ node → deadAt a.t v = false → v ∈ (vs.foldl (push deadAt node) a).cand)
  | [], a, h => ⟨h, fun x hx => hx, Nat.le_refl _, by simp⟩
  | v :: vs, a, h => by
    obtain ⟨p1, p2, p3, p4⟩ := push_ok hs h v
    obtain ⟨q1, q2, q3, q4⟩ := extras_ok hs vs _ p1
    refine ⟨q1, fun x hx => q2 x (p2 x hx), Nat.le_trans p3 q3, ?_⟩
    intro x hx hne hd
    rcases List.mem_cons.mp hx with q | q
    · subst q; exact q2 x (p4 hne hd)
    · exact q4 x q hne (hs.1 _ _ _ p3 hd)

theorem candidates_ok {deadAt : Nat → Nat → Bool} {dead : Nat → Bool} (hs : Settles deadAt dead) (node : Nat) (removed : Nat → Option (List Nat))
    (old extra : List Nat) : AccOk node dead ⟨0, candidates deadAt node removed old extra⟩ ∧
      ∀ v ∈ extra ++ old, v ≠ node → deadAt 0 v = false → v ∈ candidates deadAt node removed old extra := by
  obtain ⟨p1, p2, p3, p4⟩ := extras_ok (node := node) hs extra ⟨0, []⟩ ⟨by simp, by simp, by simp⟩
  obtain ⟨q1, q2, q3⟩ := scan_ok (node := node) hs removed old _ p1
  refine ⟨q1, ?_⟩
  intro v hv hne hd
  rcases List.mem_append.mp hv with q | q
  · exact q2 v (p4 v q hne hd)
  · exact q3 v q hne (hs.1 _ _ _ p3 hd)

theorem score_ids (dist : Nat → Int) (ids : List Nat) : (score dist ids).map Nbr.id = ids := by
  unfold score
  rw [List.map_map]
  exact List.map_id' ids

/-- Pruning distinct candidates. -/
theorem prune_wf {c : Cfg} {node : Nat} {pool : List Nbr} {dead : Nat → Bool} {maxc fuel : Nat} {out : List Nat}
    (hb : F32.gt F32.big c.alpha = true) (hn : (pool.map Nbr.id).Nodup) (hd : ∀ n ∈ pool, dead n.id = false)
    (h : prune (F32.arith c.upd) node pool c.alpha c.degree maxc fuel = some out) : WellFormed c.degree node dead out := by
  obtain ⟨p1, p2, p3⟩ := C28_subset _ _ _ _ _ _ _ _ h
  refine ⟨p1, p2, C28_nodup_partial _ _ _ _ _ _ _ _ hb hn h, ?_⟩
  intro v hv
  obtain ⟨n, hn, rfl⟩ := p3 v hv
  exact hd n hn

theorem choose_wf {c : Cfg} (hnth : NthOk c.nth) (hb : F32.gt F32.big c.alpha = true) {node : Nat} {dead : Nat → Bool} {dist : Nat → Int}
    {cand : List Nat} (h : AccOk node dead ⟨0, cand⟩) {fuel : Nat} {out : List Nat} (e : choose c dist node cand fuel = some out) :
    WellFormed c.degree node dead out := by
  obtain ⟨h1, h2, h3⟩ := h
  simp only at h1 h2 h3
  unfold choose at e
  by_cases hc : cand.length ≤ c.degree
  · rw [if_pos hc] at e
    injection e with e
    subst e
    exact ⟨hc, h1, h2, h3⟩
  · rw [if_neg hc] at e
    simp only at e
    generalize hp : (if (score dist cand).length > c.degree + 32 then (c.nth (c.degree + 32) (score dist cand)).take (c.degree + 32)
      else score dist cand) = pool at e
    have hsub : ∃ rest, (pool ++ rest).Perm (score dist cand) := by
      rw [← hp]
      split
      · exact ⟨(c.nth (c.degree + 32) (score dist cand)).drop (c.degree + 32), by rw [List.take_append_drop]; exact hnth _ _⟩
      · exact ⟨[], by rw [List.append_nil]⟩
    obtain ⟨rest, hperm⟩ := hsub
    have hids := hperm.map Nbr.id
    rw [score_ids, List.map_append] at hids
    have hnd : (pool.map Nbr.id).Nodup := by
      have := hids.nodup_iff.mpr h2
      rw [List.nodup_append] at this
      exact this.1
    have hmem : ∀ n ∈ pool, n.id ∈ cand := fun n hn => hids.mem_iff.mp (List.mem_append_left _ (List.mem_map_of_mem hn))
    by_cases hl : pool.length ≤ c.degree
    · rw [if_pos hl] at e
      injection e with e
      subst e
      have hsp := (sortPool_perm pool).map Nbr.id
      refine ⟨?_, ?_, hsp.nodup_iff.mpr hnd, ?_⟩
      · rw [hsp.length_eq, List.length_map]; exact hl
      · intro q
        obtain ⟨n, hn, e⟩ := List.mem_map.mp (hsp.mem_iff.mp q)
        exact h1 (e ▸ hmem n hn)
      · intro v hv
        obtain ⟨n, hn, e⟩ := List.mem_map.mp (hsp.mem_iff.mp hv)
        exact h3 v (e ▸ hmem n hn)
    · rw [if_neg hl] at e
      exact prune_wf hb hnd (fun n hn => h3 _ (hmem n hn)) e

theorem wf_perm {degree node : Nat} {dead : Nat → Bool} {a b : List Nat} (hp : a.Perm b) (h : WellFormed degree node dead b) :
    WellFormed degree node dead a :=
  ⟨hp.length_eq ▸ h.short, fun q => h.self (hp.mem_iff.mp q), hp.nodup_iff.mpr h.once, fun v hv => h.live v (hp.mem_iff.mp hv)⟩

theorem stored_wf {degree node : Nat} {dead : Nat → Bool} {old new : List Nat} (h : WellFormed degree node dead new) :
    WellFormed degree node dead (stored old new) := by
  unfold stored
  split
  · rename_i hp
    exact wf_perm (List.isPerm_iff.mp hp) h
  · exact h

/-- After a reconnect, whatever list was stored before and whatever the removed nodes' lists are: the list is well formed. Full statement:
without the bound on alpha. -/
theorem C57_update_partial (c : Cfg) (hnth : NthOk c.nth) (hb : F32.gt F32.big c.alpha = true) (deadAt : Nat → Nat → Bool) (dead : Nat → Bool)
    (hs : Settles deadAt dead) (dist : Nat → Int) (node : Nat) (removed : Nat → Option (List Nat)) (old extra : List Nat) (fuel : Nat)
    (out : List Nat) (e : updateNode c deadAt dist node removed old extra fuel = some out) : WellFormed c.degree node dead out := by
  unfold updateNode at e
  rw [Option.map_eq_some_iff] at e
  obtain ⟨new, e, rfl⟩ := e
  exact stored_wf (choose_wf hnth hb (candidates_ok hs node removed old extra).1 e)

/-- If the candidates fit, every explicit edge and every live old neighbour is kept. -/
theorem C57_edges_kept (c : Cfg) (deadAt : Nat → Nat → Bool) (dead : Nat → Bool)
    (hs : Settles deadAt dead) (dist : Nat → Int) (node : Nat) (removed : Nat → Option (List Nat)) (old extra : List Nat) (fuel : Nat)
    (out : List Nat) (e : updateNode c deadAt dist node removed old extra fuel = some out)
    (hfit : (candidates deadAt node removed old extra).length ≤ c.degree) (v : Nat) (hv : v ∈ extra ++ old) (hne : v ≠ node)
    (hl : deadAt 0 v = false) : v ∈ out := by
  have hm := (candidates_ok hs node removed old extra).2 v hv hne hl
  unfold updateNode choose at e
  rw [if_pos hfit] at e
  injection e with e
  subst e
  unfold stored
  split
  · rename_i hp
    exact (List.isPerm_iff.mp hp).mem_iff.mpr hm
  · exact hm

/-- The reconnect ends (alpha finite). -/
theorem C57_ends_partial (c : Cfg) (ha : c.alpha ≠ .inf) (deadAt : Nat → Nat → Bool) (dist : Nat → Int) (node : Nat)
    (removed : Nat → Option (List Nat)) (old extra : List Nat) : ∃ out, updateNode c deadAt dist node removed old extra 487 = some out := by
  unfold updateNode choose
  split
  · exact ⟨_, rfl⟩
  · simp only
    generalize (if (score dist (candidates deadAt node removed old extra)).length > c.degree + 32 then
      (c.nth (c.degree + 32) (score dist (candidates deadAt node removed old extra))).take (c.degree + 32)
      else score dist (candidates deadAt node removed old extra)) = pool
    split
    · exact ⟨_, rfl⟩
    · obtain ⟨out, ho⟩ := C28_terminates_partial c.upd node pool c.alpha c.degree pool.length ha
      rw [ho 487 (Nat.le_refl _)]
      exact ⟨_, rfl⟩

/-- The neighbours chosen for an inserted node from a good search result (C46/C56), with or without pruning; the new slot is tombstoned
during the search. -/
theorem C57_insert_exact_partial (c : Cfg) (hb : F32.gt F32.big c.alpha = true) (doPrune : Bool) (n topK slot : Nat) (deadAt dead : Nat → Bool)
    (hs : ∀ v, deadAt v = false → dead v = false) (hslot : deadAt slot = true) (cand : List (Nat × Int))
    (hg : DiskBeam.Spec.Good n deadAt topK cand) (fuel : Nat) (out : List Nat) (e : selectExact c doPrune cand fuel = some out) :
    WellFormed c.degree slot dead out := by
  have hself : ∀ l : List Nat, (∀ v ∈ l, deadAt v = false) → slot ∉ l := fun l h q => by
    have := h slot q
    rw [hslot] at this
    cases this
  have hlive : ∀ v ∈ cand.map (·.1), deadAt v = false := by
    intro v hv
    obtain ⟨p, hp, rfl⟩ := List.mem_map.mp hv
    exact hg.live p hp
  unfold selectExact at e
  cases doPrune with
  | true =>
    rw [if_pos rfl] at e
    have hids : (cand.map fun p => (⟨p.1, p.2, false⟩ : Nbr)).map Nbr.id = cand.map (·.1) := by rw [List.map_map]; rfl
    have w := prune_wf (dead := deadAt) hb (by rw [hids]; exact hg.once)
      (fun m hm => hlive _ (by rw [← hids]; exact List.mem_map_of_mem hm)) e
    exact ⟨w.short, hself _ w.live, w.once, fun v hv => hs v (w.live v hv)⟩
  | false =>
    rw [if_neg (by decide)] at e
    injection e with e
    subst e
    rw [List.map_take]
    have hl : ∀ v ∈ (cand.map (·.1)).take c.degree, deadAt v = false := fun v hv => hlive v (List.mem_of_mem_take hv)
    exact ⟨by rw [List.length_take]; omega, hself _ hl, (List.take_sublist _ _).nodup hg.once, fun v hv => hs v (hl v hv)⟩

/-- The same for PQ mode, whatever the re-ranking order and the PQ distances. -/
theorem C57_insert_pq_partial (c : Cfg) (hb : F32.gt F32.big c.alpha = true) (doPrune : Bool) (order : List (Nat × Int) → List (Nat × Int))
    (horder : ∀ l, ((order l).map (·.1)).Perm (l.map (·.1))) (sym : Nat → Int) (n topK slot : Nat) (deadAt dead : Nat → Bool)
    (hs : ∀ v, deadAt v = false → dead v = false) (hslot : deadAt slot = true) (cand : List (Nat × Int))
    (hg : DiskBeam.Spec.Good n deadAt topK cand) (fuel : Nat) (out : List Nat) (e : selectPQ c doPrune order sym cand fuel = some out) :
    WellFormed c.degree slot dead out := by
  have hself : ∀ l : List Nat, (∀ v ∈ l, deadAt v = false) → slot ∉ l := fun l h q => by
    have := h slot q
    rw [hslot] at this
    cases this
  have hlive : ∀ v ∈ cand.map (·.1), deadAt v = false := by
    intro v hv
    obtain ⟨p, hp, rfl⟩ := List.mem_map.mp hv
    exact hg.live p hp
  unfold selectPQ at e
  cases doPrune with
  | true =>
    rw [if_pos rfl] at e
    have w := prune_wf (dead := deadAt) hb (by rw [score_ids]; exact hg.once)
      (fun m hm => hlive _ (by rw [← score_ids sym (cand.map (·.1))]; exact List.mem_map_of_mem hm)) e
    exact ⟨w.short, hself _ w.live, w.once, fun v hv => hs v (w.live v hv)⟩
  | false =>
    rw [if_neg (by decide)] at e
    injection e with e
    subst e
    have hp := (sortPool_perm (score sym (((order cand).take c.degree).map (·.1)))).map Nbr.id
    rw [score_ids] at hp
    refine wf_perm hp ?_
    rw [List.map_take]
    have hl : ∀ v ∈ ((order cand).map (·.1)).take c.degree, deadAt v = false :=
      fun v hv => hlive v ((horder cand).mem_iff.mp (List.mem_of_mem_take hv))
    exact ⟨by rw [List.length_take]; omega, hself _ hl, (List.take_sublist _ _).nodup ((horder cand).nodup_iff.mpr hg.once),
      fun v hv => hs v (hl v hv)⟩

/-- The safety net after removals: nothing deleted remains, what is live stays, in order. -/
theorem C57_safety_net (dead : Nat → Bool) (old : List Nat) :
    (∀ v, v ∈ strip dead old ↔ v ∈ old ∧ dead v = false) ∧ (strip dead old).Sublist old := by
  have e : strip dead old = old.filter fun v => !dead v := by
    unfold strip
    simp only
    split
    · rfl
    · rename_i h
      have h : (old.filter fun v => !dead v).length = old.length := Decidable.of_not_not h
      exact ((List.filter_sublist).eq_of_length h).symm
  rw [e]
  refine ⟨?_, List.filter_sublist⟩
  intro v
  rw [List.mem_filter]
  cases dead v <;> simp

/-- An infinite `update_alpha` (nothing rejects it): three candidates with equal vectors, and a node is stored twice. -/
theorem C57_infinite_alpha_refuted : ∃ (c : Cfg) (old extra out : List Nat), c.alpha = .inf ∧
    updateNode c (fun _ _ => false) (fun _ => 0) 9 (fun _ => none) old extra 600 = some out ∧ ¬ out.Nodup :=
  ⟨⟨2, .inf, fun _ _ _ => F32.big, fun _ l => l⟩, [1, 2], [3], [1, 1], rfl, by decide +kernel, by decide⟩

/-- A node that lost a neighbour: 4 is deleted, its own neighbours 5, 6 are pulled, the malformed old list (self loop 9, duplicate 2) is
repaired, and the explicit edge 7 kept. -/
example : updateNode ⟨6, F32.next F32.one, fun f _ _ => f, fun _ l => l⟩ (fun _ v => v == 4) (fun v => v) 9
    (fun v => if v = 4 then some [9, 5, 4, 6] else none) [2, 9, 4, 2] [7] 487 = some [7, 2, 5, 6] ∧
    Settles (fun _ v => v == 4) (fun v => v == 4) ∧ NthOk (fun _ l => l) :=
  ⟨by decide +kernel, ⟨fun _ _ _ _ h => h, fun _ _ h => h⟩, fun _ _ => List.Perm.refl _⟩

/-- A pool that does not fit is pruned. -/
example : updateNode ⟨2, F32.next F32.one, fun f _ _ => f, fun _ l => l⟩ (fun _ v => v == 4) (fun v => 100 - v) 9 (fun _ => none) [2, 4, 3] [7]
    487 = some [7, 3] := by decide +kernel

end Alaya.Reconnect
