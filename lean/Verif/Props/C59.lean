import Verif.Lemmas.PoolSim

/-! C59: the thread-local scratch of earlier searches does not influence a search. -/
namespace Alaya.Pools
open Spec

/-- Whatever searches (over the same or other graphs) ran before on the thread, a search returns the same hits, throws
in the same cases, and leaves a scratch that is again fit for any later search. -/
theorem C59_independent_of_earlier_searches (g : Graph) (start : Nat) (dist : Nat → Int) (topK list fuel : Nat)
    (s s' : Scratch) (h : ScratchOk s) (h' : ScratchOk s') :
    (search g start dist topK list fuel s).map (fun r => r.map Prod.snd) =
      (search g start dist topK list fuel s').map (fun r => r.map Prod.snd) := by
  unfold search
  by_cases h1 : topK = 0
  · rw [if_pos h1, if_pos h1]
  rw [if_neg h1, if_neg h1]
  by_cases h2 : list = 0
  · rw [if_pos h2, if_pos h2]
  rw [if_neg h2, if_neg h2]
  by_cases h3 : list < topK
  · rw [if_pos h3, if_pos h3]
  rw [if_neg h3, if_neg h3, prepare_ok h, prepare_ok h']
  simp only
  have hs : SSim ⟨List.replicate g.length false, [], s.pool.reset list⟩ ⟨List.replicate g.length false, [], s'.pool.reset list⟩ :=
    ⟨rfl, rfl, Sim.reset _ _ _⟩
  have hv := hs.visit dist start
  cases ha : Scratch.visit ⟨List.replicate g.length false, [], s.pool.reset list⟩ dist start with
  | none =>
    rw [ha] at hv
    cases hb : Scratch.visit ⟨List.replicate g.length false, [], s'.pool.reset list⟩ dist start with
    | none => rfl
    | some p => rw [hb] at hv; exact hv.elim
  | some p =>
    rw [ha] at hv
    cases hb : Scratch.visit ⟨List.replicate g.length false, [], s'.pool.reset list⟩ dist start with
    | none => rw [hb] at hv; exact hv.elim
    | some p' =>
      rw [hb] at hv
      simp only
      have hl := SSim.loop g dist fuel hv
      cases hc : Scratch.loop g dist fuel p with
      | none =>
        rw [hc] at hl
        cases hd : Scratch.loop g dist fuel p' with
        | none => rfl
        | some x => rw [hd] at hl; exact hl.elim
      | some y =>
        rw [hc] at hl
        cases hd : Scratch.loop g dist fuel p' with
        | none => rw [hd] at hl; exact hl.elim
        | some x =>
          rw [hd] at hl
          simp only [Option.map_some]
          rw [hl.pool.size, hl.pool.ent]

/-- Every search on a valid graph leaves such a scratch, the empty scratch of a new thread is one, so the above applies
to every sequence of searches of a thread. -/
theorem C59_scratch_stays_ok (g : Graph) (hg : GraphOk g) (start : Nat) (hst : start < g.length) (dist : Nat → Int)
    (topK list : Nat) (hk : 0 < topK) (hl : topK ≤ list) (s : Scratch) (hs : ScratchOk s) (cap : Nat) :
    ScratchOk ⟨[], [], NPQ.new cap⟩ ∧
    ∃ s2 hits, search g start dist topK list g.length s = some (some (s2, hits)) ∧ ScratchOk s2 := by
  refine ⟨⟨by simp, by simp⟩, ?_⟩
  obtain ⟨s0, s1, s2, popped, e0, e1, e2, h, -, -⟩ := search_run g hg start hst dist list s hs
  refine ⟨s2, (s2.pool.entries.take (min topK s2.pool.size)).map (fun e => (e.id, e.dist)), ?_, ?_⟩
  · unfold search
    rw [if_neg (by omega), if_neg (by omega), if_neg (by omega), e0]
    simp only
    rw [e1]
    simp only
    have := e2 0
    rw [Nat.add_zero] at this
    rw [this]
  · refine ⟨fun t ht => by rw [h.vlen]; exact h.tlt t ht, ?_⟩
    intro i hi
    have hil := (List.getElem?_eq_some_iff.mp hi).1
    rw [h.vlen] at hil
    rw [h.vis i hil] at hi
    simpa using hi

example : ScratchOk ⟨[false, true, false], [1], ⟨[⟨7, 7, true⟩, ⟨8, 8, true⟩], 1, 1, 1⟩⟩ := by
  refine ⟨by simp, ?_⟩
  intro i hi
  match i with
  | 0 => simp at hi
  | 1 => simp
  | 2 => simp at hi
  | n + 3 => simp at hi

end Alaya.Pools
