import Verif.Lemmas.LinearPool

/-! C25: the candidate pool of the graph searches. -/
namespace Alaya.Pools
open Spec

/-- The candidates offered by a history. -/
def offers : List LOp → List (Nat × Int)
  | [] => []
  | .insert u d :: ops => (u, d) :: offers ops
  | .pop :: ops => offers ops

theorem lrun (cap : Nat) (hc : 0 < cap) (ops : List LOp) : ∀ (p : LinearPool) (off popped : List (Nat × Int)),
    LInv cap p off popped → ((off ++ offers ops).map Prod.fst).Nodup → (∀ x ∈ offers ops, x.1 < 2 ^ 31) →
    ∃ p' xs, p.run ops = some (p', xs) ∧ LInv cap p' (off ++ offers ops) (popped ++ xs) := by
  induction ops with
  | nil => intro p off popped h _ _; exact ⟨p, [], rfl, by simpa [offers] using h⟩
  | cons op ops ih =>
    intro p off popped h hnd hr
    cases op with
    | insert u d =>
      simp only [offers] at hnd hr
      have hnew : (u, d) ∉ off := by
        intro hm
        rw [List.map_append, List.nodup_append] at hnd
        exact hnd.2.2 u (List.mem_map.mpr ⟨(u, d), hm, rfl⟩) u (by simp) rfl
      obtain ⟨p1, b, e1, h1⟩ := h.insert hc (u := u) (d := d) (by have := hr (u, d) (by simp); simpa using this) hnew
      obtain ⟨p2, xs, e2, h2⟩ := ih p1 (off ++ [(u, d)]) popped h1 (by simpa using hnd) (fun x hx => hr x (by simp [hx]))
      refine ⟨p2, xs, ?_, by simpa [offers] using h2⟩
      simp only [LinearPool.run, e1, e2]
    | pop =>
      simp only [offers] at hnd hr
      by_cases hn : p.hasNext = true
      · obtain ⟨p1, x, e1, h1, -⟩ := h.pop (by rw [List.map_append] at hnd; exact (List.nodup_append.mp hnd).1) hn
        obtain ⟨p2, xs, e2, h2⟩ := ih p1 off (popped ++ [x]) h1 hnd hr
        refine ⟨p2, x :: xs, ?_, by simpa [offers] using h2⟩
        simp only [LinearPool.run, e1, e2, if_pos hn]
      · obtain ⟨p2, xs, e2, h2⟩ := ih p off popped h hnd hr
        refine ⟨p2, xs, ?_, h2⟩
        simp only [LinearPool.run, if_neg hn, e2]

/-- After every history of inserts (distinct ids below 2^31) and pops, no access left the array and the pool holds,
in ascending order, the `cap` nearest of all candidates offered.  Missing for the full property (`PoolFull`): ids of
2^31 and above and capacity 0, where it is false (below). -/
theorem C25_holds_best_partial (cap : Nat) (hc : 0 < cap) (ops : List LOp) (hnd : ((offers ops).map Prod.fst).Nodup)
    (hr : ∀ x ∈ offers ops, x.1 < 2 ^ 31) :
    ∃ p popped, (LinearPool.new cap).run ops = some (p, popped) ∧
      Best (fun a b => a.2 ≤ b.2) cap p.entries (offers ops) := by
  obtain ⟨p, xs, e, h⟩ := lrun cap hc ops _ [] [] (LInv.new cap) (by simpa using hnd) hr
  have hb := h.best
  rw [List.nil_append] at hb
  exact ⟨p, xs, e, hb⟩

/-- Pops return each candidate at most once, and the next pop returns the nearest stored candidate that has not been
popped; when `has_next()` is false every stored candidate has been popped.  Same restrictions. -/
theorem C25_pops_nearest_once_partial (cap : Nat) (hc : 0 < cap) (ops : List LOp) (hnd : ((offers ops).map Prod.fst).Nodup)
    (hr : ∀ x ∈ offers ops, x.1 < 2 ^ 31) :
    ∃ p popped, (LinearPool.new cap).run ops = some (p, popped) ∧ popped.Nodup ∧ (∀ x ∈ popped, x ∈ offers ops) ∧
      (p.hasNext = true → ∃ p' x, p.pop = some (p', x) ∧ x ∈ p.entries ∧ x ∉ popped ∧ p'.entries = p.entries ∧
        ∀ y ∈ p.entries, y ∉ popped → x.2 ≤ y.2) ∧
      (p.hasNext = false → ∀ y ∈ p.entries, y ∈ popped) := by
  obtain ⟨p, xs, e, h⟩ := lrun cap hc ops _ [] [] (LInv.new cap) (by simpa using hnd) hr
  simp only [List.nil_append] at h
  refine ⟨p, xs, e, h.pnd, h.psub, ?_, ?_⟩
  · intro hn
    obtain ⟨p', x, e1, -, h2, h3, h4, h5⟩ := h.pop hnd hn
    exact ⟨p', x, e1, h2, h3, h5, h4⟩
  · intro hn y hy
    obtain ⟨e', he', rfl⟩ := List.mem_map.mp hy
    obtain ⟨i, hi⟩ := List.getElem?_of_mem he'
    have hil := (List.getElem?_eq_some_iff.mp hi).1
    have hc1 : ¬ p.cur < p.size := by simpa [LinearPool.hasNext] using hn
    have hel := h.entries_len
    exact (h.flag e' he').mp (h.cur.2.1 i e' (by omega) hi)

/-- The full property, without the restriction on the ids and with capacity 0. -/
def PoolFull : Prop := ∀ (cap : Nat) (ops : List LOp), ((offers ops).map Prod.fst).Nodup → (∀ x ∈ offers ops, x.1 < 2 ^ 32) →
  ∃ p popped, (LinearPool.new cap).run ops = some (p, popped) ∧
    Best (fun a b => a.2 ≤ b.2) cap p.entries (offers ops)

/-- With ids of 2^31 and above the visited flag is part of the id: the pool stores another id. -/
theorem C25_large_id_refuted :
    ((LinearPool.new 2).run [.insert 2147483653 7]).map (fun r => r.1.entries) = some [(5, 7)] ∧
    ((LinearPool.new 2).run [.insert 2147483653 7, .insert 1 9, .insert 4294967295 10]).map (fun r => r.1.entries) =
      some [(5, 7), (1, 9)] ∧ ¬ PoolFull := by
  refine ⟨by decide, by decide, ?_⟩
  intro h
  obtain ⟨p, popped, e, hb⟩ := h 2 [.insert 2147483653 7] (by simp [offers]) (by simp [offers])
  have hc : (LinearPool.new 2).run [.insert 2147483653 7] = some (⟨[⟨2147483653, 7⟩, ⟨0, 0⟩, ⟨0, 0⟩], 1, 0, 2⟩, []) := by decide
  rw [hc] at e
  obtain ⟨rfl, -⟩ := Prod.mk.inj (Option.some.inj e)
  have := Best.mem hb (e := (5, 7)) (by decide)
  simp [offers] at this

/-- A pool of capacity 0 (an `ef` of 0) reads before the array on the first insert. -/
theorem C25_capacity_zero_refuted (u : Nat) (d : Int) : (LinearPool.new 0).insert u d = none := rfl

example : ((LinearPool.new 2).run [.insert 3 30, .insert 1 10, .pop, .insert 2 20, .pop, .insert 4 5]).map
    (fun r => (r.1.entries, r.2, r.1.hasNext)) = some ([(4, 5), (1, 10)], [(1, 10), (2, 20)], true) := by decide
example : ((offers [.insert 3 30, .insert 1 10, .pop, .insert 2 20, .pop, .insert 4 5]).map Prod.fst).Nodup := by decide

end Alaya.Pools
