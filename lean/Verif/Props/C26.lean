import Verif.Lemmas.NPQ

/-! C26: the bounded neighbour queue. -/
namespace Alaya.Pools
open Spec

inductive QOp where
  | insert (n : Nbr)
  | expand
  deriving DecidableEq, Repr

/-- A history; `expand` calls `closest_unexpanded()` under `has_unexpanded_node()` as the searches do.  The result
lists the expanded entries. -/
def NPQ.run (q : NPQ) : List QOp → Option (NPQ × List Nbr)
  | [] => some (q, [])
  | .insert n :: ops =>
    match q.insert n with
    | none => none
    | some (q1, _) => q1.run ops
  | .expand :: ops =>
    if q.hasUnexpanded then
      match q.closest with
      | none => none
      | some (q1, x) =>
        match q1.run ops with
        | none => none
        | some (q2, xs) => some (q2, x :: xs)
    else q.run ops

/-- The distinct (id, distance) pairs offered, after those already in `acc`. -/
def offered : List QOp → List (Nat × Int) → List (Nat × Int)
  | [], acc => acc
  | .insert n :: ops, acc => offered ops (if (n.id, n.dist) ∈ acc then acc else acc ++ [(n.id, n.dist)])
  | .expand :: ops, acc => offered ops acc

/-- Every id is always offered with the same distance, as in a search where the distance is computed from the id. -/
def Consistent (dist : Nat → Int) (ops : List QOp) : Prop := ∀ n, .insert n ∈ ops → n.dist = dist n.id

theorem qrun (cap : Nat) (dist : Nat → Int) (ops : List QOp) : ∀ (q : NPQ) (off popped : List (Nat × Int)),
    QInv cap q off popped → (∀ x ∈ off, x.2 = dist x.1) → Consistent dist ops →
    ∃ q' xs, q.run ops = some (q', xs) ∧ QInv cap q' (offered ops off) (popped ++ xs.map Nbr.key) ∧
      (∀ x ∈ offered ops off, x.2 = dist x.1) := by
  induction ops with
  | nil => intro q off popped h ho _; exact ⟨q, [], rfl, by simpa [offered] using h, ho⟩
  | cons op ops ih =>
    intro q off popped h ho hc
    have hc' : Consistent dist ops := fun n hn => hc n (by simp [hn])
    cases op with
    | insert n =>
      have hn := hc n (by simp)
      obtain ⟨q1, r, e1, h1, -⟩ := h.insert n (fun x hx hid => by rw [ho x hx, hid, hn])
      obtain ⟨q2, xs, e2, h2, h3⟩ := ih q1 _ popped h1 (by
        intro x hx
        split at hx
        · exact ho x hx
        · rcases List.mem_append.mp hx with h' | h'
          · exact ho x h'
          · simp at h'; subst h'; exact hn) hc'
      exact ⟨q2, xs, by simp only [NPQ.run, e1, e2], h2, h3⟩
    | expand =>
      by_cases hu : q.hasUnexpanded = true
      · obtain ⟨q1, x, e1, h1, -⟩ := h.closest hu
        obtain ⟨q2, xs, e2, h2, h3⟩ := ih q1 off _ h1 ho hc'
        exact ⟨q2, x :: xs, by simp only [NPQ.run, e1, e2, if_pos hu], by simpa [offered] using h2, h3⟩
      · obtain ⟨q2, xs, e2, h2, h3⟩ := ih q off popped h ho hc'
        exact ⟨q2, xs, by simp only [NPQ.run, e2, if_neg hu], h2, h3⟩

/-- After every history the queue is sorted by (distance, id), has no duplicate, and holds the `cap` smallest of the
entries offered; no access left the array. -/
theorem C26_holds_smallest (cap : Nat) (dist : Nat → Int) (ops : List QOp) (hc : Consistent dist ops) :
    ∃ q xs, (NPQ.new cap).run ops = some (q, xs) ∧ (q.entries.map Nbr.key).Nodup ∧
      Best (fun a b => a.2 < b.2 ∨ (a.2 = b.2 ∧ a.1 ≤ b.1)) cap (q.entries.map Nbr.key) (offered ops []) := by
  obtain ⟨q, xs, e, h, -⟩ := qrun cap dist ops _ [] [] (QInv.new cap) (by simp) hc
  exact ⟨q, xs, e, h.keys_nodup, h.best⟩

/-- The report of every insertion is exact: `inserted` iff the entry is newly in the queue, `evicted` iff an entry left,
and `evicted_id` is the id of the one entry that left. -/
theorem C26_reports_exact (cap : Nat) (dist : Nat → Int) (ops : List QOp) (n : Nbr) (hc : Consistent dist (ops ++ [.insert n])) :
    ∃ q xs q' r, (NPQ.new cap).run ops = some (q, xs) ∧ q.insert n = some (q', r) ∧
      (r.inserted = true ↔ n.key ∉ q.entries.map Nbr.key ∧ n.key ∈ q'.entries.map Nbr.key) ∧
      (r.evicted = true ↔ ∃ k ∈ q.entries.map Nbr.key, k ∉ q'.entries.map Nbr.key) ∧
      (∀ k ∈ q.entries.map Nbr.key, k ∉ q'.entries.map Nbr.key → k.1 = r.evictedId ∧
        ∀ k' ∈ q.entries.map Nbr.key, k' ∉ q'.entries.map Nbr.key → k' = k) := by
  obtain ⟨q, xs, e, h, ho⟩ := qrun cap dist ops _ [] [] (QInv.new cap) (by simp) (fun m hm => hc m (by simp [hm]))
  have hn := hc n (by simp)
  obtain ⟨q', r, e1, -, h1, h2, h3, h4⟩ := h.insert n (fun x hx hid => by rw [ho x hx, hid, hn])
  refine ⟨q, xs, q', r, e, e1, h1, ?_, ?_⟩
  · rw [h2]; exact Iff.rfl
  · intro k hk hk'
    exact ⟨h3 (h2.mpr ⟨k, hk, hk'⟩) k ⟨hk, hk'⟩, fun k' a b => h4 k' k ⟨a, b⟩ ⟨hk, hk'⟩⟩

/-- Each entry is expanded at most once, and the next expansion takes the smallest entry not yet expanded. -/
theorem C26_expands_smallest_once (cap : Nat) (dist : Nat → Int) (ops : List QOp) (hc : Consistent dist ops) :
    ∃ q xs, (NPQ.new cap).run ops = some (q, xs) ∧ (xs.map Nbr.key).Nodup ∧
      (q.hasUnexpanded = true → ∃ q' x, q.closest = some (q', x) ∧ x.key ∈ q.entries.map Nbr.key ∧ x.key ∉ xs.map Nbr.key ∧
        q'.entries.map Nbr.key = q.entries.map Nbr.key ∧
        ∀ y ∈ q.entries.map Nbr.key, y ∉ xs.map Nbr.key → x.dist < y.2 ∨ (x.dist = y.2 ∧ x.id ≤ y.1)) ∧
      (q.hasUnexpanded = false → ∀ y ∈ q.entries.map Nbr.key, y ∈ xs.map Nbr.key) := by
  obtain ⟨q, xs, e, h, -⟩ := qrun cap dist ops _ [] [] (QInv.new cap) (by simp) hc
  simp only [List.nil_append] at h
  refine ⟨q, xs, e, h.pnd, ?_, ?_⟩
  · intro hn
    obtain ⟨q', x, e1, -, h2, h3, h4, h5⟩ := h.closest hn
    exact ⟨q', x, e1, h2, h3, h5, h4⟩
  · intro hn y hy
    obtain ⟨e', he', rfl⟩ := List.mem_map.mp hy
    obtain ⟨i, hi⟩ := List.getElem?_of_mem he'
    have hil := (List.getElem?_eq_some_iff.mp hi).1
    have hc1 : ¬ q.cur < q.size := by simpa [NPQ.hasUnexpanded] using hn
    have hel := h.len
    exact (h.flag e' he').mp (h.cur.2.1 i e' (by omega) hi)

/-- Without the consistency of distances the duplicate test by id is unreliable: an id can be stored twice, or a
candidate is dropped although there is room. -/
theorem C26_inconsistent_distance :
    ((NPQ.new 4).run [.insert ⟨1, 10, false⟩, .insert ⟨1, 5, false⟩]).map (fun r => r.1.entries.map Nbr.key) =
      some [(1, 5), (1, 10)] ∧
    ((NPQ.new 4).run [.insert ⟨1, 5, false⟩, .insert ⟨1, 10, false⟩]).map (fun r => r.1.entries.map Nbr.key) =
      some [(1, 5)] := by decide

example : ((NPQ.new 2).run [.insert ⟨3, 30, false⟩, .insert ⟨1, 10, false⟩, .insert ⟨3, 30, false⟩, .expand,
    .insert ⟨2, 10, false⟩, .insert ⟨3, 30, false⟩]).map (fun r => (r.1.entries, r.2)) =
    some ([⟨1, 10, true⟩, ⟨2, 10, false⟩], [⟨1, 10, true⟩]) := by decide
example : Consistent (fun i => if i = 3 then 30 else 10) [.insert ⟨3, 30, false⟩, .insert ⟨1, 10, false⟩,
    .insert ⟨3, 30, false⟩, .expand, .insert ⟨2, 10, false⟩] := by
  intro n hn
  simp at hn
  rcases hn with h | h | h | h <;> subst h <;> rfl

end Alaya.Pools
