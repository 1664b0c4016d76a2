import Verif.Lemmas.RaBitQLoop
import Verif.Spec.VisitedPool

/-!
# C106: a pooled visited set belongs to one search at a time and starts empty

Model: Model/VisitedPool.lean.  Spec: Spec/VisitedPool.lean.  What fails is in C106Limits.lean.
-/

namespace Alaya.VPool
open Alaya.RSearch

theorem HRep.wipe {h : HSet} {E : List Nat} (hr : HRep h E) : HRep (wipe h) [] := by
  refine ⟨by simpa [VPool.wipe] using hr.size, ?_, by simp, by simp [VPool.wipe], by simp⟩
  intro i val h1 h2
  simp only [VPool.wipe, List.getElem?_map, Option.map_eq_some_iff] at h1
  obtain ⟨_, _, rfl⟩ := h1
  exact absurd rfl h2

structure Inv (s : Pool) (M : Nat → List Nat) : Prop where
  nodup : s.pool.Nodup
  apart : ∀ i p, (s.pcs i).holds = some p → p ∉ s.pool
  one : ∀ i j p, (s.pcs i).holds = some p → (s.pcs j).holds = some p → i = j
  inPool : ∀ p ∈ s.pool, p < s.heap.length
  inHeld : ∀ i p, (s.pcs i).holds = some p → p < s.heap.length
  rep : ∀ (p : Nat) h, s.heap[p]? = some h → ∃ E, HRep h E
  taken : ∀ i p, s.pcs i = .taken p → M i = []
  busy : ∀ i p h, s.pcs i = .busy p → s.heap[p]? = some h → HRep h (M i)

theorem inv_init (n m : Nat) : Inv (init n m) (fun _ => []) where
  nodup := by simpa [init] using (List.reverse_perm (List.range n)).nodup_iff.mpr List.nodup_range
  apart := by intro i p h; simp [init, Pc.holds] at h
  one := by intro i j p h; simp [init, Pc.holds] at h
  inPool := by intro p h; simpa [init] using h
  inHeld := by intro i p h; simp [init, Pc.holds] at h
  rep := by
    intro p h e
    have := List.mem_of_getElem? e
    rw [List.eq_of_mem_replicate this]
    exact ⟨[], HRep.new _⟩
  taken := by intro i p h; simp [init] at h
  busy := by intro i p h e; simp [init] at e

/-- What a thread holds after thread `i` changed its place. -/
theorem holds_update (f : Nat → Pc) (i j : Nat) (c : Pc) :
    ((Function.update f i c) j).holds = if j = i then c.holds else (f j).holds := by
  by_cases h : j = i
  · subst h; simp
  · simp [h]

theorem inv_step {s s' : Pool} {M : Nat → List Nat} (hi : Inv s M) {i : Nat} {a : Act}
    (hreal : ∀ id, a = .set id → id < emptyId) (hs : step s i a = some s') :
    Inv s' (fun j => markStep j (M j) (i, a)) := by
  cases a with
  | acquire =>
    cases hpc : s.pcs i with
    | taken p => simp [step, hpc] at hs
    | busy p => simp [step, hpc] at hs
    | idle =>
      cases hpool : s.pool with
      | cons p ps =>
        simp only [step, hpc, hpool, Option.some.injEq] at hs
        subst hs
        have hnd := hi.nodup
        rw [hpool, List.nodup_cons] at hnd
        have hpm : p ∈ s.pool := by rw [hpool]; simp
        refine ⟨hnd.2, ?_, ?_, ?_, ?_, hi.rep, ?_, ?_⟩
        · intro j q hj
          simp only [holds_update] at hj
          split at hj
          · cases hj; exact hnd.1
          · intro hq; exact hi.apart j q hj (by rw [hpool]; simp [hq])
        · intro j k q hj hk
          simp only [holds_update] at hj hk
          split at hj <;> split at hk
          · omega
          · cases hj; exact absurd hpm (hi.apart k p hk)
          · cases hk; exact absurd hpm (hi.apart j p hj)
          · exact hi.one j k q hj hk
        · intro q hq; exact hi.inPool q (by rw [hpool]; simp [hq])
        · intro j q hj
          simp only [holds_update] at hj
          split at hj
          · cases hj; exact hi.inPool p hpm
          · exact hi.inHeld j q hj
        · intro j q hj
          by_cases h : j = i
          · subst h; simp [markStep]
          · simp only [Function.update_of_ne h] at hj
            simp [markStep, Ne.symm h, hi.taken j q hj]
        · intro j q h hj hq
          by_cases h' : j = i
          · subst h'; simp at hj
          · simp only [Function.update_of_ne h'] at hj
            simpa [markStep, Ne.symm h'] using hi.busy j q h hj hq
      | nil =>
        simp only [step, hpc, hpool, Option.some.injEq] at hs
        subst hs
        refine ⟨by simp, by simp, ?_, by simp, ?_, ?_, ?_, ?_⟩
        · intro j k q hj hk
          simp only [holds_update] at hj hk
          split at hj <;> split at hk
          · omega
          · cases hj; exact absurd (hi.inHeld k _ hk) (by omega)
          · cases hk; exact absurd (hi.inHeld j _ hj) (by omega)
          · exact hi.one j k q hj hk
        · intro j q hj
          simp only [holds_update] at hj
          simp only [List.length_append, List.length_singleton]
          split at hj
          · cases hj; omega
          · have := hi.inHeld j q hj; omega
        · intro p h e
          simp only [List.getElem?_append] at e
          split at e
          · exact hi.rep p h e
          · have := List.mem_of_getElem? e
            rw [List.mem_singleton.mp this]
            exact ⟨[], HRep.new _⟩
        · intro j q hj
          by_cases h : j = i
          · subst h; simp [markStep]
          · simp only [Function.update_of_ne h] at hj
            simp [markStep, Ne.symm h, hi.taken j q hj]
        · intro j q h hj hq
          by_cases h' : j = i
          · subst h'; simp at hj
          · simp only [Function.update_of_ne h'] at hj
            have hlt := hi.inHeld j q (by rw [hj]; rfl)
            simp only [List.getElem?_append_left hlt] at hq
            simpa [markStep, Ne.symm h'] using hi.busy j q h hj hq
  | clear =>
    cases hpc : s.pcs i with
    | idle => simp [step, hpc] at hs
    | busy p => simp [step, hpc] at hs
    | taken p =>
      simp only [step, hpc, Option.map_eq_some_iff] at hs
      obtain ⟨h, hh, rfl⟩ := hs
      have hold : ∀ j, ((Function.update s.pcs i (Pc.busy p)) j).holds = (s.pcs j).holds := by
        intro j
        rw [holds_update]
        split
        · rename_i e; rw [e, hpc]; rfl
        · rfl
      refine ⟨hi.nodup, fun j q hj => hi.apart j q (hold j ▸ hj),
        fun j k q hj hk => hi.one j k q (hold j ▸ hj) (hold k ▸ hk),
        fun q hq => by simpa using hi.inPool q hq, fun j q hj => by simpa using hi.inHeld j q (hold j ▸ hj), ?_, ?_, ?_⟩
      · intro q g hg
        simp only [List.getElem?_set] at hg
        split at hg
        · split at hg
          · cases hg
            obtain ⟨E, hE⟩ := hi.rep p h hh
            exact ⟨[], HRep.wipe hE⟩
          · cases hg
        · exact hi.rep q g hg
      · intro j q hj
        by_cases h' : j = i
        · subst h'; simp at hj
        · simp only [Function.update_of_ne h'] at hj
          exact hi.taken j q hj
      · intro j q g hj hg
        by_cases h' : j = i
        · subst h'
          simp only [Function.update_self, Pc.busy.injEq] at hj
          subst hj
          have hlt := (List.getElem?_eq_some_iff.mp hh).1
          simp only [List.getElem?_set_self hlt, Option.some.injEq] at hg
          subst hg
          obtain ⟨E, hE⟩ := hi.rep _ h hh
          show HRep (wipe h) (M j)
          rw [hi.taken j _ hpc]
          exact HRep.wipe hE
        · simp only [Function.update_of_ne h'] at hj
          have hne : p ≠ q := by
            rintro rfl
            exact h' (hi.one j i p (by rw [hj]; rfl) (by rw [hpc]; rfl))
          simp only [List.getElem?_set_ne hne] at hg
          exact hi.busy j q g hj hg
  | set id =>
    cases hpc : s.pcs i with
    | idle => simp [step, hpc] at hs
    | taken p => simp [step, hpc] at hs
    | busy p =>
      simp only [step, hpc, Option.bind_eq_some_iff, Option.map_eq_some_iff] at hs
      obtain ⟨h, hh, h', hset, rfl⟩ := hs
      have hr := hi.busy i p h hpc hh
      obtain ⟨h'', e, hr'⟩ := (hash_ok (Nat.le_refl emptyId)).set hr (hreal id rfl)
      obtain rfl : h' = h'' := by
        have : HSet.set h id = some h'' := e
        rw [hset] at this
        exact Option.some.inj this
      refine ⟨hi.nodup, hi.apart, hi.one, fun q hq => by simpa using hi.inPool q hq,
        fun j q hj => by simpa using hi.inHeld j q hj, ?_, ?_, ?_⟩
      · intro q g hg
        simp only [List.getElem?_set] at hg
        split at hg
        · split at hg
          · cases hg; exact ⟨_, hr'⟩
          · cases hg
        · exact hi.rep q g hg
      · intro j q hj
        have hj' : s.pcs j = .taken q := hj
        have : i ≠ j := by rintro rfl; rw [hpc] at hj'; cases hj'
        simp [markStep, this, hi.taken j q hj']
      · intro j q g hj hg
        have hj' : s.pcs j = .busy q := hj
        by_cases hij : i = j
        · subst hij
          rw [hpc] at hj'
          cases hj'
          have hlt := (List.getElem?_eq_some_iff.mp hh).1
          simp only [List.getElem?_set_self hlt, Option.some.injEq] at hg
          subst hg
          simpa [markStep] using hr'
        · have hne : p ≠ q := by
            rintro rfl
            exact hij (hi.one i j p (by rw [hpc]; rfl) (by rw [hj']; rfl))
          simp only [List.getElem?_set_ne hne] at hg
          simpa [markStep, hij] using hi.busy j q g hj' hg
  | release =>
    cases hpc : s.pcs i with
    | idle => simp [step, hpc] at hs
    | taken p => simp [step, hpc] at hs
    | busy p =>
      simp only [step, hpc, Option.some.injEq] at hs
      subst hs
      have hp : (s.pcs i).holds = some p := by rw [hpc]; rfl
      refine ⟨List.nodup_cons.mpr ⟨hi.apart i p hp, hi.nodup⟩, ?_, ?_, ?_, ?_, hi.rep, ?_, ?_⟩
      · intro j q hj
        simp only [holds_update] at hj
        split at hj
        · cases hj
        · rename_i hne
          rw [List.mem_cons]
          rintro (rfl | hq)
          · exact hne (hi.one j i q hj hp)
          · exact hi.apart j q hj hq
      · intro j k q hj hk
        simp only [holds_update] at hj hk
        split at hj
        · cases hj
        · split at hk
          · cases hk
          · exact hi.one j k q hj hk
      · intro q hq
        rcases List.mem_cons.mp hq with rfl | hq
        · exact hi.inHeld i q hp
        · exact hi.inPool q hq
      · intro j q hj
        simp only [holds_update] at hj
        split at hj
        · cases hj
        · exact hi.inHeld j q hj
      · intro j q hj
        by_cases h : j = i
        · subst h; simp at hj
        · simp only [Function.update_of_ne h] at hj; exact hi.taken j q hj
      · intro j q h hj hq
        by_cases h' : j = i
        · subst h'; simp at hj
        · simp only [Function.update_of_ne h'] at hj; exact hi.busy j q h hj hq
  | fail =>
    cases hpc : s.pcs i with
    | idle => simp [step, hpc] at hs
    | taken p => simp [step, hpc] at hs
    | busy p =>
      simp only [step, hpc, Option.some.injEq] at hs
      subst hs
      refine ⟨hi.nodup, ?_, ?_, hi.inPool, ?_, hi.rep, ?_, ?_⟩
      · intro j q hj
        simp only [holds_update] at hj
        split at hj
        · cases hj
        · exact hi.apart j q hj
      · intro j k q hj hk
        simp only [holds_update] at hj hk
        split at hj
        · cases hj
        · split at hk
          · cases hk
          · exact hi.one j k q hj hk
      · intro j q hj
        simp only [holds_update] at hj
        split at hj
        · cases hj
        · exact hi.inHeld j q hj
      · intro j q hj
        by_cases h : j = i
        · subst h; simp at hj
        · simp only [Function.update_of_ne h] at hj; exact hi.taken j q hj
      · intro j q h hj hq
        by_cases h' : j = i
        · subst h'; simp at hj
        · simp only [Function.update_of_ne h'] at hj; exact hi.busy j q h hj hq

theorem inv_run {hist : List (Nat × Act)} (hreal : Real hist) : ∀ {s s' : Pool} {M : Nat → List Nat}, Inv s M →
    run s hist = some s' → Inv s' (fun j => hist.foldl (markStep j) (M j)) := by
  induction hist with
  | nil => intro s s' M hi h; cases h; exact hi
  | cons x t ih =>
    intro s s' M hi h
    obtain ⟨i, a⟩ := x
    simp only [run, Option.bind_eq_some_iff] at h
    obtain ⟨s1, h1, h2⟩ := h
    have := inv_step hi (fun id e => hreal i id (by rw [e]; simp)) h1
    exact ih (fun j id hj => hreal j id (List.mem_cons_of_mem _ hj)) this h2

/-- Whatever the threads do, two of them never have the same set, and a set that a thread has is not in the pool. -/
theorem C106_exclusive (n m : Nat) {hist : List (Nat × Act)} (hreal : Real hist) {s : Pool}
    (h : run (init n m) hist = some s) :
    (∀ i j p, (s.pcs i).holds = some p → (s.pcs j).holds = some p → i = j) ∧
      (∀ i p, (s.pcs i).holds = some p → p ∉ s.pool) ∧ s.pool.Nodup :=
  have hi := inv_run hreal (inv_init n m) h
  ⟨hi.one, hi.apart, hi.nodup⟩

/-- A search sees as visited exactly what it has marked itself since it acquired its set, whoever used the set before and whatever the
other threads do. -/
theorem C106_marks (n m : Nat) {hist : List (Nat × Act)} (hreal : Real hist) {s : Pool}
    (h : run (init n m) hist = some s) {i p : Nat} (hp : s.pcs i = .busy p) {id : Nat} (hid : id < 4294967295) :
    ask s i id = some (decide (id ∈ marks hist i)) := by
  have hi := inv_run hreal (inv_init n m) h
  have hlt := hi.inHeld i p (by rw [hp]; rfl)
  have hr := hi.busy i p _ hp (List.getElem?_eq_getElem hlt)
  unfold ask
  rw [hp]
  simp only [List.getElem?_eq_getElem hlt, Option.bind_some]
  exact (hash_ok (Nat.le_refl emptyId)).get hr hid

/-- No call is undefined: an idle thread can acquire, and a thread that has a set can clear it, mark any vector and give it back. -/
theorem C106_defined (n m : Nat) {hist : List (Nat × Act)} (hreal : Real hist) {s : Pool}
    (h : run (init n m) hist = some s) (i : Nat) :
    (s.pcs i = .idle → (step s i .acquire).isSome) ∧ (∀ p, s.pcs i = .taken p → (step s i .clear).isSome) ∧
      (∀ p, s.pcs i = .busy p → (step s i .release).isSome ∧ ∀ id < 4294967295, (step s i (.set id)).isSome) := by
  have hi := inv_run hreal (inv_init n m) h
  refine ⟨?_, ?_, ?_⟩
  · intro hp
    cases hpool : s.pool <;> simp [step, hp, hpool]
  · intro p hp
    have hlt := hi.inHeld i p (by rw [hp]; rfl)
    simp [step, hp, hlt]
  · intro p hp
    have hlt := hi.inHeld i p (by rw [hp]; rfl)
    have hr := hi.busy i p _ hp (List.getElem?_eq_getElem hlt)
    refine ⟨by simp [step, hp], fun id hid => ?_⟩
    obtain ⟨h', e, _⟩ := (hash_ok (Nat.le_refl emptyId)).set hr hid
    have e' : HSet.set s.heap[p] id = some h' := e
    simp [step, hp, hlt, e']

/-- If no search fails, every set that exists is in the pool or with a thread, and `acquire` makes another only when all of them are
with threads. -/
theorem C106_reuse (n m : Nat) {hist : List (Nat × Act)} (hf : NoFail hist) {s : Pool}
    (h : run (init n m) hist = some s) :
    (∀ p < s.heap.length, p ∈ s.pool ∨ ∃ i, (s.pcs i).holds = some p) ∧
      ∀ i s', step s i .acquire = some s' → s'.heap.length ≠ s.heap.length →
        ∀ p < s.heap.length, ∃ j, (s.pcs j).holds = some p := by
  have key : ∀ p < s.heap.length, p ∈ s.pool ∨ ∃ i, (s.pcs i).holds = some p := by
    have gen : ∀ (hist : List (Nat × Act)), NoFail hist → ∀ s s' : Pool,
        (∀ p < s.heap.length, p ∈ s.pool ∨ ∃ i, (s.pcs i).holds = some p) → run s hist = some s' →
        ∀ p < s'.heap.length, p ∈ s'.pool ∨ ∃ i, (s'.pcs i).holds = some p := by
      intro hist
      induction hist with
      | nil => intro _ s s' hs e; cases e; exact hs
      | cons x t ih =>
        intro hf s s' hs e
        obtain ⟨i, a⟩ := x
        simp only [run, Option.bind_eq_some_iff] at e
        obtain ⟨s1, h1, h2⟩ := e
        refine ih (fun j hj => hf j (List.mem_cons_of_mem _ hj)) s1 s' ?_ h2
        have move : ∀ (c : Pc), (∀ q, (s.pcs i).holds = some q → c.holds = some q) → ∀ q, (∃ j, (s.pcs j).holds = some q) →
            ∃ j, ((Function.update s.pcs i c) j).holds = some q := by
          intro c hc q ⟨j, hj⟩
          refine ⟨j, ?_⟩
          rw [holds_update]
          split
          · rename_i e; subst e; exact hc q hj
          · exact hj
        cases a with
        | fail => exact absurd (by simp) (hf i)
        | acquire =>
          cases hpc : s.pcs i with
          | taken p => simp [step, hpc] at h1
          | busy p => simp [step, hpc] at h1
          | idle =>
            have hnone : (s.pcs i).holds = none := by rw [hpc]; rfl
            cases hpool : s.pool with
            | cons p ps =>
              simp only [step, hpc, hpool, Option.some.injEq] at h1
              subst h1
              intro q hq
              rcases hs q hq with h | h
              · rw [hpool] at h
                rcases List.mem_cons.mp h with rfl | h
                · exact .inr ⟨i, by simp [Pc.holds]⟩
                · exact .inl h
              · exact .inr (move _ (fun q hq => by rw [hnone] at hq; cases hq) q h)
            | nil =>
              simp only [step, hpc, hpool, Option.some.injEq] at h1
              subst h1
              intro q hq
              simp only [List.length_append, List.length_singleton] at hq
              by_cases hql : q < s.heap.length
              · rcases hs q hql with h | h
                · rw [hpool] at h; simp at h
                · exact .inr (move _ (fun q hq => by rw [hnone] at hq; cases hq) q h)
              · obtain rfl : q = s.heap.length := by omega
                exact .inr ⟨i, by simp [Pc.holds]⟩
        | clear =>
          cases hpc : s.pcs i with
          | idle => simp [step, hpc] at h1
          | busy p => simp [step, hpc] at h1
          | taken p =>
            simp only [step, hpc, Option.map_eq_some_iff] at h1
            obtain ⟨h, _, rfl⟩ := h1
            intro q hq
            simp only [List.length_set] at hq
            rcases hs q hq with h | h
            · exact .inl h
            · exact .inr (move _ (fun q hq => by rw [hpc] at hq; exact hq) q h)
        | set id =>
          cases hpc : s.pcs i with
          | idle => simp [step, hpc] at h1
          | taken p => simp [step, hpc] at h1
          | busy p =>
            simp only [step, hpc, Option.bind_eq_some_iff, Option.map_eq_some_iff] at h1
            obtain ⟨h, _, h', _, rfl⟩ := h1
            intro q hq
            simp only [List.length_set] at hq
            exact hs q hq
        | release =>
          cases hpc : s.pcs i with
          | idle => simp [step, hpc] at h1
          | taken p => simp [step, hpc] at h1
          | busy p =>
            simp only [step, hpc, Option.some.injEq] at h1
            subst h1
            intro q hq
            rcases hs q hq with h | ⟨j, hj⟩
            · exact .inl (List.mem_cons_of_mem _ h)
            · by_cases hji : j = i
              · subst hji
                rw [hpc] at hj
                cases hj
                exact .inl (by simp)
              · exact .inr ⟨j, by rw [holds_update, if_neg hji]; exact hj⟩
    exact gen hist hf _ s (fun p hp => .inl (by simpa [init] using hp)) h
  refine ⟨key, ?_⟩
  intro i s' hs hne p hp
  cases hpc : s.pcs i with
  | taken p => simp [step, hpc] at hs
  | busy p => simp [step, hpc] at hs
  | idle =>
    cases hpool : s.pool with
    | cons q ps =>
      simp only [step, hpc, hpool, Option.some.injEq] at hs
      subst hs
      exact absurd rfl hne
    | nil =>
      rcases key p hp with h | h
      · rw [hpool] at h; simp at h
      · exact h

/-- Two searches at once, then a third with the set of the second, in which the same id has been marked. -/
def exHist : List (Nat × Act) :=
  [(0, .acquire), (1, .acquire), (1, .clear), (0, .clear), (0, .set 5), (1, .set 7), (1, .release), (2, .acquire), (2, .clear), (2, .set 9)]

example : ((run (init 1 1000) exHist).map (fun s => (s.heap.length, s.pool))) = some (2, []) := by decide +kernel

example : ((run (init 1 1000) exHist).map (fun s => [ask s 0 5, ask s 0 7, ask s 2 7, ask s 2 9]))
    = some [some true, some false, some false, some true] := by decide +kernel

example : Real exHist ∧ NoFail exHist ∧ marks exHist 0 = [5] ∧ marks exHist 2 = [9] := by
  refine ⟨?_, ?_, by decide, by decide⟩
  · intro i id h; simp [exHist] at h; omega
  · intro i h; simp [exHist] at h

end Alaya.VPool
