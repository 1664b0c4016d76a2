import Verif.Model.ParFor
import Mathlib.Data.List.Nodup
import Mathlib.Tactic.ByContra
import Mathlib.Tactic.Tauto

/- Workers drawing blocks: every iteration is run exactly once. -/
namespace Alaya.ParFor

/-- Steps in the order of a schedule; `none` = a scheduled worker could not step. -/
def State.run {β : Type} (n block : Nat) (f : Nat → β) (s : State β) : List Nat → Option (State β)
  | [] => some s
  | t :: ts =>
    match s.step n block f t with
    | none => none
    | some s' => s'.run n block f ts

/-- No worker can step. -/
def State.Done {β : Type} (n block : Nat) (f : Nat → β) (s : State β) : Prop := ∀ t, s.step n block f t = none

/-- The parts of the result after some complete run of at least one worker. -/
def Runs {β : Type} (n block workers : Nat) (f : Nat → β) (out : List (Option β)) : Prop :=
  0 < workers ∧ ∃ sched s, (State.init n workers).run n block f sched = some s ∧ s.Done n block f ∧ s.out = out

structure Inv {β : Type} (n workers : Nat) (f : Nat → β) (s : State β) : Prop where
  len : s.out.length = n
  wrk : s.thr.length = workers
  val : ∀ (i : Nat) (b : β), s.out[i]? = some (some b) → b = f i
  cov : ∀ i, i < n → i < s.next → (∃ l, l ∈ s.thr ∧ i ∈ l) ∨ s.out[i]? = some (some (f i))
  nodup : s.thr.flatten.Nodup
  below : ∀ i, i ∈ s.thr.flatten → i < s.next ∧ i < n

theorem Inv.init {β : Type} (n workers : Nat) (f : Nat → β) : Inv n workers f (State.init n workers) := by
  have h0 : (List.replicate workers ([] : List Nat)).flatten = [] := by
    induction workers with
    | zero => rfl
    | succ k ih => rw [List.replicate_succ, List.flatten_cons, ih]; rfl
  refine ⟨by simp [State.init], by simp [State.init], ?_, ?_, ?_, ?_⟩
  · intro i b h
    simp only [State.init] at h
    rw [List.getElem?_replicate] at h
    split at h <;> simp at h
  · intro i _ h; simp [State.init] at h
  · simp only [State.init]; rw [h0]; exact List.nodup_nil
  · intro i h; simp only [State.init] at h; rw [h0] at h; simp at h

theorem split_at {α : Type} : ∀ (l : List α) (t : Nat) (x : α), l[t]? = some x → ∃ a b, l = a ++ x :: b ∧ a.length = t
  | [], t, x, h => by simp at h
  | y :: l, 0, x, h => by simp at h; exact ⟨[], l, by simp [h], rfl⟩
  | y :: l, t + 1, x, h => by
    simp at h
    obtain ⟨a, b, e, hl⟩ := split_at l t x h
    exact ⟨y :: a, b, by simp [e], by simp [hl]⟩

theorem set_at {α : Type} (a b : List α) (x y : α) : (a ++ x :: b).set a.length y = a ++ y :: b := by
  rw [List.set_append_right _ _ (Nat.le_refl _)]; simp

theorem Inv.step {β : Type} {n workers block : Nat} {f : Nat → β} {s s' : State β} (I : Inv n workers f s) (t : Nat)
    (h : s.step n block f t = some s') : Inv n workers f s' := by
  unfold State.step at h
  split at h
  · simp at h
  · rename_i ht
    split at h
    · rename_i hn
      injection h with h
      subst h
      obtain ⟨a, b, e, hl⟩ := split_at _ _ _ ht
      have e2 : s.thr.set t (List.range' s.next (min (s.next + block) n - s.next)) = a ++ List.range' s.next (min (s.next + block) n - s.next) :: b := by
        rw [e, ← hl]; exact set_at a b [] _
      have hf : s.thr.flatten = a.flatten ++ b.flatten := by rw [e]; simp
      refine ⟨I.len, ?_, I.val, ?_, ?_, ?_⟩
      · simp only [List.length_set]; exact I.wrk
      · intro i hi hlt
        change i < s.next + block at hlt
        change (∃ l, l ∈ s.thr.set t _ ∧ i ∈ l) ∨ _
        rw [e2]
        by_cases hin : i < s.next
        · cases I.cov i hi hin with
          | inl hx =>
            obtain ⟨l, hl1, hl2⟩ := hx
            left
            rw [e] at hl1
            rcases List.mem_append.1 hl1 with h1 | h1
            · exact ⟨l, List.mem_append.2 (Or.inl h1), hl2⟩
            · rcases List.mem_cons.1 h1 with h1 | h1
              · subst h1; simp at hl2
              · exact ⟨l, List.mem_append.2 (Or.inr (List.mem_cons_of_mem _ h1)), hl2⟩
          | inr hx => exact Or.inr hx
        · left
          refine ⟨_, List.mem_append.2 (Or.inr (List.mem_cons_self ..)), ?_⟩
          rw [List.mem_range'_1]; omega
      · change (s.thr.set t _).flatten.Nodup
        rw [e2]
        have hnd := I.nodup
        have hb := I.below
        rw [hf] at hnd hb
        simp only [List.flatten_append, List.flatten_cons]
        rw [List.nodup_append] at hnd
        obtain ⟨h1, h2, h3⟩ := hnd
        rw [List.nodup_append, List.nodup_append]
        refine ⟨h1, ⟨List.nodup_range', h2, ?_⟩, ?_⟩
        · intro x hx y hy hxy
          rw [List.mem_range'_1] at hx
          have := (hb y (List.mem_append.2 (Or.inr hy))).1
          omega
        · intro x hx y hy hxy
          rcases List.mem_append.1 hy with hy | hy
          · rw [List.mem_range'_1] at hy
            have := (hb x (List.mem_append.2 (Or.inl hx))).1
            omega
          · exact h3 x hx y hy hxy
      · intro i hi
        change i ∈ (s.thr.set t _).flatten at hi
        change i < s.next + block ∧ i < n
        rw [e2] at hi
        have hb := I.below
        rw [hf] at hb
        simp only [List.flatten_append, List.flatten_cons, List.mem_append] at hi hb
        rcases hi with h1 | h1 | h1
        · have := hb i (Or.inl h1); omega
        · rw [List.mem_range'_1] at h1; omega
        · have := hb i (Or.inr h1); omega
    · simp at h
  · rename_i i rest ht
    injection h with h
    subst h
    obtain ⟨a, b, e, hl⟩ := split_at _ _ _ ht
    have e2 : s.thr.set t rest = a ++ rest :: b := by rw [e, ← hl]; exact set_at a b _ _
    have hmem : i ∈ s.thr.flatten := by rw [e]; simp
    have hb := I.below i hmem
    refine ⟨?_, ?_, ?_, ?_, ?_, ?_⟩
    · simp only [List.length_set]; exact I.len
    · simp only [List.length_set]; exact I.wrk
    · intro j v hj
      change (s.out.set i (some (f i)))[j]? = _ at hj
      rw [List.getElem?_set] at hj
      split at hj
      · split at hj
        · simp at hj; rw [← hj]; rename_i h1 _; rw [h1]
        · simp at hj
      · exact I.val j v hj
    · intro j hj hlt
      change (∃ l, l ∈ s.thr.set t rest ∧ j ∈ l) ∨ (s.out.set i (some (f i)))[j]? = _
      rw [e2, List.getElem?_set]
      by_cases hij : i = j
      · right; rw [if_pos hij, if_pos (by rw [I.len]; omega), hij]
      · rw [if_neg hij]
        cases I.cov j hj hlt with
        | inl hx =>
          obtain ⟨l, hl1, hl2⟩ := hx
          left
          rw [e] at hl1
          rcases List.mem_append.1 hl1 with h1 | h1
          · exact ⟨l, List.mem_append.2 (Or.inl h1), hl2⟩
          · rcases List.mem_cons.1 h1 with h1 | h1
            · subst h1
              rcases List.mem_cons.1 hl2 with h2 | h2
              · exact absurd h2.symm hij
              · exact ⟨rest, List.mem_append.2 (Or.inr (List.mem_cons_self ..)), h2⟩
            · exact ⟨l, List.mem_append.2 (Or.inr (List.mem_cons_of_mem _ h1)), hl2⟩
        | inr hx => exact Or.inr hx
    · change (s.thr.set t rest).flatten.Nodup
      rw [e2]
      have hnd := I.nodup
      rw [e] at hnd
      simp only [List.flatten_append, List.flatten_cons] at hnd ⊢
      exact List.Nodup.sublist (List.Sublist.append (List.Sublist.refl _) (List.Sublist.append (List.sublist_cons_self _ _) (List.Sublist.refl _))) hnd
    · intro j hj
      change j ∈ (s.thr.set t rest).flatten at hj
      refine I.below j ?_
      rw [e2] at hj
      rw [e]
      simp only [List.flatten_append, List.flatten_cons, List.mem_append, List.mem_cons] at hj ⊢
      tauto

theorem Inv.run {β : Type} {n workers block : Nat} {f : Nat → β} : ∀ (ts : List Nat) (s s' : State β), Inv n workers f s →
    s.run n block f ts = some s' → Inv n workers f s'
  | [], s, s', I, h => by simp [State.run] at h; rw [← h]; exact I
  | t :: ts, s, s', I, h => by
    unfold State.run at h
    split at h
    · simp at h
    · rename_i s1 h1
      exact Inv.run ts s1 s' (I.step t h1) h

/-- However the workers are scheduled, the result is that of the sequential loop. -/
theorem Runs.eq {β : Type} {n block workers : Nat} {f : Nat → β} {out : List (Option β)} (h : Runs n block workers f out) :
    out = (List.range n).map (fun i => some (f i)) := by
  obtain ⟨hw, sched, s, hr, hd, ho⟩ := h
  have I := Inv.run sched _ _ (Inv.init n workers f) hr
  have hall : ∀ l, l ∈ s.thr → l = [] := by
    intro l hl
    obtain ⟨t, ht⟩ := List.mem_iff_getElem?.1 hl
    have := hd t
    unfold State.step at this
    rw [ht] at this
    cases l with
    | nil => rfl
    | cons a l => simp at this
  have hnext : n ≤ s.next := by
    have h0 : s.thr[0]? = some [] := by
      have : 0 < s.thr.length := by rw [I.wrk]; exact hw
      rw [List.getElem?_eq_getElem this]
      rw [hall _ (List.getElem_mem this)]
    have := hd 0
    unfold State.step at this
    rw [h0] at this
    by_contra hlt
    simp only [if_pos (Nat.lt_of_not_le hlt)] at this
    simp at this
  rw [← ho]
  apply List.ext_getElem?
  intro i
  by_cases hi : i < n
  · cases I.cov i hi (Nat.lt_of_lt_of_le hi hnext) with
    | inl hx =>
      obtain ⟨l, hl, him⟩ := hx
      rw [hall l hl] at him; simp at him
    | inr hx => rw [hx]; simp [hi]
  · rw [List.getElem?_eq_none (by rw [I.len]; omega), List.getElem?_eq_none (by simp; omega)]

/-- Two workers never hold the same iteration: their writes do not overlap. -/
theorem disjoint {β : Type} {n block workers : Nat} {f : Nat → β} {sched : List Nat} {s : State β}
    (hr : (State.init n workers).run n block f sched = some s) (t u : Nat) (lt lu : List Nat) (i : Nat) (ht : s.thr[t]? = some lt)
    (hu : s.thr[u]? = some lu) (hne : t ≠ u) (hi : i ∈ lt) : i ∉ lu := by
  have I := Inv.run sched _ _ (Inv.init n workers f) hr
  intro hi2
  have hp := (List.nodup_flatten.1 I.nodup).2
  rw [List.pairwise_iff_getElem] at hp
  obtain ⟨ht1, ht2⟩ := List.getElem?_eq_some_iff.1 ht
  obtain ⟨hu1, hu2⟩ := List.getElem?_eq_some_iff.1 hu
  rcases Nat.lt_or_gt_of_ne hne with hl | hl
  · exact hp t u ht1 hu1 hl (by rw [ht2]; exact hi) (by rw [hu2]; exact hi2)
  · exact hp u t hu1 ht1 hl (by rw [hu2]; exact hi2) (by rw [ht2]; exact hi)

/-- What is left to do. -/
def State.left {β : Type} (n : Nat) (s : State β) : Nat := 2 * (n - s.next) + s.thr.flatten.length

/-- Every step leaves less to do, so that every schedule ends. -/
theorem step_left {β : Type} {n block : Nat} {f : Nat → β} {s s' : State β} (t : Nat) (hb : 0 < block) (h : s.step n block f t = some s') :
    s'.left n < s.left n := by
  unfold State.step at h
  split at h
  · simp at h
  · rename_i ht
    split at h
    · rename_i hn
      injection h with h
      subst h
      obtain ⟨a, b, e, hl⟩ := split_at _ _ _ ht
      unfold State.left
      simp only
      rw [e, ← hl, set_at]
      simp only [List.flatten_append, List.flatten_cons, List.length_append, List.length_range', List.length_nil]
      omega
    · simp at h
  · rename_i i rest ht
    injection h with h
    subst h
    obtain ⟨a, b, e, hl⟩ := split_at _ _ _ ht
    unfold State.left
    simp only
    rw [e, ← hl, set_at]
    simp only [List.flatten_append, List.flatten_cons, List.length_append, List.length_cons]
    omega

/-- A complete run exists, and every schedule is at most `left` long. -/
theorem run_bound {β : Type} {n block : Nat} {f : Nat → β} (hb : 0 < block) : ∀ (ts : List Nat) (s s' : State β),
    s.run n block f ts = some s' → ts.length + s'.left n ≤ s.left n
  | [], s, s', h => by simp [State.run] at h; simp [h]
  | t :: ts, s, s', h => by
    unfold State.run at h
    split at h
    · simp at h
    · rename_i s1 h1
      have := step_left t hb h1
      have := run_bound hb ts s1 s' h
      simp only [List.length_cons]; omega

theorem run_exists {β : Type} {n block : Nat} {f : Nat → β} (hb : 0 < block) : ∀ (m : Nat) (s : State β), s.left n ≤ m →
    ∃ sched s', s.run n block f sched = some s' ∧ s'.Done n block f
  | 0, s, hm => ⟨[], s, rfl, fun t => by
      by_contra hx
      obtain ⟨s', h'⟩ := Option.ne_none_iff_exists'.1 hx
      have := step_left t hb h'; omega⟩
  | m + 1, s, hm => by
    by_cases hd : s.Done n block f
    · exact ⟨[], s, rfl, hd⟩
    · unfold State.Done at hd
      rw [Classical.not_forall] at hd
      obtain ⟨t, ht⟩ := hd
      obtain ⟨s1, h1⟩ := Option.ne_none_iff_exists'.1 ht
      have := step_left t hb h1
      obtain ⟨sched, s', hr, hdn⟩ := run_exists (n := n) (f := f) hb m s1 (by omega)
      exact ⟨t :: sched, s', by unfold State.run; rw [h1]; exact hr, hdn⟩

theorem Runs.exists {β : Type} (n block workers : Nat) (f : Nat → β) (hb : 0 < block) (hw : 0 < workers) :
    Runs n block workers f ((List.range n).map (fun i => some (f i))) := by
  obtain ⟨sched, s', hr, hd⟩ := run_exists (n := n) (f := f) hb _ (State.init n workers) (Nat.le_refl _)
  have h : Runs n block workers f s'.out := ⟨hw, sched, s', hr, hd, rfl⟩
  rw [← h.eq]; exact h

end Alaya.ParFor
