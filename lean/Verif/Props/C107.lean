import Mathlib.Data.Finset.Card
import Mathlib.Data.Finset.Range
import Verif.Model.SearchPool

/-!
# C107: the workspaces of the disk searches are shared correctly

Model: Model/SearchPool.lean.  What fails is in C107Limits.lean.
-/

namespace Alaya.SPool

structure Inv (n : Nat) (s : St) : Prop where
  nodup : s.queue.Nodup
  lt : ∀ w ∈ s.queue, w < n
  apart : ∀ i w, s.pcs i = .busy w → w ∉ s.queue ∧ w < n
  one : ∀ i j w, s.pcs i = .busy w → s.pcs j = .busy w → i = j
  all : ∀ w < n, w ∈ s.queue ∨ ∃ i, s.pcs i = .busy w

theorem inv_start (n : Nat) : Inv n (start n) :=
  ⟨List.nodup_range, by simp [start], by simp [start], by simp [start], fun w h => .inl (by simpa [start] using h)⟩

theorem inv_back {n : Nat} {s : St} (hi : Inv n s) {i w : Nat} (hp : s.pcs i = .busy w) :
    Inv n ⟨s.queue ++ [w], Function.update s.pcs i .idle⟩ := by
  have keep : ∀ j v, Function.update s.pcs i Pc.idle j = .busy v → j ≠ i ∧ s.pcs j = .busy v := by
    intro j v hj
    by_cases h : j = i
    · subst h; simp at hj
    · exact ⟨h, by simpa [Function.update_of_ne h] using hj⟩
  refine ⟨?_, ?_, ?_, ?_, ?_⟩
  · refine List.nodup_append.mpr ⟨hi.nodup, by simp, ?_⟩
    intro a ha b hb
    rw [List.mem_singleton.mp hb]
    rintro rfl
    exact (hi.apart i a hp).1 ha
  · intro v hv
    rcases List.mem_append.mp hv with h | h
    · exact hi.lt v h
    · rw [List.mem_singleton.mp h]; exact (hi.apart i w hp).2
  · intro j v hj
    obtain ⟨hne, hj⟩ := keep j v hj
    refine ⟨fun hv => ?_, (hi.apart j v hj).2⟩
    rcases List.mem_append.mp hv with h | h
    · exact (hi.apart j v hj).1 h
    · rw [List.mem_singleton.mp h] at hj; exact hne (hi.one j i w hj hp)
  · intro j k v hj hk
    exact hi.one j k v (keep j v hj).2 (keep k v hk).2
  · intro v hv
    rcases hi.all v hv with h | ⟨j, hj⟩
    · exact .inl (List.mem_append_left _ h)
    · by_cases h : j = i
      · subst h
        rw [hp] at hj
        cases hj
        exact .inl (by simp)
      · exact .inr ⟨j, by simpa [Function.update_of_ne h] using hj⟩

theorem inv_step {n : Nat} {s s' : St} (hi : Inv n s) {i : Nat} {a : Act} (h : step s i a = some s') : Inv n s' := by
  cases a with
  | call =>
    cases hp : s.pcs i with
    | asking => simp [step, hp] at h
    | busy w => simp [step, hp] at h
    | idle =>
      simp only [step, hp, Option.some.injEq] at h
      subst h
      have keep : ∀ j v, Function.update s.pcs i Pc.asking j = .busy v ↔ s.pcs j = .busy v := by
        intro j v
        by_cases h : j = i
        · subst h; simp [hp]
        · simp [Function.update_of_ne h]
      exact ⟨hi.nodup, hi.lt, fun j v hj => hi.apart j v ((keep j v).mp hj),
        fun j k v hj hk => hi.one j k v ((keep j v).mp hj) ((keep k v).mp hk),
        fun v hv => (hi.all v hv).imp_right (fun ⟨j, hj⟩ => ⟨j, (keep j v).mpr hj⟩)⟩
  | pop =>
    cases hp : s.pcs i with
    | idle => simp [step, hp] at h
    | busy w => simp [step, hp] at h
    | asking =>
      cases hq : s.queue with
      | nil =>
        simp only [step, hp, hq, Option.some.injEq] at h
        subst h
        exact hi
      | cons w ws =>
        simp only [step, hp, hq, Option.some.injEq] at h
        subst h
        have hnd := hi.nodup
        rw [hq, List.nodup_cons] at hnd
        have hw : w ∈ s.queue := by rw [hq]; simp
        have keep : ∀ j v, Function.update s.pcs i (Pc.busy w) j = .busy v → (j = i ∧ v = w) ∨ (j ≠ i ∧ s.pcs j = .busy v) := by
          intro j v hj
          by_cases h : j = i
          · subst h; simp at hj; exact .inl ⟨rfl, hj.symm⟩
          · exact .inr ⟨h, by simpa [Function.update_of_ne h] using hj⟩
        refine ⟨hnd.2, fun v hv => hi.lt v (by rw [hq]; simp [hv]), ?_, ?_, ?_⟩
        · intro j v hj
          rcases keep j v hj with ⟨_, rfl⟩ | ⟨_, hj⟩
          · exact ⟨hnd.1, hi.lt v hw⟩
          · exact ⟨fun hv => (hi.apart j v hj).1 (by rw [hq]; simp [hv]), (hi.apart j v hj).2⟩
        · intro j k v hj hk
          rcases keep j v hj with ⟨h1, rfl⟩ | ⟨_, hj⟩
          · rcases keep k v hk with ⟨h2, _⟩ | ⟨_, hk⟩
            · omega
            · exact absurd hw (hi.apart k v hk).1
          · rcases keep k v hk with ⟨_, e⟩ | ⟨_, hk⟩
            · exact absurd (e ▸ hw) (hi.apart j v hj).1
            · exact hi.one j k v hj hk
        · intro v hv
          rcases hi.all v hv with h | ⟨j, hj⟩
          · rw [hq] at h
            rcases List.mem_cons.mp h with rfl | h
            · exact .inr ⟨i, by simp⟩
            · exact .inl h
          · refine .inr ⟨j, ?_⟩
            have : j ≠ i := by rintro rfl; rw [hp] at hj; cases hj
            simpa [Function.update_of_ne this] using hj
  | finish =>
    cases hp : s.pcs i with
    | idle => simp [step, hp] at h
    | asking => simp [step, hp] at h
    | busy w =>
      simp only [step, hp, Option.some.injEq] at h
      subst h
      exact inv_back hi hp
  | throws =>
    cases hp : s.pcs i with
    | idle => simp [step, hp] at h
    | asking => simp [step, hp] at h
    | busy w =>
      simp only [step, hp, Option.some.injEq] at h
      subst h
      exact inv_back hi hp

theorem inv_run {n : Nat} : ∀ {hist : List (Nat × Act)} {s s' : St}, Inv n s → run s hist = some s' → Inv n s' := by
  intro hist
  induction hist with
  | nil => intro s s' hi h; cases h; exact hi
  | cons x t ih =>
    intro s s' hi h
    obtain ⟨i, a⟩ := x
    simp only [run, Option.bind_eq_some_iff] at h
    obtain ⟨s1, h1, h2⟩ := h
    exact ih (inv_step hi h1) h2

/-- Whatever the threads do and whichever searches throw, every workspace is either once in the queue or with exactly one thread. -/
theorem C107_conserved (n : Nat) {hist : List (Nat × Act)} {s : St} (h : run (start n) hist = some s) :
    s.queue.Nodup ∧ (∀ w ∈ s.queue, w < n) ∧ ∀ w < n, (w ∈ s.queue ∧ ∀ i, s.pcs i ≠ .busy w) ∨
      (w ∉ s.queue ∧ ∃ i, s.pcs i = .busy w ∧ ∀ j, s.pcs j = .busy w → j = i) := by
  have hi := inv_run (inv_start n) h
  refine ⟨hi.nodup, hi.lt, fun w hw => ?_⟩
  rcases hi.all w hw with hq | ⟨i, hb⟩
  · exact .inl ⟨hq, fun i hb => (hi.apart i w hb).1 hq⟩
  · exact .inr ⟨(hi.apart i w hb).1, i, hb, fun j hj => hi.one j i w hj hb⟩

/-- At most as many searches run at once as there are workspaces. -/
theorem C107_bound (n : Nat) {hist : List (Nat × Act)} {s : St} (h : run (start n) hist = some s) (T : Finset Nat)
    (hT : ∀ i ∈ T, ∃ w, s.pcs i = .busy w) : T.card ≤ n := by
  have hi := inv_run (inv_start n) h
  choose! f hf using hT
  have := Finset.card_le_card_of_injOn (t := Finset.range n) f (fun i hm => by simpa using (hi.apart i _ (hf i hm)).2)
    (fun i hm j hn e => hi.one i j (f i) (hf i hm) (e ▸ hf j hn))
  simpa using this

/-- A search does not wait while fewer searches run than there are workspaces. -/
theorem C107_no_wait (n : Nat) {hist : List (Nat × Act)} {s : St} (h : run (start n) hist = some s) {i : Nat} (ha : s.pcs i = .asking)
    (T : Finset Nat) (hT : ∀ j w, s.pcs j = .busy w → j ∈ T) (hc : T.card < n) :
    ∃ s' w, step s i .pop = some s' ∧ s'.pcs i = .busy w := by
  have hi := inv_run (inv_start n) h
  cases hq : s.queue with
  | cons w ws => exact ⟨⟨ws, Function.update s.pcs i (.busy w)⟩, w, by simp only [step, ha, hq], by simp⟩
  | nil =>
    exfalso
    have hall : ∀ w ∈ Finset.range n, ∃ j, s.pcs j = .busy w := by
      intro w hw
      rcases hi.all w (by simpa using hw) with h | h
      · rw [hq] at h; simp at h
      · exact h
    choose! g hg using hall
    have := Finset.card_le_card_of_injOn (t := T) g (fun w hw => hT _ w (hg w hw)) (fun v hv w hw e => by
      have h1 := hg v hv
      have h2 := hg w hw
      rw [e, h2] at h1
      cases h1; rfl)
    simp at this
    omega

/-- No deadlock: with the number of workspaces of any parameters, a search that asks gets one as soon as it looks after some running search has
ended, or at once. -/
theorem C107_progress (numThreads : Nat) (updatable : Bool) (ins rec : Nat) {hist : List (Nat × Act)} {s : St}
    (h : run (start (poolSize numThreads updatable ins rec)) hist = some s) {i : Nat} (ha : s.pcs i = .asking) :
    (∃ s' w, run s [(i, .pop)] = some s' ∧ s'.pcs i = .busy w) ∨
      ((∃ j w, s.pcs j = .busy w) ∧ ∀ j w, s.pcs j = .busy w → ∀ a, a = .finish ∨ a = .throws →
        ∃ s', run s [(j, a), (i, .pop)] = some s' ∧ s'.pcs i = .busy w ∧ s'.pcs j = .idle) := by
  have hi := inv_run (inv_start _) h
  cases hq : s.queue with
  | cons w ws => exact .inl ⟨⟨ws, Function.update s.pcs i (.busy w)⟩, w, by simp only [run, step, ha, hq, Option.bind_some], by simp⟩
  | nil =>
    right
    constructor
    · have hpos : 0 < poolSize numThreads updatable ins rec := by
        unfold poolSize
        cases updatable <;> simp
      rcases hi.all 0 hpos with h | ⟨j, hj⟩
      · rw [hq] at h; simp at h
      · exact ⟨j, 0, hj⟩
    · intro j w hj a hfin
      have hne : i ≠ j := by rintro rfl; rw [ha] at hj; cases hj
      rcases hfin with rfl | rfl
      · refine ⟨⟨[], Function.update (Function.update s.pcs j .idle) i (.busy w)⟩, ?_, by simp, ?_⟩
        · simp [run, step, hj, hq, ha, Function.update_of_ne hne]
        · simp [Function.update_of_ne hne.symm]
      · refine ⟨⟨[], Function.update (Function.update s.pcs j .idle) i (.busy w)⟩, ?_, by simp, ?_⟩
        · simp [run, step, hj, hq, ha, Function.update_of_ne hne]
        · simp [Function.update_of_ne hne.symm]

/-- A pool for one thread: the second search waits until the first has thrown. -/
example : ((run (start (poolSize 0 false 8 8)) [(0, .call), (1, .call), (0, .pop), (1, .pop)]).map (fun s => (s.queue, s.pcs 0, s.pcs 1)))
    = some ([], .busy 0, .asking) := by decide +kernel

example : ((run (start 1) [(0, .call), (1, .call), (0, .pop), (1, .pop), (0, .throws), (1, .pop)]).map
    (fun s => (s.queue, s.pcs 0, s.pcs 1))) = some ([], .idle, .busy 0) := by decide +kernel

example : ((run (start (poolSize 4 true 2 6)) [(5, .call), (3, .call), (5, .pop)]).map (fun s => (s.queue, s.pcs 5, s.pcs 3)))
    = some ([1, 2, 3, 4, 5], .busy 0, .asking) := by decide +kernel

end Alaya.SPool
