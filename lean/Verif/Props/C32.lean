import Verif.Lemmas.BatchSearch

/-! C32: parallel batch search equals sequential search. -/
namespace Alaya.Batch
variable {V : Type}

theorem idle_of_joined {s : St V} (h : s.joined) (i : Nat) : ∀ (t : Nat) (w : W V), s.ws[t]? = some w → ¬ busy w i := by
  intro t w hg hb
  have := h w (List.mem_of_getElem? hg)
  subst this
  rcases hb with hb | ⟨l, hb⟩ <;> cases hb

theorem sequential_spec (c : Cfg V) (hc : Confined c) (m0 : Mem V) : ∀ (r i : Nat) (m : Mem V), i + r = c.n →
    (∀ q, q < c.n → c.writes q ≠ none) → (∀ q, q < i → RowEq c q m (finalRow c m0 q)) → (∀ q, i ≤ q → RowEq c q m m0) →
    (∀ b a, c.n * c.k ≤ a → m b a = m0 b a) →
    ∃ m', sequential c i r m = some m' ∧ (∀ q, q < c.n → RowEq c q m' (finalRow c m0 q)) ∧
      (∀ b a, c.n * c.k ≤ a → m' b a = m0 b a) := by
  intro r
  induction r with
  | zero => intro i m hi _ h1 _ h3; exact ⟨m, rfl, fun q hq => h1 q (by omega), h3⟩
  | succ r ih =>
    intro i m hi hall h1 h2 h3
    unfold sequential
    cases hw : c.writes i with
    | none => exact absurd hw (hall i (by omega))
    | some ws =>
      simp only
      have hcf := hc i ws hw
      apply ih (i + 1) _ (by omega) hall
      · intro q hq b j hj
        by_cases e : q = i
        · subst e
          unfold finalRow
          rw [hw]
          exact applyAt_row c q ws m m0 (h2 q (Nat.le_refl _)) b j hj
        · rw [applyAt_other c i q (Ne.symm e) ws m hcf b j hj]
          exact h1 q (by omega) b j hj
      · intro q hq b j hj
        rw [applyAt_other c i q (by omega) ws m hcf b j hj]
        exact h2 q (by omega) b j hj
      · intro b a ha
        rw [applyAt_outside c i (by omega) ws m hcf b a ha]
        exact h3 b a ha

theorem mem_ext (c : Cfg V) {m m' f : Mem V} {g : Nat → Mem V} (h1 : ∀ q, q < c.n → RowEq c q m (g q)) (h2 : ∀ q, q < c.n → RowEq c q m' (g q))
    (h3 : ∀ b a, c.n * c.k ≤ a → m b a = f b a) (h4 : ∀ b a, c.n * c.k ≤ a → m' b a = f b a) : m = m' := by
  funext b a
  by_cases ha : a < c.n * c.k
  · have hk : 0 < c.k := by
      rcases Nat.eq_zero_or_pos c.k with h | h
      · rw [h] at ha; omega
      · exact h
    have hq : a / c.k < c.n := (Nat.div_lt_iff_lt_mul hk).mpr ha
    have hm := Nat.mod_lt a hk
    have e : a = a / c.k * c.k + a % c.k := by rw [Nat.mul_comm]; exact (Nat.div_add_mod a c.k).symm
    rw [e, h1 _ hq b _ hm, h2 _ hq b _ hm]
  · rw [h3 b a (by omega), h4 b a (by omega)]

/-- If no search throws: for every number of workers and every schedule that lets all of them finish, the output buffers are
those of the sequential run (in particular nothing outside the n·k cells is touched), every query was drawn exactly once,
in order, and no error is reported.  Missing: query counts at which the machine word of the counter wraps (`hM`), where it is
false for the 32-bit counter of DiskANNIndex (`C32_counter_wrap_refuted`). -/
theorem C32_parallel_equals_sequential_partial (c : Cfg V) (hc : Confined c) (workers : Nat) (hw : 0 < workers)
    (hM : c.n + workers < c.M) (m0 : Mem V) (hall : ∀ q, q < c.n → c.writes q ≠ none) (sched : List Nat)
    (hj : (runSched c sched (start workers m0)).joined) :
    sequential c 0 c.n m0 = some (runSched c sched (start workers m0)).mem ∧
    (runSched c sched (start workers m0)).log = List.range c.n ∧
    (runSched c sched (start workers m0)).firstErr = none ∧
    (runSched c sched (start workers m0)).terminated = false := by
  obtain ⟨inv, hl⟩ := (Inv.start c workers m0).run c m0 hc sched _ (by simpa [start] using hM)
  generalize runSched c sched (start workers m0) = s at *
  have hlen : s.ws.length = workers := by rw [hl]; simp [start]
  have hterm : s.terminated = false := by
    cases h : s.terminated with
    | false => rfl
    | true => obtain ⟨_, i, hi, hh⟩ := inv.term h; exact absurd hh (hall i hi)
  have herr : s.firstErr = none := by
    cases h : s.firstErr with
    | none => rfl
    | some e => obtain ⟨h1, h2⟩ := inv.err e h; exact absurd h2 (hall e h1)
  have hnext : c.n ≤ s.next := by
    have hne : s.ws ≠ [] := by intro e; rw [e] at hlen; simp at hlen; omega
    obtain ⟨w, hwm⟩ := List.exists_mem_of_ne_nil _ hne
    rcases inv.stop ⟨w, hwm, by rw [hj w hwm]; rfl⟩ with h | h
    · exact h
    · exact absurd herr h
  obtain ⟨m', e, r1, r2⟩ := sequential_spec c hc m0 c.n 0 m0 (by omega) hall (fun q hq => absurd hq (by omega))
    (fun q _ b j _ => rfl) (fun b a _ => rfl)
  refine ⟨?_, ?_, herr, hterm⟩
  · rw [e]
    congr 1
    refine mem_ext c (g := finalRow c m0) (f := m0) r1 ?_ r2 inv.outside
    intro q hq
    have := inv.idle q hq (idle_of_joined hj q)
    rw [if_pos (by omega)] at this
    exact this.1
  · rw [inv.logged]; congr 1; omega

/-- For DiskCollection (64-bit counter) the restriction is void: the label buffer alone has n·k cells of 8 bytes. -/
theorem C32_collection_equals_sequential (c : Cfg V) (hc : Confined c) (h64 : c.M = 2 ^ 64) (hk : 0 < c.k)
    (hbuf : c.n * c.k * 8 ≤ 2 ^ 64) (workers : Nat) (hw : 0 < workers ∧ workers < 2 ^ 32)
    (m0 : Mem V) (hall : ∀ q, q < c.n → c.writes q ≠ none) (sched : List Nat)
    (hj : (runSched c sched (start workers m0)).joined) :
    sequential c 0 c.n m0 = some (runSched c sched (start workers m0)).mem ∧
    (runSched c sched (start workers m0)).log = List.range c.n := by
  have h1 : c.n ≤ c.n * c.k := Nat.le_mul_of_pos_right _ hk
  have := C32_parallel_equals_sequential_partial c hc workers hw.1 (by rw [h64]; omega) m0 hall sched hj
  exact ⟨this.1, this.2.1⟩

/-- If some search throws (DiskCollection): the call rethrows the exception of a query that does throw; if none throws it
does not throw. -/
theorem C32_error_reported (c : Cfg V) (hc : Confined c) (hcap : c.capture = true) (workers : Nat) (hw : 0 < workers)
    (hM : c.n + workers < c.M) (m0 : Mem V) (sched : List Nat) (hj : (runSched c sched (start workers m0)).joined) :
    ((runSched c sched (start workers m0)).firstErr ≠ none ↔ ∃ q, q < c.n ∧ c.writes q = none) ∧
    ∀ e, (runSched c sched (start workers m0)).firstErr = some e → e < c.n ∧ c.writes e = none := by
  obtain ⟨inv, hl⟩ := (Inv.start c workers m0).run c m0 hc sched _ (by simpa [start] using hM)
  generalize runSched c sched (start workers m0) = s at *
  have hlen : s.ws.length = workers := by rw [hl]; simp [start]
  refine ⟨⟨?_, ?_⟩, inv.err⟩
  · intro h
    cases he : s.firstErr with
    | none => exact absurd he h
    | some e => exact ⟨e, inv.err e he⟩
  · rintro ⟨q, hq, hn⟩ herr
    have hne : s.ws ≠ [] := by intro e; rw [e] at hlen; simp at hlen; omega
    obtain ⟨w, hwm⟩ := List.exists_mem_of_ne_nil _ hne
    rcases inv.stop ⟨w, hwm, by rw [hj w hwm]; rfl⟩ with h | h
    · have := inv.idle q hq (idle_of_joined hj q)
      rw [if_pos (by omega)] at this
      rcases this.2 hn with h' | h'
      · exact h' herr
      · rw [(inv.term h').1] at hcap; cases hcap
    · exact h herr

/-- With or without errors, when all workers have stopped every row is either untouched or complete: rows are never
mixed or half written. -/
theorem C32_rows_whole (c : Cfg V) (hc : Confined c) (workers : Nat) (hM : c.n + workers < c.M) (m0 : Mem V)
    (sched : List Nat) (hj : (runSched c sched (start workers m0)).joined) (q : Nat) (hq : q < c.n) :
    RowEq c q (runSched c sched (start workers m0)).mem m0 ∨
    ∃ ws, c.writes q = some ws ∧ RowEq c q (runSched c sched (start workers m0)).mem (applyAt (q * c.k) ws m0) := by
  obtain ⟨inv, -⟩ := (Inv.start c workers m0).run c m0 hc sched _ (by simpa [start] using hM)
  have := inv.idle q hq (idle_of_joined hj q)
  split at this
  · obtain ⟨h1, -⟩ := this
    unfold finalRow at h1
    cases hw : c.writes q with
    | none => rw [hw] at h1; exact Or.inl h1
    | some ws => rw [hw] at h1; exact Or.inr ⟨ws, rfl, h1⟩
  · exact Or.inl this

/-- The outputs of both implementations stay inside their row: DiskCollection always, DiskANNIndex as long as a search
returns at most `top_k` results. -/
theorem C32_confined (n k M : Nat) (cap dists : Bool) (noLabel maxDist : V) (hits : Nat → Option (List (V × V))) :
    Confined (⟨n, k, M, cap, fun i => (hits i).map (collWrites k dists)⟩ : Cfg V) ∧
    ((∀ i hs, hits i = some hs → hs.length ≤ k) →
      Confined (⟨n, k, M, cap, fun i => (hits i).map (annWrites k noLabel maxDist)⟩ : Cfg V)) := by
  have zi : ∀ (hs : List (V × V)) (p : (V × V) × Nat), p ∈ hs.zipIdx → p.2 < hs.length := by
    intro hs p hp
    have := List.snd_lt_add_of_mem_zipIdx hp
    omega
  constructor
  · intro i ws h w hw
    simp only [Option.map_eq_some_iff] at h
    obtain ⟨hs, _, rfl⟩ := h
    show w.2.1 < k
    unfold collWrites at hw
    rcases List.mem_append.mp hw with h' | h'
    · obtain ⟨p, hp, rfl⟩ := List.mem_map.mp h'
      have := zi _ p hp
      rw [List.length_take] at this
      simp only; omega
    · split at h'
      · obtain ⟨p, hp, rfl⟩ := List.mem_map.mp h'
        have := zi _ p hp
        rw [List.length_take] at this
        simp only; omega
      · cases h'
  · intro hlen i ws h w hw
    simp only [Option.map_eq_some_iff] at h
    obtain ⟨hs, hhs, rfl⟩ := h
    have hl := hlen i hs hhs
    show w.2.1 < k
    unfold annWrites at hw
    rcases List.mem_append.mp hw with h' | h'
    · obtain ⟨p, hp, hx⟩ := List.mem_flatMap.mp h'
      have := zi _ p hp
      simp at hx
      rcases hx with rfl | rfl <;> (simp only; omega)
    · obtain ⟨j, hj, hx⟩ := List.mem_flatMap.mp h'
      have := List.mem_range.mp hj
      simp at hx
      rcases hx with rfl | rfl <;> (simp only; omega)

/-- The full property for DiskANNIndex (32-bit counter): every query once, for every query count the API accepts. -/
def OnceFull : Prop := ∀ (n k workers : Nat) (writes : Nat → Option (List (Write Nat))) (m0 : Mem Nat) (sched : List Nat),
  n < 2 ^ 32 → 0 < workers → (∀ q, q < n → writes q ≠ none) → Confined ⟨n, k, 2 ^ 32, false, writes⟩ →
  (runSched ⟨n, k, 2 ^ 32, false, writes⟩ sched (start workers m0)).log.Nodup

theorem runSched_append (c : Cfg V) : ∀ (a b : List Nat) (s : St V), runSched c (a ++ b) s = runSched c b (runSched c a s) := by
  intro a
  induction a with
  | nil => intro b s; rfl
  | cons t ts ih => intro b s; exact ih b _

/-- Worker 0 alone draws the first `r` queries. -/
theorem drain (c : Cfg V) (hM : c.n < c.M) (hwr : ∀ q, c.writes q = some []) (m0 : Mem V) (w1 : W V) : ∀ r, r ≤ c.n → ∃ sched,
    runSched c sched ⟨0, false, none, false, m0, [.head, w1], []⟩ = ⟨r, false, none, false, m0, [.head, w1], List.range r⟩ := by
  intro r
  induction r with
  | zero => intro _; exact ⟨[], rfl⟩
  | succ r ih =>
    intro hr
    obtain ⟨sched, e⟩ := ih (by omega)
    refine ⟨sched ++ [0, 0, 0, 0], ?_⟩
    rw [runSched_append, e]
    have hmod : (r + 1) % c.M = r + 1 := Nat.mod_eq_of_lt (by omega)
    have hlt : r < c.n := by omega
    simp only [runSched, step, Bool.false_eq_true, if_false, List.getElem?_cons_zero, List.set_cons_zero, hwr, if_pos hlt, hmod]
    rw [List.range_succ]

/-- With 2^32 - 1 queries and two workers the 32-bit counter wraps: query 0 is executed again. -/
theorem C32_counter_wrap_refuted : ¬ OnceFull := by
  intro h
  have key : ∀ n M : Nat, M = n + 1 → 0 < n → ∀ m0 : Mem Nat,
      ∃ sched, ¬ (runSched (⟨n, 1, M, false, fun _ => some []⟩ : Cfg Nat) sched (start 2 m0)).log.Nodup := by
    intro n M hM hn m0
    obtain ⟨sched, e⟩ := drain (⟨n, 1, M, false, fun _ => some []⟩ : Cfg Nat) (by simp only; omega) (fun _ => rfl) m0 .head n (Nat.le_refl _)
    refine ⟨sched ++ [0, 0, 1, 1], ?_⟩
    rw [runSched_append]
    rw [show (start 2 m0 : St Nat) = ⟨0, false, none, false, m0, [.head, .head], []⟩ from rfl, e]
    have hmod : (n + 1) % M = 0 := by rw [hM]; exact Nat.mod_self _
    simp only [runSched, step, Bool.false_eq_true, if_false, List.getElem?_cons_zero, List.set_cons_zero,
      List.getElem?_cons_succ, List.set_cons_succ, Nat.lt_irrefl, hmod, if_pos hn]
    intro hnd
    rw [List.nodup_append] at hnd
    exact hnd.2.2 0 (List.mem_range.mpr hn) 0 (by simp) rfl
  obtain ⟨sched, hs⟩ := key (2 ^ 32 - 1) (2 ^ 32) (by omega) (by omega) (fun _ _ => 0)
  exact hs (h (2 ^ 32 - 1) 1 2 (fun _ => some []) (fun _ _ => 0) sched (by omega) (by omega) (fun _ _ => by simp)
    (by intro i ws hw w hm; cases hw; cases hm))

/-- An exception inside a DiskANNIndex worker ends the process, while the sequential path lets the caller catch it. -/
theorem C32_worker_exception_observation :
    let c : Cfg Nat := ⟨2, 1, 2 ^ 32, false, fun i => if i = 0 then none else some [(false, 0, 7)]⟩
    (runSched c [0, 0, 0] (start 2 (fun _ _ => 0))).terminated = true ∧
      (sequential c 0 2 (fun _ _ => 0)).isNone = true := by decide

/-- Two workers, three queries, an interleaving in which rows are written alternately. -/
example :
    let c : Cfg Nat := ⟨3, 2, 2 ^ 64, true, fun i => some (collWrites 2 true [(10 * i + 1, 5), (10 * i + 2, 6)])⟩
    let s := runSched c [1, 0, 0, 1, 1, 0, 0, 1, 1, 0, 0, 1, 1, 0, 0, 1, 1, 0, 0, 1, 1, 1, 1, 1, 1, 1, 1, 1, 0, 0, 0, 0, 0, 0, 0, 0, 0,
      0, 0, 0, 0, 1, 1, 1, 1, 1, 1, 1] (start 2 (fun _ _ => 0))
    (s.ws.all isDone = true ∧ s.log = [0, 1, 2]) ∧ (List.range 6).map (s.mem false) = [1, 2, 11, 12, 21, 22] := by decide

end Alaya.Batch
