import Verif.Lemmas.PyReindex
import Verif.Props.C53

/-! C87: `reindex` keeps the records of a collection. -/
namespace Alaya.Py
open Wal Recovery

/-- A running collection reached by some history of calls, snapshots, crashes and restarts. -/
structure Running (s : Index) (ms : Nat) (evs : List Event) (y : Sys Index) (m : Mem Index) : Prop where
  uniq : Uniq s.slots
  ok : HistoryOk ms evs
  clean : CleanRecoveries sem (afterFit s ms) evs = true
  run : run sem (afterFit s ms) evs = some y
  mem : y.mem = some m

/-- The clock of the rebuild is after the history and within 64 bits. -/
def ClockOk (ms : Nat) (evs : List Event) (dt : Nat) : Prop := 0 < dt ∧ ms + (evs.map Event.dt).sum + dt < 2 ^ 64

theorem Running.inv {s : Index} {ms : Nat} {evs : List Event} {y : Sys Index} {m : Mem Index} (h : Running s ms evs y m) :
    ∃ G, Recovery.Inv sem y (m.state, true) evs.length G ∧ Uniq m.state.slots ∧ y.clock ≤ ms + (evs.map Event.dt).sum := by
  have hms : ms < 2 ^ 64 := by have := h.ok.clock; omega
  obtain ⟨y', q, G, h1, h2, h3, _, _, h4⟩ := run_inv sem_ok evs (afterFit_inv sem s ms hms) (by have := h.ok.ids; omega)
    h.ok.clock h.ok.ticks h.clean
  rw [h.run] at h1
  cases h1
  have hq := inv_running h3 h.mem
  subst hq
  refine ⟨G, by simpa using h3, specRun_uniq evs h.uniq h2, h4⟩

/-! ### the full statements -/

/-- Rebuilding never changes what `get_by_id` returns, whatever thread count is passed. -/
def C87Lookups : Prop :=
  ∀ (s : Index) (ms : Nat) (evs : List Event) (y : Sys Index) (m : Mem Index), Running s ms evs y m →
    ∀ (arg param : Option Int) (dt : Nat), ClockOk ms evs dt → ∀ item, lookup (reindex id arg param dt y).1 item = lookup y item

/-- Rebuilding keeps every row. -/
def C87Rows : Prop :=
  ∀ (s : Index) (ms : Nat) (evs : List Event) (y : Sys Index) (m : Mem Index), Running s ms evs y m →
    ∀ (dt : Nat), ClockOk ms evs dt → ∃ m', (reindex id none none dt y).1.mem = some m' ∧
      ∀ r, some r ∈ m.state.slots → some r ∈ m'.state.slots

/-- A crash at any point of a rebuild loses nothing: the next `load` succeeds and every item is found. -/
def C87Crash : Prop :=
  ∀ (s : Index) (ms : Nat) (evs : List Event) (y : Sys Index) (m : Mem Index), Running s ms evs y m →
    ∀ (dt j cut : Nat), ClockOk ms evs dt → ∃ m' b, loadMem sem (reindexCrash id dt j cut y).disk = some (m', b) ∧
      ∀ item, m'.state.get item = m.state.get item

/-! ### counterexamples -/

/-- A collection with one record, right after its first insert. -/
def oneRow : Index := ⟨4, 5, [some rowA]⟩

theorem uniq_single (r : Row) : Uniq [some r] := by
  intro i j a b hi hj _ _
  rcases i with _ | i <;> rcases j with _ | j <;> simp at hi hj ⊢

theorem running_fit (s : Index) (hu : Uniq s.slots) (ms : Nat) (hms : ms < 2 ^ 64) :
    Running s ms [] (afterFit s ms) ⟨s, 1, 0⟩ :=
  ⟨hu, ⟨by simp, by simpa using hms, by simp⟩, rfl, rfl, rfl⟩

/-- The thread count is checked after the old index has been closed: `reindex(num_threads=0)` raises and leaves a
collection that finds nothing. -/
theorem C87_bad_threads_refuted : ¬ C87Lookups := by
  intro h
  have := h oneRow 7 [] _ _ (running_fit oneRow (uniq_single _) 7 (by decide)) (some 0) none 1 (by unfold ClockOk; decide) (str "a")
  have hl : lookup (afterFit oneRow 7) (str "a") = some rowA := by decide
  have hr : lookup (reindex id (some 0) none 1 (afterFit oneRow 7)).1 (str "a") = none := by decide
  rw [hl, hr] at this
  cases this

/-- A record with an empty item id. -/
def rowNameless : Row := ([9, 9, 9, 9], ⟨[], str "doc", []⟩)

set_option maxRecDepth 100000 in
/-- Records with an empty item id (which insert accepts) count as deleted and are dropped. -/
theorem C87_nameless_refuted : ¬ C87Rows := by
  intro h
  have hu : Uniq (Index.mk 4 5 [some rowA, some rowNameless]).slots :=
    append_uniq (uniq_single rowA) (Or.inl rfl)
  obtain ⟨m', h1, h2⟩ := h ⟨4, 5, [some rowA, some rowNameless]⟩ 7 [] _ _ (running_fit _ hu 7 (by decide)) 1 (by unfold ClockOk; decide)
  have hm : (reindex id none none 1 (afterFit ⟨4, 5, [some rowA, some rowNameless]⟩ 7)).1.mem = some ⟨⟨4, 5, [some rowA]⟩, 1, 0⟩ := by
    decide +kernel
  rw [hm] at h1
  cases h1
  have := h2 rowNameless (by simp)
  simp [rowA, rowNameless, str] at this

/-! ### what holds -/

/-- With an acceptable thread count `reindex` does not raise and every item id finds its record, with its vector
normalised once more (not at all unless the metric is cosine). -/
theorem C87_lookup_partial {s : Index} {ms : Nat} {evs : List Event} {y : Sys Index} {m : Mem Index}
    (h : Running s ms evs y m) (norm : Bytes → Bytes) (arg param : Option Int) (ht : threadsOk arg param = true) (dt : Nat) :
    (reindex norm arg param dt y).2 ∈ [Reindexed.nothing, Reindexed.rebuilt] ∧
    ∀ item, lookup (reindex norm arg param dt y).1 item = (lookup y item).map fun r => (norm r.1, r.2) := by
  obtain ⟨G, _, hu, _⟩ := h.inv
  have hnone : m.state.collect = [] → ∀ item, m.state.get item = none := by
    intro hc item
    cases hg : m.state.get item with
    | none => rfl
    | some r =>
      obtain ⟨h1, h2, h3⟩ := (get_some_iff hu).1 hg
      have := mem_collect.2 ⟨h2, by rw [h3]; exact h1⟩
      rw [hc] at this
      cases this
  unfold reindex
  rw [h.mem]
  simp only
  by_cases h0 : m.state.slots.length = 0
  · rw [if_pos h0]
    refine ⟨by simp, fun item => ?_⟩
    have hc : m.state.collect = [] := by
      rw [collect_eq, List.eq_nil_of_length_eq_zero h0]; rfl
    unfold lookup
    rw [h.mem]
    simp only
    rw [hnone hc item]; rfl
  · rw [if_neg h0]
    by_cases hc : m.state.collect = []
    · rw [if_pos hc]
      refine ⟨by simp, fun item => ?_⟩
      unfold lookup
      rw [h.mem]
      simp only
      rw [hnone hc item]; rfl
    · rw [if_neg hc, if_pos ht]
      refine ⟨by simp, fun item => ?_⟩
      show (m.state.rebuilt norm).get item = _
      rw [rebuilt_get hu]
      unfold lookup
      rw [h.mem]

/-- When there is nothing to rebuild (no index, no rows, no row with an item id) nothing changes, in memory or on disk. -/
theorem C87_nothing (norm : Bytes → Bytes) (arg param : Option Int) (dt : Nat) (y : Sys Index)
    (h : ∀ m, y.mem = some m → ∀ r, some r ∈ m.state.slots → r.2.itemId = []) :
    (reindex norm arg param dt y).1 = y ∧ (reindex norm arg param dt y).2 ∈ [Reindexed.nothing, Reindexed.notReady] := by
  unfold reindex
  cases hm : y.mem with
  | none => exact ⟨rfl, by simp⟩
  | some m =>
    have hc : m.state.collect = [] := by
      rw [List.eq_nil_iff_forall_not_mem]
      intro r hr
      obtain ⟨h1, h2⟩ := mem_collect.1 hr
      exact h2 (h m hm r h1)
    simp only
    split
    · exact ⟨rfl, by simp⟩
    · exact ⟨rfl, by simp⟩

/-- The rebuilt index holds exactly the live rows with a non-empty item id, in their order, and no removed slots. -/
theorem C87_compact {s : Index} {ms : Nat} {evs : List Event} {y : Sys Index} {m : Mem Index}
    (h : Running s ms evs y m) (arg param : Option Int) (dt : Nat) (hr : (reindex id arg param dt y).2 = .rebuilt) :
    ∃ m', (reindex id arg param dt y).1.mem = some m' ∧ m'.state.cap = m.state.cap ∧
      m'.state.slots = (m.state.slots.filter fun o => decide (∃ r, o = some r ∧ r.2.itemId ≠ [])) ∧
      (∀ r, r.2.itemId ≠ [] → (some r ∈ m'.state.slots ↔ some r ∈ m.state.slots)) := by
  have key : (m.state.rebuilt id).slots = (m.state.slots.filter fun o => decide (∃ r, o = some r ∧ r.2.itemId ≠ [])) := by
    unfold Index.rebuilt
    simp only
    rw [collect_eq]
    generalize m.state.slots = l
    induction l with
    | nil => rfl
    | cons o l ih =>
      rw [List.filterMap_cons, List.filter_cons]
      cases o with
      | none =>
        rw [if_neg (by simp)]
        exact ih
      | some r =>
        simp only [Option.bind_some]
        by_cases hi : r.2.itemId = []
        · rw [if_pos hi, if_neg (by simp [hi])]
          exact ih
        · rw [if_neg hi, if_pos (by simp [hi])]
          simp only [List.map_cons, ih]
          rfl
  have hm' : (reindex id arg param dt y).1.mem = some (freshMem y.disk (m.state.rebuilt id)) := by
    unfold reindex at hr ⊢
    rw [h.mem] at hr ⊢
    simp only at hr ⊢
    split at hr
    · cases hr
    · rename_i h0
      rw [if_neg h0]
      split at hr
      · cases hr
      · rename_i h1
        rw [if_neg h1]
        split at hr
        · rename_i h2
          rw [if_pos h2]
          rfl
        · cases hr
  refine ⟨_, hm', rfl, key, fun r hne => ?_⟩
  show some r ∈ (m.state.rebuilt id).slots ↔ _
  rw [key, List.mem_filter]
  constructor
  · exact fun h => h.1
  · exact fun h => ⟨h, by simp [hne]⟩

/-- After a completed rebuild the collection goes on like a new one: any further history of calls, snapshots, crashes
and restarts ends with a content the calls allow, starting from the rebuilt content. -/
theorem C87_then_history {s : Index} {ms : Nat} {evs : List Event} {y : Sys Index} {m : Mem Index}
    (h : Running s ms evs y m) (norm : Bytes → Bytes) (arg param : Option Int) (dt : Nat)
    (hr : (reindex norm arg param dt y).2 = .rebuilt) (more : List Event) (hdt : 0 < dt)
    (hclock : ms + (evs.map Event.dt).sum + dt + (more.map Event.dt).sum < 2 ^ 64)
    (hids : evs.length + more.length < 2 ^ 64) (hticks : ∀ e ∈ more, e.ticks = true)
    (hclean : CleanRecoveries sem (reindex norm arg param dt y).1 more = true) :
    ∃ y' q, run sem (reindex norm arg param dt y).1 more = some y' ∧ SpecRun sem (m.state.rebuilt norm, true) more q ∧
      Content sem y' q.1 := by
  obtain ⟨G, hinv, hu, hcl⟩ := h.inv
  have hy : (reindex norm arg param dt y).1 = fitNew y dt (m.state.rebuilt norm) := by
    unfold reindex at hr ⊢
    rw [h.mem] at hr ⊢
    simp only at hr ⊢
    split at hr
    · cases hr
    · rename_i h0
      rw [if_neg h0]
      split at hr
      · cases hr
      · rename_i h1
        rw [if_neg h1]
        split at hr
        · rename_i h2
          rw [if_pos h2]
        · cases hr
  rw [hy] at hclean ⊢
  obtain ⟨G', hi⟩ := fitNew_inv hinv (by omega) hdt (by omega) (m.state.rebuilt norm)
  have hclk : (fitNew y dt (m.state.rebuilt norm)).clock = y.clock + dt := rfl
  obtain ⟨y', q, G2, h1, h2, h3, _⟩ := run_inv sem_ok more hi (by omega) (by rw [hclk]; omega) hticks hclean
  exact ⟨y', q, h1, h2, h3.content (by omega)⟩

/-- Partial (missing: the window between the replacement of CURRENT and the removal of the log): a crash anywhere else
in the rebuild leaves a collection that opens and finds every item. -/
theorem C87_crash_partial {s : Index} {ms : Nat} {evs : List Event} {y : Sys Index} {m : Mem Index}
    (h : Running s ms evs y m) (dt j cut : Nat) (hc : ClockOk ms evs dt) (hj : j ≠ 5) :
    ∃ m' b, loadMem sem (reindexCrash id dt j cut y).disk = some (m', b) ∧ ∀ item, m'.state.get item = m.state.get item := by
  obtain ⟨G, hinv, hu, hcl⟩ := h.inv
  obtain ⟨ms0, a, s0, os1, os2, tail, hg⟩ := inv_good hinv
  have hn : evs.length < 2 ^ 64 := h.ok.ids
  obtain ⟨f1, _⟩ := freshMem_eq hn hg (m.state.rebuilt id)
  obtain ⟨k1, k2, _, _⟩ := stale_ckpt hg (ms' := y.clock + dt) (by have := hc.1; omega) (by have := hc.2; omega) hn
    (m.state.rebuilt id) (str "post_fit") (by simp)
  unfold reindexCrash
  rw [h.mem]
  simp only
  unfold fitSteps
  rw [f1]
  by_cases hj4 : j ≤ 4
  · obtain ⟨o2, t, g⟩ := crash_good hn (k1 j hj4) cut
    obtain ⟨m', h1, h2, _⟩ := load_good hn g
    exact ⟨m', _, h1, fun item => by rw [h2]⟩
  · obtain ⟨o2, t, g⟩ := crash_good hn (k2 j (by omega)) cut
    obtain ⟨m', h1, h2, _⟩ := load_good hn g
    refine ⟨m', _, h1, fun item => ?_⟩
    rw [h2, rebuilt_get hu]
    cases m.state.get item <;> rfl

/-- Directly after a `save` a crash anywhere in the rebuild is harmless. -/
theorem C87_crash_after_save {s : Index} {ms : Nat} {evs : List Event} {y : Sys Index} {m : Mem Index}
    (h : Running s ms evs y m) (dt0 dt j cut : Nat) (hdt0 : 0 < dt0) (hdt : 0 < dt)
    (hc : ms + (evs.map Event.dt).sum + dt0 + dt < 2 ^ 64) :
    ∃ y1, step sem y (.checkpoint dt0) = some y1 ∧ ∃ m' b, loadMem sem (reindexCrash id dt j cut y1).disk = some (m', b) ∧
      ∀ item, m'.state.get item = m.state.get item := by
  obtain ⟨G, hinv, hu, hcl⟩ := h.inv
  have hn : evs.length < 2 ^ 64 := h.ok.ids
  obtain ⟨y1, e1, e2, e3, hg, hmo⟩ := saved_good hinv hn h.mem hdt0 (by omega)
  refine ⟨y1, e1, ?_⟩
  obtain ⟨f1, _⟩ := freshMem_eq hn hg (m.state.rebuilt id)
  obtain ⟨k1, k2, _, k4⟩ := stale_ckpt hg (ms' := y1.clock + dt) (by omega) (by omega) hn
    (m.state.rebuilt id) (str "post_fit") (by simp)
  unfold reindexCrash
  rw [e2]
  simp only
  unfold fitSteps
  rw [f1]
  have hres : ∀ item, (m.state.rebuilt id).get item = m.state.get item := by
    intro item
    rw [rebuilt_get hu]
    cases m.state.get item <;> rfl
  rcases Nat.lt_trichotomy j 5 with hlt | heq | hgt
  · obtain ⟨o2, t, g⟩ := crash_good hn (k1 j (by omega)) cut
    obtain ⟨m', h1, h2, _⟩ := load_good hn g
    exact ⟨m', _, h1, fun item => by rw [h2]⟩
  · subst heq
    obtain ⟨o2, t, g⟩ := crash_good hn (k4 _ rfl) cut
    obtain ⟨m', h1, h2, _⟩ := load_good hn g
    exact ⟨m', _, h1, fun item => by rw [h2, hres]⟩
  · obtain ⟨o2, t, g⟩ := crash_good hn (k2 j (by omega)) cut
    obtain ⟨m', h1, h2, _⟩ := load_good hn g
    exact ⟨m', _, h1, fun item => by rw [h2, hres]⟩

/-- In every collection: one insert of a new item since the last `save`, then a rebuild interrupted between the
replacement of CURRENT and the removal of the log — the collection cannot be opened any more. -/
theorem C87_window_cannot_open {s : Index} {ms : Nat} {evs : List Event} {y : Sys Index} {m : Mem Index}
    (h : Running s ms evs y m) (dt0 dt cut : Nat) (hdt0 : 0 < dt0) (hdt : 0 < dt)
    (hc : ms + (evs.map Event.dt).sum + dt0 + dt < 2 ^ 64) (hids : evs.length + 1 < 2 ^ 64)
    (ef : Nat) (row : Row) (hwf : (Call.insert ef row).WF m.state.vecLen)
    (hlen : (Call.insert ef row).payload.length ≤ 2 ^ 30) (hne : row.2.itemId ≠ []) (hnew : m.state.get row.2.itemId = none)
    (hroom : m.state.slots.length < m.state.cap) :
    ∃ y1 y2, step sem y (.checkpoint dt0) = some y1 ∧ step sem y1 (Call.insert ef row).event = some y2 ∧
      lookup y2 row.2.itemId = some row ∧ loadMem sem (reindexCrash id dt 5 cut y2).disk = none := by
  obtain ⟨G, hinv, hu, hcl⟩ := h.inv
  have hn : evs.length < 2 ^ 64 := h.ok.ids
  obtain ⟨y1, e1, e2, e3, hg, hmo⟩ := saved_good hinv hn h.mem hdt0 (by omega)
  have hdec := decode_encode m.state.vecLen (.insert ef row) hwf hlen
  have hcont : m.state.contains row.2.itemId = false := by rw [contains_eq, hnew]; rfl
  have hins : m.state.insertNd row = some ({ m.state with slots := m.state.slots ++ [some row] }, some m.state.slots.length) := by
    unfold Index.insertNd
    rw [if_neg (by rw [hcont]; decide), if_neg (by omega)]
  have hex : sem.exec m.state (Call.insert ef row).kind (Call.insert ef row).payload
      = some { m.state with slots := m.state.slots ++ [some row] } := by
    simp only [sem, hdec, Option.bind_some, Index.exec, hins, Option.map_some]
  have href : ¬ sem.refuse m.state (Call.insert ef row).kind (Call.insert ef row).payload = true := by
    simp only [sem, hdec, Index.refuses, hcont]; decide
  obtain ⟨g2, hst, hpend⟩ := one_pending hg hmo href (by omega) hex
  have hstep : step sem y1 (Call.insert ef row).event
      = some { y1 with disk := (opCall sem y1.disk m (Call.insert ef row).kind (Call.insert ef row).payload).1,
                       mem := some (opCall sem y1.disk m (Call.insert ef row).kind (Call.insert ef row).payload).2 } := by
    unfold Call.event step
    rw [e2]
  generalize opCall sem y1.disk m (Call.insert ef row).kind (Call.insert ef row).payload = oc at g2 hst hstep
  have hu2 := insertNd_uniq hu hins
  have hget2 : oc.2.state.get row.2.itemId = some row := by
    rw [hst]
    exact (get_some_iff hu2).2 ⟨hne, by simp, rfl⟩
  refine ⟨y1, _, e1, hstep, ?_, ?_⟩
  · unfold lookup
    simp only
    exact hget2
  · obtain ⟨f1, _⟩ := freshMem_eq hids g2 (oc.2.state.rebuilt id)
    unfold reindexCrash
    simp only
    unfold fitSteps
    simp only
    rw [f1]
    refine stale_ckpt_window g2 (ms' := y1.clock + dt) (by omega) hids (oc.2.state.rebuilt id) (str "post_fit") (by simp)
      (by omega) ?_ cut
    rw [hpend]
    have hvl : (oc.2.state.rebuilt id).vecLen = m.state.vecLen := by rw [hst]; rfl
    have hc2 : (oc.2.state.rebuilt id).contains row.2.itemId = true := by
      rw [contains_eq, rebuilt_get (by rw [hst]; exact hu2), hget2]; rfl
    simp only [replayAll, sem, hvl, hdec, Option.bind_some, Index.replay, Index.insertNd]
    rw [if_pos hc2]
    rfl

/-- A raised thread-count error does not reach the recovery directory: a restart finds the content from before. -/
theorem C87_broken_restart {s : Index} {ms : Nat} {evs : List Event} {y : Sys Index} {m : Mem Index}
    (h : Running s ms evs y m) (norm : Bytes → Bytes) (arg param : Option Int) (ht : threadsOk arg param = false) (dt cut : Nat)
    (hne : ∃ item, (lookup y item).isSome = true) :
    (reindex norm arg param dt y).2 = .broken ∧ (∀ item, lookup (reindex norm arg param dt y).1 item = none) ∧
    ∃ m' b, loadMem sem ((reindex norm arg param dt y).1.disk.crash cut) = some (m', b) ∧ m'.state = m.state := by
  obtain ⟨G, hinv, hu, hcl⟩ := h.inv
  have hcol : m.state.collect ≠ [] := by
    obtain ⟨item, hi⟩ := hne
    unfold lookup at hi
    rw [h.mem] at hi
    simp only at hi
    cases hg : m.state.get item with
    | none => rw [hg] at hi; cases hi
    | some r =>
      obtain ⟨h1, h2, h3⟩ := (get_some_iff hu).1 hg
      exact List.ne_nil_of_mem (mem_collect.2 ⟨h2, by rw [h3]; exact h1⟩)
  have hlen : ¬ m.state.slots.length = 0 := by
    intro e
    apply hcol
    rw [collect_eq, List.eq_nil_of_length_eq_zero e]; rfl
  have hre : reindex norm arg param dt y = ({ y with mem := none }, .broken) := by
    unfold reindex
    rw [h.mem]
    simp only
    rw [if_neg hlen, if_neg hcol, if_neg (by rw [ht]; decide)]
  rw [hre]
  refine ⟨rfl, fun item => rfl, ?_⟩
  obtain ⟨ms0, a, s0, os1, os2, tail, hg⟩ := inv_good hinv
  obtain ⟨o2, t, g⟩ := crash_good h.ok.ids hg cut
  obtain ⟨m', h1, h2, _⟩ := load_good h.ok.ids g
  exact ⟨m', _, h1, h2⟩

/-- After the raised error (the active RocksDB directory is gone), closing the collection and inserting again builds a new
index over the same recovery directory: the earlier records are gone for good. -/
theorem C87_broken_then_insert_loses {s : Index} {ms : Nat} {evs : List Event} {y : Sys Index} {m : Mem Index}
    (h : Running s ms evs y m) (norm : Bytes → Bytes) (arg param : Option Int) (ht : threadsOk arg param = false) (dt cut : Nat)
    (hne : ∃ item, (lookup y item).isSome = true) (dt1 : Nat) (hc : ClockOk ms evs dt1) (rows : List Row) :
    ∃ m' b, loadMem sem ((fitNew (reindex norm arg param dt y).1 dt1 { m.state with slots := rows.map some }).disk.crash cut)
        = some (m', b) ∧ m'.state.slots = rows.map some := by
  obtain ⟨G, hinv, hu, hcl⟩ := h.inv
  obtain ⟨hb, _, _⟩ := C87_broken_restart h norm arg param ht dt cut hne
  have hdisk : (reindex norm arg param dt y).1 = { y with mem := none } := by
    unfold reindex at hb ⊢
    rw [h.mem] at hb ⊢
    simp only at hb ⊢
    split at hb
    · cases hb
    · rename_i h0
      rw [if_neg h0]
      split at hb
      · cases hb
      · rename_i h1
        rw [if_neg h1]
        split at hb
        · cases hb
        · rename_i h2
          rw [if_neg h2]
  rw [hdisk]
  obtain ⟨ms0, a, s0, os1, os2, tail, hg⟩ := inv_good hinv
  obtain ⟨f1, _⟩ := freshMem_eq h.ok.ids hg { m.state with slots := rows.map some }
  obtain ⟨_, _, g, _⟩ := stale_ckpt hg (ms' := y.clock + dt1) (by have := hc.1; omega) (by have := hc.2; omega) h.ok.ids
    { m.state with slots := rows.map some } (str "post_fit") (by simp)
  unfold fitNew fitSteps
  simp only
  rw [f1]
  obtain ⟨o2, t, g'⟩ := crash_good h.ok.ids g cut
  obtain ⟨m', h1, h2, _⟩ := load_good h.ok.ids g'
  exact ⟨m', _, h1, by rw [h2]⟩

/-- The crash statement fails: save, insert, rebuild interrupted in the window. -/
theorem C87_crash_window_refuted : ¬ C87Crash := by
  intro h
  have hr := running_fit ⟨4, 5, []⟩ uniq_nil 7 (by decide)
  obtain ⟨y1, y2, h1, h2, h3, h4⟩ := C87_window_cannot_open hr 1 1 0 (by decide) (by decide) (by decide) (by decide) 10 rowA
    ⟨by decide, by decide, by decide⟩ (by decide) (by decide) (by decide) (by decide)
  have hrun : run sem (afterFit ⟨4, 5, []⟩ 7) [.checkpoint 1, (Call.insert 10 rowA).event] = some y2 := by
    simp only [run, h1, h2]
  cases hm : y2.mem with
  | none =>
    unfold lookup at h3
    rw [hm] at h3
    cases h3
  | some m =>
    obtain ⟨m', b, h5, _⟩ := h ⟨4, 5, []⟩ 7 [.checkpoint 1, (Call.insert 10 rowA).event] y2 m
      ⟨uniq_nil, by decide, clean_of_no_recover _ _ _ (by
        intro e he dt
        simp only [List.mem_cons, List.not_mem_nil, or_false] at he
        rcases he with rfl | rfl <;> simp [Call.event]), hrun, hm⟩ 1 5 0 (by unfold ClockOk; decide)
    rw [h4] at h5
    cases h5

/-- A case meeting the hypotheses: two records, one removed, one saved, one pending. -/
def reHist : List Event := [(Call.insert 10 rowB).event, .checkpoint 3, (Call.removeItem (str "b")).event]

set_option maxRecDepth 100000 in
example : ∃ y m, Running oneRow 7 reHist y m ∧ (lookup y (str "a")).isSome = true ∧
    (reindex id (some 4) none 1 y).2 = .rebuilt ∧ ClockOk 7 reHist 1 := by
  have hc : CleanRecoveries sem (afterFit oneRow 7) reHist = true := clean_of_no_recover _ _ _ (by
    intro e he dt
    simp only [reHist, List.mem_cons, List.not_mem_nil, or_false] at he
    rcases he with rfl | rfl | rfl <;> simp [Call.event])
  have hrun : (run sem (afterFit oneRow 7) reHist).map (fun y => (y.mem.map Mem.state, lookup y (str "a"), (reindex id (some 4) none 1 y).2))
      = some (some ⟨4, 5, [some rowA, none]⟩, some rowA, .rebuilt) := by decide +kernel
  cases hr : run sem (afterFit oneRow 7) reHist with
  | none => rw [hr] at hrun; cases hrun
  | some y =>
    rw [hr] at hrun
    simp only [Option.map_some, Option.some.injEq, Prod.mk.injEq] at hrun
    cases hm : y.mem with
    | none => rw [hm] at hrun; cases hrun.1
    | some m =>
      exact ⟨y, m, ⟨uniq_single _, by decide, hc, hr, hm⟩, by rw [hrun.2.1]; rfl, hrun.2.2, by unfold ClockOk; decide⟩

end Alaya.Py
