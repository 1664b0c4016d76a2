import Verif.Lemmas.ThreadReaderEnds

/-!
C97: reads through the thread-pool file reader.  Every read that was accepted is performed once and reported once, to the context it was
submitted for, with its own id and result; a buffer is not touched any more once its read was reported; `get_events` returns exactly the
number of events asked for as soon as that many reads are outstanding, and `close` always ends.
-/
namespace Alaya.ThreadReader

/-! ### Examples -/

def exRead (i : Nat) : Read := ⟨512 * i, 512, i, i⟩

/-- One worker, one context, two reads; the first is reported, the second is being read. -/
def exRun : List Ev :=
  [.open 1, .register 7, .submit 0 [exRead 0, exRead 1], .take 0 1, .pread 0 512, .active 0, .push 0, .wake 0, .poll 0 4 [0], .take 0 0]

def exTrace : List Obs := [.submitted 0 (exRead 0), .submitted 0 (exRead 1), .performed 0 (exRead 1) 512, .handed 0 ⟨1, 512⟩]

def exState : State := ⟨.opened, true, false, [], [.busy ⟨0, exRead 0⟩], [⟨7, [], true, true⟩], []⟩

example : run State.init exRun = some (some (exState, exTrace)) := by decide +kernel

/-- After the second report, with a call of `get_events` that waits for it. -/
def exGet : List Ev := exRun ++ [.get 0 1]

theorem good_of_run {es : List Ev} (hc : CarefulRun State.init es) {s : State} {t : List Obs} (h : run State.init es = some (some (s, t))) :
    Good s :=
  ⟨run_base Base.init h, (careful_run Base.init Refs.init hc).2 s t h,
    run_ind (P := Counts) (fun _ _ _ _ h ht => counts_step h ht) (fun k v hk => by simp [State.init] at hk) h⟩

/-! ### No undefined behaviour -/

/-- If contexts in use are registered, threads are deregistered only when nothing is going on for their context, and no other call runs
during `close`, then no context is used after it was destroyed, no read goes to a closed descriptor, and there is no race. -/
theorem C97_no_ub (es : List Ev) (hc : CarefulRun State.init es) : run State.init es ≠ some none :=
  (careful_run Base.init Refs.init hc).1

/-- Contexts given back by `close` alone: it is enough that the calls use registered contexts and that none runs during `close`. -/
theorem C97_close_only (es : List Ev) (hm : ∀ c, Ev.mark c ∉ es)
    (hc : ∀ (fs : List Ev) (e : Ev) (gs : List Ev), es = fs ++ e :: gs → ∀ s t, run State.init fs = some (some (s, t)) →
      (∀ c rs, e = .submit c rs → Live s c ∧ s.phase ≠ .closing) ∧ (∀ c n ps, e = .poll c n ps → Live s c) ∧
      (∀ c n, e = .get c n → Live s c) ∧ (e = .finish → ∀ c, ¬ Waiting s c)) :
    run State.init es ≠ some none := by
  have key : ∀ (gs fs : List Ev) (s : State) (t : List Obs), es = fs ++ gs → run State.init fs = some (some (s, t)) → CarefulRun s gs := by
    intro gs
    induction gs with
    | nil => intro fs s t _ _; trivial
    | cons e gs ih =>
      intro fs s t he hr
      obtain ⟨h1, h2, h3, h4⟩ := hc fs e gs he s t hr
      refine ⟨?_, ?_⟩
      · cases e with
        | submit c rs => exact h1 c rs rfl
        | poll c n ps => exact h2 c n ps rfl
        | get c n => exact h3 c n rfl
        | finish => exact h4 rfl
        | mark c => exact absurd (he ▸ by simp) (hm c)
        | _ => trivial
      · cases hs : step s e with
        | ok s' o => exact ih (fs ++ [e]) s' _ (by simp [he]) (run_append' hr (step_run hs rfl))
        | throw => exact ih (fs ++ [e]) s _ (by simp [he]) (run_append' (u := []) hr (by simp [run, hs]))
        | no => trivial
        | ub => trivial
  exact C97_no_ub es (key es [] State.init [] rfl rfl)

example : CarefulRun State.init exGet := by
  have live : ∀ s : State, s.ctxs[0]? = some ⟨7, [], true, true⟩ → Live s 0 := fun s h => ⟨_, h, rfl, rfl⟩
  have live' : ∀ s : State, s.ctxs[0]? = some ⟨7, [⟨1, 512⟩], true, true⟩ → Live s 0 := fun s h => ⟨_, h, rfl, rfl⟩
  refine ⟨trivial, trivial, ⟨live _ rfl, by decide⟩, trivial, trivial, trivial, trivial, trivial, live' _ rfl, trivial, live _ rfl, trivial⟩

/-! ### Every read once, every report once -/

/-- Nothing is performed that was not submitted, nothing reported that was not performed, nothing twice: whatever the callers do. -/
theorem C97_at_most_once (es : List Ev) (s : State) (t : List Obs) (h : run State.init es = some (some (s, t))) (c : Nat) :
    (∀ r, ((performedFor c t).map Prod.fst).count r ≤ (submittedTo c t).count r) ∧
    (∀ e, (handedTo c t).count e ≤ ((performedFor c t).map report).count e) := by
  refine ⟨fun r => ?_, fun e => ?_⟩
  · have := (run_todo Base.init h c r).1
    have h0 : State.todo State.init c r = 0 := rfl
    omega
  · have := (run_und Base.init h c e).1
    have h0 : State.undelivered State.init c e = 0 := rfl
    omega

theorem perm_of_count {α : Type} [BEq α] [LawfulBEq α] {l m : List α} (h : ∀ a, l.count a ≤ m.count a) (hl : m.length ≤ l.length) : l.Perm m := by
  induction l generalizing m with
  | nil => have : m = [] := List.length_eq_zero_iff.1 (by simpa using hl); subst this; exact .refl _
  | cons a l ih =>
    have ha : a ∈ m := by
      have := h a
      rw [List.count_cons_self] at this
      exact List.count_pos_iff.1 (by omega)
    refine List.Perm.trans (.cons a (ih (m := m.erase a) (fun b => ?_) ?_)) (List.perm_cons_erase ha).symm
    · have := h b
      rw [List.count_cons] at this
      rw [List.count_erase]
      by_cases hb : a = b
      · subst hb; simp at this ⊢; omega
      · have hb' : (a == b) = false := by simpa using hb
        have hb'' : (b == a) = false := by simpa using fun h => hb h.symm
        simp [hb'] at this ⊢; omega
    · rw [List.length_erase_of_mem ha]; simp at hl; omega

/-- When a context has been given as many events as reads were submitted for it, the events are the reports of exactly these reads, each
with the result of the read itself, all of them have been performed, and nothing is left. -/
theorem C97_complete (es : List Ev) (s : State) (t : List Obs) (h : run State.init es = some (some (s, t))) (c : Nat)
    (hn : (submittedTo c t).length ≤ (handedTo c t).length) :
    (handedTo c t).Perm ((performedFor c t).map report) ∧ ((performedFor c t).map Prod.fst).Perm (submittedTo c t) ∧
    (∀ j ∈ s.queue, j.c ≠ c) ∧ ∀ (w : Nat) (j : Job), s.workers[w]? = some (.busy j) → j.c ≠ c := by
  obtain ⟨h1, h2⟩ := C97_at_most_once es s t h c
  have len : ∀ {α : Type} [BEq α] [LawfulBEq α] (l m : List α), (∀ a, l.count a ≤ m.count a) → l.length ≤ m.length := by
    intro α _ _ l
    induction l with
    | nil => intro m _; simp
    | cons a l ih =>
      intro m hm
      have ha : a ∈ m := by
        have := hm a
        rw [List.count_cons_self] at this
        exact List.count_pos_iff.1 (by omega)
      have := ih (m.erase a) (fun b => by
        have := hm b
        rw [List.count_cons] at this
        rw [List.count_erase]
        by_cases hb : a = b
        · subst hb; simp at this ⊢; omega
        · have hb' : (a == b) = false := by simpa using hb
          simp [hb'] at this ⊢; omega)
      rw [List.length_erase_of_mem ha] at this
      have : 0 < m.length := List.length_pos_of_mem ha
      simp; omega
  have l1 := len _ _ h1
  have l2 := len _ _ h2
  rw [List.length_map] at l1 l2
  have p1 := perm_of_count h2 (by rw [List.length_map]; omega)
  have p2 := perm_of_count h1 (by rw [List.length_map]; omega)
  refine ⟨p1, p2, fun j hj hc => ?_, fun w j hw hc => ?_⟩
  · have := (run_todo Base.init h c j.read).1
    rw [p2.count_eq] at this
    have h0 : State.todo State.init c j.read = 0 := rfl
    have : 0 < s.queue.count ⟨c, j.read⟩ := List.count_pos_iff.2 (by cases j; subst hc; exact hj)
    unfold State.todo at *
    omega
  · have := (run_todo Base.init h c j.read).1
    rw [p2.count_eq] at this
    have h0 : State.todo State.init c j.read = 0 := rfl
    have := le_tot (Worker.reads c j.read) hw
    have hone : Worker.reads c j.read (.busy j) = 1 := by cases j; subst hc; simp [Worker.reads]
    unfold State.todo at *
    omega

example : ∃ s t, run State.init (exRun ++ [.pread 0 (-5), .active 0, .push 0, .wake 0, .poll 0 4 [0]]) = some (some (s, t)) ∧
    handedTo 0 t = [⟨1, 512⟩, ⟨0, -5⟩] ∧ submittedTo 0 t = [exRead 0, exRead 1] :=
  ⟨⟨.opened, true, false, [], [.idle], [⟨7, [], true, true⟩], []⟩, exTrace ++ [.performed 0 (exRead 0) (-5), .handed 0 ⟨0, -5⟩], by decide +kernel⟩

/-- As long as a context is live nothing is lost either: what was submitted and not performed waits or is being read; what was performed
and not handed out is on its way. -/
theorem C97_nothing_lost (es : List Ev) (s : State) (t : List Obs) (h : run State.init es = some (some (s, t))) (c : Nat) (hl : Live s c)
    (hq : ∀ j ∈ s.queue, j.c ≠ c) (hw : ∀ (w : Nat) (x : Worker), s.workers[w]? = some x → ¬ x.holds c) (hk : ¬ Waiting s c)
    (hcomp : ∀ x, s.ctxs[c]? = some x → x.completions = []) :
    ((performedFor c t).map Prod.fst).Perm (submittedTo c t) ∧ (handedTo c t).Perm ((performedFor c t).map report) := by
  refine ⟨List.perm_iff_count.2 (fun r => ?_), List.perm_iff_count.2 (fun e => ?_)⟩
  · have := (run_todo Base.init h c r).2 hl.kept
    have h0 : State.todo State.init c r = 0 := rfl
    have h1 : s.todo c r = 0 := by
      unfold State.todo
      have a : s.queue.count ⟨c, r⟩ = 0 := List.count_eq_zero.2 (fun hm => hq _ hm rfl)
      have b : tot (Worker.reads c r) s.workers = 0 := tot_zero _ (fun x hx => by
        obtain ⟨w, hw'⟩ := List.getElem?_of_mem hx
        have := hw w x hw'
        cases x with
        | busy j => exact if_neg (fun e => this (by rw [e]; rfl))
        | _ => rfl)
      omega
    omega
  · have := (run_und Base.init h c e).2 hl.kept
    have h0 : State.undelivered State.init c e = 0 := rfl
    have h1 : s.undelivered c e = 0 := by
      unfold State.undelivered
      have a : tot (Worker.reports c e) s.workers = 0 := tot_zero _ (fun x hx => by
        obtain ⟨w, hw'⟩ := List.getElem?_of_mem hx
        have := hw w x hw'
        cases x with
        | got j r => exact if_neg (fun e => this e.1)
        | push j r => exact if_neg (fun e => this e.1)
        | _ => rfl)
      have b : tot (Call.has c e) s.calls = 0 := tot_zero _ (fun v hv => by
        obtain ⟨k, hk'⟩ := List.getElem?_of_mem hv
        exact if_neg (fun e => hk ⟨k, v, hk', e.1, e.2⟩))
      obtain ⟨x, hx, _⟩ := hl
      rw [comp_of hx, hcomp x hx]
      simp; omega
    omega

/-! ### Buffers -/

/-- A report handed out belongs to a read that was performed with this result; if the reads of the context have different ids, no
worker will touch its buffer any more. -/
theorem C97_buffer (es : List Ev) (s : State) (t : List Obs) (h : run State.init es = some (some (s, t))) (c : Nat) (e : Event)
    (he : e ∈ handedTo c t) :
    (∃ r, (r, e.result) ∈ performedFor c t ∧ r ∈ submittedTo c t ∧ r.id = e.id) ∧
    (((submittedTo c t).map Read.id).Nodup → ∀ r ∈ submittedTo c t, r.id = e.id →
      (r, e.result) ∈ performedFor c t ∧ (⟨c, r⟩ ∉ s.queue) ∧ ∀ (w : Nat), s.workers[w]? ≠ some (.busy ⟨c, r⟩)) := by
  obtain ⟨h1, h2⟩ := C97_at_most_once es s t h c
  have hm : e ∈ (performedFor c t).map report := by
    have := h2 e
    have hp := List.count_pos_iff.2 he
    exact List.count_pos_iff.1 (by omega)
  obtain ⟨⟨r, x⟩, hr, rfl⟩ := List.mem_map.1 hm
  have hs : r ∈ submittedTo c t := by
    have := h1 r
    have hp : 0 < ((performedFor c t).map Prod.fst).count r := List.count_pos_iff.2 (List.mem_map.2 ⟨_, hr, rfl⟩)
    exact List.count_pos_iff.1 (by omega)
  refine ⟨⟨r, hr, hs, rfl⟩, fun hnd r' hr' hid => ?_⟩
  have heq : r' = r := by
    obtain ⟨i, hi⟩ := List.getElem?_of_mem hr'
    obtain ⟨j, hj⟩ := List.getElem?_of_mem hs
    have hi' : ((submittedTo c t).map Read.id)[i]? = some r.id := by rw [List.getElem?_map, hi]; simp [hid, report]
    have hj' : ((submittedTo c t).map Read.id)[j]? = some r.id := by rw [List.getElem?_map, hj]; rfl
    have : i = j := List.getElem?_inj (lt_of_some hi') hnd |>.1 (hi'.trans hj'.symm)
    subst this
    rw [hi] at hj; exact Option.some.inj hj
  subst heq
  have hone : (submittedTo c t).count r' ≤ 1 := by
    have hnd' : (submittedTo c t).Nodup := by
      generalize submittedTo c t = l at hnd
      induction l with
      | nil => exact List.nodup_nil
      | cons a l ih =>
        rw [List.map_cons, List.nodup_cons] at hnd
        exact List.nodup_cons.2 ⟨fun hm => hnd.1 (List.mem_map.2 ⟨a, hm, rfl⟩), ih hnd.2⟩
    exact List.nodup_iff_count.1 hnd' r'
  have htodo := (run_todo Base.init h c r').1
  have h0 : State.todo State.init c r' = 0 := rfl
  have hp : 0 < ((performedFor c t).map Prod.fst).count r' := List.count_pos_iff.2 (List.mem_map.2 ⟨_, hr, rfl⟩)
  have hz : s.todo c r' = 0 := by omega
  unfold State.todo at hz
  refine ⟨hr, fun hq => ?_, fun w hw => ?_⟩
  · have := List.count_pos_iff.2 hq; omega
  · have := le_tot (Worker.reads c r') hw
    have hone : Worker.reads c r' (.busy ⟨c, r'⟩) = 1 := by simp [Worker.reads]
    omega

/-! ### Calls that wait -/

/-- A call of `get_events` that has returned returned exactly the number of events asked for. -/
theorem C97_get_count (es : List Ev) (s : State) (t : List Obs) (h : run State.init es = some (some (s, t))) (k : Nat) (v : Call)
    (hv : s.calls[k]? = some v) (ho : v.over = true) : v.out.length = v.n :=
  (run_ind (P := Counts) (fun _ _ _ _ h ht => counts_step h ht) (fun k v hk => by simp [State.init] at hk) h k v hv).2 ho

/-- A call of `get_events` for no more events than reads are outstanding on its context returns, if no other call waits there. -/
theorem C97_get_ends (es : List Ev) (hc : CarefulRun State.init es) (s : State) (t : List Obs) (h : run State.init es = some (some (s, t)))
    (hp : s.phase = .opened) (k : Nat) (v : Call) (hv : s.calls[k]? = some v) (ho : v.over = false)
    (hk : ∀ (i : Nat) (u : Call), s.calls[i]? = some u → u.c = v.c → u.over = false → i = k)
    (hn : v.n + (handedTo v.c t).length ≤ (submittedTo v.c t).length) :
    ∃ fs s' t' v', (∀ e ∈ fs, Internal e) ∧ run s fs = some (some (s', t')) ∧ s'.calls[k]? = some v' ∧ v'.over = true ∧
      v'.out.length = v.n ∧ v'.c = v.c := by
  have hg := good_of_run hc h
  have hl := hg.refs.waiting v.c ⟨k, v, hv, rfl, ho⟩
  have hav := (run_avail Base.init h v.c).2 hl.kept
  have h0 : State.open_ State.init v.c = 0 := rfl
  have hpend : tot (Call.pend v.c) s.calls ≤ v.out.length := by
    have hset := tot_set (Call.pend v.c) { v with over := true } hv
    have hz : tot (Call.pend v.c) (s.calls.set k { v with over := true }) = 0 := tot_zero _ (fun u hu => by
      obtain ⟨i, hi⟩ := List.getElem?_of_mem hu
      refine if_neg (fun hcond => ?_)
      rcases get_set_cases hv hi with ⟨_, rfl⟩ | ⟨hne, hi⟩
      · simp at hcond
      · exact hne (hk i u hi hcond.1 hcond.2))
    have hvp : Call.pend v.c v ≤ v.out.length := by unfold Call.pend; split <;> omega
    omega
  unfold State.open_ at hav
  rw [show State.avail State.init v.c + tot (Call.pend v.c) State.init.calls = 0 from rfl] at hav
  obtain ⟨fs, s', t', v', f1, f2, f3, f4, f5, f6⟩ := get_ends hg hp hv ho (by omega)
  refine ⟨fs, s', t', v', f1, f2, f3, f4, ?_, f6⟩
  have hcnt := (run_ind (P := Counts) (fun _ _ _ _ h ht => counts_step h ht) hg.counts f2 k v' f3).2 f4
  omega

/-- However the actions follow one another: between two actions of callers only a bounded number of actions happens, apart from workers
that look at the empty queue. -/
theorem C97_bounded (s s' : State) (es : List Ev) (t : List Obs) (hi : ∀ e ∈ es, Internal e) (h : run s es = some (some (s', t))) :
    es.countP Productive ≤ 6 * s.queue.length + 5 * s.workers.length + (s.ctxs.map (fun x => x.completions.length)).sum + s.calls.length := by
  change _ ≤ 6 * s.queue.length + 5 * s.workers.length + tot (fun x : Ctx => x.completions.length) s.ctxs + s.calls.length
  have h1 := run_work hi h
  have h2 : tot Worker.weight s.workers ≤ 5 * s.workers.length := by
    generalize s.workers = l
    induction l with
    | nil => simp [tot_nil]
    | cons a l ih =>
      rw [tot_cons]
      have : a.weight ≤ 5 := by cases a <;> simp [Worker.weight]
      simp; omega
  have h3 : tot (fun v : Call => if v.over then 0 else 1) s.calls ≤ s.calls.length := by
    generalize s.calls = l
    induction l with
    | nil => simp [tot_nil]
    | cons a l ih =>
      rw [tot_cons]
      simp only [List.length_cons]
      split <;> omega
  unfold State.work at h1
  omega

/-- Asked for more events than reads are outstanding, a call waits until something is submitted. -/
theorem C97_get_waits (es : List Ev) (s : State) (t : List Obs) (h : run State.init es = some (some (s, t))) (k : Nat) (v : Call)
    (hv : s.calls[k]? = some v) (ho : v.over = false) (hl : Live s v.c)
    (hn : (submittedTo v.c t).length < v.n + (handedTo v.c t).length) (fs : List Ev) (hf : ∀ c rs, Ev.submit c rs ∉ fs) (s' : State) (t' : List Obs)
    (hr : run s fs = some (some (s', t'))) : ∃ v', s'.calls[k]? = some v' ∧ v'.over = false := by
  have hav := (run_avail Base.init h v.c).2 hl.kept
  have hvp := le_tot (Call.pend v.c) hv
  have hvp' : Call.pend v.c v = v.out.length := by unfold Call.pend; simp [ho]
  unfold State.open_ at hav
  rw [show State.avail State.init v.c + tot (Call.pend v.c) State.init.calls = 0 from rfl] at hav
  obtain ⟨_, v', h1, h2, _⟩ := starved_run (k := k) ⟨run_base Base.init h, v, hv, ho, by omega⟩ hf hr
  exact ⟨v', h1, h2⟩

/-! ### Opening and closing -/

/-- `close` ends; then no thread runs, nothing is queued, the descriptor is closed and no context is left; submissions are refused until
the next `open`. -/
theorem C97_close (es : List Ev) (hc : CarefulRun State.init es) (s : State) (t : List Obs) (h : run State.init es = some (some (s, t)))
    (hp : s.phase = .closing) :
    ∃ fs s' t', (∀ e ∈ fs, Internal e) ∧ run s (fs ++ [.finish]) = some (some (s', t')) ∧ s'.phase = .closed := by
  obtain ⟨fs, s1, t1, f1, f2, f3, f4, _⟩ := close_ends (good_of_run hc h) hp
  have hs : step s1 .finish = .ok { s1 with phase := .closed, fd := false, queue := [], workers := [], ctxs := s1.ctxs.map (fun x => { x with active := false, alive := false, completions := [] }) } [] := by
    have : s1.workers.all (· == .gone) = true := by simpa using f4
    simp only [step, State.finish, f3, this, and_self, if_true]
  exact ⟨fs, _, _, f1, run_append' f2 (step_run hs rfl), rfl⟩

/-- The state `close` leaves. -/
theorem C97_closed (s s' : State) (o : List Obs) (h : step s .finish = .ok s' o) :
    s'.phase = .closed ∧ s'.fd = false ∧ s'.queue = [] ∧ s'.workers = [] ∧ (∀ c, ¬ Live s' c) ∧
    (∀ c rs, c < s'.ctxs.length → step s' (.submit c rs) = .throw) := by
  cases trans_of_step h with
  | finish hp hg =>
    refine ⟨rfl, rfl, rfl, rfl, fun c ⟨x, hx, ha, _⟩ => ?_, fun c rs hc => ?_⟩
    · simp only [List.getElem?_map] at hx
      cases hy : s.ctxs[c]? with
      | none => rw [hy] at hx; cases hx
      | some y => rw [hy] at hx; cases hx; cases ha
    · have hc' : ¬ ¬ c < (s.ctxs.map (fun x => ({ x with active := false, alive := false, completions := [] } : Ctx))).length := fun h => h hc
      simp only [step, State.submit, if_neg hc']

/-- No read is performed while the reader is closed. -/
theorem C97_no_read_closed (es : List Ev) (s : State) (t : List Obs) (h : run State.init es = some (some (s, t))) (hp : s.phase = .closed)
    (w : Nat) (r : Int) : step s (.pread w r) = .no := by
  have := ((run_base Base.init h).closed hp).1
  simp [step, State.pread, this]

/-- A thread has at most one context; `register_thread` refuses a second one. -/
theorem C97_register (s : State) (t c : Nat) (x : Ctx) (hx : s.ctxs[c]? = some x) (ha : x.alive = true) (ho : x.owner = t) :
    step s (.register t) = .throw := by
  have : s.ctxs.any (fun x => x.alive && x.owner == t) = true := List.any_eq_true.2 ⟨x, List.mem_of_getElem? hx, by simp [ha, ho]⟩
  simp only [step, State.register, this, if_true]

/-- A batch of more than 1024 reads is refused as a whole, a smaller one accepted as a whole. -/
theorem C97_batch (s : State) (c : Nat) (rs : List Read) (hc : c < s.ctxs.length) (hp : s.phase = .opened) :
    (1024 < rs.length → step s (.submit c rs) = .throw) ∧
    (rs.length ≤ 1024 → ∃ s', step s (.submit c rs) = .ok s' (rs.map (Obs.submitted c))) := by
  have hc' : ¬ ¬ c < s.ctxs.length := fun h => h hc
  refine ⟨fun hl => ?_, fun hl => ?_⟩
  · simp only [step, State.submit, if_neg hc', hp]
    rw [if_pos (by unfold maxEvents; omega)]
  · refine ⟨{ s with queue := s.queue ++ rs.map (Job.mk c) }, ?_⟩
    simp only [step, State.submit, if_neg hc', hp]
    rw [if_neg (by unfold maxEvents; omega)]

/-- The number of workers is at least 1 and at most 128, whatever `ALAYA_LASER_IO_THREADS` says; a number from 1 to 128 is taken as it is. -/
theorem C97_worker_count (hardware : Nat) (env : Option (Option Nat)) :
    1 ≤ workerCount hardware env ∧ workerCount hardware env ≤ 128 ∧
    (∀ n, env = some (some n) → 1 ≤ n → n ≤ 128 → workerCount hardware env = n) := by
  refine ⟨?_, ?_, ?_⟩
  · unfold workerCount maxDepth
    simp only
    split
    · split
      · split <;> omega
      · omega
    · split <;> omega
  · unfold workerCount maxDepth
    simp only
    split
    · split <;> omega
    · omega
  · rintro n rfl h1 h2
    unfold workerCount maxDepth
    simp only
    rw [if_neg (by omega)]
    omega

/-- The hypotheses of `C97_get_ends` and `C97_get_waits` can be met: one read outstanding, a call for one event or for two. -/
example : ∃ s t, run State.init exGet = some (some (s, t)) ∧ s.phase = .opened ∧ s.calls = [⟨0, 1, [], false⟩] ∧
    1 + (handedTo 0 t).length ≤ (submittedTo 0 t).length := ⟨_, exTrace, by rfl, by decide, by decide, by decide⟩

example : ∃ s t, run State.init (exRun ++ [.get 0 2]) = some (some (s, t)) ∧ s.calls = [⟨0, 2, [], false⟩] ∧ Live s 0 ∧
    (submittedTo 0 t).length < 2 + (handedTo 0 t).length :=
  ⟨_, exTrace, by rfl, by decide, ⟨⟨7, [], true, true⟩, rfl, rfl, rfl⟩, by decide⟩

end Alaya.ThreadReader
