import Verif.Lemmas.ThreadReader

/-! Executions of the thread-pool reader. -/
namespace Alaya.ThreadReader

/-! ### No read and no event is lost or made up -/

theorem kept_of_set {s : State} {c d : Nat} {x y : Ctx} (h : s.ctxs[c]? = some x) (hy : y.alive = true → y.active = true → x.alive = true ∧ x.active = true)
    (hk : Kept (s.putC c y) d) : Kept s d := by
  intro z hz
  by_cases e : d = c
  · subst e
    rw [h] at hz; cases hz
    have := hk y (by unfold State.putC; exact List.getElem?_set_self (lt_of_some h))
    exact hy this.1 this.2
  · exact hk z (by unfold State.putC; simp only; rw [List.getElem?_set_ne (Ne.symm e)]; exact hz)

theorem kept_back {s s' : State} {e : Ev} {o : List Obs} (h : Trans s e s' o) (c : Nat) (hk : Kept s' c) : Kept s c := by
  cases h with
  | mark hx ha hc => exact kept_of_set hx (fun _ h => absurd h (by simp)) hk
  | free hx ha hc => exact kept_of_set hx (fun h _ => absurd h (by simp)) hk
  | poll hx ha _ _ => exact kept_of_set hx (by exact fun h1 h2 => ⟨h1, h2⟩) hk
  | collect _ _ _ hx ha _ => exact kept_of_set (s := s) hx (by exact fun h1 h2 => ⟨h1, h2⟩) hk
  | push _ hx ha => exact kept_of_set (s := s) hx (by exact fun h1 h2 => ⟨h1, h2⟩) hk
  | register _ =>
    intro x hx
    refine hk x ?_
    simp only
    rw [List.getElem?_append_left (lt_of_some hx)]; exact hx
  | finish _ _ =>
    intro x hx
    have := hk { x with active := false, alive := false, completions := [] } (by simp only; rw [List.getElem?_map, hx]; rfl)
    simp at this
  | _ => exact hk

/-- What the phases of the reader say about its threads. -/
structure Base (s : State) : Prop where
  closed : s.phase = .closed → s.workers = [] ∧ s.queue = []
  opened : s.phase = .opened → s.stop = false ∧ 0 < s.workers.length ∧ s.fd = true ∧ ∀ (w : Nat), s.workers[w]? ≠ some .gone
  closing : s.phase = .closing → s.stop = true
  fd : s.workers ≠ [] → s.fd = true
  bound : ∀ j ∈ s.queue, j.c < s.ctxs.length

theorem Base.init : Base State.init :=
  ⟨fun _ => ⟨rfl, rfl⟩, fun h => (by simp [State.init] at h), fun h => (by simp [State.init] at h), fun h => (by simp [State.init] at h), fun j h => (by simp [State.init] at h)⟩

theorem set_ne_nil {α : Type} {l : List α} {i : Nat} {x : α} (h : l.set i x ≠ []) : l ≠ [] := by
  intro e; rw [e] at h; exact h rfl

theorem Base.putW {s : State} (h : Base s) {w : Nat} {x : Worker} (y : Worker) (hx : s.workers[w]? = some x)
    (hy : y = .gone → s.stop = true) : Base (s.putW w y) := by
  refine ⟨?_, ?_, h.closing, fun hn => h.fd (set_ne_nil hn), h.bound⟩
  · intro hp
    obtain ⟨h1, h2⟩ := h.closed hp
    rw [h1] at hx; cases hx
  · intro hp
    obtain ⟨h1, h2, h3, h4⟩ := h.opened hp
    refine ⟨h1, by unfold State.putW; simpa using h2, h3, ?_⟩
    intro u hu
    rcases get_set_cases hx hu with ⟨rfl, rfl⟩ | ⟨_, hu⟩
    · exact absurd (h1.symm.trans (hy rfl)) (by simp)
    · exact h4 u hu

theorem Base.step {s s' : State} {e : Ev} {o : List Obs} (hb : Base s) (h : Trans s e s' o) : Base s' := by
  cases h with
  | «open» hp hn =>
    rename_i n
    refine ⟨fun h => (by simp at h), fun _ => ⟨rfl, by simpa using hn, rfl, ?_⟩, fun h => (by simp at h), fun _ => rfl, hb.bound⟩
    intro w hw
    simp only [List.getElem?_replicate] at hw
    split at hw <;> simp at hw
  | submit hc hp _ =>
    refine ⟨fun h => (by simp only at h; rw [hp] at h; cases h), hb.opened, hb.closing, hb.fd, ?_⟩
    intro j hj
    simp only [List.mem_append, List.mem_map] at hj
    rcases hj with hj | ⟨r, _, rfl⟩
    · exact hb.bound j hj
    · exact hc
  | stop hp => exact ⟨fun h => (by simp at h), fun h => (by simp at h), fun _ => rfl, hb.fd, hb.bound⟩
  | finish _ _ =>
    exact ⟨fun _ => ⟨rfl, rfl⟩, fun h => (by simp at h), fun h => (by simp at h), fun h => absurd rfl h, fun j h => (by simp at h)⟩
  | take hw hq =>
    rename_i w p j
    have := hb.putW (.busy j) hw (fun h => by cases h)
    refine ⟨fun hp => ?_, this.opened, this.closing, this.fd, fun j hj => hb.bound j (List.mem_of_mem_eraseIdx hj)⟩
    have hp' : s.phase = .closed := hp
    rw [(hb.closed hp').1] at hw; cases hw
  | miss hw => exact hb.putW _ hw (fun h => by cases h)
  | look hw =>
    refine hb.putW _ hw (fun h => ?_)
    split at h
    · assumption
    · cases h
  | pread hw _ => exact hb.putW _ hw (fun h => by cases h)
  | active hw _ _ => exact hb.putW _ hw (fun h => by split at h <;> cases h)
  | push hw _ _ =>
    rename_i w j r x _ _
    have := hb.putW (.wake j.c) hw (fun h => by cases h)
    exact ⟨this.closed, this.opened, this.closing, this.fd, by simpa [State.putC, State.putW] using hb.bound⟩
  | register _ =>
    exact ⟨hb.closed, hb.opened, hb.closing, hb.fd, fun j hj => by
      have := hb.bound j hj; simp only [List.length_append]; omega⟩
  | wake hw _ _ => exact hb.putW _ hw (fun h => by cases h)
  | _ => exact ⟨hb.closed, hb.opened, hb.closing, hb.fd, by simpa [State.putC, State.putK] using hb.bound⟩

theorem todo_putW {s : State} {w : Nat} {x : Worker} (y : Worker) (h : s.workers[w]? = some x) (c : Nat) (r : Read) :
    (s.putW w y).todo c r + x.reads c r = s.todo c r + y.reads c r := by
  unfold State.todo State.putW
  have := tot_set (Worker.reads c r) y h
  simp only; omega

theorem step_todo {s s' : State} {e : Ev} {o : List Obs} (hb : Base s) (h : Trans s e s' o) (c : Nat) (r : Read) :
    s'.todo c r + ((performedFor c o).map Prod.fst).count r ≤ (submittedTo c o).count r + s.todo c r ∧
    (Kept s' c → s'.todo c r + ((performedFor c o).map Prod.fst).count r = (submittedTo c o).count r + s.todo c r) := by
  cases h with
  | «open» hp hn =>
    rename_i n
    have h1 : tot (Worker.reads c r) (List.replicate n Worker.idle) = 0 := tot_zero _ (fun x hx => by
      rw [List.eq_of_mem_replicate hx]; rfl)
    have h2 := (hb.closed hp).1
    unfold State.todo
    simp [performedFor, submittedTo, h1, h2, tot_nil]
  | submit hc _ _ =>
    rw [performedFor_submitted, submittedTo_submitted]
    unfold State.todo
    simp only [List.count_append, count_jobs]
    split <;> simp <;> omega
  | poll hx ha _ _ =>
    rw [performedFor_handed, submittedTo_handed]
    unfold State.todo State.putC; simp
  | ret hv _ _ =>
    rw [performedFor_handed, submittedTo_handed]
    unfold State.todo State.putK; simp
  | finish _ hg =>
    have h1 : tot (Worker.reads c r) s.workers = 0 := tot_zero _ (fun x hx => by rw [hg x hx]; rfl)
    refine ⟨by simp [performedFor, submittedTo, State.todo, tot_nil], fun hk => ?_⟩
    have h2 : s.queue.count ⟨c, r⟩ = 0 := by
      rw [List.count_eq_zero]
      intro hm
      have hc := hb.bound _ hm
      have := hk { s.ctxs[c] with active := false, alive := false, completions := [] } (by
        simp only; rw [List.getElem?_map, List.getElem?_eq_getElem hc]; rfl)
      simp at this
    simp [performedFor, submittedTo, State.todo, tot_nil, h1, h2]
  | take hw hq =>
    rename_i w p j
    have h1 := tot_set (Worker.reads c r) (.busy j) hw
    have h2 := count_eraseIdx' ⟨c, r⟩ hq
    unfold State.todo State.putW
    simp only [Worker.reads, performedFor, submittedTo, List.filterMap_nil, List.map_nil, List.count_nil] at h1 ⊢
    by_cases hj : j = ⟨c, r⟩
    · simp only [hj, if_true, beq_self_eq_true] at *; omega
    · have hj' : (j == ⟨c, r⟩) = false := by simpa using hj
      simp only [hj, if_false, hj', Bool.false_eq_true] at *; omega
  | pread hw hf =>
    rename_i w j x
    have h1 := todo_putW (.got j x) hw c r
    simp only [Worker.reads] at h1
    simp only [performedFor, submittedTo, List.filterMap_cons, List.filterMap_nil]
    by_cases hc : j.c = c
    · by_cases hr : j.read = r
      · have : j = ⟨c, r⟩ := by cases j; simp_all
        simp only [this, if_true, List.map_cons, List.map_nil, List.count_cons, List.count_nil, beq_self_eq_true] at *; omega
      · have : j ≠ ⟨c, r⟩ := by intro e; rw [e] at hr; exact hr rfl
        have hr' : (j.read == r) = false := by simpa using hr
        simp only [hc, if_true, this, if_false, List.map_cons, List.map_nil, List.count_cons, List.count_nil, hr', Bool.false_eq_true] at *; omega
    · have : j ≠ ⟨c, r⟩ := by intro e; rw [e] at hc; exact hc rfl
      simp only [hc, if_false, this, List.map_nil, List.count_nil] at *; omega
  | miss hw =>
    have h1 := todo_putW .miss hw c r
    simp only [Worker.reads] at h1
    simp [performedFor, submittedTo]; omega
  | look hw =>
    have h1 := todo_putW (if s.stop then .gone else .idle) hw c r
    have : Worker.reads c r (if s.stop then .gone else .idle) = 0 := by split <;> rfl
    rw [this] at h1
    simp only [Worker.reads] at h1
    simp [performedFor, submittedTo]; omega
  | active hw hx ha =>
    rename_i w j x y
    have h1 := todo_putW (if y.active then .push j x else .idle) hw c r
    have : Worker.reads c r (if y.active then .push j x else .idle) = 0 := by split <;> rfl
    rw [this] at h1
    simp only [Worker.reads] at h1
    simp [performedFor, submittedTo]; omega
  | push hw hx ha =>
    rename_i w j x y
    have h1 := todo_putW (.wake j.c) hw c r
    simp only [Worker.reads] at h1
    unfold State.todo State.putW at h1
    unfold State.todo State.putC State.putW
    simp [performedFor, submittedTo] at *; omega
  | wake hw hx ha =>
    have h1 := todo_putW .idle hw c r
    simp only [Worker.reads] at h1
    simp [performedFor, submittedTo]; omega
  | _ => simp [performedFor, submittedTo, State.todo, State.putC, State.putK]

theorem und_putW {s : State} {w : Nat} {x : Worker} (y : Worker) (h : s.workers[w]? = some x) (c : Nat) (e : Event) :
    (s.putW w y).undelivered c e + x.reports c e = s.undelivered c e + y.reports c e := by
  have := tot_set (Worker.reports c e) y h
  unfold State.undelivered State.putW State.comp
  simp only; omega

theorem und_putC {s : State} {d : Nat} {x : Ctx} (y : Ctx) (h : s.ctxs[d]? = some x) (c : Nat) (e : Event) :
    (s.putC d y).undelivered c e + (if c = d then x.completions.count e else 0) =
    s.undelivered c e + (if c = d then y.completions.count e else 0) := by
  unfold State.undelivered
  rw [comp_putC h]
  by_cases hc : c = d
  · subst hc
    simp only [if_true, State.putC]
    rw [comp_of h]; omega
  · simp only [hc, if_false, State.putC]

theorem und_putK {s : State} {k : Nat} {v : Call} (y : Call) (h : s.calls[k]? = some v) (c : Nat) (e : Event) :
    (s.putK k y).undelivered c e + v.has c e = s.undelivered c e + y.has c e := by
  have := tot_set (Call.has c e) y h
  unfold State.undelivered State.putK State.comp
  simp only; omega

theorem step_und {s s' : State} {ev : Ev} {o : List Obs} (hb : Base s) (h : Trans s ev s' o) (c : Nat) (e : Event) :
    s'.undelivered c e + (handedTo c o).count e ≤ ((performedFor c o).map report).count e + s.undelivered c e ∧
    (Kept s' c → s'.undelivered c e + (handedTo c o).count e = ((performedFor c o).map report).count e + s.undelivered c e) := by
  cases h with
  | «open» hp hn =>
    rename_i n
    have h1 : tot (Worker.reports c e) (List.replicate n Worker.idle) = 0 := tot_zero _ (fun x hx => by
      rw [List.eq_of_mem_replicate hx]; rfl)
    have h2 := (hb.closed hp).1
    unfold State.undelivered State.comp
    simp [performedFor, handedTo, h1, h2, tot_nil]
  | register _ =>
    rename_i t _
    have : State.comp { s with ctxs := s.ctxs ++ [⟨t, [], true, true⟩] } c = s.comp c := by
      unfold State.comp
      simp only
      by_cases hc : c < s.ctxs.length
      · rw [List.getElem?_append_left hc]
      · rw [List.getElem?_append_right (by omega), List.getElem?_eq_none (by omega : s.ctxs.length ≤ c)]
        by_cases h0 : c - s.ctxs.length = 0
        · rw [h0]; rfl
        · rw [List.getElem?_eq_none (by simp; omega)]
    simp only [State.undelivered, this, performedFor, handedTo, List.filterMap_nil, List.map_nil, List.count_nil]
    omega
  | mark hx ha1 ha2 =>
    rename_i d x
    have := und_putC { x with active := false } hx c e
    simp only [performedFor, handedTo, List.filterMap_nil, List.map_nil, List.count_nil] at *
    omega
  | free hx ha1 ha2 =>
    rename_i d x
    have := und_putC { x with alive := false, completions := [] } hx c e
    simp only [performedFor, handedTo, List.filterMap_nil, List.map_nil, List.count_nil] at *
    refine ⟨by split at this <;> omega, fun hk => ?_⟩
    by_cases hc : c = d
    · subst hc
      have := hk { x with alive := false, completions := [] } (by unfold State.putC; exact List.getElem?_set_self (lt_of_some hx))
      simp at this
    · simp only [hc, if_false] at this; omega
  | submit hc _ _ =>
    rw [performedFor_submitted, handedTo_submitted]
    simp [State.undelivered, State.comp]
  | poll hx ha hl ht =>
    rename_i d m ps x o rest
    rw [performedFor_handed, handedTo_handed]
    have h1 := und_putC { x with completions := rest } hx c e
    have h2 := takeAll_count e ht
    simp only [List.map_nil, List.count_nil]
    by_cases hc : c = d
    · subst hc; simp only [if_true] at *; omega
    · have hc' : ¬ d = c := fun h => hc h.symm
      simp only [hc, hc', if_false, List.count_nil] at *; omega
  | get _ =>
    simp [State.undelivered, State.comp, performedFor, handedTo, tot_append, tot_cons, tot_nil, Call.has]
  | collect hv ho hn hx ha he =>
    rename_i k p v x e'
    have h1 := und_putC { x with completions := x.completions.eraseIdx p } hx c e
    have h2 := count_eraseIdx' e he
    have h3 := und_putK (s := s.putC v.c { x with completions := x.completions.eraseIdx p }) { v with out := v.out ++ [e'] } hv c e
    simp only [performedFor, handedTo, List.filterMap_nil, List.map_nil, List.count_nil]
    have h4 : Call.has c e { v with out := v.out ++ [e'] } = v.has c e + if v.c = c then (if e' == e then 1 else 0) else 0 := by
      unfold Call.has
      simp only [ho, and_true, List.count_append, List.count_cons, List.count_nil]
      split <;> simp
    rw [h4] at h3
    by_cases hc : v.c = c
    · subst hc
      simp only [if_true] at h1 h2 h3; omega
    · have hc' : ¬ c = v.c := fun h => hc h.symm
      simp only [hc, hc', if_false] at h1 h2 h3; omega
  | ret hv ho hn =>
    rename_i k v
    rw [performedFor_handed, handedTo_handed]
    have h3 := und_putK { v with over := true } hv c e
    simp only [Call.has, ho, and_true, Bool.true_eq_false, and_false, if_false, Nat.add_zero] at h3
    simp only [List.map_nil, List.count_nil]
    by_cases hc : v.c = c
    · simp only [hc, if_true] at *; omega
    · simp only [hc, if_false, List.count_nil] at *; omega
  | stop _ => simp [State.undelivered, State.comp, performedFor, handedTo]
  | finish _ hg =>
    have h1 : tot (Worker.reports c e) s.workers = 0 := tot_zero _ (fun x hx => by rw [hg x hx]; rfl)
    simp only [performedFor, handedTo, List.filterMap_nil, List.map_nil, List.count_nil, State.undelivered, State.comp, h1, tot_nil,
      List.getElem?_map]
    cases hc : s.ctxs[c]? with
    | none => simp
    | some x =>
      refine ⟨by simp, fun hk => ?_⟩
      have := hk { x with active := false, alive := false, completions := [] } (by simp only; rw [List.getElem?_map, hc]; rfl)
      simp at this
  | take hw hq =>
    rename_i w p j
    have := und_putW (.busy j) hw c e
    simp only [Worker.reports] at this
    simp only [performedFor, handedTo, List.filterMap_nil, List.map_nil, List.count_nil]
    change (s.putW w (.busy j)).undelivered c e + 0 ≤ 0 + s.undelivered c e ∧
      (_ → (s.putW w (.busy j)).undelivered c e + 0 = 0 + s.undelivered c e)
    omega
  | miss hw =>
    have := und_putW .miss hw c e
    simp only [Worker.reports] at this
    simp [performedFor, handedTo]; omega
  | look hw =>
    have h1 := und_putW (if s.stop then .gone else .idle) hw c e
    have : Worker.reports c e (if s.stop then .gone else .idle) = 0 := by split <;> rfl
    rw [this] at h1
    simp only [Worker.reports] at h1
    simp [performedFor, handedTo]; omega
  | pread hw hf =>
    rename_i w j x
    have h1 := und_putW (.got j x) hw c e
    simp only [Worker.reports] at h1
    simp only [performedFor, handedTo, List.filterMap_cons, List.filterMap_nil]
    by_cases hc : j.c = c
    · by_cases hr : report (j.read, x) = e
      · simp only [hc, hr, and_self, if_true, List.map_cons, List.map_nil, List.count_cons, List.count_nil, beq_self_eq_true] at *; omega
      · have hr' : (report (j.read, x) == e) = false := by simpa using hr
        simp only [hc, hr, and_false, if_true, if_false, List.map_cons, List.map_nil, List.count_cons, List.count_nil, hr',
          Bool.false_eq_true] at *; omega
    · simp only [hc, if_false, false_and, List.map_nil, List.count_nil] at *; omega
  | active hw hx ha =>
    rename_i w j r x
    have h1 := und_putW (if x.active then .push j r else .idle) hw c e
    simp only [performedFor, handedTo, List.filterMap_nil, List.map_nil, List.count_nil]
    cases hact : x.active with
    | true =>
      simp only [hact, if_true, Worker.reports] at h1 ⊢
      omega
    | false =>
      simp only [hact, if_false, Bool.false_eq_true, Worker.reports] at h1 ⊢
      refine ⟨by omega, fun hk => ?_⟩
      by_cases hc : j.c = c
      · subst hc
        have := (hk x hx).2
        rw [hact] at this; cases this
      · simp only [hc, false_and, if_false] at h1; omega
  | push hw hx ha =>
    rename_i w j r x
    have h1 := und_putC { x with completions := x.completions ++ [⟨j.read.id, r⟩] } hx c e
    have h2 := und_putW (s := s.putC j.c { x with completions := x.completions ++ [⟨j.read.id, r⟩] }) (.wake j.c) hw c e
    simp only [performedFor, handedTo, List.filterMap_nil, List.map_nil, List.count_nil]
    simp only [Worker.reports, report] at h2
    by_cases hc : j.c = c
    · subst hc
      simp only [if_true, true_and, List.count_append, List.count_cons, List.count_nil, beq_iff_eq] at *
      omega
    · have hc' : ¬ c = j.c := fun h => hc h.symm
      simp only [hc, hc', false_and, if_false] at *; omega
  | wake hw hx ha =>
    have := und_putW .idle hw c e
    simp only [Worker.reports] at this
    simp [performedFor, handedTo]; omega

/-! ### Executions -/

theorem run_cons {s s'' : State} {e : Ev} {es : List Ev} {t : List Obs} (h : run s (e :: es) = some (some (s'', t))) :
    (∃ s' o t', step s e = .ok s' o ∧ run s' es = some (some (s'', t')) ∧ t = o ++ t') ∨ (step s e = .throw ∧ run s es = some (some (s'', t))) := by
  unfold run at h
  split at h
  · cases h
  · cases h
  · rename_i hs; exact .inr ⟨hs, h⟩
  · rename_i s' o hs
    split at h
    · cases h
    · cases h
    · rename_i s3 o' hr
      simp only [Option.some.injEq, Prod.mk.injEq] at h
      obtain ⟨rfl, rfl⟩ := h
      exact .inl ⟨s', o, o', hs, hr, rfl⟩

/-- What every action keeps holds at the end. -/
theorem run_ind {P : State → Prop} (hP : ∀ s e s' o, P s → Trans s e s' o → P s') {s s' : State} {es : List Ev} {t : List Obs}
    (h0 : P s) (h : run s es = some (some (s', t))) : P s' := by
  induction es generalizing s t with
  | nil => simp [run] at h; obtain ⟨rfl, _⟩ := h; exact h0
  | cons e es ih =>
    rcases run_cons h with ⟨s1, o, t', hs, hr, rfl⟩ | ⟨hs, hr⟩
    · exact ih (hP _ _ _ _ h0 (trans_of_step hs)) hr
    · exact ih h0 hr

theorem run_base {s s' : State} {es : List Ev} {t : List Obs} (h0 : Base s) (h : run s es = some (some (s', t))) : Base s' :=
  run_ind (fun _ _ _ _ hb ht => hb.step ht) h0 h

theorem run_kept {s s' : State} {es : List Ev} {t : List Obs} (c : Nat) (h : run s es = some (some (s', t))) (hk : Kept s' c) : Kept s c := by
  have : ¬ Kept s c → ¬ Kept s' c := fun hn => run_ind (P := fun s => ¬ Kept s c) (fun _ _ _ _ hn ht hk => hn (kept_back ht c hk)) hn h
  exact Classical.byContradiction (fun hn => this hn hk)

theorem run_todo {s s' : State} {es : List Ev} {t : List Obs} (hb : Base s) (h : run s es = some (some (s', t))) (c : Nat) (r : Read) :
    s'.todo c r + ((performedFor c t).map Prod.fst).count r ≤ (submittedTo c t).count r + s.todo c r ∧
    (Kept s' c → s'.todo c r + ((performedFor c t).map Prod.fst).count r = (submittedTo c t).count r + s.todo c r) := by
  induction es generalizing s t with
  | nil => simp [run] at h; obtain ⟨rfl, rfl⟩ := h; simp [performedFor, submittedTo]
  | cons e es ih =>
    rcases run_cons h with ⟨s1, o, t', hs, hr, rfl⟩ | ⟨hs, hr⟩
    · have ht := trans_of_step hs
      have h1 := ih (hb.step ht) hr
      have h2 := step_todo hb ht c r
      rw [performedFor_append, submittedTo_append, List.map_append, List.count_append, List.count_append]
      refine ⟨by omega, fun hk => ?_⟩
      have := h1.2 hk
      have := h2.2 (run_kept c hr hk)
      omega
    · exact ih hb hr

theorem run_und {s s' : State} {es : List Ev} {t : List Obs} (hb : Base s) (h : run s es = some (some (s', t))) (c : Nat) (e : Event) :
    s'.undelivered c e + (handedTo c t).count e ≤ ((performedFor c t).map report).count e + s.undelivered c e ∧
    (Kept s' c → s'.undelivered c e + (handedTo c t).count e = ((performedFor c t).map report).count e + s.undelivered c e) := by
  induction es generalizing s t with
  | nil => simp [run] at h; obtain ⟨rfl, rfl⟩ := h; simp [performedFor, handedTo]
  | cons ev es ih =>
    rcases run_cons h with ⟨s1, o, t', hs, hr, rfl⟩ | ⟨hs, hr⟩
    · have ht := trans_of_step hs
      have h1 := ih (hb.step ht) hr
      have h2 := step_und hb ht c e
      rw [performedFor_append, handedTo_append, List.map_append, List.count_append, List.count_append]
      refine ⟨by omega, fun hk => ?_⟩
      have := h1.2 hk
      have := h2.2 (run_kept c hr hk)
      omega
    · exact ih hb hr

end Alaya.ThreadReader
