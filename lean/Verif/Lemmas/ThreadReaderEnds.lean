import Verif.Lemmas.ThreadReaderLive

/-! How many reads are outstanding, and the end of `get_events` and of `close`. -/
namespace Alaya.ThreadReader

/-! ### Numbers of reads -/

def Worker.unrep (c : Nat) : Worker → Nat
  | .busy j => if j.c = c then 1 else 0
  | .got j _ => if j.c = c then 1 else 0
  | .push j _ => if j.c = c then 1 else 0
  | _ => 0

def Call.pend (c : Nat) (v : Call) : Nat := if v.c = c ∧ v.over = false then v.out.length else 0

/-- Reads of a context whose events no call has taken yet. -/
def State.avail (s : State) (c : Nat) : Nat :=
  tot (fun j : Job => if j.c = c then 1 else 0) s.queue + tot (Worker.unrep c) s.workers + (s.comp c).length

/-- Reads of a context whose events no call has returned yet. -/
def State.open_ (s : State) (c : Nat) : Nat := s.avail c + tot (Call.pend c) s.calls

theorem tot_eraseIdx {α : Type} (g : α → Nat) {l : List α} {p : Nat} {x : α} (h : l[p]? = some x) :
    tot g (l.eraseIdx p) + g x = tot g l := by
  induction l generalizing p with
  | nil => simp at h
  | cons a l ih =>
    cases p with
    | zero => simp at h; subst h; simp [tot_cons]; omega
    | succ p => simp at h; simp only [List.eraseIdx_cons_succ, tot_cons]; have := ih h; omega

theorem tot_jobs (c d : Nat) (rs : List Read) :
    tot (fun j : Job => if j.c = c then 1 else 0) (rs.map (Job.mk d)) = if d = c then rs.length else 0 := by
  induction rs with
  | nil => simp [tot_nil]
  | cons r rs ih =>
    rw [List.map_cons, tot_cons, ih]
    by_cases e : d = c <;> simp [e]; omega

theorem avail_putW {s : State} {w : Nat} {x : Worker} (y : Worker) (h : s.workers[w]? = some x) (c : Nat) :
    (s.putW w y).avail c + x.unrep c = s.avail c + y.unrep c := by
  have := tot_set (Worker.unrep c) y h
  unfold State.avail State.putW State.comp
  simp only; omega

theorem avail_putC {s : State} {d : Nat} {x : Ctx} (y : Ctx) (h : s.ctxs[d]? = some x) (c : Nat) :
    (s.putC d y).avail c + (if c = d then x.completions.length else 0) = s.avail c + (if c = d then y.completions.length else 0) := by
  unfold State.avail
  rw [comp_putC h]
  by_cases hc : c = d
  · subst hc
    simp only [if_true, State.putC]
    rw [comp_of h]; omega
  · simp only [hc, if_false, State.putC]

/-- The sum over the calls that changes, and what no call has taken. -/
theorem step_avail {s s' : State} {ev : Ev} {o : List Obs} (hb : Base s) (h : Trans s ev s' o) (c : Nat) :
    s'.avail c + tot (Call.pend c) s'.calls + (handedTo c o).length ≤ (submittedTo c o).length + s.avail c + tot (Call.pend c) s.calls ∧
    (Kept s' c →
      s'.avail c + tot (Call.pend c) s'.calls + (handedTo c o).length = (submittedTo c o).length + s.avail c + tot (Call.pend c) s.calls) := by
  cases h with
  | «open» hp hn =>
    rename_i n
    have h1 : tot (Worker.unrep c) (List.replicate n Worker.idle) = 0 := tot_zero _ (fun x hx => by
      rw [List.eq_of_mem_replicate hx]; rfl)
    have h2 := (hb.closed hp).1
    unfold State.avail State.comp
    simp [submittedTo, handedTo, h1, h2, tot_nil]
  | register _ =>
    rename_i t _
    have : State.comp { s with ctxs := s.ctxs ++ [⟨t, [], true, true⟩] } c = s.comp c := by
      unfold State.comp
      simp only
      by_cases hc : c < s.ctxs.length
      · rw [List.getElem?_append_left hc]
      · rw [List.getElem?_append_right (by omega), List.getElem?_eq_none (by omega : s.ctxs.length ≤ c)]
        by_cases h0 : c - s.ctxs.length = 0
        · rw [h0]; rfl
        · rw [List.getElem?_eq_none (by simp; omega)]
    simp only [State.avail, this, submittedTo, handedTo, List.filterMap_nil, List.length_nil]
    omega
  | mark hx ha1 ha2 =>
    rename_i d x
    have := avail_putC { x with active := false } hx c
    simp only [submittedTo, handedTo, List.filterMap_nil, List.length_nil, State.putC] at *
    omega
  | free hx ha1 ha2 =>
    rename_i d x
    have := avail_putC { x with alive := false, completions := [] } hx c
    simp only [submittedTo, handedTo, List.filterMap_nil, List.length_nil] at *
    have hk0 : (s.putC d { x with alive := false, completions := [] }).calls = s.calls := rfl
    rw [hk0]
    refine ⟨by split at this <;> omega, fun hk => ?_⟩
    by_cases hc : c = d
    · subst hc
      have := hk { x with alive := false, completions := [] } (by unfold State.putC; exact List.getElem?_set_self (lt_of_some hx))
      simp at this
    · simp only [hc, if_false] at this; omega
  | submit hc hp hl =>
    rename_i d rs
    rw [submittedTo_submitted, handedTo_submitted]
    have := tot_jobs c d rs
    simp only [State.avail, State.comp, tot_append, this, List.length_nil]
    by_cases e : d = c
    · simp only [e, if_true]; omega
    · simp only [e, if_false, List.length_nil]; omega
  | poll hx ha hl ht =>
    rename_i d m ps x o rest
    rw [submittedTo_handed, handedTo_handed]
    have h1 := avail_putC { x with completions := rest } hx c
    have h2 := takeAll_length ht
    have hk0 : (s.putC d { x with completions := rest }).calls = s.calls := rfl
    rw [hk0]
    simp only [List.length_nil]
    by_cases hc : c = d
    · subst hc; simp only [if_true] at *; omega
    · have hc' : ¬ d = c := fun h => hc h.symm
      simp only [hc, hc', if_false, List.length_nil] at *; omega
  | get _ =>
    simp only [State.avail, State.comp, submittedTo, handedTo, tot_append, tot_cons, tot_nil, Call.pend, List.filterMap_nil, List.length_nil]
    simp
  | collect hv ho hn hx ha he =>
    rename_i k p v x e'
    have h1 := avail_putC { x with completions := x.completions.eraseIdx p } hx c
    have h2 := length_eraseIdx' he
    have h3 := tot_set (Call.pend c) { v with out := v.out ++ [e'] } hv
    have h4 : Call.pend c { v with out := v.out ++ [e'] } = v.pend c + if v.c = c then 1 else 0 := by
      unfold Call.pend
      simp only [ho, and_true, List.length_append, List.length_cons, List.length_nil]
      split <;> simp
    rw [h4] at h3
    simp only [submittedTo, handedTo, List.filterMap_nil, List.length_nil]
    change (s.putC v.c { x with completions := x.completions.eraseIdx p }).avail c + tot (Call.pend c) (s.calls.set k { v with out := v.out ++ [e'] }) + 0 ≤
        0 + s.avail c + tot (Call.pend c) s.calls ∧ (_ →
      (s.putC v.c { x with completions := x.completions.eraseIdx p }).avail c + tot (Call.pend c) (s.calls.set k { v with out := v.out ++ [e'] }) + 0 =
        0 + s.avail c + tot (Call.pend c) s.calls)
    by_cases hc : v.c = c
    · subst hc
      simp only [if_true] at h1 h2 h3; omega
    · have hc' : ¬ c = v.c := fun h => hc h.symm
      simp only [hc, hc', if_false] at h1 h2 h3; omega
  | ret hv ho hn =>
    rename_i k v
    rw [submittedTo_handed, handedTo_handed]
    have h3 := tot_set (Call.pend c) { v with over := true } hv
    have h5 : Call.pend c { v with over := true } = 0 := by simp [Call.pend]
    have h6 : Call.pend c v = if v.c = c then v.out.length else 0 := by simp [Call.pend, ho]
    rw [h5, h6] at h3
    have h4 : (s.putK k { v with over := true }).avail c = s.avail c := rfl
    rw [h4]
    simp only [State.putK, List.length_nil]
    by_cases hc : v.c = c
    · rw [if_pos hc] at h3 ⊢; omega
    · rw [if_neg hc] at h3 ⊢; simp only [List.length_nil]; omega
  | stop _ => simp [State.avail, State.comp, submittedTo, handedTo]
  | finish _ hg =>
    have h1 : tot (Worker.unrep c) s.workers = 0 := tot_zero _ (fun x hx => by rw [hg x hx]; rfl)
    simp only [submittedTo, handedTo, List.filterMap_nil, List.length_nil, State.avail, State.comp, h1, tot_nil, List.getElem?_map]
    cases hc : s.ctxs[c]? with
    | none =>
      have h2 : tot (fun j : Job => if j.c = c then 1 else 0) s.queue = 0 := tot_zero _ (fun j hj => by
        have := hb.bound j hj
        rcases Nat.lt_or_ge c s.ctxs.length with hlt | hge
        · rw [List.getElem?_eq_getElem hlt] at hc; cases hc
        · rw [if_neg (by omega)])
      simp [h2]
    | some x =>
      refine ⟨by simp, fun hk => ?_⟩
      have := hk { x with active := false, alive := false, completions := [] } (by simp only; rw [List.getElem?_map, hc]; rfl)
      simp at this
  | take hw hq =>
    rename_i w p j
    have h1 := tot_set (Worker.unrep c) (.busy j) hw
    have h2 := tot_eraseIdx (fun j : Job => if j.c = c then 1 else 0) hq
    simp only [Worker.unrep, submittedTo, handedTo, List.filterMap_nil, List.length_nil, State.avail, State.putW, State.comp] at *
    omega
  | miss hw =>
    have := avail_putW .miss hw c
    simp only [Worker.unrep] at this
    simp only [submittedTo, handedTo, List.filterMap_nil, List.length_nil]
    rw [show (s.putW _ .miss).calls = s.calls from rfl]; omega
  | look hw =>
    have h1 := avail_putW (if s.stop then .gone else .idle) hw c
    have : Worker.unrep c (if s.stop then .gone else .idle) = 0 := by split <;> rfl
    rw [this] at h1
    simp only [Worker.unrep] at h1
    simp only [submittedTo, handedTo, List.filterMap_nil, List.length_nil]
    rw [show (s.putW _ (if s.stop then .gone else .idle)).calls = s.calls from rfl]; omega
  | pread hw hf =>
    rename_i w j x
    have h1 := avail_putW (.got j x) hw c
    simp only [Worker.unrep] at h1
    simp only [submittedTo, handedTo, List.filterMap_cons, List.filterMap_nil, List.length_nil]
    rw [show (s.putW _ (.got j x)).calls = s.calls from rfl]; omega
  | active hw hx ha =>
    rename_i w j r x
    have h1 := avail_putW (if x.active then .push j r else .idle) hw c
    simp only [submittedTo, handedTo, List.filterMap_nil, List.length_nil]
    rw [show (s.putW w (if x.active then .push j r else .idle)).calls = s.calls from rfl]
    cases hact : x.active with
    | true =>
      simp only [hact, if_true, Worker.unrep] at h1 ⊢
      omega
    | false =>
      simp only [hact, if_false, Bool.false_eq_true, Worker.unrep] at h1 ⊢
      refine ⟨by omega, fun hk => ?_⟩
      by_cases hc : j.c = c
      · subst hc
        have := (hk x hx).2
        rw [hact] at this; cases this
      · simp only [hc, if_false] at h1; omega
  | push hw hx ha =>
    rename_i w j r x
    have h1 := avail_putC { x with completions := x.completions ++ [⟨j.read.id, r⟩] } hx c
    have h2 := avail_putW (s := s.putC j.c { x with completions := x.completions ++ [⟨j.read.id, r⟩] }) (.wake j.c) hw c
    simp only [submittedTo, handedTo, List.filterMap_nil, List.length_nil]
    simp only [Worker.unrep] at h2
    rw [show ((s.putC j.c { x with completions := x.completions ++ [⟨j.read.id, r⟩] }).putW w (.wake j.c)).calls = s.calls from rfl]
    by_cases hc : j.c = c
    · subst hc
      simp only [if_true, List.length_append, List.length_cons, List.length_nil] at *
      omega
    · have hc' : ¬ c = j.c := fun h => hc h.symm
      simp only [hc, hc', if_false] at *; omega
  | wake hw hx ha =>
    have := avail_putW .idle hw c
    simp only [Worker.unrep] at this
    simp only [submittedTo, handedTo, List.filterMap_nil, List.length_nil]
    rw [show (s.putW _ .idle).calls = s.calls from rfl]; omega

theorem run_avail {s s' : State} {es : List Ev} {t : List Obs} (hb : Base s) (h : run s es = some (some (s', t))) (c : Nat) :
    s'.open_ c + (handedTo c t).length ≤ (submittedTo c t).length + s.open_ c ∧
    (Kept s' c → s'.open_ c + (handedTo c t).length = (submittedTo c t).length + s.open_ c) := by
  unfold State.open_
  induction es generalizing s t with
  | nil => simp [run] at h; obtain ⟨rfl, rfl⟩ := h; simp [submittedTo, handedTo]
  | cons ev es ih =>
    rcases run_cons h with ⟨s1, o, t', hs, hr, rfl⟩ | ⟨hs, hr⟩
    · have ht := trans_of_step hs
      have h1 := ih (hb.step ht) hr
      have h2 := step_avail hb ht c
      rw [submittedTo_append, handedTo_append, List.length_append, List.length_append]
      refine ⟨by omega, fun hk => ?_⟩
      have := h1.2 hk
      have := h2.2 (run_kept c hr hk)
      omega
    · exact ih hb hr

/-! ### Calls that have returned -/

/-- A call never holds more events than it was asked for, and holds that many when it has returned. -/
def Counts (s : State) : Prop := ∀ (k : Nat) (v : Call), s.calls[k]? = some v → v.out.length ≤ v.n ∧ (v.over = true → v.out.length = v.n)

theorem counts_step {s s' : State} {e : Ev} {o : List Obs} (h : Counts s) (ht : Trans s e s' o) : Counts s' := by
  cases ht with
  | get _ =>
    intro k v hk
    by_cases hlt : k < s.calls.length
    · simp only at hk
      rw [List.getElem?_append_left hlt] at hk
      exact h k v hk
    · simp only at hk
      rw [List.getElem?_append_right (by omega)] at hk
      by_cases h0 : k - s.calls.length = 0
      · rw [h0] at hk; simp at hk; subst hk; simp
      · rw [List.getElem?_eq_none (by simp; omega)] at hk; cases hk
  | collect hv ho hn hx ha he =>
    intro k v hk
    rcases get_set_cases hv hk with ⟨rfl, rfl⟩ | ⟨_, hk⟩
    · refine ⟨by simp; omega, fun h => ?_⟩
      simp only at h; rw [ho] at h; cases h
    · exact h k v hk
  | ret hv ho hn =>
    intro k v hk
    rcases get_set_cases hv hk with ⟨rfl, rfl⟩ | ⟨_, hk⟩
    · have := (h _ _ hv).1
      exact ⟨this, fun _ => by simp only; omega⟩
    · exact h k v hk
  | _ => exact h

/-! ### Work -/

def Worker.weight : Worker → Nat
  | .busy _ => 5
  | .got _ _ => 4
  | .push _ _ => 3
  | .wake _ => 1
  | _ => 0

/-- What is left to do. -/
def State.work (s : State) : Nat :=
  6 * s.queue.length + tot Worker.weight s.workers + tot (fun x : Ctx => x.completions.length) s.ctxs +
    tot (fun v : Call => if v.over then 0 else 1) s.calls

theorem work_putW {s : State} {w : Nat} {x : Worker} (y : Worker) (h : s.workers[w]? = some x) :
    (s.putW w y).work + x.weight = s.work + y.weight := by
  have := tot_set Worker.weight y h
  unfold State.work State.putW
  simp only; omega

theorem work_putC {s : State} {c : Nat} {x : Ctx} (y : Ctx) (h : s.ctxs[c]? = some x) :
    (s.putC c y).work + x.completions.length = s.work + y.completions.length := by
  have := tot_set (fun x : Ctx => x.completions.length) y h
  unfold State.work State.putC
  simp only at *; omega

theorem step_work {s s' : State} {e : Ev} {o : List Obs} (hi : Internal e) (ht : Trans s e s' o) :
    s'.work + (if Productive e then 1 else 0) ≤ s.work := by
  cases ht with
  | collect hv ho hn hx ha he =>
    rename_i k p v x ev
    have h1 := work_putC { x with completions := x.completions.eraseIdx p } hx
    have h2 := length_eraseIdx' he
    have h3 := tot_set (fun v : Call => if v.over then 0 else 1) { v with out := v.out ++ [ev] } hv
    have h4 : (if ({ v with out := v.out ++ [ev] } : Call).over then 0 else 1) = (if v.over then 0 else 1) := rfl
    unfold State.work State.putC at h1
    unfold State.work State.putC State.putK
    simp only [Productive, if_true] at h1 h3 ⊢
    omega
  | ret hv ho hn =>
    rename_i k v
    have h3 := tot_set (fun v : Call => if v.over then 0 else 1) { v with over := true } hv
    simp only [ho, Bool.false_eq_true, if_false, if_true] at h3
    unfold State.work State.putK
    simp only [Productive, if_true] at *
    omega
  | take hw hq =>
    rename_i w p j
    have h1 := tot_set Worker.weight (.busy j) hw
    have h2 := length_eraseIdx' hq
    unfold State.work State.putW
    simp only [Worker.weight, Productive, if_true] at *
    omega
  | miss hw =>
    have h1 := work_putW .miss hw
    simp only [Worker.weight, Productive] at *
    simp; omega
  | look hw =>
    have h1 := work_putW (if s.stop then .gone else .idle) hw
    have : Worker.weight (if s.stop then .gone else .idle) = 0 := by split <;> rfl
    rw [this] at h1
    simp only [Worker.weight] at h1
    simp [Productive]; omega
  | pread hw hf =>
    rename_i w j r
    have h1 := work_putW (.got j r) hw
    simp only [Worker.weight, Productive, if_true] at *
    omega
  | active hw hx ha =>
    rename_i w j r x
    have h1 := work_putW (if x.active then .push j r else .idle) hw
    have : Worker.weight (if x.active then .push j r else .idle) ≤ 3 := by split <;> simp [Worker.weight]
    have h2 : Worker.weight (.got j r) = 4 := rfl
    simp only [Productive, if_true]
    omega
  | push hw hx ha =>
    rename_i w j r x
    have h1 := work_putC { x with completions := x.completions ++ [⟨j.read.id, r⟩] } hx
    have h2 := work_putW (s := s.putC j.c { x with completions := x.completions ++ [⟨j.read.id, r⟩] }) (.wake j.c) hw
    simp only [Worker.weight, List.length_append, List.length_cons, List.length_nil, Productive, if_true] at *
    omega
  | wake hw hx ha =>
    have h1 := work_putW .idle hw
    simp only [Worker.weight, Productive, if_true] at *
    omega
  | _ => exact absurd hi (by simp [Internal])

theorem internal_careful {s : State} {e : Ev} (h : Internal e) : Careful s e := by
  cases e <;> first | exact trivial | exact absurd h (by simp [Internal])

theorem internal_no_throw {s : State} {e : Ev} (h : Internal e) : step s e ≠ .throw := by
  intro ht
  cases e <;> first | exact False.elim h | skip
  case collect k p =>
    simp only [step, State.collect] at ht
    repeat' split at ht
    all_goals cases ht
  case ret k =>
    simp only [step, State.ret] at ht
    repeat' split at ht
    all_goals cases ht
  case take w p => simp only [step, State.take] at ht; split at ht <;> cases ht
  case miss w => simp only [step, State.miss] at ht; split at ht <;> cases ht
  case look w => simp only [step, State.look] at ht; split at ht <;> cases ht
  case pread w r =>
    simp only [step, State.pread] at ht
    repeat' split at ht
    all_goals cases ht
  case active w =>
    simp only [step, State.active] at ht
    repeat' split at ht
    all_goals cases ht
  case push w =>
    simp only [step, State.push] at ht
    repeat' split at ht
    all_goals cases ht
  case wake w =>
    simp only [step, State.wake] at ht
    repeat' split at ht
    all_goals cases ht

/-- In an execution without callers the workers do only so much. -/
theorem run_work {s s' : State} {es : List Ev} {t : List Obs} (hi : ∀ e ∈ es, Internal e) (h : run s es = some (some (s', t))) :
    s'.work + es.countP Productive ≤ s.work := by
  induction es generalizing s t with
  | nil => simp [run] at h; obtain ⟨rfl, rfl⟩ := h; simp
  | cons e es ih =>
    rcases run_cons h with ⟨s1, o, t', hs, hr, rfl⟩ | ⟨hs, hr⟩
    · have h1 := step_work (hi e (by simp)) (trans_of_step hs)
      have h2 := ih (fun x hx => hi x (by simp [hx])) hr
      rw [List.countP_cons]; omega
    · exact absurd hs (internal_no_throw (hi e (by simp)))

/-! ### A worker that has something to do can do it -/

theorem step_run {s s' s'' : State} {e : Ev} {es : List Ev} {o t : List Obs} (h : step s e = .ok s' o)
    (hr : run s' es = some (some (s'', t))) : run s (e :: es) = some (some (s'', o ++ t)) := by
  unfold run
  rw [h]
  simp only
  rw [hr]

/-- What the waiting callers and the next actions need. -/
structure Good (s : State) : Prop where
  base : Base s
  refs : Refs s
  counts : Counts s

theorem Good.step {s s' : State} {e : Ev} {o : List Obs} (h : Good s) (hc : Careful s e) (ht : Trans s e s' o) : Good s' :=
  ⟨h.base.step ht, h.refs.step hc ht, counts_step h.counts ht⟩

theorem avail_same {s s' : State} {e : Ev} {o : List Obs} (hb : Base s) (ht : Trans s e s' o) (c : Nat) (hk : Kept s' c)
    (h1 : submittedTo c o = []) (h2 : handedTo c o = []) (h3 : s'.calls = s.calls) : s'.avail c = s.avail c := by
  have := (step_avail hb ht c).2 hk
  rw [h1, h2, h3] at this
  simp at this; omega

theorem advance {s : State} (h : Good s) {w : Nat} {x : Worker} (hw : s.workers[w]? = some x) (hx : 0 < x.weight) :
    ∃ e s' o, Internal e ∧ step s e = .ok s' o ∧ s'.work < s.work ∧ s'.calls = s.calls ∧ s'.phase = s.phase ∧
      (∀ c, Kept s c → Kept s' c) ∧ (∀ c, submittedTo c o = [] ∧ handedTo c o = []) := by
  have fin : ∀ e s' o, Internal e → Productive e = true → step s e = .ok s' o → s'.work < s.work := by
    intro e s' o hi hp hs
    have := step_work hi (trans_of_step hs)
    rw [hp] at this; simp at this; omega
  cases x with
  | idle => simp [Worker.weight] at hx
  | miss => simp [Worker.weight] at hx
  | gone => simp [Worker.weight] at hx
  | busy j =>
    have hfd : s.fd = true := h.base.fd (fun e => by rw [e] at hw; cases hw)
    have hs : step s (.pread w 0) = .ok (s.putW w (.got j 0)) [.performed j.c j.read 0] := by
      simp only [step, State.pread, hw, hfd, if_true]
    exact ⟨(.pread w 0), _, _, trivial, hs, fin (.pread w 0) _ _ trivial rfl hs, rfl, rfl, fun c hk => hk, fun c => ⟨rfl, rfl⟩⟩
  | got j r =>
    obtain ⟨y, hy, ha, hac⟩ := h.refs.held j.c (.inr ⟨w, _, hw, rfl⟩)
    have hs : step s (.active w) = .ok (s.putW w (.push j r)) [] := by
      simp only [step, State.active, hw, hy, ha, hac, if_true]
    exact ⟨(.active w), _, _, trivial, hs, fin (.active w) _ _ trivial rfl hs, rfl, rfl, fun c hk => hk, fun c => ⟨rfl, rfl⟩⟩
  | push j r =>
    obtain ⟨y, hy, ha, hac⟩ := h.refs.held j.c (.inr ⟨w, _, hw, rfl⟩)
    have hs : step s (.push w) = .ok ((s.putC j.c { y with completions := y.completions ++ [⟨j.read.id, r⟩] }).putW w (.wake j.c)) [] := by
      simp only [step, State.push, hw, hy, ha, if_true]
    refine ⟨(.push w), _, _, trivial, hs, fin (.push w) _ _ trivial rfl hs, rfl, rfl, fun c hk z hz => ?_, fun c => ⟨rfl, rfl⟩⟩
    rcases get_set_cases hy hz with ⟨rfl, rfl⟩ | ⟨_, hz⟩
    · exact ⟨ha, hac⟩
    · exact hk z hz
  | wake c =>
    obtain ⟨y, hy, ha, hac⟩ := h.refs.held c (.inr ⟨w, _, hw, rfl⟩)
    have hs : step s (.wake w) = .ok (s.putW w .idle) [] := by
      simp only [step, State.wake, hw, hy, ha, if_true]
    exact ⟨(.wake w), _, _, trivial, hs, fin (.wake w) _ _ trivial rfl hs, rfl, rfl, fun c hk => hk, fun c => ⟨rfl, rfl⟩⟩

/-- Actions without callers after which there is less to do, and nothing else has changed. -/
def Goes (s : State) : Prop :=
  ∃ es s' t, (∀ e ∈ es, Internal e) ∧ run s es = some (some (s', t)) ∧ s'.work < s.work ∧ s'.calls = s.calls ∧ s'.phase = s.phase ∧
    (∀ c, Kept s c → Kept s' c ∧ s'.avail c = s.avail c) ∧ Good s'

theorem goes_step {s s' : State} {e : Ev} {o : List Obs} (h : Good s) (hi : Internal e) (hs : step s e = .ok s' o) (hw : s'.work < s.work)
    (hc : s'.calls = s.calls) (hp : s'.phase = s.phase) (hk : ∀ c, Kept s c → Kept s' c)
    (ho : ∀ c, submittedTo c o = [] ∧ handedTo c o = []) : Goes s := by
  have ht := trans_of_step hs
  exact ⟨[e], s', o ++ [], by simpa using hi, step_run hs rfl, hw, hc, hp,
    fun c hkc => ⟨hk c hkc, avail_same h.base ht c (hk c hkc) (ho c).1 (ho c).2 hc⟩, h.step (internal_careful hi) ht⟩

theorem goes_worker {s : State} (h : Good s) {w : Nat} {x : Worker} (hw : s.workers[w]? = some x) (hx : 0 < x.weight) : Goes s := by
  obtain ⟨e, s', o, hi, hs, h1, h2, h3, h4, h5⟩ := advance h hw hx
  exact goes_step h hi hs h1 h2 h3 h4 h5

theorem goes_idle {s : State} (h : Good s) {w : Nat} (hw : s.workers[w]? = some .idle) (hq : s.queue ≠ []) : Goes s := by
  obtain ⟨j, q, hj⟩ : ∃ j q, s.queue = j :: q := by
    cases hh : s.queue with
    | nil => exact absurd hh hq
    | cons j q => exact ⟨j, q, rfl⟩
  have hj0 : s.queue[0]? = some j := by rw [hj]; rfl
  have hs : step s (.take w 0) = .ok { s.putW w (.busy j) with queue := s.queue.eraseIdx 0 } [] := by
    simp only [step, State.take, hw, hj0]
  have hwk := step_work (e := .take w 0) trivial (trans_of_step hs)
  simp only [Productive, if_true] at hwk
  exact goes_step h (e := .take w 0) trivial hs hwk rfl rfl (fun c hk => hk) (fun c => ⟨rfl, rfl⟩)

/-- A read in the queue of an open reader is taken up. -/
theorem goes_queue {s : State} (h : Good s) (hp : s.phase = .opened) (hq : s.queue ≠ []) : Goes s := by
  obtain ⟨hst, hlen, _, hg⟩ := h.base.opened hp
  obtain ⟨x, hx⟩ : ∃ x, s.workers[0]? = some x := ⟨s.workers[0], by simp [hlen]⟩
  by_cases hwt : 0 < x.weight
  · exact goes_worker h hx hwt
  · cases x with
    | idle => exact goes_idle h hx hq
    | miss =>
      have hs : step s (.look 0) = .ok (s.putW 0 .idle) [] := by
        simp only [step, State.look, hx, hst, Bool.false_eq_true, if_false]
      have ht := trans_of_step hs
      have h1 := h.step (e := .look 0) (internal_careful trivial) ht
      have hwk := step_work (e := .look 0) trivial ht
      have hx1 : (s.putW 0 .idle).workers[0]? = some .idle := by
        unfold State.putW; exact List.getElem?_set_self hlen
      obtain ⟨es, s', t, g1, g2, g3, g4, g5, g6, g7⟩ := goes_idle h1 hx1 hq
      refine ⟨.look 0 :: es, s', [] ++ t, ?_, step_run hs g2, by omega, g4, g5, ?_, g7⟩
      · intro e he
        rcases List.mem_cons.1 he with rfl | he
        · exact trivial
        · exact g1 e he
      · intro c hk
        have hk1 : Kept (s.putW 0 .idle) c := hk
        have := avail_same h.base ht c hk1 rfl rfl rfl
        exact ⟨(g6 c hk1).1, (g6 c hk1).2.trans this⟩
    | gone => exact absurd hx (hg 0)
    | _ => simp [Worker.weight] at hwt

theorem run_append' {s s1 s2 : State} {es fs : List Ev} {t u : List Obs} (h1 : run s es = some (some (s1, t)))
    (h2 : run s1 fs = some (some (s2, u))) : run s (es ++ fs) = some (some (s2, t ++ u)) := by
  induction es generalizing s t with
  | nil => simp [run] at h1; obtain ⟨rfl, rfl⟩ := h1; simpa using h2
  | cons e es ih =>
    rcases run_cons h1 with ⟨s3, o, t', hs, hr, rfl⟩ | ⟨hs, hr⟩
    · have := step_run hs (ih hr)
      simpa [List.append_assoc] using this
    · have := ih hr
      simp only [List.cons_append, run]
      rw [hs]; exact this

/-- Some actions without callers let the call return. -/
def GetEnds (s : State) (k : Nat) (v : Call) : Prop :=
  ∃ es s' t v', (∀ e ∈ es, Internal e) ∧ run s es = some (some (s', t)) ∧ s'.calls[k]? = some v' ∧ v'.over = true ∧ v'.n = v.n ∧ v'.c = v.c

/-- A call that waits for no more events than there are reads returns. -/
theorem get_ends {s : State} (h : Good s) (hp : s.phase = .opened) {k : Nat} {v : Call} (hv : s.calls[k]? = some v) (ho : v.over = false)
    (hn : v.n ≤ v.out.length + s.avail v.c) :
    GetEnds s k v := by
  generalize hm : s.work = m
  induction m using Nat.strongRecOn generalizing s v with
  | _ m ih =>
    subst hm
    have fin : Goes s → GetEnds s k v := fun ⟨es, s1, t, g1, g2, g3, g4, g5, g6, g7⟩ => by
      have hk := (h.refs.waiting v.c ⟨k, v, hv, rfl, ho⟩).kept
      obtain ⟨fs, s2, u, v', f1, f2, f3⟩ := ih _ g3 g7 (g5.trans hp) (v := v) (by rw [g4]; exact hv) ho (by rw [(g6 _ hk).2]; exact hn) rfl
      exact ⟨es ++ fs, s2, t ++ u, v', by
        intro e he
        rcases List.mem_append.1 he with he | he
        · exact g1 e he
        · exact f1 e he, run_append' g2 f2, f3⟩
    by_cases hfull : v.out.length < v.n
    · obtain ⟨x, hx, ha, hac⟩ := h.refs.waiting v.c ⟨k, v, hv, rfl, ho⟩
      cases hcomp : x.completions with
      | cons e l =>
        have he : x.completions[0]? = some e := by rw [hcomp]; rfl
        have hs : step s (.collect k 0) =
            .ok ((s.putC v.c { x with completions := x.completions.eraseIdx 0 }).putK k { v with out := v.out ++ [e] }) [] := by
          have hcnd : ¬ (v.over = true ∨ ¬ v.out.length < v.n) := by rw [ho]; simp; exact hfull
          simp only [step, State.collect, hv, if_neg hcnd, hx, ha, if_true, he]
        have ht := trans_of_step hs
        have hg := h.step (e := .collect k 0) (internal_careful trivial) ht
        have hwk := step_work (e := .collect k 0) trivial ht
        simp only [Productive, if_true] at hwk
        have hk1 : Kept ((s.putC v.c { x with completions := x.completions.eraseIdx 0 }).putK k { v with out := v.out ++ [e] }) v.c := by
          intro z hz
          rcases get_set_cases hx hz with ⟨_, rfl⟩ | ⟨hne, _⟩
          · exact ⟨ha, hac⟩
          · exact absurd rfl hne
        have hlen : ((s.putC v.c { x with completions := x.completions.eraseIdx 0 }).putK k { v with out := v.out ++ [e] }).avail v.c + 1 =
            s.avail v.c := by
          have h1 := avail_putC { x with completions := x.completions.eraseIdx 0 } hx v.c
          have h2 := length_eraseIdx' he
          simp only [if_true] at h1
          change (s.putC v.c { x with completions := x.completions.eraseIdx 0 }).avail v.c + 1 = _
          omega
        obtain ⟨fs, s2, u, v', f1, f2, f3, f4, f5, f6⟩ := ih _ (by omega) hg hp (v := { v with out := v.out ++ [e] })
          (by unfold State.putK; exact List.getElem?_set_self (lt_of_some hv)) ho
          (by simp only [List.length_append, List.length_cons, List.length_nil]; omega) rfl
        refine ⟨.collect k 0 :: fs, s2, [] ++ u, v', ?_, step_run hs f2, f3, f4, f5, f6⟩
        intro ev hev
        rcases List.mem_cons.1 hev with rfl | hev
        · exact trivial
        · exact f1 ev hev
      | nil =>
        have hav : 0 < s.avail v.c := by omega
        unfold State.avail at hav
        rw [comp_of hx, hcomp] at hav
        by_cases hq : s.queue = []
        · rw [hq] at hav
          simp only [tot_nil, List.length_nil] at hav
          obtain ⟨w, y, hw, hy⟩ := tot_pos (g := Worker.unrep v.c) (l := s.workers) (by omega)
          refine fin (goes_worker h hw ?_)
          cases y <;> simp [Worker.unrep] at hy <;> simp [Worker.weight]
        · exact fin (goes_queue h hp hq)
    · have hs : step s (.ret k) = .ok (s.putK k { v with over := true }) (v.out.map (Obs.handed v.c)) := by
        have hcnd : ¬ (v.over = true ∨ v.out.length < v.n) := by rw [ho]; simpa using hfull
        simp only [step, State.ret, hv, if_neg hcnd]
      exact ⟨[.ret k], _, _, { v with over := true }, by simp [Internal], step_run hs rfl,
        by unfold State.putK; exact List.getElem?_set_self (lt_of_some hv), rfl, rfl, rfl⟩

/-! ### The end of `close` -/

def Worker.steps : Worker → Nat
  | .idle => 2
  | .miss => 1
  | _ => 0

/-- Some actions without callers let all workers end. -/
def CloseEnds (s : State) : Prop :=
  ∃ es s' t, (∀ e ∈ es, Internal e) ∧ run s es = some (some (s', t)) ∧ s'.phase = .closing ∧ (∀ x ∈ s'.workers, x = .gone) ∧
      s'.calls = s.calls

theorem quiet_close {s : State} (h : Good s) (hp : s.phase = .closing) (hw : ∀ (w : Nat) (x : Worker), s.workers[w]? = some x → x.weight = 0) :
    CloseEnds s := by
  generalize hm : tot Worker.steps s.workers = m
  induction m using Nat.strongRecOn generalizing s with
  | _ m ih =>
    subst hm
    by_cases hall : ∀ x ∈ s.workers, x = .gone
    · exact ⟨[], s, [], by simp, rfl, hp, hall, rfl⟩
    · have : ∃ x ∈ s.workers, x ≠ .gone := by
        apply Classical.byContradiction
        intro hn
        exact hall (fun x hx => Classical.byContradiction (fun hne => hn ⟨x, hx, hne⟩))
      obtain ⟨x, hx, hne⟩ := this
      obtain ⟨w, hw'⟩ := List.getElem?_of_mem hx
      have hst := h.base.closing hp
      have go : ∀ e y, Internal e → step s e = .ok (s.putW w y) [] → y.weight = 0 → y.steps < x.steps → CloseEnds s := fun e y hi hs hy hlt => by
        have ht := trans_of_step hs
        have hsum := tot_set Worker.steps y hw'
        obtain ⟨fs, s2, u, f1, f2, f3, f4, f5⟩ := ih (tot Worker.steps (s.putW w y).workers) (by unfold State.putW; simp only; omega)
          (h.step (internal_careful hi) ht) hp (by
            intro u z hz
            rcases get_set_cases hw' hz with ⟨rfl, rfl⟩ | ⟨_, hz⟩
            · exact hy
            · exact hw u z hz) rfl
        exact ⟨e :: fs, s2, [] ++ u, by
          intro ev hev
          rcases List.mem_cons.1 hev with rfl | hev
          · exact hi
          · exact f1 ev hev, step_run hs f2, f3, f4, f5⟩
      cases x with
      | idle => exact go (.miss w) .miss trivial (by simp only [step, State.miss, hw']) rfl (by decide)
      | miss => exact go (.look w) .gone trivial (by simp only [step, State.look, hw', hst, if_true]) rfl (by decide)
      | gone => exact absurd rfl hne
      | _ => exact absurd (hw w _ hw') (by simp [Worker.weight])

theorem close_ends {s : State} (h : Good s) (hp : s.phase = .closing) :
    CloseEnds s := by
  generalize hm : s.work = m
  induction m using Nat.strongRecOn generalizing s with
  | _ m ih =>
    subst hm
    by_cases hw : ∀ (w : Nat) (x : Worker), s.workers[w]? = some x → x.weight = 0
    · exact quiet_close h hp hw
    · have : ∃ (w : Nat) (x : Worker), s.workers[w]? = some x ∧ 0 < x.weight := by
        apply Classical.byContradiction
        intro hn
        exact hw (fun w x hx => Classical.byContradiction (fun hne => hn ⟨w, x, hx, Nat.pos_of_ne_zero hne⟩))
      obtain ⟨w, x, hx, hwt⟩ := this
      obtain ⟨es, s1, t, g1, g2, g3, g4, g5, g6, g7⟩ := goes_worker h hx hwt
      obtain ⟨fs, s2, u, f1, f2, f3, f4, f5⟩ := ih _ g3 g7 (g5.trans hp) rfl
      exact ⟨es ++ fs, s2, t ++ u, by
        intro e he
        rcases List.mem_append.1 he with he | he
        · exact g1 e he
        · exact f1 e he, run_append' g2 f2, f3, f4, f5.trans g4⟩

/-! ### Too few reads -/

/-- A call waits for more events than there are reads. -/
def Starved (k : Nat) (s : State) : Prop := Base s ∧ ∃ v, s.calls[k]? = some v ∧ v.over = false ∧ v.out.length + s.avail v.c < v.n

theorem starved_step {k : Nat} {s s' : State} {e : Ev} {o : List Obs} (h : Starved k s) (ht : Trans s e s' o)
    (he : ∀ c rs, e ≠ .submit c rs) : Starved k s' := by
  obtain ⟨hb, v, hv, ho, hlt⟩ := h
  refine ⟨hb.step ht, ?_⟩
  have hsub : submittedTo v.c o = [] := by
    cases ht with
    | submit _ _ _ => exact absurd rfl (he _ _)
    | poll _ _ _ _ => exact submittedTo_handed _ _ _
    | ret _ _ _ => exact submittedTo_handed _ _ _
    | _ => rfl
  have hst := (step_avail hb ht v.c).1
  rw [hsub] at hst
  simp only [List.length_nil, Nat.zero_add] at hst
  have same : s'.calls = s.calls → ∃ v', s'.calls[k]? = some v' ∧ v'.over = false ∧ v'.out.length + s'.avail v'.c < v'.n := by
    intro hc
    rw [hc] at hst ⊢
    exact ⟨v, hv, ho, by omega⟩
  cases ht with
  | get _ =>
    rename_i c n _
    simp only [tot_append, tot_cons, tot_nil, Call.pend, handedTo, List.filterMap_nil, List.length_nil] at hst
    refine ⟨v, by simp only; rw [List.getElem?_append_left (lt_of_some hv)]; exact hv, ho, ?_⟩
    change v.out.length + s.avail v.c < v.n
    exact hlt
  | collect hv' ho' hn hx ha hev =>
    rename_i k' p v' x ev
    by_cases hk : k = k'
    · subst hk
      rw [hv] at hv'; cases hv'
      have h1 := avail_putC { x with completions := x.completions.eraseIdx p } hx v.c
      have h2 := length_eraseIdx' hev
      simp only [if_true] at h1
      refine ⟨{ v with out := v.out ++ [ev] }, by unfold State.putK; exact List.getElem?_set_self (lt_of_some hv), ho, ?_⟩
      change (v.out ++ [ev]).length + (s.putC v.c { x with completions := x.completions.eraseIdx p }).avail v.c < v.n
      simp only [List.length_append, List.length_cons, List.length_nil]
      omega
    · have h1 := avail_putC { x with completions := x.completions.eraseIdx p } hx v.c
      have h2 := length_eraseIdx' hev
      refine ⟨v, by unfold State.putK; simp only; rw [List.getElem?_set_ne (Ne.symm hk)]; exact hv, ho, ?_⟩
      change v.out.length + (s.putC v'.c { x with completions := x.completions.eraseIdx p }).avail v.c < v.n
      simp only at h1
      split at h1 <;> omega
  | ret hv' ho' hn =>
    rename_i k' v'
    by_cases hk : k = k'
    · subst hk
      rw [hv] at hv'; cases hv'
      omega
    · exact ⟨v, by unfold State.putK; simp only; rw [List.getElem?_set_ne (Ne.symm hk)]; exact hv, ho, hlt⟩
  | submit _ _ _ => exact absurd rfl (he _ _)
  | poll _ _ _ _ => exact same rfl
  | _ => exact same rfl

theorem starved_run {k : Nat} {s s' : State} {es : List Ev} {t : List Obs} (h : Starved k s) (he : ∀ c rs, Ev.submit c rs ∉ es)
    (hr : run s es = some (some (s', t))) : Starved k s' := by
  induction es generalizing s t with
  | nil => simp [run] at hr; obtain ⟨rfl, _⟩ := hr; exact h
  | cons e es ih =>
    have he' : ∀ c rs, Ev.submit c rs ∉ es := fun c rs hm => he c rs (by simp [hm])
    rcases run_cons hr with ⟨s1, o, t', hs, hr', rfl⟩ | ⟨hs, hr'⟩
    · exact ih (starved_step h (trans_of_step hs) (fun c rs e => he c rs (by simp [e]))) he' hr'
    · exact ih h he' hr'

end Alaya.ThreadReader
