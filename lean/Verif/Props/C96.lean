import Verif.Lemmas.UringReactorRun

/-! C96 — reads of concurrent coroutines through one shared ring. -/
namespace Alaya.UringReactor
open Alaya Alaya.Spec

theorem reach {R : Ring} (hd : 0 < R.depth) {es : List Ev} {s : State} (hr : State.run R es .init = .ok s) : Inv R s := (Inv.init R).run hd hr

/-- **C96.** No execution accesses the frame of a wave that has ended. -/
theorem C96_no_ub {R : Ring} (hd : 0 < R.depth) : ∀ es : List Ev, State.run R es .init ≠ .ub := by
  have : ∀ (es : List Ev) (s : State), Inv R s → State.run R es s ≠ .ub := by
    intro es
    induction es with
    | nil => intro s _ h; cases h
    | cons e es ih =>
      intro s hI h
      unfold State.run at h
      split at h
      · next m hm => exact ih m (hI.trans hd (trans_of_step hm)) h
      · next x hm => exact hI.no_ub e h
  exact fun es => this es _ (Inv.init R)

/-- **C96.** A wave that returns: the kernel has ended each of its reads, once; each request holds the result of its own read; the number
returned is that of the reads that did not bring what was asked for. -/
theorem C96_wave {R : Ring} (hd : 0 < R.depth) {es : List Ev} {s : State} (hr : State.run R es .init = .ok s) {w : Nat} {v : Wave}
    (hv : s.waves[w]? = some v) {f : Nat} (ho : v.phase = .over (some f)) :
    v.res.length = v.sizes.length ∧ f = failed v.sizes v.res ∧
    ∀ i, i < v.sizes.length → ∃ r, v.res[i]? = some r ∧ ∀ r', Delivered R es ⟨w, i⟩ r' ↔ r' = r := by
  have h := reach hd hr
  have hE : Ended v := ⟨_, ho⟩
  have hC := h.C.1 w v hv
  refine ⟨hC.len, ?_, fun i hi => ?_⟩
  · rw [(hC.over _ ho).2 f rfl, hC.fail]
    have h0 : (s.reapAt 2).countP (isBad w v) = 0 := by
      rw [List.countP_eq_zero]
      intro p hp
      unfold State.reapAt at hp
      split at hp
      · next t r k hk =>
        split at hp
        · rw [List.mem_singleton] at hp
          subst hp
          have : t.w ≠ w := fun e => h.over_idle hv hE (.inr (.inr ⟨t, r, k, hk, e⟩))
          simp [isBad, this]
        · cases hp
      · cases hp
    rw [List.countP_append, h0, Nat.add_zero]
    have h1 : s.fin.countP (isBad w v) = (s.fin.filter (fun p => p.1.w = w)).countP (isBad w v) := by
      rw [List.countP_filter]
      refine List.countP_congr (fun p _ => ?_)
      unfold isBad
      by_cases e : p.1.w = w <;> simp [e]
    rw [h1, (h.fin_perm hv ho).countP_eq, List.countP_map]
    unfold failed
    rw [← List.countP_eq_length_filter]
    have hz : v.sizes.zip v.res = (List.range v.sizes.length).map (fun i => ((v.sizes[i]?).getD 0, (v.res[i]?).getD 0)) := by
      refine List.ext_getElem? (fun i => ?_)
      rcases Nat.lt_or_ge i v.sizes.length with hi | hi
      · have hi' : i < v.res.length := by rw [hC.len]; exact hi
        rw [List.getElem?_map, List.getElem?_range hi]
        simp [List.getElem?_zip_eq_some, List.getElem?_eq_getElem hi, List.getElem?_eq_getElem hi', List.getElem?_eq_getElem, hi, hi']
      · rw [List.getElem?_eq_none (by simp [hC.len]; omega), List.getElem?_eq_none (by simpa using hi)]
    rw [hz, List.countP_map]
    refine List.countP_congr (fun i _ => ?_)
    simp only [Function.comp, isBad, bad, decide_true, Bool.true_and, Bool.or_eq_true, decide_eq_true_eq]
    constructor
    · rintro (hx | hx)
      · omega
      · exact hx
    · exact .inr
  · have hs := h.S.each w v hv
    unfold SW at hs
    rw [ho] at hs
    have hsub := hs.2.1 (by simp)
    obtain ⟨r, h1, h2⟩ := h.over_fin hv hE (t := ⟨w, i⟩) rfl ((h.T.mem _).mpr (by
      show i < s.tot w
      rw [tot_at hv, tot_over hE]; omega))
    have hg : ((⟨w, i⟩, r) : Tok × Int) ∈ s.got := List.mem_append_right _ h1
    refine ⟨r, h2, fun r' => ?_⟩
    rw [← got_iff es s hr (⟨w, i⟩, r')]
    exact ⟨fun h' => h.got_unique h' hg, fun e => e ▸ hg⟩

/-- **C96.** A wave that ends with an exception: the ring is poisoned; the reads from some position on never reach the kernel, each of
those before it has ended, with its result in its request. -/
theorem C96_exception {R : Ring} (hd : 0 < R.depth) {es : List Ev} {s : State} (hr : State.run R es .init = .ok s) {w : Nat} {v : Wave}
    (hv : s.waves[w]? = some v) (ho : v.phase = .over none) : s.poisoned = true ∧ ∃ k, k < v.sizes.length ∧
    (∀ i, i < k → ∃ r, v.res[i]? = some r ∧ ∀ r', Delivered R es ⟨w, i⟩ r' ↔ r' = r) ∧ ∀ i, k ≤ i → ¬ Taken R es ⟨w, i⟩ := by
  have h := reach hd hr
  have hE : Ended v := ⟨_, ho⟩
  have hs := h.S.each w v hv
  unfold SW at hs
  rw [ho] at hs
  obtain ⟨h1, h2⟩ := hs.2.2 rfl
  refine ⟨h2, v.submitted, h1, fun i hi => ?_, fun i hi hx => ?_⟩
  · obtain ⟨r, h1, h2⟩ := h.over_fin hv hE (t := ⟨w, i⟩) rfl ((h.T.mem _).mpr (by
      show i < s.tot w
      rw [tot_at hv, tot_over hE]; exact hi))
    have hg : ((⟨w, i⟩, r) : Tok × Int) ∈ s.got := List.mem_append_right _ h1
    refine ⟨r, h2, fun r' => ?_⟩
    rw [← got_iff es s hr (⟨w, i⟩, r')]
    exact ⟨fun h' => h.got_unique h' hg, fun e => e ▸ hg⟩
  · obtain ⟨es1, es2, m, rfl, hm, ht⟩ := hx
    have ht : (⟨w, i⟩ : Tok) ∈ s.toks := by
      rw [run_append, hm] at hr
      exact toks_run hd (reach hd hm) hr (by unfold State.toks; simp [ht])
    have := (h.T.mem _).mp ht
    change i < s.tot w at this
    rw [tot_at hv, tot_over hE] at this
    omega

/-- **C96.** Once a wave has ended, and whatever happens after, the ring has nothing more to do with its reads – the buffers belong to the
caller again – and the results stay. -/
theorem C96_final {R : Ring} (hd : 0 < R.depth) {es es' : List Ev} {s s' : State} (hr : State.run R es .init = .ok s) {w : Nat} {v : Wave}
    (hv : s.waves[w]? = some v) (ho : Ended v) (hr' : State.run R es' s = .ok s') : s'.waves[w]? = some v ∧ ¬ Busy s' w := by
  have h := reach hd hr
  have := final_run hv ho hr'
  exact ⟨this, (h.run hd hr').over_idle this ho⟩

/-- **C96.** As long as a wave has not ended, something can be done for it: no deadlock. -/
theorem C96_progress {R : Ring} (hd : 0 < R.depth) {es : List Ev} {s : State} (hr : State.run R es .init = .ok s) {w : Nat} {v : Wave}
    (hv : s.waves[w]? = some v) (ho : ¬ Ended v) : ∃ e s', forward e = true ∧ s.step R e = .ok s' :=
  (reach hd hr).moves hv ho

/-- **C96.** And not for ever: the number of actions is bounded, interrupted calls and new waves apart. -/
theorem C96_terminates {R : Ring} (hd : 0 < R.depth) {es : List Ev} {s : State} (hr : State.run R es .init = .ok s) :
    ∃ N, ∀ es' s', (∀ e ∈ es', forward e = true) → State.run R es' s = .ok s' → es'.length ≤ N :=
  ⟨s.left, fun es' s' hf h => by have := Inv.run_le hd es' s s' (reach hd hr) hf h; omega⟩

/-- **C96.** When no more can be done, all waves have ended and the ring is empty. -/
theorem C96_end {R : Ring} (hd : 0 < R.depth) {es : List Ev} {s : State} (hr : State.run R es .init = .ok s)
    (hq : ∀ e s', s.step R e = .ok s' → forward e = false) :
    (∀ (w : Nat) (v : Wave), s.waves[w]? = some v → Ended v) ∧ s.kernel = [] ∧ s.cq = [] ∧ s.draining = false := by
  have h := reach hd hr
  have hno : ¬ CanMove R s := fun ⟨e, s', h1, h2⟩ => by rw [hq e s' h2] at h1; cases h1
  have hall : ∀ (w : Nat) (v : Wave), s.waves[w]? = some v → Ended v := by
    intro w v hv
    cases ho : v.phase.isOver with
    | true => exact ended_of ho
    | false => exact absurd (h.moves hv (fun e => by rw [isOver_of e] at ho; cases ho)) hno
  have hown : s.owner = none := by
    cases ho : s.owner with
    | none => rfl
    | some w => exact absurd (h.owner_moves ho) hno
  have h1 : s.kernel = [] := Decidable.byContradiction (fun e => hno (h.ring_moves (.inl e)))
  have h2 : s.cq = [] := Decidable.byContradiction (fun e => hno (h.ring_moves (.inr (.inl e))))
  refine ⟨hall, h1, h2, ?_⟩
  have := h.D
  unfold DInv at this
  rw [pend_none hown, h1, h2] at this
  unfold State.draining
  simp only [List.length_nil] at this
  have : s.inFlight = 0 := by omega
  rw [this]; rfl

/-- **C96.** With no call of `io_uring_submit` in progress the destructor goes on waiting exactly as long as reads are in the kernel or
in the completion queue. -/
theorem C96_drained {R : Ring} (hd : 0 < R.depth) {es : List Ev} {s : State} (hr : State.run R es .init = .ok s) (ho : s.owner = none)
    (hn : s.kernel.length + s.cq.length < 2 ^ 64) : s.draining = false ↔ s.kernel = [] ∧ s.cq = [] := by
  have := (reach hd hr).D
  unfold DInv at this
  rw [pend_none ho] at this
  unfold State.draining
  rw [decide_eq_false_iff_not, Decidable.not_not]
  constructor
  · intro h
    have : s.kernel.length + s.cq.length = 0 := by omega
    exact ⟨List.length_eq_zero_iff.mp (by omega), List.length_eq_zero_iff.mp (by omega)⟩
  · rintro ⟨h1, h2⟩
    rw [h1, h2] at this
    simp only [List.length_nil] at this
    omega

/-- **C96.** When all waves have ended, the ring is empty and the destructor waits for nothing. -/
theorem C96_all_ended {R : Ring} (hd : 0 < R.depth) {es : List Ev} {s : State} (hr : State.run R es .init = .ok s)
    (ha : ∀ (w : Nat) (v : Wave), s.waves[w]? = some v → Ended v) : s.kernel = [] ∧ s.cq = [] ∧ s.reap = none ∧ s.draining = false := by
  have h := reach hd hr
  have hin : ∀ t ∈ s.toks, ∃ v, s.waves[t.w]? = some v := by
    intro t ht
    have := (h.T.mem t).mp ht
    unfold State.tot at this
    split at this
    · next v hv => exact ⟨v, hv⟩
    · omega
  have hidle : ∀ t ∈ s.toks, ¬ Busy s t.w := fun t ht => by
    obtain ⟨v, hv⟩ := hin t ht
    exact h.over_idle hv (ha _ _ hv)
  have h1 : s.kernel = [] := by
    cases hk : s.kernel with
    | nil => rfl
    | cons t ts =>
      have : t ∈ s.kernel := by rw [hk]; exact List.mem_cons_self
      exact absurd (.inl ⟨t, this, rfl⟩) (hidle t (by unfold State.toks; simp [this]))
  have h2 : s.cq = [] := by
    cases hk : s.cq with
    | nil => rfl
    | cons p ts =>
      have : p ∈ s.cq := by rw [hk]; exact List.mem_cons_self
      refine absurd (.inr (.inl ⟨p, this, rfl⟩)) (hidle p.1 ?_)
      unfold State.toks
      exact List.mem_append_left _ (List.mem_append_left _ (List.mem_append_right _ (List.mem_map.mpr ⟨p, this, rfl⟩)))
  have h3 : s.reap = none := by
    cases hk : s.reap with
    | none => rfl
    | some x =>
      obtain ⟨t, r, k⟩ := x
      exact absurd (.inr (.inr ⟨t, r, k, hk, rfl⟩)) (hidle t (reap_toks hk))
  refine ⟨h1, h2, h3, ?_⟩
  have hown : s.owner = none := by
    cases ho : s.owner with
    | none => rfl
    | some w =>
      obtain ⟨v, hv, hp⟩ := h.owner_phase ho
      obtain ⟨r, hr⟩ := ha w v hv
      rcases hp with ⟨c, i, hp⟩ | ⟨c, f, sp, hp⟩ | ⟨c, f, sp, j, hp⟩ <;> rw [hr] at hp <;> cases hp
  have := h.D
  unfold DInv at this
  rw [pend_none hown, h1, h2] at this
  unfold State.draining
  simp only [List.length_nil] at this
  have : s.inFlight = 0 := by omega
  rw [this]; rfl

/-- **C96.** A thread that holds the lock never finds the submission queue full. -/
theorem C96_room {R : Ring} (hd : 0 < R.depth) (hcap : R.depth ≤ R.cap) {es : List Ev} {s : State} (hr : State.run R es .init = .ok s)
    {w : Nat} {v : Wave} (hv : s.waves[w]? = some v) {c i : Nat} (hp : v.phase = .prep c i) (hi : i < c) : s.sq.length < R.cap := by
  have := (reach hd hr).S.each _ _ hv
  unfold SW at this
  rw [hp] at this
  rw [this.2.2.2.2.2, toksFrom_length]
  omega

/-- **C96.** The counters of a wave stay within its number of reads. -/
theorem C96_counters {R : Ring} (hd : 0 < R.depth) {es : List Ev} {s : State} (hr : State.run R es .init = .ok s)
    {w : Nat} {v : Wave} (hv : s.waves[w]? = some v) : 0 ≤ v.remaining ∧ v.remaining ≤ v.sizes.length ∧ v.failures ≤ v.sizes.length := by
  have h := reach hd hr
  have hC := h.C.1 w v hv
  have hS := h.S.each w v hv
  have hle := hS.tot_le
  have hcnt := h.T.cnt w
  rw [tot_at hv] at hcnt
  have hsub : (s.fin ++ s.reapAt 2).countP (fun p => decide (p.1.w = w)) ≤ cnt w s.toks := by
    unfold cnt
    rw [(toks_got s).countP_eq, List.countP_append, List.countP_append, List.countP_map]
    unfold State.got
    rw [List.countP_append, List.countP_append]
    have : (s.reapAt 2).countP (fun p => decide (p.1.w = w)) ≤ (s.reapAt 0).countP ((fun t : Tok => decide (t.w = w)) ∘ Prod.fst) := by
      unfold State.reapAt
      cases s.reap with
      | none => exact Nat.le_refl _
      | some x =>
        obtain ⟨t, r, k⟩ := x
        by_cases hk : 2 ≤ k
        · simp only [if_pos hk, Nat.zero_le, if_true]; exact Nat.le_refl _
        · simp only [if_neg hk]; exact Nat.zero_le _
    have h2 : s.fin.countP (fun p => decide (p.1.w = w)) = s.fin.countP ((fun t : Tok => decide (t.w = w)) ∘ Prod.fst) := rfl
    omega
  have hfin : cnt w (s.fin.map Prod.fst) ≤ (s.fin ++ s.reapAt 2).countP (fun p => decide (p.1.w = w)) := by
    unfold cnt
    rw [List.countP_map, List.countP_append]
    exact Nat.le_add_right _ _
  have hfail : v.failures ≤ (s.fin ++ s.reapAt 2).countP (fun p => decide (p.1.w = w)) := by
    rw [hC.fail]
    refine List.countP_mono_left (fun p _ hp => ?_)
    unfold isBad at hp
    simp only [Bool.and_eq_true] at hp
    exact hp.1
  have hrem := hC.rem
  refine ⟨?_, by omega, by omega⟩
  unfold SW at hS
  unfold Wave.tot at hcnt hle
  unfold Wave.given at hrem
  cases hp : v.phase with
  | poll b => rw [hp] at hcnt hrem hle; cases b <;> simp only at hcnt hrem hle <;> omega
  | over r => rw [hp] at hcnt hrem hle; cases r <;> simp only at hcnt hrem hle <;> omega
  | _ => rw [hp] at hcnt hrem hle; simp only at hcnt hrem hle; omega

/-- **C96.** As long as the kernel does not fail for good and asks for fewer than 1024 repetitions, no wave ends with an exception; the
submission queue is never found full. -/
theorem C96_calm {R : Ring} (hd : 0 < R.depth) (hcap : R.depth ≤ R.cap) {es : List Ev} {s : State} (hr : State.run R es .init = .ok s)
    (hh : ∀ e ∈ es, hardFail e = false) (ht : es.countP transient < 1024) :
    s.poisoned = false ∧ ∀ (w : Nat) (v : Wave), s.waves[w]? = some v → v.phase ≠ .over none := by
  have hc : Calm s (es.countP transient) := by
    revert s
    induction es using snoc_ind with
    | h0 => intro s hr; cases hr; exact ⟨rfl, fun w v hv => by simp [State.init] at hv⟩
    | h1 es e ih =>
      intro s hr
      obtain ⟨m, h1, h2⟩ := run_snoc hr
      rw [List.countP_append] at ht
      have hm := ih (fun e he => hh e (List.mem_append_left _ he)) (by omega) h1
      have := hm.step hcap (reach hd h1) (trans_of_step h2) (hh e (by simp)) (fun hx => by
        simp only [List.countP_cons, List.countP_nil, hx, if_true] at ht
        unfold retries; omega)
      rw [List.countP_append]
      cases hx : transient e <;> simp only [hx, if_true, Bool.false_eq_true, if_false] at this <;> simpa [hx] using this
  refine ⟨hc.poisoned, fun w v hv ho => ?_⟩
  have := (C96_exception hd hr hv ho).1
  rw [hc.poisoned] at this
  cases this

/-- **C96.** A poisoned ring stays poisoned: the kernel gets nothing more, and every later wave with a read ends with an exception. -/
theorem C96_poisoned {R : Ring} (hd : 0 < R.depth) {es es' : List Ev} {s s' : State} (hr : State.run R es .init = .ok s) (hp : s.poisoned = true)
    (hr' : State.run R es' s = .ok s') : s'.poisoned = true ∧ (∀ t ∈ s'.kernel, t ∈ s.kernel) ∧
    ∀ (w : Nat) (v : Wave) (r : Option Nat), s.waves.length ≤ w → s'.waves[w]? = some v → v.sizes ≠ [] → v.phase = .over r → r = none := by
  have h := reach hd hr
  have hD : Inv R s' ∧ Dead s s' := run_ind (P := fun x => Inv R x ∧ Dead s x) (fun a b e ha t => ⟨ha.1.trans hd t, ha.2.step ha.1 t⟩) es' s s'
    ⟨h, hp, fun t ht => ht, fun w v hv => .inr ⟨v, hv, rfl, rfl⟩⟩ hr'
  refine ⟨hD.2.poisoned, hD.2.kernel, fun w v r hw hv hs ho => ?_⟩
  have h0 : v.submitted = 0 := by
    rcases hD.2.later w v hv with h | ⟨v0, hv0, -⟩
    · exact h
    · rw [List.getElem?_eq_none hw] at hv0; cases hv0
  have hsw := hD.1.S.each w v hv
  unfold SW at hsw
  rw [ho] at hsw
  cases r with
  | none => rfl
  | some k =>
    have := hsw.2.1 (by simp)
    rw [h0] at this
    exact absurd (List.length_eq_zero_iff.mp this.symm) hs

/-! ### A concrete case -/

/-- Two waves on a ring of depth 2: three reads in two portions, one read of another thread between them, a call interrupted, one
repeated, completions out of order, one completion dispatched while its read is not yet counted. -/
def exR : Ring := ⟨2, 2⟩
def exEs : List Ev :=
  [.start [10, 20, 30] [7, 7, 7], .start [5] [0], .lock 0, .prep 0, .prep 0, .prep 0, .submit 0 .eintr, .submit 0 (.took 1), .complete 0 10,
    .take, .account 0, .store, .submit 0 .again, .submit 0 (.took 1), .account 0, .unlock 0, .lock 1, .prep 1, .prep 1, .submit 1 (.took 1),
    .account 1, .unlock 1, .tally, .finish, .complete 1 (-5), .complete 0 20, .take, .store, .tally, .finish, .poll 1, .take, .store, .tally,
    .finish, .lock 0, .prep 0, .prep 0, .submit 0 (.took 1), .account 0, .unlock 0, .complete 0 29, .take, .store, .tally, .finish, .poll 0]

def stateOf : Res → State
  | .ok s => s
  | _ => .init

theorem ex_run : State.run exR exEs .init = .ok (stateOf (State.run exR exEs .init)) := by decide +kernel

example : 0 < exR.depth ∧ exR.depth ≤ exR.cap ∧ (∀ e ∈ exEs, hardFail e = false) ∧ exEs.countP transient = 1 := by decide +kernel

/-- Three reads, the last one short: one failure. -/
example : (stateOf (State.run exR exEs .init)).waves = [⟨[10, 20, 30], [10, 20, 29], 0, 1, 3, .over (some 1)⟩, ⟨[5], [-5], 0, 1, 1, .over (some 1)⟩] ∧
    failed [10, 20, 30] [10, 20, 29] = 1 := by decide +kernel

example : Delivered exR exEs ⟨0, 2⟩ 29 := by
  obtain ⟨-, -, h⟩ := C96_wave (R := exR) (by decide) ex_run (w := 0) (v := ⟨[10, 20, 30], [10, 20, 29], 0, 1, 3, .over (some 1)⟩)
    (by decide +kernel) rfl
  obtain ⟨r, h1, h2⟩ := h 2 (by decide)
  exact (h2 29).mpr (by cases h1; rfl)

/-- The kernel takes one of two reads and then fails: the wave waits for the one, ends with an exception; a later wave fails at once. -/
def exBad : List Ev :=
  [.start [10, 20] [7, 7], .lock 0, .prep 0, .prep 0, .prep 0, .submit 0 (.took 1), .account 0, .submit 0 .hard, .deduct 0, .complete 0 10, .take,
    .store, .tally, .finish, .poll 0, .start [5] [0], .lock 1, .deduct 1, .poll 1]

example : State.run exR exBad .init = .ok (stateOf (State.run exR exBad .init)) ∧ (stateOf (State.run exR exBad .init)).poisoned = true ∧
    (stateOf (State.run exR exBad .init)).waves = [⟨[10, 20], [10, 7], 0, 0, 1, .over none⟩, ⟨[5], [0], 0, 0, 0, .over none⟩] := by
  decide +kernel

end Alaya.UringReactor
