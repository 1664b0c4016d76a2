import Verif.Model.UringReactor

/-! Invariants of the shared ring. -/
namespace Alaya.UringReactor

/-! ### Tokens -/

/-- The tokens of `n` reads of a wave from position `k` on. -/
def toksFrom (w k n : Nat) : List Tok := (List.range' k n).map (Tok.mk w)

theorem toksFrom_succ (w k n : Nat) : toksFrom w k (n + 1) = toksFrom w k n ++ [⟨w, k + n⟩] := by
  unfold toksFrom
  rw [List.range'_concat]
  simp

theorem toksFrom_split (w k : Nat) {j n : Nat} (h : j ≤ n) : toksFrom w k n = toksFrom w k j ++ toksFrom w (k + j) (n - j) := by
  unfold toksFrom
  rw [← List.map_append]
  congr 1
  rw [List.range'_append_1, Nat.add_sub_cancel' h]

theorem toksFrom_length (w k n : Nat) : (toksFrom w k n).length = n := by simp [toksFrom]

theorem toksFrom_take (w k : Nat) {j n : Nat} (h : j ≤ n) : (toksFrom w k n).take j = toksFrom w k j := by
  rw [toksFrom_split w k h, List.take_left' (toksFrom_length _ _ _)]

theorem toksFrom_drop (w k : Nat) {j n : Nat} (h : j ≤ n) : (toksFrom w k n).drop j = toksFrom w (k + j) (n - j) := by
  rw [toksFrom_split w k h, List.drop_left' (toksFrom_length _ _ _)]

theorem mem_toksFrom {w k n : Nat} {t : Tok} : t ∈ toksFrom w k n ↔ t.w = w ∧ k ≤ t.i ∧ t.i < k + n := by
  unfold toksFrom
  simp only [List.mem_map, List.mem_range'_1]
  constructor
  · rintro ⟨i, h, rfl⟩; exact ⟨rfl, h⟩
  · rintro ⟨rfl, h⟩; exact ⟨t.i, h, rfl⟩

theorem toksFrom_nodup (w k n : Nat) : (toksFrom w k n).Nodup := by
  unfold toksFrom
  exact List.Pairwise.map _ (fun a b h e => h (by injection e)) List.nodup_range'

/-- Reads the kernel has taken for a wave. -/
def Wave.tot (v : Wave) : Nat :=
  match v.phase with
  | .flush _ f _ => v.submitted + f
  | .account _ f _ j => v.submitted + f + j
  | _ => v.submitted

def State.reapTok (s : State) : List Tok :=
  match s.reap with
  | some (t, _) => [t]
  | none => []

/-- The reads the kernel has ever taken. -/
def State.toks (s : State) : List Tok := s.kernel ++ s.cq.map Prod.fst ++ s.reapTok ++ s.fin.map Prod.fst

def cnt (w : Nat) (l : List Tok) : Nat := l.countP (fun t => t.w = w)

/-! ### Submission -/

/-- The coroutine of a wave, the lock and the submission queue. -/
def SW (R : Ring) (s : State) (w : Nat) (v : Wave) : Prop :=
  match v.phase with
  | .ready => v.submitted < v.sizes.length ∧ s.owner ≠ some w
  | .prep c i => s.owner = some w ∧ i ≤ c ∧ 1 ≤ c ∧ c ≤ R.depth ∧ v.submitted + c ≤ v.sizes.length ∧ s.sq = toksFrom w v.submitted i
  | .flush c f sp => s.owner = some w ∧ f ≤ c ∧ 1 ≤ c ∧ c ≤ R.depth ∧ v.submitted + c ≤ v.sizes.length ∧ sp < retries ∧
      s.sq = toksFrom w (v.submitted + f) (c - f)
  | .account c f sp j => s.owner = some w ∧ f + j ≤ c ∧ 1 ≤ c ∧ c ≤ R.depth ∧ v.submitted + c ≤ v.sizes.length ∧ sp < retries ∧
      s.sq = toksFrom w (v.submitted + f + j) (c - f - j)
  | .short => v.submitted < v.sizes.length ∧ s.poisoned = true ∧ s.owner ≠ some w
  | .poll b => s.owner ≠ some w ∧ (b = false → v.submitted = v.sizes.length) ∧
      (b = true → v.submitted < v.sizes.length ∧ s.poisoned = true)
  | .over r => s.owner ≠ some w ∧ (r ≠ none → v.submitted = v.sizes.length) ∧
      (r = none → v.submitted < v.sizes.length ∧ s.poisoned = true)

structure SInv (R : Ring) (s : State) : Prop where
  each : ∀ w v, s.waves[w]? = some v → SW R s w v
  clean : s.owner = none → s.poisoned = false → s.sq = []
  held : ∀ w, s.owner = some w → (∃ v, s.waves[w]? = some v) ∧ s.poisoned = false

theorem SW.tot_le {R : Ring} {s : State} {w : Nat} {v : Wave} (h : SW R s w v) : v.tot ≤ v.sizes.length := by
  unfold SW at h
  unfold Wave.tot
  split at h <;> rename_i hp <;> rw [hp] <;> simp only
  · omega
  · omega
  · omega
  · omega
  · omega
  · rename_i b; cases b <;> simp at h <;> omega
  · rename_i r; cases r <;> simp at h <;> omega

/-- A wave that does not hold the lock does not see what the owner does. -/
theorem SW.other {R : Ring} {s s' : State} {w : Nat} {v : Wave} (h : SW R s w v) (h1 : s.owner ≠ some w) (h2 : s'.owner ≠ some w)
    (h3 : s.poisoned = true → s'.poisoned = true) : SW R s' w v := by
  unfold SW at h ⊢
  split at h
  · exact ⟨h.1, h2⟩
  · exact absurd h.1 h1
  · exact absurd h.1 h1
  · exact absurd h.1 h1
  · exact ⟨h.1, h3 h.2.1, h2⟩
  · exact ⟨h2, h.2.1, fun e => ⟨(h.2.2 e).1, h3 (h.2.2 e).2⟩⟩
  · exact ⟨h2, h.2.1, fun e => ⟨(h.2.2 e).1, h3 (h.2.2 e).2⟩⟩

theorem getPut {l : List Wave} {w u : Nat} {v x y : Wave} (h : l[w]? = some v) (hu : (l.set w x)[u]? = some y) :
    (u = w ∧ y = x) ∨ (u ≠ w ∧ l[u]? = some y) := by
  by_cases e : u = w
  · subst e
    rw [List.getElem?_set_self (by
      rcases Nat.lt_or_ge u l.length with h' | h'
      · exact h'
      · rw [List.getElem?_eq_none h'] at h; cases h)] at hu
    exact .inl ⟨rfl, (Option.some.inj hu).symm⟩
  · rw [List.getElem?_set_ne (Ne.symm e)] at hu
    exact .inr ⟨e, hu⟩

theorem getSet {l : List Wave} {w : Nat} {v : Wave} (h : l[w]? = some v) (x : Wave) : (l.set w x)[w]? = some x := by
  rw [List.getElem?_set_self (by
      rcases Nat.lt_or_ge w l.length with h' | h'
      · exact h'
      · rw [List.getElem?_eq_none h'] at h; cases h)]

/-- A step of the wave `w` that changes its frame, the lock, the queue and the poison. -/
theorem SInv.move {R : Ring} {s s' : State} (h : SInv R s) {w : Nat} {v x : Wave} (hv : s.waves[w]? = some v)
    (hw : s'.waves = s.waves.set w x) (hx : SW R s' w x) (ho : ∀ u, u ≠ w → s.owner ≠ some u ∧ s'.owner ≠ some u ∨ s'.owner = s.owner ∧ s'.sq = s.sq)
    (hp : s.poisoned = true → s'.poisoned = true) (hc : s'.owner = none → s'.poisoned = false → s'.sq = [])
    (hh : ∀ u, s'.owner = some u → s'.poisoned = false ∧ (u = w ∨ s.owner = some u)) : SInv R s' := by
  refine ⟨?_, hc, ?_⟩
  · intro u y hu
    rw [hw] at hu
    rcases getPut hv hu with ⟨rfl, rfl⟩ | ⟨e, hu⟩
    · exact hx
    · have h0 := h.each u y hu
      rcases ho u e with ⟨h1, h2⟩ | ⟨h1, h2⟩
      · exact h0.other h1 h2 hp
      · unfold SW at h0 ⊢
        split at h0
        · exact ⟨h0.1, by rw [h1]; exact h0.2⟩
        · rw [h1, h2]; exact h0
        · rw [h1, h2]; exact h0
        · rw [h1, h2]; exact h0
        · exact ⟨h0.1, hp h0.2.1, by rw [h1]; exact h0.2.2⟩
        · exact ⟨by rw [h1]; exact h0.1, h0.2.1, fun e => ⟨(h0.2.2 e).1, hp (h0.2.2 e).2⟩⟩
        · exact ⟨by rw [h1]; exact h0.1, h0.2.1, fun e => ⟨(h0.2.2 e).1, hp (h0.2.2 e).2⟩⟩
  · intro u hu
    obtain ⟨h1, h2⟩ := hh u hu
    refine ⟨?_, h1⟩
    rcases h2 with rfl | h2
    · exact ⟨x, by rw [hw]; exact getSet hv x⟩
    · obtain ⟨⟨y, hy⟩, -⟩ := h.held u h2
      by_cases e : u = w
      · subst e; exact ⟨x, by rw [hw]; exact getSet hv x⟩
      · exact ⟨y, by rw [hw, List.getElem?_set_ne (Ne.symm e)]; exact hy⟩

/-- A step that changes neither lock, queue, poison nor the phase and `submitted` of any wave. -/
theorem SInv.frame {R : Ring} {s s' : State} (h : SInv R s) {w : Nat} {v x : Wave} (hv : s.waves[w]? = some v)
    (hw : s'.waves = s.waves.set w x) (h1 : x.phase = v.phase) (h2 : x.submitted = v.submitted) (h3 : x.sizes = v.sizes)
    (ho : s'.owner = s.owner) (hq : s'.sq = s.sq) (hp : s'.poisoned = s.poisoned) : SInv R s' := by
  refine h.move hv hw ?_ (fun u _ => .inr ⟨ho, hq⟩) (by rw [hp]; exact id) (by rw [ho, hp, hq]; exact h.clean) ?_
  · have := h.each w v hv
    unfold SW at this ⊢
    rw [h1, h2, h3, ho, hq, hp]
    exact this
  · intro u hu
    rw [ho] at hu
    exact ⟨by rw [hp]; exact (h.held u hu).2, .inr hu⟩

theorem SInv.same {R : Ring} {s s' : State} (h : SInv R s) (hw : s'.waves = s.waves) (ho : s'.owner = s.owner) (hq : s'.sq = s.sq)
    (hp : s'.poisoned = s.poisoned) : SInv R s' := by
  refine ⟨?_, by rw [ho, hp, hq]; exact h.clean, by rw [ho, hp, hw]; exact h.held⟩
  intro w v hv
  rw [hw] at hv
  have := h.each w v hv
  unfold SW at this ⊢
  rw [ho, hq, hp]
  exact this

/-! ### The steps, one by one -/

inductive Trans (R : Ring) (s : State) : Ev → State → Prop where
  | start (sizes : List Nat) (old : List Int) (h : old.length = sizes.length) : Trans R s (.start sizes old)
      { s with waves := s.waves ++ [⟨sizes, old, sizes.length, 0, 0, if sizes = [] then .over (some 0) else .ready⟩] }
  | refused {w : Nat} {v : Wave} (hv : s.waves[w]? = some v) (hp : v.phase = .ready) (ho : s.owner = none) (hx : s.poisoned = true) :
      Trans R s (.lock w) (s.put w { v with phase := .short })
  | lock {w : Nat} {v : Wave} (hv : s.waves[w]? = some v) (hp : v.phase = .ready) (ho : s.owner = none) (hx : s.poisoned = false) :
      Trans R s (.lock w) { s.put w { v with phase := .prep (min (v.sizes.length - v.submitted) R.depth) 0 } with owner := some w }
  | prep {w : Nat} {v : Wave} {c i : Nat} (hv : s.waves[w]? = some v) (hp : v.phase = .prep c i) (hi : i < c) (hc : s.sq.length < R.cap) :
      Trans R s (.prep w) { s.put w { v with phase := .prep c (i + 1) } with sq := s.sq ++ [⟨w, v.submitted + i⟩] }
  | full {w : Nat} {v : Wave} {c i : Nat} (hv : s.waves[w]? = some v) (hp : v.phase = .prep c i) (hi : i < c) (hc : R.cap ≤ s.sq.length) :
      Trans R s (.prep w) (s.poison w v)
  | prepared {w : Nat} {v : Wave} {c i : Nat} (hv : s.waves[w]? = some v) (hp : v.phase = .prep c i) (hi : c ≤ i) :
      Trans R s (.prep w) (s.put w { v with phase := .flush c 0 0 })
  | took {w : Nat} {v : Wave} {c f sp j : Nat} (hv : s.waves[w]? = some v) (hp : v.phase = .flush c f sp) (hf : f < c) (hj : 0 < j)
      (hq : j ≤ s.sq.length) : Trans R s (.submit w (.took j))
        { s.put w { v with phase := .account c f sp j } with sq := s.sq.drop j, kernel := s.kernel ++ s.sq.take j }
  | eintr {w : Nat} {v : Wave} {c f sp : Nat} (hv : s.waves[w]? = some v) (hp : v.phase = .flush c f sp) (hf : f < c) :
      Trans R s (.submit w .eintr) s
  | again {w : Nat} {v : Wave} {c f sp : Nat} (hv : s.waves[w]? = some v) (hp : v.phase = .flush c f sp) (hf : f < c) (hs : sp + 1 < retries) :
      Trans R s (.submit w .again) (s.put w { v with phase := .flush c f (sp + 1) })
  | gaveUp {w : Nat} {v : Wave} {c f sp : Nat} {r : Ret} (hv : s.waves[w]? = some v) (hp : v.phase = .flush c f sp) (hf : f < c)
      (hr : r = .hard ∨ r = .again ∧ retries ≤ sp + 1) : Trans R s (.submit w r) (s.poison w { v with submitted := v.submitted + f })
  | account {w : Nat} {v : Wave} {c f sp j : Nat} (hv : s.waves[w]? = some v) (hp : v.phase = .account c f sp j) :
      Trans R s (.account w) { s.put w { v with phase := .flush c (f + j) sp } with inFlight := s.inFlight + j }
  | unlock {w : Nat} {v : Wave} {c f sp : Nat} (hv : s.waves[w]? = some v) (hp : v.phase = .flush c f sp) (hf : c ≤ f) :
      Trans R s (.unlock w) { s.put w { v with submitted := v.submitted + f, phase := if v.submitted + f < v.sizes.length then .ready else .poll false } with
        owner := none }
  | deduct {w : Nat} {v : Wave} (hv : s.waves[w]? = some v) (hp : v.phase = .short) : Trans R s (.deduct w)
      (s.put w { v with remaining := v.remaining - ((v.sizes.length : Int) - v.submitted), phase := .poll true })
  | poll {w : Nat} {v : Wave} {b : Bool} (hv : s.waves[w]? = some v) (hp : v.phase = .poll b) (hr : v.remaining = 0) :
      Trans R s (.poll w) (s.put w { v with phase := .over (if b then none else some v.failures) })
  | complete {p : Nat} {t : Tok} (r : Int) (hk : s.kernel[p]? = some t) : Trans R s (.complete p r)
      { s with kernel := s.kernel.eraseIdx p, cq := s.cq ++ [(t, r)] }
  | take {t : Tok} {r : Int} {rest : List (Tok × Int)} (hr : s.reap = none) (hq : s.cq = (t, r) :: rest) : Trans R s .take
      { s with cq := rest, inFlight := s.inFlight - 1, reap := some (t, r, 0) }
  | store {t : Tok} {r : Int} {v : Wave} (hr : s.reap = some (t, r, 0)) (hv : s.waves[t.w]? = some v) (ha : v.phase.isOver = false) :
      Trans R s .store { s.put t.w { v with res := v.res.set t.i r } with reap := some (t, r, 1) }
  | tally {t : Tok} {r : Int} {v : Wave} (hr : s.reap = some (t, r, 1)) (hv : s.waves[t.w]? = some v) (ha : v.phase.isOver = false) :
      Trans R s .tally { s.put t.w { v with failures := if bad ((v.sizes[t.i]?).getD 0) r then v.failures + 1 else v.failures } with
        reap := some (t, r, 2) }
  | finish {t : Tok} {r : Int} {v : Wave} (hr : s.reap = some (t, r, 2)) (hv : s.waves[t.w]? = some v) (ha : v.phase.isOver = false) :
      Trans R s .finish { s.put t.w { v with remaining := v.remaining - 1 } with reap := none, fin := s.fin ++ [(t, r)] }

theorem wave_ok {s s' : State} {w : Nat} {k : Wave → Res} (h : s.wave w k = .ok s') : ∃ v, s.waves[w]? = some v ∧ k v = .ok s' := by
  unfold State.wave at h
  split at h
  · next v e => exact ⟨v, e, h⟩
  · cases h

theorem frame_ok {s s' : State} {t : Tok} {k : Wave → State} (h : s.frame t k = .ok s') :
    ∃ v, s.waves[t.w]? = some v ∧ v.phase.isOver = false ∧ k v = s' := by
  unfold State.frame at h
  split at h
  · next v e =>
    split at h
    · cases h
    · next ho => exact ⟨v, e, by simpa using ho, by injection h⟩
  · cases h

theorem trans_of_step {R : Ring} {s s' : State} {e : Ev} (h : s.step R e = .ok s') : Trans R s e s' := by
  cases e with
  | start sizes old =>
    simp only [State.step, State.start] at h
    split at h
    · cases h
    · next hl => cases h; exact .start sizes old (by simpa using hl)
  | lock w =>
    obtain ⟨v, hv, h⟩ := wave_ok h
    unfold State.lock at h
    split at h
    · cases h
    · next hn =>
      have h1 : v.phase = .ready := Decidable.byContradiction (fun e => hn (.inl e))
      have h2 : s.owner = none := by
        cases ho : s.owner with
        | none => rfl
        | some _ => exact absurd (.inr (by rw [ho]; rfl)) hn
      split at h
      · next hx => cases h; exact .refused hv h1 h2 hx
      · next hx => cases h; exact .lock hv h1 h2 (by simpa using hx)
  | prep w =>
    obtain ⟨v, hv, h⟩ := wave_ok h
    unfold State.prep at h
    split at h
    · next c i hp =>
      split at h
      · next hi =>
        split at h
        · next hc => cases h; exact .prep hv hp hi hc
        · next hc => cases h; exact .full hv hp hi (by omega)
      · next hi => cases h; exact .prepared hv hp (by omega)
    · cases h
  | submit w r =>
    obtain ⟨v, hv, h⟩ := wave_ok h
    unfold State.submit at h
    split at h
    · next c f sp hp =>
      split at h
      · next hf =>
        split at h
        · next j =>
          split at h
          · next hj => cases h; exact .took hv hp hf hj.1 hj.2
          · cases h
        · cases h; exact .eintr hv hp hf
        · split at h
          · next hs => cases h; exact .again hv hp hf hs
          · next hs => cases h; exact .gaveUp hv hp hf (.inr ⟨rfl, by omega⟩)
        · cases h; exact .gaveUp hv hp hf (.inl rfl)
      · cases h
    · cases h
  | account w =>
    obtain ⟨v, hv, h⟩ := wave_ok h
    unfold State.account at h
    split at h
    · next c f sp j hp => cases h; exact .account hv hp
    · cases h
  | unlock w =>
    obtain ⟨v, hv, h⟩ := wave_ok h
    unfold State.unlock at h
    split at h
    · next c f sp hp =>
      split at h
      · cases h
      · next hf => cases h; exact .unlock hv hp (by omega)
    · cases h
  | deduct w =>
    obtain ⟨v, hv, h⟩ := wave_ok h
    unfold State.deduct at h
    split at h
    · next hp => cases h; exact .deduct hv hp
    · cases h
  | poll w =>
    obtain ⟨v, hv, h⟩ := wave_ok h
    unfold State.poll at h
    split at h
    · next b hp =>
      split at h
      · next hr => cases h; exact .poll hv hp hr
      · cases h
    · cases h
  | complete p r =>
    simp only [State.step, State.complete] at h
    split at h
    · next t hk => cases h; exact .complete r hk
    · cases h
  | take =>
    simp only [State.step, State.take] at h
    split at h
    · next t r rest hr hq => cases h; exact .take hr hq
    · cases h
  | store =>
    simp only [State.step, State.store] at h
    split at h
    · next t r hr =>
      obtain ⟨v, hv, ha, rfl⟩ := frame_ok h
      exact .store hr hv ha
    · cases h
  | tally =>
    simp only [State.step, State.tally] at h
    split at h
    · next t r hr =>
      obtain ⟨v, hv, ha, rfl⟩ := frame_ok h
      exact .tally hr hv ha
    · cases h
  | finish =>
    simp only [State.step, State.finish] at h
    split at h
    · next t r hr =>
      obtain ⟨v, hv, ha, rfl⟩ := frame_ok h
      exact .finish hr hv ha
    · cases h

/-! ### Submission, preserved -/

theorem owner_other {s : State} {w u : Nat} (h : s.owner = some w) (e : u ≠ w) : s.owner ≠ some u := by
  rw [h]; intro x; exact e (Option.some.inj x).symm

theorem SInv.step {R : Ring} (hd : 0 < R.depth) {s s' : State} {e : Ev} (h : SInv R s) (t : Trans R s e s') : SInv R s' := by
  cases t with
  | start sizes old hl =>
    refine ⟨?_, h.clean, ?_⟩
    · intro w v hv
      rcases Nat.lt_or_ge w s.waves.length with hw | hw
      · rw [List.getElem?_append_left hw] at hv
        exact h.each w v hv
      · rw [List.getElem?_append_right hw] at hv
        have hno : s.owner ≠ some w := by
          intro ho
          obtain ⟨⟨y, hy⟩, -⟩ := h.held w ho
          rw [List.getElem?_eq_none hw] at hy
          cases hy
        have hz : w - s.waves.length = 0 := by
          rcases Nat.eq_zero_or_pos (w - s.waves.length) with hz | hz
          · exact hz
          · rw [List.getElem?_eq_none (by simp only [List.length_singleton]; omega)] at hv; cases hv
        rw [hz] at hv
        simp only [List.getElem?_cons_zero, Option.some.injEq] at hv
        subst hv
        unfold SW
        by_cases hs : sizes = []
        · subst hs; simp only [if_true]; exact ⟨hno, fun _ => rfl, fun x => by cases x⟩
        · simp only [if_neg hs]; exact ⟨List.length_pos_iff.mpr hs, hno⟩
    · intro w ho
      obtain ⟨⟨y, hy⟩, hp⟩ := h.held w ho
      refine ⟨⟨y, ?_⟩, hp⟩
      rw [List.getElem?_append_left (by
        rcases Nat.lt_or_ge w s.waves.length with h' | h'
        · exact h'
        · rw [List.getElem?_eq_none h'] at hy; cases hy)]
      exact hy
  | refused hv hp ho hx =>
    have h0 := h.each _ _ hv
    unfold SW at h0; rw [hp] at h0
    refine h.move hv rfl ?_ (fun u _ => .inr ⟨rfl, rfl⟩) id h.clean (fun u hu => ⟨(h.held u hu).2, .inr hu⟩)
    exact ⟨h0.1, hx, h0.2⟩
  | @lock w v hv hp ho hx =>
    have h0 := h.each _ _ hv
    unfold SW at h0; rw [hp] at h0
    refine h.move hv rfl ?_ (fun u e => .inl ⟨by rw [ho]; simp, owner_other rfl e⟩) id (fun x => by cases x) (fun u hu => ⟨hx, .inl ?_⟩)
    · refine ⟨rfl, Nat.zero_le _, ?_, ?_, ?_, ?_⟩
      · show 1 ≤ min (v.sizes.length - v.submitted) R.depth; omega
      · exact Nat.min_le_right _ _
      · show v.submitted + min (v.sizes.length - v.submitted) R.depth ≤ v.sizes.length; omega
      · exact h.clean ho hx
    · exact (Option.some.inj hu).symm
  | @prep w v c i hv hp hi hc =>
    have h0 := h.each _ _ hv
    unfold SW at h0; rw [hp] at h0
    obtain ⟨a1, a2, a3, a4, a5, a6⟩ := h0
    refine h.move hv rfl ?_ (fun u e => .inl ⟨owner_other a1 e, owner_other a1 e⟩) id (fun x => by rw [show s.owner = none from x] at a1; cases a1)
      (fun u hu => ⟨(h.held u hu).2, .inr hu⟩)
    exact ⟨a1, hi, a3, a4, a5, by show s.sq ++ _ = toksFrom w v.submitted (i + 1); rw [toksFrom_succ, a6]⟩
  | @full w v c i hv hp hi hc =>
    have h0 := h.each _ _ hv
    unfold SW at h0; rw [hp] at h0
    obtain ⟨a1, a2, a3, a4, a5, a6⟩ := h0
    refine h.move hv rfl ?_ (fun u e => .inl ⟨owner_other a1 e, by simp [State.poison]⟩) (fun _ => rfl) (fun _ x => by cases x)
      (fun u hu => by cases hu)
    exact ⟨by show v.submitted < v.sizes.length; omega, rfl, by simp [State.poison]⟩
  | @prepared w v c i hv hp hi =>
    have h0 := h.each _ _ hv
    unfold SW at h0; rw [hp] at h0
    obtain ⟨a1, a2, a3, a4, a5, a6⟩ := h0
    refine h.move hv rfl ?_ (fun u e => .inr ⟨rfl, rfl⟩) id h.clean (fun u hu => ⟨(h.held u hu).2, .inr hu⟩)
    have : i = c := by omega
    subst this
    exact ⟨a1, Nat.zero_le _, a3, a4, a5, by decide, a6⟩
  | @took w v c f sp j hv hp hf hj hq =>
    have h0 := h.each _ _ hv
    unfold SW at h0; rw [hp] at h0
    obtain ⟨a1, a2, a3, a4, a5, a6, a7⟩ := h0
    rw [a7, toksFrom_length] at hq
    refine h.move hv rfl ?_ (fun u e => .inl ⟨owner_other a1 e, owner_other a1 e⟩) id (fun x => by rw [show s.owner = none from x] at a1; cases a1)
      (fun u hu => ⟨(h.held u hu).2, .inr hu⟩)
    refine ⟨a1, by omega, a3, a4, a5, a6, ?_⟩
    show s.sq.drop j = _
    rw [a7, toksFrom_drop _ _ hq]
  | eintr hv hp hf => exact h
  | @again w v c f sp hv hp hf hs =>
    have h0 := h.each _ _ hv
    unfold SW at h0; rw [hp] at h0
    obtain ⟨a1, a2, a3, a4, a5, a6, a7⟩ := h0
    refine h.move hv rfl ?_ (fun u e => .inr ⟨rfl, rfl⟩) id h.clean (fun u hu => ⟨(h.held u hu).2, .inr hu⟩)
    exact ⟨a1, a2, a3, a4, a5, hs, a7⟩
  | @gaveUp w v c f sp r hv hp hf =>
    have h0 := h.each _ _ hv
    unfold SW at h0; rw [hp] at h0
    obtain ⟨a1, a2, a3, a4, a5, a6, a7⟩ := h0
    refine h.move hv rfl ?_ (fun u e => .inl ⟨owner_other a1 e, by simp [State.poison]⟩) (fun _ => rfl) (fun _ x => by cases x)
      (fun u hu => by cases hu)
    exact ⟨by show v.submitted + f < v.sizes.length; omega, rfl, by simp [State.poison]⟩
  | @account w v c f sp j hv hp =>
    have h0 := h.each _ _ hv
    unfold SW at h0; rw [hp] at h0
    obtain ⟨a1, a2, a3, a4, a5, a6, a7⟩ := h0
    refine h.move hv rfl ?_ (fun u e => .inr ⟨rfl, rfl⟩) id h.clean (fun u hu => ⟨(h.held u hu).2, .inr hu⟩)
    refine ⟨a1, a2, a3, a4, a5, a6, ?_⟩
    show s.sq = _
    rw [a7, ← Nat.add_assoc, Nat.sub_add_eq]
  | @unlock w v c f sp hv hp hf =>
    have h0 := h.each _ _ hv
    unfold SW at h0; rw [hp] at h0
    obtain ⟨a1, a2, a3, a4, a5, a6, a7⟩ := h0
    have : f = c := by omega
    subst this
    refine h.move hv rfl ?_ (fun u e => .inl ⟨owner_other a1 e, by simp⟩) id (fun _ _ => ?_) (fun u hu => by cases hu)
    · unfold SW
      by_cases hl : v.submitted + f < v.sizes.length
      · simp only [if_pos hl]; exact ⟨hl, by simp⟩
      · simp only [if_neg hl]
        exact ⟨by simp, fun _ => by omega, fun x => by cases x⟩
    · show s.sq = []
      rw [a7, Nat.sub_self]; rfl
  | @deduct w v hv hp =>
    have h0 := h.each _ _ hv
    unfold SW at h0; rw [hp] at h0
    refine h.move hv rfl ?_ (fun u e => .inr ⟨rfl, rfl⟩) id h.clean (fun u hu => ⟨(h.held u hu).2, .inr hu⟩)
    exact ⟨h0.2.2, ⟨fun x => (by cases x), fun _ => ⟨h0.1, h0.2.1⟩⟩⟩
  | @poll w v b hv hp hr =>
    have h0 := h.each _ _ hv
    unfold SW at h0; rw [hp] at h0
    refine h.move hv rfl ?_ (fun u e => .inr ⟨rfl, rfl⟩) id h.clean (fun u hu => ⟨(h.held u hu).2, .inr hu⟩)
    refine ⟨h0.1, fun x => h0.2.1 ?_, fun x => h0.2.2 ?_⟩
    · cases b
      · rfl
      · exact absurd rfl x
    · cases b
      · cases x
      · rfl
  | complete r hk => exact h.same rfl rfl rfl rfl
  | take hr hq => exact h.same rfl rfl rfl rfl
  | store hr hv ha => exact h.frame hv rfl rfl rfl rfl rfl rfl rfl
  | tally hr hv ha => exact h.frame hv rfl rfl rfl rfl rfl rfl rfl
  | finish hr hv ha => exact h.frame hv rfl rfl rfl rfl rfl rfl rfl

/-! ### Every read the kernel has taken is in one place -/

def State.tot (s : State) (w : Nat) : Nat :=
  match s.waves[w]? with
  | some v => v.tot
  | none => 0

structure TInv (s : State) : Prop where
  nodup : s.toks.Nodup
  mem : ∀ t, t ∈ s.toks ↔ t.i < s.tot t.w

theorem erase_perm {α : Type} : ∀ (l : List α) (p : Nat) (t : α), l[p]? = some t → (t :: l.eraseIdx p).Perm l
  | [], p, t, h => by simp at h
  | a :: l, 0, t, h => by
    simp only [List.getElem?_cons_zero, Option.some.injEq] at h
    subst h
    exact .refl _
  | a :: l, p + 1, t, h => by
    simp only [List.getElem?_cons_succ] at h
    exact (List.Perm.swap a t _).trans ((erase_perm l p t h).cons a)

theorem perm_swap {α : Type} (a b c : List α) : (a ++ (b ++ c)).Perm (b ++ (a ++ c)) := by
  rw [← List.append_assoc, ← List.append_assoc]
  exact List.perm_append_comm.append_right _

theorem TInv.perm {s s' : State} (h : TInv s) (hp : s'.toks.Perm s.toks) (ht : ∀ w, s'.tot w = s.tot w) : TInv s' :=
  ⟨hp.symm.nodup h.nodup, fun t => by rw [ht, ← h.mem]; exact hp.mem_iff⟩

theorem tot_put {s s' : State} {w : Nat} {v x : Wave} (hv : s.waves[w]? = some v) (hw : s'.waves = s.waves.set w x) (u : Nat) :
    s'.tot u = if u = w then x.tot else s.tot u := by
  unfold State.tot
  rw [hw]
  by_cases e : u = w
  · subst e; rw [getSet hv, if_pos rfl]
  · rw [List.getElem?_set_ne (Ne.symm e), if_neg e]

theorem tot_at {s : State} {w : Nat} {v : Wave} (hv : s.waves[w]? = some v) : s.tot w = v.tot := by
  unfold State.tot; rw [hv]

theorem tot_same {s s' : State} {w : Nat} {v x : Wave} (hv : s.waves[w]? = some v) (hw : s'.waves = s.waves.set w x) (hx : x.tot = v.tot)
    (u : Nat) : s'.tot u = s.tot u := by
  rw [tot_put hv hw]
  split
  · next e => subst e; rw [hx, tot_at hv]
  · rfl

theorem toks_same {s s' : State} (h1 : s'.kernel = s.kernel) (h2 : s'.cq = s.cq) (h3 : s'.reap = s.reap) (h4 : s'.fin = s.fin) :
    s'.toks = s.toks := by
  unfold State.toks State.reapTok
  rw [h1, h2, h3, h4]

/-- A step of a wave that moves no read. -/
theorem TInv.still {s s' : State} (h : TInv s) {w : Nat} {v x : Wave} (hv : s.waves[w]? = some v) (hw : s'.waves = s.waves.set w x)
    (hx : x.tot = v.tot) (h1 : s'.kernel = s.kernel) (h2 : s'.cq = s.cq) (h3 : s'.reap = s.reap) (h4 : s'.fin = s.fin) : TInv s' :=
  h.perm (by rw [toks_same h1 h2 h3 h4]) (tot_same hv hw hx)

theorem TInv.step {R : Ring} {s s' : State} {e : Ev} (hS : SInv R s) (h : TInv s) (t : Trans R s e s') : TInv s' := by
  cases t with
  | start sizes old hl =>
    refine h.perm (.refl _) (fun w => ?_)
    unfold State.tot
    show (match (s.waves ++ _)[w]? with | some v => v.tot | none => 0) = _
    rcases Nat.lt_or_ge w s.waves.length with hw | hw
    · rw [List.getElem?_append_left hw]
    · rw [List.getElem?_append_right hw, List.getElem?_eq_none hw]
      rcases Nat.eq_zero_or_pos (w - s.waves.length) with hz | hz
      · rw [hz]
        simp only [List.getElem?_cons_zero]
        unfold Wave.tot
        by_cases hs : sizes = []
        · simp only [if_pos hs]
        · simp only [if_neg hs]
      · rw [List.getElem?_eq_none (by simp only [List.length_singleton]; omega)]
  | refused hv hp ho hx => exact h.still hv rfl (by simp [Wave.tot, hp]) rfl rfl rfl rfl
  | lock hv hp ho hx => exact h.still hv rfl (by simp [Wave.tot, hp]) rfl rfl rfl rfl
  | prep hv hp hi hc => exact h.still hv rfl (by simp [Wave.tot, hp]) rfl rfl rfl rfl
  | full hv hp hi hc => exact h.still hv rfl (by simp [Wave.tot, hp]) rfl rfl rfl rfl
  | prepared hv hp hi => exact h.still hv rfl (by simp [Wave.tot, hp]) rfl rfl rfl rfl
  | @took w v c f sp j hv hp hf hj hq =>
    have h0 := hS.each _ _ hv
    unfold SW at h0; rw [hp] at h0
    obtain ⟨a1, a2, a3, a4, a5, a6, a7⟩ := h0
    rw [a7, toksFrom_length] at hq
    have htk : s.sq.take j = toksFrom w (v.submitted + f) j := by rw [a7, toksFrom_take _ _ hq]
    have hwt : s.tot w = v.submitted + f := by rw [tot_at hv]; simp [Wave.tot, hp]
    have hpm : ∀ s' : State, s'.kernel = s.kernel ++ s.sq.take j → s'.cq = s.cq → s'.reap = s.reap → s'.fin = s.fin →
        s'.toks.Perm (toksFrom w (v.submitted + f) j ++ s.toks) := by
      intro s' h1 h2 h3 h4
      unfold State.toks State.reapTok
      rw [h1, h2, h3, h4, htk]
      simp only [List.append_assoc]
      exact perm_swap _ _ _
    generalize hs' : ({ s.put w { v with phase := .account c f sp j } with sq := s.sq.drop j, kernel := s.kernel ++ s.sq.take j } : State) = s'
    have hp' := hpm s' (by rw [← hs']) (by rw [← hs']; rfl) (by rw [← hs']; rfl) (by rw [← hs']; rfl)
    have ht := tot_put hv (show s'.waves = s.waves.set w { v with phase := .account c f sp j } by rw [← hs']; rfl)
    refine ⟨hp'.symm.nodup (List.nodup_append.mpr ⟨toksFrom_nodup _ _ _, h.nodup, ?_⟩), ?_⟩
    · intro a ha b hb e
      subst e
      obtain ⟨b1, b2, b3⟩ := mem_toksFrom.mp ha
      have := (h.mem a).mp hb
      rw [b1, hwt] at this
      omega
    · intro t
      rw [hp'.mem_iff, List.mem_append, mem_toksFrom, h.mem, ht]
      by_cases e : t.w = w
      · rw [if_pos e, e, hwt]
        simp only [Wave.tot, true_and]
        omega
      · rw [if_neg e]
        simp [e]
  | eintr hv hp hf => exact h
  | again hv hp hf hs => exact h.still hv rfl (by simp [Wave.tot, hp]) rfl rfl rfl rfl
  | gaveUp hv hp hf => exact h.still hv rfl (by simp [Wave.tot, hp]) rfl rfl rfl rfl
  | account hv hp => exact h.still hv rfl (by simp [Wave.tot, hp]; omega) rfl rfl rfl rfl
  | @unlock w v c f sp hv hp hf =>
    refine h.still hv rfl ?_ rfl rfl rfl rfl
    unfold Wave.tot
    rw [hp]
    by_cases hl : v.submitted + f < v.sizes.length
    · simp only [if_pos hl]
    · simp only [if_neg hl]
  | deduct hv hp => exact h.still hv rfl (by simp [Wave.tot, hp]) rfl rfl rfl rfl
  | poll hv hp hr => exact h.still hv rfl (by simp [Wave.tot, hp]) rfl rfl rfl rfl
  | @complete p t r hk =>
    refine h.perm ?_ (fun _ => rfl)
    unfold State.toks State.reapTok
    refine List.Perm.append_right _ (List.Perm.append_right _ ?_)
    simp only [List.map_append, List.map_cons, List.map_nil]
    refine List.Perm.trans ?_ ((erase_perm s.kernel p t hk).append_right _)
    refine List.Perm.trans (List.Perm.append_left _ (List.perm_append_comm (l₂ := [t]))) ?_
    rw [← List.append_assoc]
    exact List.Perm.append_right _ (List.perm_append_comm (l₂ := [t]))
  | @take t r rest hr hq =>
    refine h.perm ?_ (fun _ => rfl)
    unfold State.toks State.reapTok
    rw [hr, hq]
    refine List.Perm.append_right _ ?_
    simp only [List.map_cons, List.append_nil, List.append_assoc]
    exact List.Perm.append_left _ (List.perm_append_comm (l₂ := [t]))
  | @store t r v hr hv ha =>
    refine h.perm ?_ (tot_same hv rfl rfl)
    unfold State.toks State.reapTok
    rw [hr]; exact .refl _
  | @tally t r v hr hv ha =>
    refine h.perm ?_ (tot_same hv rfl rfl)
    unfold State.toks State.reapTok
    rw [hr]; exact .refl _
  | @finish t r v hr hv ha =>
    refine h.perm ?_ (tot_same hv rfl rfl)
    unfold State.toks State.reapTok
    rw [hr]
    simp only [List.map_append, List.map_cons, List.map_nil, List.append_assoc, List.nil_append, State.put]
    exact List.Perm.append_left _ (List.Perm.append_left _ List.perm_append_comm)

theorem TInv.cnt {s : State} (h : TInv s) (w : Nat) : cnt w s.toks = s.tot w := by
  unfold UringReactor.cnt
  rw [List.countP_eq_length_filter]
  have : (s.toks.filter (fun t => t.w = w)).Perm (toksFrom w 0 (s.tot w)) := by
    refine (List.perm_ext_iff_of_nodup (h.nodup.filter _) (toksFrom_nodup _ _ _)).mpr (fun t => ?_)
    rw [List.mem_filter, mem_toksFrom, h.mem]
    simp only [decide_eq_true_eq, Nat.zero_le, Nat.zero_add, true_and]
    constructor
    · rintro ⟨a, b⟩; exact ⟨b, b ▸ a⟩
    · rintro ⟨a, b⟩; exact ⟨a ▸ b, a⟩
  rw [this.length_eq, toksFrom_length]

/-! ### What the frames hold -/

/-- The completion under dispatch, if its dispatch has come to stage `k`. -/
def State.reapAt (s : State) (k : Nat) : List (Tok × Int) :=
  match s.reap with
  | some (t, r, st) => if k ≤ st then [(t, r)] else []
  | none => []

/-- The reads a wave does not wait for. -/
def Wave.given (v : Wave) : Nat :=
  match v.phase with
  | .poll true => v.sizes.length - v.submitted
  | .over none => v.sizes.length - v.submitted
  | _ => 0

/-- The result of a read of the wave `w` is one that `read_batch` counts as failed. -/
def isBad (w : Nat) (v : Wave) (p : Tok × Int) : Bool := decide (p.1.w = w) && bad ((v.sizes[p.1.i]?).getD 0) p.2

structure CW (s : State) (w : Nat) (v : Wave) : Prop where
  len : v.res.length = v.sizes.length
  rem : v.remaining + cnt w (s.fin.map Prod.fst) + v.given = v.sizes.length
  fail : v.failures = (s.fin ++ s.reapAt 2).countP (isBad w v)
  res : ∀ p ∈ s.fin ++ s.reapAt 1, p.1.w = w → v.res[p.1.i]? = some p.2
  over : ∀ r, v.phase = .over r → v.remaining = 0 ∧ ∀ k, r = some k → k = v.failures

def CInv (s : State) : Prop := (∀ w v, s.waves[w]? = some v → CW s w v) ∧ ∀ t r k, s.reap = some (t, r, k) → k ≤ 2

/-- A frame that an action leaves alone. -/
theorem CW.far {s s' : State} {w : Nat} {v : Wave} (h : CW s w v) (hf : cnt w (s'.fin.map Prod.fst) = cnt w (s.fin.map Prod.fst))
    (h2 : (s'.fin ++ s'.reapAt 2).countP (isBad w v) = (s.fin ++ s.reapAt 2).countP (isBad w v))
    (h1 : ∀ p ∈ s'.fin ++ s'.reapAt 1, p.1.w = w → p ∈ s.fin ++ s.reapAt 1) : CW s' w v :=
  ⟨h.len, by rw [hf]; exact h.rem, by rw [h2]; exact h.fail, fun p hp e => h.res p (h1 p hp e) e, h.over⟩

/-- A step of a wave that dispatches nothing. -/
theorem CInv.own {s s' : State} (h : CInv s) {w : Nat} {v x : Wave} (hv : s.waves[w]? = some v) (hw : s'.waves = s.waves.set w x)
    (hr : s'.reap = s.reap) (hf : s'.fin = s.fin) (e1 : x.sizes = v.sizes) (e2 : x.res = v.res) (e3 : x.failures = v.failures)
    (e4 : x.remaining + x.given = v.remaining + v.given) (e5 : ∀ r, x.phase = .over r → x.remaining = 0 ∧ ∀ k, r = some k → k = x.failures) :
    CInv s' := by
  have hra : ∀ k, s'.reapAt k = s.reapAt k := fun k => by unfold State.reapAt; rw [hr]
  refine ⟨fun u y hu => ?_, fun t r k hk => h.2 t r k (by rw [← hr]; exact hk)⟩
  rw [hw] at hu
  rcases getPut hv hu with ⟨rfl, rfl⟩ | ⟨hne, hu⟩
  · have h0 := h.1 _ _ hv
    refine ⟨by rw [e1, e2]; exact h0.len, ?_, ?_, ?_, e5⟩
    · rw [hf, e1, ← h0.rem]; omega
    · have : isBad u y = isBad u v := by funext p; unfold isBad; rw [e1]
      rw [this, hf, hra, e3]; exact h0.fail
    · rw [hf, hra, e2]; exact h0.res
  · refine (h.1 u y hu).far (by rw [hf]) (by rw [hf, hra]) (by rw [hf, hra]; exact fun p hp _ => hp)

theorem isBad_other {w u : Nat} (v : Wave) {t : Tok} (r : Int) (h : t.w = w) (e : u ≠ w) : isBad u v (t, r) = false := by
  unfold isBad
  have : ¬ t.w = u := fun x => e (by rw [← x, h])
  simp [this]

theorem fin_toks {s : State} {p : Tok × Int} (h : p ∈ s.fin) : p.1 ∈ s.toks := by
  unfold State.toks
  exact List.mem_append_right _ (List.mem_map_of_mem h)

theorem reap_toks {s : State} {t : Tok} {r : Int} {k : Nat} (h : s.reap = some (t, r, k)) : t ∈ s.toks := by
  unfold State.toks State.reapTok
  rw [h]
  simp

/-- The read under dispatch is not yet among the ended ones. -/
theorem TInv.fresh {s : State} (h : TInv s) {t : Tok} {r : Int} {k : Nat} (hr : s.reap = some (t, r, k)) {p : Tok × Int} (hp : p ∈ s.fin) :
    p.1 ≠ t := by
  have hn := h.nodup
  unfold State.toks State.reapTok at hn
  rw [hr] at hn
  have := (List.nodup_append.mp hn).2.2 t (by simp) p.1 (List.mem_map_of_mem hp)
  exact fun e => this e.symm

theorem CInv.step {R : Ring} {s s' : State} {e : Ev} (hS : SInv R s) (hT : TInv s) (h : CInv s) (t : Trans R s e s') : CInv s' := by
  cases t with
  | start sizes old hl =>
    refine ⟨fun w v hv => ?_, h.2⟩
    rcases Nat.lt_or_ge w s.waves.length with hw | hw
    · change (s.waves ++ _)[w]? = _ at hv
      rw [List.getElem?_append_left hw] at hv
      exact (h.1 w v hv).far rfl rfl (fun p hp _ => hp)
    · change (s.waves ++ _)[w]? = _ at hv
      rw [List.getElem?_append_right hw] at hv
      have hz : w - s.waves.length = 0 := by
        rcases Nat.eq_zero_or_pos (w - s.waves.length) with hz | hz
        · exact hz
        · rw [List.getElem?_eq_none (by simp only [List.length_singleton]; omega)] at hv; cases hv
      rw [hz] at hv
      simp only [List.getElem?_cons_zero, Option.some.injEq] at hv
      have ht : s.tot w = 0 := by unfold State.tot; rw [List.getElem?_eq_none hw]
      have hno : ∀ p ∈ s.fin ++ s.reapAt 1, p.1.w ≠ w := by
        intro p hp e
        have hm : p.1 ∈ s.toks := by
          rcases List.mem_append.mp hp with hp | hp
          · exact fin_toks hp
          · unfold State.reapAt at hp
            split at hp
            · next t r k hr =>
              split at hp
              · rw [List.mem_singleton] at hp; subst hp; exact reap_toks hr
              · cases hp
            · cases hp
        have := (hT.mem _).mp hm
        rw [e, ht] at this
        omega
      have hno2 : ∀ p ∈ s.fin ++ s.reapAt 2, p.1.w ≠ w := by
        intro p hp
        refine hno p ?_
        rcases List.mem_append.mp hp with hp | hp
        · exact List.mem_append_left _ hp
        · refine List.mem_append_right _ ?_
          unfold State.reapAt at hp ⊢
          split at hp
          · next t r k hr =>
            split at hp
            · rw [if_pos (by omega)]; exact hp
            · cases hp
          · cases hp
      have hc : cnt w (s.fin.map Prod.fst) = 0 := by
        unfold cnt
        rw [List.countP_eq_zero]
        intro t ht'
        obtain ⟨p, hp, rfl⟩ := List.mem_map.mp ht'
        simpa using hno p (List.mem_append_left _ hp)
      have hg : v.given = 0 := by
        rw [← hv]; unfold Wave.given
        by_cases hs : sizes = []
        · simp only [if_pos hs]
        · simp only [if_neg hs]
      refine ⟨by rw [← hv]; exact hl, ?_, ?_, fun p hp e => absurd e (hno p hp), ?_⟩
      · show v.remaining + (cnt w (s.fin.map Prod.fst) : Int) + v.given = _
        rw [hc, hg, ← hv]; simp
      · rw [show v.failures = 0 by rw [← hv], eq_comm, List.countP_eq_zero]
        intro p hp
        have := hno2 p hp
        simp [isBad, this]
      · intro r hr
        rw [← hv] at hr ⊢
        by_cases hs : sizes = []
        · simp only [if_pos hs] at hr
          injection hr with hr
          exact ⟨by simp [hs], fun k hk => by rw [← hr] at hk; exact (Option.some.inj hk).symm⟩
        · simp only [if_neg hs] at hr
          cases hr
  | refused hv hp ho hx => exact h.own hv rfl rfl rfl rfl rfl rfl (by simp [Wave.given, hp]) (fun r x => by cases x)
  | lock hv hp ho hx => exact h.own hv rfl rfl rfl rfl rfl rfl (by simp [Wave.given, hp]) (fun r x => by cases x)
  | prep hv hp hi hc => exact h.own hv rfl rfl rfl rfl rfl rfl (by simp [Wave.given, hp]) (fun r x => by cases x)
  | full hv hp hi hc => exact h.own hv rfl rfl rfl rfl rfl rfl (by simp [Wave.given, hp]) (fun r x => by cases x)
  | prepared hv hp hi => exact h.own hv rfl rfl rfl rfl rfl rfl (by simp [Wave.given, hp]) (fun r x => by cases x)
  | took hv hp hf hj hq => exact h.own hv rfl rfl rfl rfl rfl rfl (by simp [Wave.given, hp]) (fun r x => by cases x)
  | eintr hv hp hf => exact h
  | again hv hp hf hs => exact h.own hv rfl rfl rfl rfl rfl rfl (by simp [Wave.given, hp]) (fun r x => by cases x)
  | gaveUp hv hp hf => exact h.own hv rfl rfl rfl rfl rfl rfl (by simp [Wave.given, hp]) (fun r x => by cases x)
  | account hv hp => exact h.own hv rfl rfl rfl rfl rfl rfl (by simp [Wave.given, hp]) (fun r x => by cases x)
  | @unlock w v c f sp hv hp hf =>
    refine h.own hv rfl rfl rfl rfl rfl rfl ?_ (fun r x => ?_)
    · unfold Wave.given
      rw [hp]
      by_cases hl : v.submitted + f < v.sizes.length
      · simp only [if_pos hl]
      · simp only [if_neg hl]
    · by_cases hl : v.submitted + f < v.sizes.length
      · simp only [if_pos hl] at x; cases x
      · simp only [if_neg hl] at x; cases x
  | @deduct w v hv hp =>
    have h0 := hS.each _ _ hv
    unfold SW at h0; rw [hp] at h0
    refine h.own hv rfl rfl rfl rfl rfl rfl ?_ (fun r x => by cases x)
    simp only [Wave.given, hp]
    omega
  | @poll w v b hv hp hr =>
    refine h.own hv rfl rfl rfl rfl rfl rfl ?_ (fun r x => ⟨hr, fun k hk => ?_⟩)
    · cases b <;> simp [Wave.given, hp]
    · cases b
      · simp only [Bool.false_eq_true, if_false] at x
        injection x with x
        rw [← x] at hk; exact (Option.some.inj hk).symm
      · simp only [if_true] at x
        injection x with x
        rw [← x] at hk; cases hk
  | complete r hk => exact ⟨fun w v hv => (h.1 w v hv).far rfl rfl (fun p hp _ => hp), h.2⟩
  | @take t r rest hr hq =>
    have e1 : ∀ k, s.reapAt k = [] := fun k => by unfold State.reapAt; rw [hr]
    refine ⟨fun w v hv => (h.1 w v hv).far rfl ?_ (fun p hp _ => ?_), fun t' r' k hk => ?_⟩
    · rw [e1]; rfl
    · rw [e1]; exact hp
    · injection hk with hk; injection hk with _ hk; injection hk with _ hk; omega
  | @store t r v hr hv ha =>
    have e0 : s.reapAt 1 = [] := by unfold State.reapAt; rw [hr]; rfl
    have e2 : s.reapAt 2 = [] := by unfold State.reapAt; rw [hr]; rfl
    have h0 := h.1 _ _ hv
    refine ⟨fun u y hu => ?_, fun t' r' k hk => ?_⟩
    · rcases getPut hv hu with ⟨rfl, rfl⟩ | ⟨hne, hu⟩
      · have hti : t.i < v.res.length := by
          have := (hT.mem _).mp (reap_toks hr)
          rw [tot_at hv] at this
          have := (hS.each _ _ hv).tot_le
          rw [h0.len]; omega
        refine ⟨by rw [← h0.len]; exact List.length_set, h0.rem, ?_, ?_, h0.over⟩
        · have := h0.fail; rw [e2] at this; exact this
        · intro p hp e
          rcases List.mem_append.mp hp with hp | hp
          · show (v.res.set t.i r)[p.1.i]? = _
            have hne : t.i ≠ p.1.i := by
              intro x
              refine hT.fresh hr hp ?_
              cases hp1 : p.1
              cases t
              simp_all
            rw [List.getElem?_set_ne hne]
            exact h0.res p (List.mem_append_left _ hp) e
          · have hp : p ∈ [(t, r)] := hp
            rw [List.mem_singleton] at hp
            subst hp
            exact List.getElem?_set_self hti
      · refine (h.1 u y hu).far rfl ?_ (fun p hp e => ?_)
        · rw [e2]; rfl
        · rcases List.mem_append.mp hp with hp | hp
          · exact List.mem_append_left _ hp
          · have hp : p ∈ [(t, r)] := hp
            rw [List.mem_singleton] at hp
            subst hp
            exact absurd e.symm hne
    · injection hk with hk; injection hk with _ hk; injection hk with _ hk; omega
  | @tally t r v hr hv ha =>
    have e1 : s.reapAt 1 = [(t, r)] := by unfold State.reapAt; rw [hr]; rfl
    have e2 : s.reapAt 2 = [] := by unfold State.reapAt; rw [hr]; rfl
    have h0 := h.1 _ _ hv
    refine ⟨fun u y hu => ?_, fun t' r' k hk => ?_⟩
    · rcases getPut hv hu with ⟨rfl, rfl⟩ | ⟨hne, hu⟩
      · refine ⟨h0.len, h0.rem, ?_, ?_, fun r' x => ?_⟩
        · show (if bad ((v.sizes[t.i]?).getD 0) r then v.failures + 1 else v.failures) = (s.fin ++ [(t, r)]).countP (isBad t.w v)
          have := h0.fail
          rw [e2, List.append_nil] at this
          rw [List.countP_append, ← this]
          cases hb : bad ((v.sizes[t.i]?).getD 0) r <;> simp [isBad, hb]
        · have := h0.res; rw [e1] at this; exact this
        · exact absurd (show v.phase = .over r' from x) (fun z => by rw [z] at ha; cases ha)
      · refine (h.1 u y hu).far rfl ?_ (fun p hp e => ?_)
        · show (s.fin ++ [(t, r)]).countP (isBad u y) = _
          rw [e2, List.countP_append]
          simp [isBad_other y r rfl hne]
        · rw [e1]; exact hp
    · injection hk with hk; injection hk with _ hk; injection hk with _ hk; omega
  | @finish t r v hr hv ha =>
    have e1 : s.reapAt 1 = [(t, r)] := by unfold State.reapAt; rw [hr]; rfl
    have e2 : s.reapAt 2 = [(t, r)] := by unfold State.reapAt; rw [hr]; rfl
    have h0 := h.1 _ _ hv
    refine ⟨fun u y hu => ?_, fun t' r' k hk => by cases hk⟩
    rcases getPut hv hu with ⟨rfl, rfl⟩ | ⟨hne, hu⟩
    · refine ⟨h0.len, ?_, ?_, ?_, fun r' x => ?_⟩
      · show v.remaining - 1 + (cnt t.w ((s.fin ++ [(t, r)]).map Prod.fst) : Int) + v.given = v.sizes.length
        have := h0.rem
        have hc : cnt t.w ((s.fin ++ [(t, r)]).map Prod.fst) = cnt t.w (s.fin.map Prod.fst) + 1 := by
          unfold cnt
          simp only [List.map_append, List.map_cons, List.map_nil, List.countP_append]
          simp
        rw [hc]; omega
      · have := h0.fail; rw [e2] at this
        show v.failures = ((s.fin ++ [(t, r)]) ++ []).countP (isBad t.w v)
        rw [List.append_nil]; exact this
      · have := h0.res; rw [e1] at this
        intro p hp
        have hp : p ∈ (s.fin ++ [(t, r)]) ++ [] := hp
        rw [List.append_nil] at hp
        exact this p hp
      · exact absurd (show v.phase = .over r' from x) (fun z => by rw [z] at ha; cases ha)
    · refine (h.1 u y hu).far ?_ ?_ (fun p hp e => ?_)
      · show cnt u ((s.fin ++ [(t, r)]).map Prod.fst) = _
        unfold cnt
        simp only [List.map_append, List.map_cons, List.map_nil, List.countP_append]
        simp [Ne.symm hne]
      · show ((s.fin ++ [(t, r)]) ++ []).countP (isBad u y) = _
        rw [e2, List.append_nil]
      · have hp : p ∈ (s.fin ++ [(t, r)]) ++ [] := hp
        rw [List.append_nil] at hp
        rw [e1]; exact hp

/-- No completion finds a wave that has ended. -/
theorem not_over {R : Ring} {s : State} (hS : SInv R s) (hT : TInv s) (hC : CInv s) {t : Tok} (ht : t ∈ s.toks)
    (hf : t ∉ s.fin.map Prod.fst) : ∃ v, s.waves[t.w]? = some v ∧ v.phase.isOver = false := by
  have hlt := (hT.mem t).mp ht
  cases hv : s.waves[t.w]? with
  | none => unfold State.tot at hlt; rw [hv] at hlt; cases hlt
  | some v =>
    refine ⟨v, rfl, ?_⟩
    cases hp : v.phase with
    | over r =>
      exfalso
      have h0 := hC.1 _ _ hv
      have h1 := hS.each _ _ hv
      obtain ⟨hr, -⟩ := h0.over r hp
      have hrem := h0.rem
      have hcnt : cnt t.w (s.fin.map Prod.fst) < cnt t.w s.toks := by
        have hp' : ∃ l, (s.toks).Perm (t :: (s.fin.map Prod.fst ++ l)) := by
          unfold State.toks at ht ⊢
          rcases List.mem_append.mp ht with h | h
          · obtain ⟨a, b, e⟩ := List.append_of_mem h
            rw [e]
            refine ⟨a ++ b, ?_⟩
            refine (List.perm_append_comm).trans ?_
            refine (List.Perm.append_left _ List.perm_middle).trans ?_
            exact List.perm_middle
          · exact absurd h hf
        obtain ⟨l, hp'⟩ := hp'
        unfold cnt
        rw [hp'.countP_eq, List.countP_cons, List.countP_append]
        simp
        omega
      rw [hT.cnt, tot_at hv] at hcnt
      unfold SW at h1
      unfold Wave.given at hrem
      unfold Wave.tot at hcnt
      rw [hp] at h1 hrem hcnt
      cases r with
      | none =>
        have := (h1.2.2 rfl).1
        simp only at hrem hcnt
        omega
      | some k =>
        have := h1.2.1 (by simp)
        simp only at hrem hcnt
        omega
    | _ => rfl

/-! ### The counter of reads in flight -/

/-- Taken by the kernel, not yet counted. -/
def Wave.acc (v : Wave) : Nat :=
  match v.phase with
  | .account _ _ _ j => j
  | _ => 0

def State.pend (s : State) : Nat :=
  match s.owner with
  | some w => match s.waves[w]? with
    | some v => v.acc
    | none => 0
  | none => 0

def DInv (s : State) : Prop := s.inFlight + s.pend = s.kernel.length + s.cq.length

theorem pend_none {s : State} (h : s.owner = none) : s.pend = 0 := by unfold State.pend; rw [h]

theorem pend_own {s : State} {w : Nat} {v : Wave} (h : s.owner = some w) (hv : s.waves[w]? = some v) : s.pend = v.acc := by
  unfold State.pend; rw [h]; simp only [hv]

theorem pend_put {s s' : State} {w : Nat} {v x : Wave} (hv : s.waves[w]? = some v) (hw : s'.waves = s.waves.set w x) (ho : s'.owner = s.owner)
    (hx : x.acc = v.acc) : s'.pend = s.pend := by
  unfold State.pend
  rw [ho, hw]
  cases s.owner with
  | none => rfl
  | some u =>
    simp only
    by_cases e : u = w
    · subst e; rw [getSet hv, hv]; exact hx
    · rw [List.getElem?_set_ne (Ne.symm e)]

theorem DInv.still {s s' : State} (h : DInv s) {w : Nat} {v x : Wave} (hv : s.waves[w]? = some v) (hw : s'.waves = s.waves.set w x)
    (ho : s'.owner = s.owner) (hx : x.acc = v.acc) (h1 : s'.kernel = s.kernel) (h2 : s'.cq = s.cq) (h3 : s'.inFlight = s.inFlight) : DInv s' := by
  unfold DInv
  rw [h1, h2, h3, pend_put hv hw ho hx]; exact h

theorem DInv.quiet {s s' : State} (h : DInv s) (hz : s.pend = 0) (hz' : s'.pend = 0) (h1 : s'.kernel = s.kernel) (h2 : s'.cq = s.cq)
    (h3 : s'.inFlight = s.inFlight) : DInv s' := by
  unfold DInv at h ⊢
  rw [h1, h2, h3, hz']; rw [hz] at h; exact h

theorem DInv.step {R : Ring} {s s' : State} {e : Ev} (hS : SInv R s) (h : DInv s) (t : Trans R s e s') : DInv s' := by
  have own : ∀ {w : Nat} {v : Wave}, s.waves[w]? = some v → ∀ {c i f sp j : Nat}, (v.phase = .prep c i ∨ v.phase = .flush c f sp ∨ v.phase = .account c f sp j) →
      s.owner = some w := by
    intro w v hv c i f sp j hp
    have h0 := hS.each _ _ hv
    unfold SW at h0
    rcases hp with hp | hp | hp <;> rw [hp] at h0 <;> exact h0.1
  cases t with
  | start sizes old hl =>
    unfold DInv at h ⊢
    have : ∀ s' : State, s'.owner = s.owner → (∀ (w : Nat) (v : Wave), s.waves[w]? = some v → s'.waves[w]? = some v) → s'.pend = s.pend := by
      intro s' h1 h2
      unfold State.pend
      rw [h1]
      cases ho : s.owner with
      | none => rfl
      | some w =>
        obtain ⟨⟨v, hv⟩, -⟩ := hS.held w ho
        simp only [hv, h2 w v hv]
    generalize hs' : ({ s with waves := s.waves ++ [⟨sizes, old, sizes.length, 0, 0, if sizes = [] then .over (some 0) else .ready⟩] } : State) = s'
    rw [this s' (by rw [← hs']) (fun w v hv => by
      rw [← hs']
      show (s.waves ++ _)[w]? = _
      rw [List.getElem?_append_left]
      · exact hv
      · rcases Nat.lt_or_ge w s.waves.length with h' | h'
        · exact h'
        · rw [List.getElem?_eq_none h'] at hv; cases hv)]
    rw [← hs']
    exact h
  | refused hv hp ho hx => exact h.still hv rfl rfl (by simp [Wave.acc, hp]) rfl rfl rfl
  | lock hv hp ho hx => exact h.quiet (pend_none ho) (by rw [pend_own rfl (getSet hv _)]; rfl) rfl rfl rfl
  | prep hv hp hi hc => exact h.still hv rfl rfl (by simp [Wave.acc, hp]) rfl rfl rfl
  | full hv hp hi hc =>
    exact h.quiet (by rw [pend_own (own hv (f := 0) (sp := 0) (j := 0) (.inl hp)) hv]; simp [Wave.acc, hp]) (pend_none rfl) rfl rfl rfl
  | prepared hv hp hi => exact h.still hv rfl rfl (by simp [Wave.acc, hp]) rfl rfl rfl
  | @took w v c f sp j hv hp hf hj hq =>
    have ho := own hv (i := 0) (j := 0) (.inr (.inl hp))
    unfold DInv at h ⊢
    rw [pend_own ho hv, show v.acc = 0 by simp [Wave.acc, hp]] at h
    rw [pend_own (s := { s.put w { v with phase := .account c f sp j } with sq := s.sq.drop j, kernel := s.kernel ++ s.sq.take j })
      (show _ = some w from ho) (getSet hv _)]
    show s.inFlight + (j : Int) = ((s.kernel ++ s.sq.take j).length : Int) + s.cq.length
    rw [List.length_append, List.length_take, Nat.min_eq_left hq]
    omega
  | eintr hv hp hf => exact h
  | again hv hp hf hs => exact h.still hv rfl rfl (by simp [Wave.acc, hp]) rfl rfl rfl
  | gaveUp hv hp hf =>
    exact h.quiet (by rw [pend_own (own hv (i := 0) (j := 0) (.inr (.inl hp))) hv]; simp [Wave.acc, hp]) (pend_none rfl) rfl rfl rfl
  | @account w v c f sp j hv hp =>
    have ho := own hv (i := 0) (.inr (.inr hp))
    unfold DInv at h ⊢
    rw [pend_own ho hv, show v.acc = j by simp [Wave.acc, hp]] at h
    rw [pend_own (s := { s.put w { v with phase := .flush c (f + j) sp } with inFlight := s.inFlight + j }) (show _ = some w from ho) (getSet hv _)]
    show s.inFlight + j + 0 = (s.kernel.length : Int) + s.cq.length
    omega
  | unlock hv hp hf =>
    exact h.quiet (by rw [pend_own (own hv (i := 0) (j := 0) (.inr (.inl hp))) hv]; simp [Wave.acc, hp]) (pend_none rfl) rfl rfl rfl
  | deduct hv hp => exact h.still hv rfl rfl (by simp [Wave.acc, hp]) rfl rfl rfl
  | poll hv hp hr => exact h.still hv rfl rfl (by simp [Wave.acc, hp]) rfl rfl rfl
  | @complete p t r hk =>
    unfold DInv at h ⊢
    have := (erase_perm s.kernel p t hk).length_eq
    show s.inFlight + (s.pend : Int) = ((s.kernel.eraseIdx p).length : Int) + ((s.cq ++ [(t, r)]).length : Nat)
    simp only [List.length_cons, List.length_append, List.length_nil] at this ⊢
    omega
  | @take t r rest hr hq =>
    unfold DInv at h ⊢
    rw [hq] at h
    show s.inFlight - 1 + (s.pend : Int) = (s.kernel.length : Int) + rest.length
    simp only [List.length_cons] at h
    omega
  | store hr hv ha => exact h.still hv rfl rfl rfl rfl rfl rfl
  | tally hr hv ha => exact h.still hv rfl rfl rfl rfl rfl rfl
  | finish hr hv ha => exact h.still hv rfl rfl rfl rfl rfl rfl

/-! ### All together -/

structure Inv (R : Ring) (s : State) : Prop where
  S : SInv R s
  T : TInv s
  C : CInv s
  D : DInv s

theorem Inv.init (R : Ring) : Inv R State.init :=
  ⟨⟨fun w v h => by simp [State.init] at h, fun _ _ => rfl, fun w h => by cases h⟩,
    ⟨List.nodup_nil, fun t => by simp [State.toks, State.reapTok, State.init, State.tot]⟩,
    ⟨fun w v h => by simp [State.init] at h, fun _ _ _ h => by cases h⟩, rfl⟩

theorem Inv.trans {R : Ring} (hd : 0 < R.depth) {s s' : State} {e : Ev} (h : Inv R s) (t : Trans R s e s') : Inv R s' :=
  ⟨h.S.step hd t, h.T.step h.S t, h.C.step h.S h.T t, h.D.step h.S t⟩

theorem run_append (R : Ring) : ∀ (es es' : List Ev) (s : State),
    State.run R (es ++ es') s = (match State.run R es s with | .ok m => State.run R es' m | x => x)
  | [], es', s => rfl
  | e :: es, es', s => by
    simp only [List.cons_append, State.run]
    cases s.step R e with
    | ok m => exact run_append R es es' m
    | no => rfl
    | ub => rfl

/-- Induction along an execution. -/
theorem run_ind {R : Ring} {P : State → Prop} (hstep : ∀ s s' e, P s → Trans R s e s' → P s') :
    ∀ (es : List Ev) (s s' : State), P s → State.run R es s = .ok s' → P s'
  | [], s, s', h, hr => by cases hr; exact h
  | e :: es, s, s', h, hr => by
    unfold State.run at hr
    split at hr
    · next m hm => exact run_ind hstep es m s' (hstep s m e h (trans_of_step hm)) hr
    · next x hm => exact absurd hr (hm s')

theorem Inv.run {R : Ring} (hd : 0 < R.depth) {es : List Ev} {s s' : State} (h : Inv R s) (hr : State.run R es s = .ok s') : Inv R s' :=
  run_ind (P := Inv R) (fun _ _ _ h t => h.trans hd t) es s s' h hr

/-- The wave of the completion under dispatch still runs. -/
theorem Inv.alive {R : Ring} {s : State} (h : Inv R s) {t : Tok} {r : Int} {k : Nat} (hr : s.reap = some (t, r, k)) :
    ∃ v, s.waves[t.w]? = some v ∧ v.phase.isOver = false := by
  refine not_over h.S h.T h.C (reap_toks hr) (fun hm => ?_)
  obtain ⟨p, hp, e⟩ := List.mem_map.mp hm
  exact h.T.fresh hr hp e

theorem frame_alive {s : State} {t : Tok} {k : Wave → State} {v : Wave} (hv : s.waves[t.w]? = some v) (ha : v.phase.isOver = false) :
    s.frame t k = .ok (k v) := by
  unfold State.frame
  rw [hv]
  simp only [ha, Bool.false_eq_true, if_false]

theorem wave_at {s : State} {w : Nat} {v : Wave} (hv : s.waves[w]? = some v) (k : Wave → Res) : s.wave w k = k v := by
  unfold State.wave; rw [hv]

theorem Inv.no_ub {R : Ring} {s : State} (h : Inv R s) (e : Ev) : s.step R e ≠ .ub := by
  intro hx
  have hw : ∀ (w : Nat) (k : Wave → Res), (∀ v, k v ≠ .ub) → s.wave w k ≠ .ub := by
    intro w k hk hx
    unfold State.wave at hx
    split at hx
    · exact hk _ hx
    · cases hx
  cases e with
  | start sizes old => simp only [State.step, State.start] at hx; split at hx <;> cases hx
  | lock w =>
    refine hw w _ (fun v hx => ?_) hx
    unfold State.lock at hx
    split at hx
    · cases hx
    · split at hx <;> cases hx
  | prep w =>
    refine hw w _ (fun v hx => ?_) hx
    unfold State.prep at hx
    split at hx
    · split at hx
      · split at hx <;> cases hx
      · cases hx
    · cases hx
  | submit w r =>
    refine hw w _ (fun v hx => ?_) hx
    unfold State.submit at hx
    split at hx
    · split at hx
      · split at hx
        · split at hx <;> cases hx
        · cases hx
        · split at hx <;> cases hx
        · cases hx
      · cases hx
    · cases hx
  | account w =>
    refine hw w _ (fun v hx => ?_) hx
    unfold State.account at hx
    split at hx <;> cases hx
  | unlock w =>
    refine hw w _ (fun v hx => ?_) hx
    unfold State.unlock at hx
    split at hx
    · split at hx <;> cases hx
    · cases hx
  | deduct w =>
    refine hw w _ (fun v hx => ?_) hx
    unfold State.deduct at hx
    split at hx <;> cases hx
  | poll w =>
    refine hw w _ (fun v hx => ?_) hx
    unfold State.poll at hx
    split at hx
    · split at hx <;> cases hx
    · cases hx
  | complete p r => simp only [State.step, State.complete] at hx; split at hx <;> cases hx
  | take => simp only [State.step, State.take] at hx; split at hx <;> cases hx
  | store =>
    simp only [State.step, State.store] at hx
    split at hx
    · next t r hr => obtain ⟨v, hv, ha⟩ := h.alive hr; rw [frame_alive hv ha] at hx; cases hx
    · cases hx
  | tally =>
    simp only [State.step, State.tally] at hx
    split at hx
    · next t r hr => obtain ⟨v, hv, ha⟩ := h.alive hr; rw [frame_alive hv ha] at hx; cases hx
    · cases hx
  | finish =>
    simp only [State.step, State.finish] at hx
    split at hx
    · next t r hr => obtain ⟨v, hv, ha⟩ := h.alive hr; rw [frame_alive hv ha] at hx; cases hx
    · cases hx

end Alaya.UringReactor
