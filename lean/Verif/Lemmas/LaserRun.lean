import Verif.Lemmas.LaserEvent

namespace Alaya.Laser
open Alaya Alaya.Pools Alaya.Spec Alaya.Hybrid Alaya.Hybrid.Spec Alaya.RSearch Alaya.Laser.Spec

section
variable {α : Type} {I : Index α} {dmax : Int} {R ef k mb : Nat} {E : List Nat} {q : Q α}

/-! ### The rest of the result array -/

/-- The places without a result hold the id 0. -/
def Pad (b : SBuf) : Prop := ∀ i, b.size ≤ i → i < b.cap → b.data[i]? = some (0, 0)

theorem insertAt_beyond {data d' : List (Nat × Int)} {lo size : Nat} {x : Nat × Int} (h : insertAt data lo size x = some d') {i : Nat} (hi : size < i) :
    d'[i]? = data[i]? := by
  unfold insertAt at h
  by_cases hc : lo ≤ size ∧ size < data.length
  · rw [if_pos hc] at h
    cases h
    have hl : (data.take lo ++ x :: (data.drop lo).take (size - lo)).length = size + 1 := by simp; omega
    rw [show data.take lo ++ (x :: (data.drop lo).take (size - lo) ++ data.drop (size + 1)) =
      (data.take lo ++ x :: (data.drop lo).take (size - lo)) ++ data.drop (size + 1) by simp]
    rw [List.getElem?_append_right (by omega), hl, List.getElem?_drop]
    congr 1
    omega
  · rw [if_neg hc] at h; cases h

theorem resInsert_pad {b b' : SBuf} {id : Nat} {d : Int} (h : resInsert b id d = some b') (hp : Pad b) : Pad b' := by
  unfold resInsert at h
  cases hf : isFull ⟨b.data, b.size, 0, b.cap⟩ d with
  | none => rw [hf] at h; cases h
  | some f =>
    rw [hf] at h
    cases f with
    | true => simp only at h; cases h; exact hp
    | false =>
      simp only at h
      cases hs : b.search d with
      | none => rw [hs] at h; cases h
      | some lo =>
        rw [hs] at h
        simp only at h
        cases hi : insertAt b.data lo b.size (id, d) with
        | none => rw [hi] at h; cases h
        | some data =>
          rw [hi] at h
          simp only at h
          cases h
          intro i h1 h2
          simp only at h1 h2 ⊢
          have : b.size < i := by
            split at h1 <;> omega
          rw [insertAt_beyond hi this]
          exact hp i (by omega) h2

theorem process_pad {q' : Q α} {c : Nat} {r : Row} (h : process q c r = some q') (hp : Pad q.res) : Pad q'.res := by
  unfold process at h
  cases h1 : scan q.vis r.nbs q.pool with
  | none => rw [h1] at h; cases h
  | some p =>
    cases h2 : resInsert q.res c r.exact with
    | none => rw [h1, h2] at h; cases h
    | some res => rw [h1, h2] at h; cases h; exact resInsert_pad h2 hp

theorem workOne_pad {q' : Q α} {j prev' : Nat} {pc' : Pc} (h : workOne I q j pc' prev' = some q') (hp : Pad q.res) : Pad q'.res := by
  unfold workOne at h
  split at h
  · split at h
    · cases h
    · rename_i h1
      cases h
      have := process_pad h1 hp
      exact this
  · cases h
    unfold poll
    split <;> exact hp

theorem prog_pad {q' : Q α} {j : Nat} (h : prog I mb q j = some q') (hp : Pad q.res) : Pad q'.res := by
  unfold prog at h
  split at h
  · split at h <;> (cases h; exact hp)
  · split at h
    · split at h
      · cases h
      · split at h
        · cases h
        · cases h; exact hp
        · split at h
          · cases h
          · split at h
            · cases h; exact hp
            · split at h <;> (cases h; exact hp)
    · cases h
      unfold submit
      split <;> exact hp
  · split at h
    · cases h
    · rename_i r _
      cases h1 : process q _ r with
      | none => rw [h1] at h; cases h
      | some q1 => rw [h1] at h; cases h; have := process_pad h1 hp; exact this
  · cases h; exact hp
  · cases h; exact hp
  · exact workOne_pad h hp
  · split at h
    · cases h; exact hp
    · exact workOne_pad h hp
  · cases h; exact hp
  · cases h; exact hp

theorem event_pad {q' : Q α} {e : Ev} (h : event I mb q e = some q') (hp : Pad q.res) : Pad q'.res := by
  cases e with
  | step j => exact prog_pad h hp
  | complete i =>
    unfold event at h
    simp only at h
    split at h <;> (cases h; exact hp)
  | failed i =>
    unfold event at h
    simp only at h
    split at h <;> (cases h; exact hp)
  | refuse =>
    unfold event at h
    simp only at h
    split at h
    · split at h <;> (cases h; exact hp)
    · cases h; exact hp

theorem run_pad (es : List Ev) : ∀ {q q' : Q α}, run I mb es q = some q' → Pad q.res → Pad q'.res := by
  induction es with
  | nil => intro q q' h hp; cases h; exact hp
  | cons e es ih =>
    intro q q' h hp
    unfold run at h
    cases h1 : event I mb q e with
    | none => rw [h1] at h; cases h
    | some q1 => rw [h1] at h; exact ih h (event_pad h1 hp)

/-- What is copied to the caller: the results, then zeros. -/
theorem answer_eq {exact : Nat → Int} {b : SBuf} {off : List Nat} (h : BInv dmax exact k b off) (hp : Pad b) :
    copyResults b = b.ids k ++ List.replicate (k - (b.ids k).length) 0 := by
  obtain ⟨hcap, dlen, hsize, -⟩ := h
  have hel : (b.ids k).length = b.size := by
    unfold SBuf.ids
    rw [List.length_map, List.length_take, List.length_take]; omega
  rw [hel]
  unfold copyResults SBuf.ids
  rw [hcap]
  apply List.ext_getElem?
  intro i
  rw [List.take_take, Nat.min_eq_right hsize]
  have hl : ((b.data.take b.size).map Prod.fst).length = b.size := by rw [List.length_map, List.length_take]; omega
  by_cases h1 : i < b.size
  · rw [List.getElem?_append_left (by omega), List.getElem?_map, List.getElem?_map, List.getElem?_take, List.getElem?_take, if_pos h1, if_pos (by omega)]
  · rw [List.getElem?_append_right (by omega), hl, List.getElem?_map, List.getElem?_take, List.getElem?_replicate]
    by_cases h2 : i < k
    · rw [if_pos h2, if_pos (by omega), hp i (by omega) (by omega)]
      rfl
    · rw [if_neg h2, if_neg (by omega)]
      rfl

/-! ### The start -/

theorem isFull_false {n : Nat} {p : SPool} (h : PInv dmax n ef p) {d : Int} (hd : d ≤ dmax) (hall : ∀ e ∈ p.ents, d ≤ e.2) :
    p.isFull dmax d = some false := by
  unfold SPool.isFull SBuf.topDist SPool.buf
  simp only
  have hf : decide (d > dmax) = false := by simpa using hd
  by_cases h0 : p.size = 0 ∨ p.cap = 0
  · rw [if_pos h0, Option.map_some, hf]
  · rw [if_neg h0]
    by_cases h1 : p.size = p.cap
    · rw [if_pos h1]
      obtain ⟨last, k1, k2, -⟩ := h.last (by omega)
      rw [k2]
      simp only [Option.map_some, Option.some.injEq, decide_eq_false_iff_not]
      have := hall last k1
      omega
    · rw [if_neg h1, Option.map_some, hf]

theorem insert_start {n : Nat} (hn : n ≤ 2147483648) (hef : 0 < ef) {p : SPool} (h : PInv dmax n ef p) {f : Int} (hf : f ≤ dmax) (hall : ∀ e ∈ p.ents, e.2 = f) {s : Nat}
    (hs : s < n) : ∃ p', insert p s f = some p' ∧ PInv dmax n ef p' ∧ Inserted ef s f p p' ∧ ∀ e ∈ p'.ents, e.2 = f := by
  have hfull := isFull_false h hf (fun e he => by have := hall e he; omega)
  obtain ⟨p', a1, a2, a3⟩ := h.insert hef hn hs hfull
  refine ⟨p', ?_, a2, a3, ?_⟩
  · rw [insert_eq (dmax := dmax) (by rw [h.hcap]; exact hef) hfull]; exact a1
  · intro e he
    rcases a3.sub e he with he | he
    · exact hall e he
    · rw [he]

theorem startPool_spec (hI : IOk I dmax R) (hef : 0 < ef) : ∃ p, startPool I ef = some p ∧ PInv dmax I.n ef p ∧
    (∀ e ∈ p.ents, chk e = false) ∧ (p.ents.map bare).Subperm (offers I.starts I.nbs I.fmax []) ∧
    (∀ s ∈ I.starts, Dealt ef [] p (s, I.fmax)) ∧ p.open_ ≤ 2 := by
  have hsm := hI.small
  have hbare : ∀ s ∈ I.starts, bare (s, I.fmax) = (s, I.fmax) := by
    intro s hs
    have := hI.starts s hs
    unfold bare
    rw [getId_small (by show s < _; omega)]
  have h0 := PInv.new dmax I.n ef
  have e0 : (SPool.new ef).ents = [] := by simp [SPool.new, SPool.ents]
  have o0 : (SPool.new ef).open_ = 0 := by unfold SPool.open_; rw [e0]; rfl
  have hoff : offers I.starts I.nbs I.fmax [] = I.starts.map (fun s => (s, I.fmax)) := by simp [offers]
  rw [hoff]
  have hep : I.ep ∈ I.starts := by unfold Index.starts; simp
  unfold startPool
  by_cases hm : I.medoids = []
  · rw [if_pos hm]
    simp only
    have hst : I.starts = [I.ep] := by unfold Index.starts; rw [if_pos hm]; rfl
    obtain ⟨p, a1, a2, a3, -⟩ := insert_start hsm hef h0 hI.fmax (by rw [e0]; simp) (hI.starts _ hep)
    refine ⟨p, a1, a2, ?_, ?_, ?_, by have := a3.cnt; omega⟩
    · intro e he
      rcases a3.sub e he with he | he
      · rw [e0] at he; cases he
      · rw [he]; exact chk_small (by have := hI.starts _ hep; omega)
    · have := subperm_map bare a3.many
      rw [e0] at this
      simp only [List.map_cons, List.map_nil] at this
      rw [hst]
      simp only [List.map_cons, List.map_nil]
      rwa [hbare _ hep] at this
    · intro s hs
      rw [hst, List.mem_singleton] at hs
      rw [hs]
      exact .inr (a3.keep _ (.inr rfl))
  · rw [if_neg hm]
    have hst : I.starts = [bestMedoid I.fmax I.medoids, I.ep] := by unfold Index.starts; rw [if_neg hm]; rfl
    have hmd : bestMedoid I.fmax I.medoids ∈ I.starts := by rw [hst]; simp
    obtain ⟨p, a1, a2, a3, a4⟩ := insert_start hsm hef h0 hI.fmax (by rw [e0]; simp) (hI.starts _ hmd)
    rw [a1]
    simp only
    obtain ⟨p', b1, b2, b3, -⟩ := insert_start hsm hef a2 hI.fmax a4 (hI.starts _ hep)
    refine ⟨p', b1, b2, ?_, ?_, ?_, by have := a3.cnt; have := b3.cnt; omega⟩
    · intro e he
      rcases b3.sub e he with he | he
      · rcases a3.sub e he with he | he
        · rw [e0] at he; cases he
        · rw [he]; exact chk_small (by have := hI.starts _ hmd; omega)
      · rw [he]; exact chk_small (by have := hI.starts _ hep; omega)
    · have h1 := subperm_map bare a3.many
      have h2 := subperm_map bare b3.many
      rw [e0] at h1
      simp only [List.map_cons, List.map_nil] at h1 h2
      rw [hbare _ hmd] at h1
      rw [hbare _ hep] at h2
      rw [hst]
      simp only [List.map_cons, List.map_nil]
      exact (h2.trans ((List.subperm_cons _).mpr h1)).trans (List.Perm.swap _ _ _).subperm
    · intro s hs
      rw [hst] at hs
      rcases List.mem_cons.mp hs with hs | hs
      · rw [hs]
        rcases a3.keep (bestMedoid I.fmax I.medoids, I.fmax) (.inr rfl) with h1 | h1
        · exact .inr (b3.keep _ (.inl h1))
        · exact .inr (.inr (b3.full _ h1))
      · rw [List.mem_singleton] at hs
        rw [hs]
        exact .inr (b3.keep _ (.inr rfl))

/-- Between the two loops: no more nodes are on their way than were requested. -/
def WorkOk (mb : Nat) (q : Q α) : Prop := ∀ need, q.pc = .work need → q.prev + need ≤ mb + mb / 2

theorem start_spec (hI : IOk I dmax R) (hef : 0 < ef) (hmb : 1 ≤ mb) (mem : Nat → α) :
    ∃ q, start I k ef mb mem = some q ∧ Inv I dmax ef k mb [] q ∧ Pad q.res ∧ WorkOk mb q ∧ meas I R [] q ≤ (6 * R + 4) * I.n + 14 := by
  obtain ⟨p, a1, a2, a3, a4, a5, a6⟩ := startPool_spec hI hef
  refine ⟨⟨p, HSet.new (min (I.n / 10) (ef * ef)), SBuf.new k, mem, List.range (2 * mb), [], [], [], [], 1, 0, .top⟩, ?_, ?_, ?_, (fun _ hn => absurd hn (by simp)), ?_⟩
  · unfold start
    rw [a1]
  · constructor
    · exact a2
    · exact HRep.new _
    · simp [visited, cachedIds]
    · simp [visited, cachedIds]
    · simp [visited, cachedIds]
    · intro e he hc
      rw [a3 e he] at hc; cases hc
    · exact a4
    · simp [reqsOf]
    · simp [reqsOf]
    · simpa using List.nodup_range
    · simp
    · simp
    · simp
    · simp [cachedIds]
    · simp [CountOk]
    · exact ⟨Nat.le_refl _, hmb⟩
    · exact Nat.zero_le _
    · exact BInv.new _ _ _
    · intro _ s hs; exact a5 s hs
    · simp
    · intro hd; exact hd.elim
  · intro i h1 h2
    show (List.replicate (k + 1) ((0 : Nat), (0 : Int)))[i]? = some (0, 0)
    have : i < k := h2
    rw [List.getElem?_replicate, if_pos (by omega)]
  · unfold meas
    simp only [visited, cachedIds, reqsOf, collectW, waitW, List.map_nil, List.append_nil, List.length_nil]
    simp only [Nat.sub_zero, Nat.mul_zero, Nat.add_zero]
    omega

/-- Something can always be done: the search makes a step, or a read is waiting to be executed. -/
theorem progress (hI : IOk I dmax R) (h : Inv I dmax ef k mb E q) (hf : q.pc ≠ .fin) :
    (∀ j, 1 ≤ j → event I mb q (.step j) ≠ some q) ∨ event I mb q (.complete 0) ≠ some q := by
  have hb := h.beam
  have hcnt := h.cnt
  unfold CountOk at hcnt
  -- waiting for completions
  have wait : ∀ (pc' : Pc) (prev' : Nat), cachedIds q.pc = [] → reqsOf q.pc = [] → 0 < q.ongoing.length + q.prepared.length →
      (∀ j, 1 ≤ j → workOne I q j pc' prev' ≠ some q) ∨ event I mb q (.complete 0) ≠ some q := by
    intro pc' prev' hc hr hpos
    cases hpr : q.prepared with
    | cons e ps =>
      left
      intro j hj heq
      unfold workOne at heq
      rw [hpr] at heq
      simp only at heq
      split at heq
      · cases heq
      · rename_i q1 hq1
        have := congrArg (fun x : Option (Q α) => x.map (fun y => y.prepared.length)) heq
        simp [hpr] at this
    | nil =>
      have hlen := h.len
      rw [hpr, List.length_nil] at hpos
      rw [hr, List.length_nil] at hlen
      by_cases hd : q.done = []
      · right
        rw [hd, List.length_nil] at hlen
        intro heq
        unfold event at heq
        simp only at heq
        obtain ⟨x, hx⟩ : ∃ x, q.flying[0]? = some x := ⟨_, List.getElem?_eq_getElem (by omega)⟩
        rw [hx] at heq
        simp only at heq
        have := congrArg (fun x : Option (Q α) => x.map (fun y => y.done.length)) heq
        simp [hd] at this
      · left
        intro j hj heq
        unfold workOne at heq
        rw [hpr] at heq
        simp only at heq
        have h1 := (poll_spec (R := R) h j).2
        have : poll q j = q := Option.some.inj heq
        rw [this] at h1
        have h2 : polled q j = 0 := by omega
        unfold polled at h2
        have := List.length_pos_iff.mpr hd
        omega
  cases hpc : q.pc with
  | fin => exact absurd hpc hf
  | thrown => rw [hpc] at hcnt; exact hcnt.elim
  | top =>
    left
    intro j _ heq
    change prog I mb q j = some q at heq
    unfold prog at heq
    rw [hpc] at heq
    simp only at heq
    split at heq
    · have := congrArg (fun x : Option (Q α) => x.map Q.pc) heq
      simp [hpc] at this
    · have := congrArg (fun x : Option (Q α) => x.map Q.pc) heq
      simp [hpc] at this
  | collect reqs cached =>
    left
    intro j _ heq
    change prog I mb q j = some q at heq
    by_cases hgo : q.pool.hasNext = true ∧ reqs.length < q.beam
    · obtain ⟨c, p', e1, e2⟩ := h.pop hI hgo.1
      have hne : p' ≠ q.pool := by
        intro hp
        have := e2.cnt
        rw [hp] at this
        omega
      unfold prog at heq
      rw [hpc] at heq
      simp only at heq
      rw [if_pos hgo, e1] at heq
      simp only at heq
      have fin : ∀ q1 : Q α, q1.pool = p' → some q1 ≠ some q := by
        intro q1 h1 h2
        exact hne (by rw [← h1, Option.some.inj h2])
      split at heq
      · cases heq
      · exact fin _ rfl heq
      · split at heq
        · cases heq
        · split at heq
          · exact fin _ rfl heq
          · split at heq
            · exact fin _ rfl heq
            · exact fin _ rfl heq
    · unfold prog at heq
      rw [hpc] at heq
      simp only at heq
      rw [if_neg hgo] at heq
      unfold submit at heq
      split at heq
      · have := congrArg (fun x : Option (Q α) => x.map Q.pc) heq
        simp [hpc] at this
      · have := congrArg (fun x : Option (Q α) => x.map Q.pc) heq
        simp [hpc] at this
  | cached ops ids =>
    left
    intro j _ heq
    change prog I mb q j = some q at heq
    unfold prog at heq
    rw [hpc] at heq
    cases ids with
    | nil =>
      simp only at heq
      have := congrArg (fun x : Option (Q α) => x.map Q.pc) heq
      simp [hpc] at this
    | cons c cs =>
      simp only at heq
      split at heq
      · cases heq
      · rename_i r _
        cases h1 : process q c r with
        | none => rw [h1] at heq; cases heq
        | some q1 =>
          rw [h1] at heq
          have := congrArg (fun x : Option (Q α) => x.map Q.pc) heq
          simp [hpc] at this
  | work need =>
    rw [hpc] at hcnt
    simp only at hcnt
    cases need with
    | zero =>
      left
      intro j _ heq
      change prog I mb q j = some q at heq
      unfold prog at heq
      rw [hpc] at heq
      simp only at heq
      have := congrArg (fun x : Option (Q α) => x.map Q.pc) heq
      simp [hpc] at this
    | succ need =>
      have e1 : ∀ j, event I mb q (.step j) = workOne I q j (.work need) q.prev := by
        intro j
        show prog I mb q j = _
        unfold prog; rw [hpc]
      simp only [e1]
      exact wait _ _ (by rw [hpc]; rfl) (by rw [hpc]; rfl) (by omega)
  | drain =>
    rw [hpc] at hcnt
    simp only at hcnt
    by_cases h0 : q.prev = 0
    · left
      intro j _ heq
      change prog I mb q j = some q at heq
      unfold prog at heq
      rw [hpc] at heq
      simp only at heq
      rw [if_pos h0] at heq
      have := congrArg (fun x : Option (Q α) => x.map Q.pc) heq
      simp [hpc] at this
    · have e1 : ∀ j, event I mb q (.step j) = workOne I q j .drain (q.prev - 1) := by
        intro j
        show prog I mb q j = _
        unfold prog; rw [hpc]; simp only; rw [if_neg h0]
      simp only [e1]
      exact wait _ _ (by rw [hpc]; rfl) (by rw [hpc]; rfl) (by omega)

/-! ### Requests that are with the device -/

theorem workOne_pc {q' : Q α} {j prev' : Nat} {pc' : Pc} (h : workOne I q j pc' prev' = some q') :
    (q'.pc = pc' ∧ q'.prev = prev') ∨ q'.pc = .thrown ∨ (q'.pc = q.pc ∧ q'.prev = q.prev) := by
  unfold workOne at h
  split at h
  · split at h
    · cases h
    · cases h; exact .inl ⟨rfl, rfl⟩
  · cases h
    unfold poll
    split
    · exact .inr (.inl rfl)
    · exact .inr (.inr ⟨rfl, rfl⟩)

theorem event_work {q' : Q α} {e : Ev} (hi : Inv I dmax ef k mb E q) (h : event I mb q e = some q') (hw : WorkOk mb q) : WorkOk mb q' := by
  have same : q'.pc = q.pc → q'.prev = q.prev → WorkOk mb q' := by
    intro h1 h2 need hn
    rw [h2]; exact hw need (by rw [← h1]; exact hn)
  have other : (∀ need, q'.pc ≠ .work need) → WorkOk mb q' := fun h1 need hn => absurd hn (h1 need)
  cases e with
  | complete i =>
    unfold event at h
    simp only at h
    split at h <;> (cases h; exact same rfl rfl)
  | failed i =>
    unfold event at h
    simp only at h
    split at h <;> (cases h; exact same rfl rfl)
  | refuse =>
    unfold event at h
    simp only at h
    split at h
    · split at h
      · cases h; exact same rfl rfl
      · cases h; exact other (fun _ => by simp)
    · cases h; exact same rfl rfl
  | step j =>
    change prog I mb q j = some q' at h
    have hcnt := hi.cnt
    unfold CountOk at hcnt
    unfold prog at h
    split at h
    · split at h <;> (cases h; exact other (fun _ => by simp))
    · rename_i reqs cached hpc
      split at h
      · split at h
        · cases h
        · split at h
          · cases h
          · cases h; exact same rfl rfl
          · split at h
            · cases h
            · split at h
              · cases h; exact other (fun _ => by simp)
              · split at h <;> (cases h; exact other (fun _ => by simp))
      · cases h
        apply other
        intro need
        unfold submit
        split <;> simp
    · split at h
      · cases h
      · rename_i r _
        cases h1 : process q _ r with
        | none => rw [h1] at h; cases h
        | some q1 => rw [h1] at h; cases h; exact other (fun _ => by simp)
    · rename_i ops hpc
      rw [hpc] at hcnt
      simp only at hcnt
      cases h
      intro need hn
      simp only [Pc.work.injEq] at hn
      have := hi.beam
      have := hi.prev
      simp only
      omega
    · cases h; exact other (fun _ => by simp)
    · rename_i n hpc
      rcases workOne_pc h with ⟨h1, h2⟩ | h1 | ⟨h1, h2⟩
      · intro need hn
        rw [h1] at hn
        have := hw _ hpc
        cases hn
        omega
      · exact other (fun _ => by rw [h1]; simp)
      · exact same h1 h2
    · rename_i hpc
      split at h
      · cases h; exact other (fun _ => by simp)
      · rcases workOne_pc h with ⟨h1, h2⟩ | h1 | ⟨h1, h2⟩
        · exact other (fun _ => by rw [h1]; simp)
        · exact other (fun _ => by rw [h1]; simp)
        · exact other (fun _ => by rw [h1, hpc]; simp)
    · cases h; exact same rfl rfl
    · cases h; exact same rfl rfl

theorem Inv.flight (h : Inv I dmax ef k mb E q) (hw : WorkOk mb q) : q.flying.length + q.done.length ≤ mb + mb / 2 := by
  have h1 := h.len
  have h2 := h.cnt
  have h3 := h.beam
  have h4 := h.prev
  unfold CountOk at h2
  cases hpc : q.pc with
  | work need =>
    have := hw need hpc
    rw [hpc] at h2; simp only at h2; omega
  | thrown => rw [hpc] at h2; exact h2.elim
  | top => rw [hpc] at h2; simp only at h2; omega
  | collect rs cs => rw [hpc] at h2; simp only at h2; omega
  | cached ops cs => rw [hpc] at h2; simp only at h2; omega
  | drain => rw [hpc] at h2; simp only at h2; omega
  | fin => rw [hpc] at h2; simp only at h2; omega

/-! ### Runs -/

theorem run_spec (hI : IOk I dmax R) (hef : 0 < ef) (hk : 0 < k) (hmb1 : 1 ≤ mb) (hmb : mb ≤ maxEvents) (es : List Ev) : ∀ {q : Q α} {E : List Nat},
    (∀ e ∈ es, Normal e) → Inv I dmax ef k mb E q → WorkOk mb q → ∃ q' E', run I mb es q = some q' ∧ Inv I dmax ef k mb E' q' ∧ WorkOk mb q' := by
  induction es with
  | nil => intro q E _ h hw; exact ⟨q, E, rfl, h, hw⟩
  | cons e es ih =>
    intro q E he h hw
    obtain ⟨q1, E1, a1, a2, a3⟩ := event_spec hI hef hk hmb1 hmb h (he e (by simp))
    obtain ⟨q2, E2, b1, b2, b3⟩ := ih (fun e' he' => he e' (by simp [he'])) a2 (event_work h a1 hw)
    exact ⟨q2, E2, by unfold run; rw [a1]; exact b1, b2, b3⟩

/-! ### Schedules -/

/-- The search and the device go on: again and again the search makes a step that would see a completion, and the device executes a read. -/
structure Fair (σ : Nat → Ev) : Prop where
  normal : ∀ t, Normal (σ t)
  steps : ∀ t, ∃ t' ≥ t, ∃ j ≥ 1, σ t' = .step j
  reads : ∀ t, ∃ t' ≥ t, σ t' = .complete 0

theorem Fair.shift {σ : Nat → Ev} (h : Fair σ) (n : Nat) : Fair (fun t => σ (t + n)) := by
  refine ⟨fun t => h.normal _, ?_, ?_⟩
  · intro t
    obtain ⟨t', h1, j, h2, h3⟩ := h.steps (t + n)
    exact ⟨t' - n, by omega, j, h2, by rw [show t' - n + n = t' by omega]; exact h3⟩
  · intro t
    obtain ⟨t', h1, h3⟩ := h.reads (t + n)
    exact ⟨t' - n, by omega, by rw [show t' - n + n = t' by omega]; exact h3⟩

/-- The first `t` events of a schedule. -/
def pre (σ : Nat → Ev) (t : Nat) : List Ev := (List.range t).map σ

theorem pre_succ (σ : Nat → Ev) (t : Nat) : pre σ (t + 1) = σ 0 :: pre (fun i => σ (i + 1)) t := by
  unfold pre
  rw [List.range_succ_eq_map, List.map_cons, List.map_map]
  rfl

theorem pre_add (σ : Nat → Ev) (s t : Nat) : pre σ (s + t) = pre σ s ++ pre (fun i => σ (i + s)) t := by
  unfold pre
  rw [List.range_add, List.map_append, List.map_map]
  congr 1
  apply List.map_congr_left
  intro i _
  simp only [Function.comp]
  rw [Nat.add_comm]

theorem run_append (es fs : List Ev) : ∀ (q : Q α), run I mb (es ++ fs) q = (run I mb es q).bind (run I mb fs) := by
  induction es with
  | nil => intro q; rfl
  | cons e es ih =>
    intro q
    have e1 : ∀ l : List Ev, run I mb (e :: l) q = (event I mb q e).bind (run I mb l) := by
      intro l
      rw [run]
      cases event I mb q e <;> rfl
    rw [List.cons_append, e1, e1]
    cases event I mb q e with
    | none => rfl
    | some q' => exact ih q'

theorem soon (hI : IOk I dmax R) (hef : 0 < ef) (hk : 0 < k) (hmb1 : 1 ≤ mb) (hmb : mb ≤ maxEvents) (h : Inv I dmax ef k mb E q) (d : Nat) :
    ∀ {σ : Nat → Ev}, (∀ t, Normal (σ t)) → event I mb q (σ d) ≠ some q →
    ∃ t q' E', run I mb (pre σ t) q = some q' ∧ Inv I dmax ef k mb E' q' ∧ meas I R E' q' < meas I R E q := by
  induction d with
  | zero =>
    intro σ hσ hne
    obtain ⟨q1, E1, a1, a2, a3⟩ := event_spec hI hef hk hmb1 hmb h (hσ 0)
    rcases a3 with ⟨a3, -⟩ | a3
    · exact absurd (by rw [a1, a3]) hne
    · refine ⟨1, q1, E1, ?_, a2, a3⟩
      rw [pre_succ]
      unfold run
      rw [a1]
      rfl
  | succ d ih =>
    intro σ hσ hne
    obtain ⟨q1, E1, a1, a2, a3⟩ := event_spec hI hef hk hmb1 hmb h (hσ 0)
    rcases a3 with ⟨a3, a4⟩ | a3
    · obtain ⟨t, q', E', b1, b2, b3⟩ := ih (σ := fun i => σ (i + 1)) (fun t => hσ _) hne
      refine ⟨t + 1, q', E', ?_, b2, b3⟩
      rw [pre_succ]
      unfold run
      rw [a1, a3]
      exact b1
    · refine ⟨1, q1, E1, ?_, a2, a3⟩
      rw [pre_succ]
      unfold run
      rw [a1]
      rfl

/-- Every fair schedule comes to the end. -/
theorem ends (hI : IOk I dmax R) (hef : 0 < ef) (hk : 0 < k) (hmb1 : 1 ≤ mb) (hmb : mb ≤ maxEvents) (m : Nat) :
    ∀ {E : List Nat} {q : Q α} {σ : Nat → Ev}, Inv I dmax ef k mb E q → Fair σ → meas I R E q ≤ m →
    ∃ t q', run I mb (pre σ t) q = some q' ∧ q'.pc = .fin := by
  induction m using Nat.strongRecOn with
  | ind m ih =>
    intro E q σ h hσ hm
    by_cases hf : q.pc = .fin
    · exact ⟨0, q, rfl, hf⟩
    · have key : ∃ t q' E', run I mb (pre σ t) q = some q' ∧ Inv I dmax ef k mb E' q' ∧ meas I R E' q' < meas I R E q := by
        rcases progress hI h hf with hp | hp
        · obtain ⟨t, -, j, hj, ht⟩ := hσ.steps 0
          exact soon hI hef hk hmb1 hmb h t hσ.normal (by rw [ht]; exact hp j hj)
        · obtain ⟨t, -, ht⟩ := hσ.reads 0
          exact soon hI hef hk hmb1 hmb h t hσ.normal (by rw [ht]; exact hp)
      obtain ⟨t, q', E', a1, a2, a3⟩ := key
      obtain ⟨t2, q2, b1, b2⟩ := ih (meas I R E' q') (by omega) a2 (hσ.shift t) (Nat.le_refl _)
      refine ⟨t + t2, q2, ?_, b2⟩
      rw [pre_add, run_append, a1]
      exact b1

end

end Alaya.Laser
