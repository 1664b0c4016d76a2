import Verif.Lemmas.LaserStep

namespace Alaya.Laser
open Alaya Alaya.Pools Alaya.Spec Alaya.Hybrid Alaya.Hybrid.Spec Alaya.RSearch Alaya.Laser.Spec

section
variable {α : Type} {I : Index α} {dmax : Int} {R ef k mb : Nat} {E : List Nat} {q : Q α}

/-! ### The steps without a node -/

/-- A step that only moves the program counter (and the counters). -/
theorem Inv.move (h : Inv I dmax ef k mb E q) {q' : Q α} (hp : q'.pool = q.pool) (hv : q'.vis = q.vis) (hr : q'.res = q.res) (hm : q'.mem = q.mem)
    (hf : q'.free = q.free) (ho : q'.ongoing = q.ongoing) (hpr : q'.prepared = q.prepared) (hd : q'.done = q.done)
    (hreq : reqsOf q'.pc ++ q'.flying = q.flying ++ reqsOf q.pc ∨ reqsOf q'.pc ++ q'.flying = reqsOf q.pc ++ q.flying)
    (hca : cachedIds q'.pc = cachedIds q.pc) (hcnt : CountOk q') (hb : 1 ≤ q'.beam ∧ q'.beam ≤ mb) (hpv : q'.prev ≤ mb / 2)
    (hd1 : ¬ draining q'.pc → ¬ draining q.pc)
    (hd2 : draining q'.pc → ∃ A B, E = A ++ B ∧ B.length + q'.prev ≤ mb / 2 ∧ Explored I.starts I.nbs I.fmax ef A (visited q E)) :
    Inv I dmax ef k mb E q' := by
  have hvis : visited q' E = visited q E := by unfold visited; rw [ho, hpr, hca]
  have hperm : (reqsOf q'.pc ++ q'.flying).Perm (reqsOf q.pc ++ q.flying) := by
    rcases hreq with hreq | hreq
    · rw [hreq]; exact List.perm_append_comm
    · rw [hreq]
  refine ⟨by rw [hp]; exact h.pool, by rw [hv, hvis]; exact h.vis, by rw [hvis]; exact h.nodup, by rw [hvis]; exact h.valid, by rw [hvis]; exact h.reach,
    by rw [hp, hvis]; exact h.chkd, by rw [hp]; exact h.src, ?_, ?_, by rw [hf, ho, hpr]; exact h.slots, by rw [hf, ho, hpr]; exact h.nslots,
    by rw [ho, hd, hm]; exact h.donePage, by rw [hpr, hm]; exact h.prepPage, by rw [hca]; exact h.cachd, hcnt, hb, hpv, by rw [hr]; exact h.res,
    fun hx => by rw [hvis, hp]; exact h.covS (hd1 hx), fun hx => by rw [hvis, hp]; exact h.covE (hd1 hx), fun hx => by rw [hvis]; exact hd2 hx⟩
  · rw [ho, hd]
    refine h.keys.trans ?_
    rw [← List.append_assoc, ← List.append_assoc, ← List.map_append, ← List.map_append]
    exact List.Perm.append_right _ (hperm.symm.map _)
  · intro e he
    rw [ho]
    refine h.sub e ?_
    rw [← List.mem_append]
    exact hperm.mem_iff.mp (List.mem_append.mpr he)

theorem step_submit (hmb : mb ≤ maxEvents) (h : Inv I dmax ef k mb E q) {reqs : List (Nat × Nat)} {cached : List Nat} (j : Nat)
    (hpc : q.pc = .collect reqs cached) (hgo : ¬ (q.pool.hasNext = true ∧ reqs.length < q.beam)) : Goes I dmax R ef k mb E q (prog I mb q j) := by
  have hcw : collectW q = 5 := by unfold collectW; rw [hpc]; simp only; rw [if_neg hgo]
  have hcnt := h.cnt
  have hbeam := h.beam
  unfold CountOk at hcnt
  rw [hpc] at hcnt
  simp only at hcnt
  unfold prog
  rw [hpc]
  simp only
  rw [if_neg hgo]
  unfold submit
  rw [if_neg (by omega)]
  refine ⟨{ q with flying := q.flying ++ reqs, pc := .cached reqs.length cached }, E, rfl, ?_, .inr ?_⟩
  · refine h.move rfl rfl rfl rfl rfl rfl rfl rfl (.inl ?_) (by rw [hpc]; rfl) hcnt h.beam h.prev (fun _ => by rw [hpc]; exact fun x => x) (fun x => x.elim)
    rw [hpc]; rfl
  · unfold meas
    rw [hcw, hpc]
    have e1 : visited { q with flying := q.flying ++ reqs, pc := .cached reqs.length cached } E = visited q E := by
      unfold visited; rw [hpc]; rfl
    rw [e1]
    have e2 : collectW { q with flying := q.flying ++ reqs, pc := .cached reqs.length cached } = 0 := rfl
    rw [e2]
    simp only [reqsOf, cachedIds, waitW, List.length_append, List.length_nil]
    rw [show 0 + (q.flying.length + reqs.length) = reqs.length + q.flying.length by omega]
    omega

theorem step_top (h : Inv I dmax ef k mb E q) (hmb : 1 ≤ mb) (j : Nat) (hpc : q.pc = .top) (hn : q.pool.hasNext = true) :
    Goes I dmax R ef k mb E q (prog I mb q j) := by
  have hcnt := h.cnt
  have hbeam := h.beam
  unfold CountOk at hcnt
  rw [hpc] at hcnt
  simp only at hcnt
  unfold prog
  rw [hpc]
  simp only
  rw [if_pos hn]
  refine ⟨{ q with beam := min mb (2 * q.beam), pc := .collect [] [] }, E, rfl, ?_, .inr ?_⟩
  · refine h.move rfl rfl rfl rfl rfl rfl rfl rfl (.inr ?_) (by rw [hpc]; rfl) ⟨by simpa using hcnt, by simp⟩ (by show 1 ≤ min mb _ ∧ min mb _ ≤ mb; omega) h.prev
      (fun _ => by rw [hpc]; exact fun x => x) (fun x => x.elim)
    rw [hpc]; rfl
  · unfold meas
    have e1 : visited { q with beam := min mb (2 * q.beam), pc := .collect [] [] } E = visited q E := by
      unfold visited; rw [hpc]; rfl
    have e2 : collectW { q with beam := min mb (2 * q.beam), pc := .collect [] [] } = 0 := by
      unfold collectW
      simp only
      rw [if_pos ⟨hn, by simp only [List.length_nil]; omega⟩]
    have e3 : collectW q = 0 := by unfold collectW; rw [hpc]
    rw [e1, e2, e3, hpc]
    simp only [reqsOf, cachedIds, waitW, List.length_nil]
    omega

theorem explored_of (hI : IOk I dmax R) (h : Inv I dmax ef k mb E q) (hd : ¬ draining q.pc) (hn : q.pool.hasNext = false) :
    Explored I.starts I.nbs I.fmax ef E (visited q E) := by
  have hp := h.pool
  have hcur : q.pool.cur = q.pool.size := by
    have h1 : ¬ q.pool.cur < q.pool.size := by simpa [SPool.hasNext] using hn
    have := hp.cur.1
    rw [hp.elen] at this
    omega
  have hall : ∀ e ∈ q.pool.ents, chk e = true := by
    intro e he
    obtain ⟨i, hi⟩ := List.getElem?_of_mem he
    have hil := (List.getElem?_eq_some_iff.mp hi).1
    rw [hp.elen] at hil
    exact hp.cur.2.1 i e (by omega) hi
  have hfull : ∀ d, Full ef d q.pool → Beaten I.starts I.nbs I.fmax ef E (visited q E) d := by
    rintro d ⟨f1, f2⟩
    refine ⟨q.pool.ents.map bare, by rw [List.length_map, hp.elen, f1], h.src, ?_⟩
    intro x hx
    obtain ⟨e, he, rfl⟩ := List.mem_map.mp hx
    exact ⟨h.chkd e he (hall e he), f2 e he⟩
  have hdealt : ∀ e : Nat × Int, e.1 < 2147483648 → Dealt ef (visited q E) q.pool e → e.1 ∈ visited q E ∨ Beaten I.starts I.nbs I.fmax ef E (visited q E) e.2 := by
    intro e hs he
    rcases he with he | he | he
    · exact .inl he
    · have := hall e he
      rw [show e = (e.1, e.2) from rfl, chk_small hs] at this
      cases this
    · exact .inr (hfull _ he)
  have hs := hI.small
  exact ⟨h.nodup, fun v hv => List.mem_append_left _ hv, h.reach,
    fun s hs' => hdealt _ (by have := hI.starts s hs'; show s < _; omega) (h.covS hd s hs'),
    fun c hc e he => hdealt _ (by have := (hI.edges c (h.valid c (List.mem_append_left _ hc)) e he).1; omega) (h.covE hd c hc e he)⟩

theorem step_topEnd (hI : IOk I dmax R) (h : Inv I dmax ef k mb E q) (j : Nat) (hpc : q.pc = .top) (hn : q.pool.hasNext = false) :
    Goes I dmax R ef k mb E q (prog I mb q j) := by
  have hcnt := h.cnt
  unfold CountOk at hcnt
  rw [hpc] at hcnt
  simp only at hcnt
  unfold prog
  rw [hpc]
  simp only
  rw [if_neg (by simp [hn])]
  have hnd : ¬ draining q.pc := by rw [hpc]; exact fun x => x
  refine ⟨{ q with pc := .drain }, E, rfl, ?_, .inr ?_⟩
  · refine h.move rfl rfl rfl rfl rfl rfl rfl rfl (.inr ?_) (by rw [hpc]; rfl) hcnt h.beam h.prev (fun x => absurd trivial x)
      (fun _ => ⟨E, [], by simp, by have := h.prev; simp; exact this, explored_of hI h hnd hn⟩)
    rw [hpc]; rfl
  · unfold meas
    have e1 : visited { q with pc := .drain } E = visited q E := by
      unfold visited; rw [hpc]; rfl
    have e2 : collectW { q with pc := .drain } = 0 := rfl
    have e3 : collectW q = 0 := by unfold collectW; rw [hpc]
    rw [e1, e2, e3, hpc]
    simp only [reqsOf, cachedIds, waitW, List.length_nil]
    omega

theorem step_cachedEnd (h : Inv I dmax ef k mb E q) (j : Nat) {ops : Nat} (hpc : q.pc = .cached ops []) :
    Goes I dmax R ef k mb E q (prog I mb q j) := by
  have hcnt := h.cnt
  have hb := h.beam
  unfold CountOk at hcnt
  rw [hpc] at hcnt
  simp only at hcnt
  unfold prog
  rw [hpc]
  simp only
  refine ⟨{ q with pc := .work (ops + q.prev - ops / 2), prev := ops / 2 }, E, rfl, ?_, .inr ?_⟩
  · refine h.move rfl rfl rfl rfl rfl rfl rfl rfl (.inr ?_) (by rw [hpc]; rfl)
      (by show q.ongoing.length + q.prepared.length = ops / 2 + (ops + q.prev - ops / 2); omega) h.beam
      (by show ops / 2 ≤ mb / 2; omega) (fun _ => by rw [hpc]; exact fun x => x) (fun x => x.elim)
    rw [hpc]; rfl
  · unfold meas
    have e1 : visited { q with pc := .work (ops + q.prev - ops / 2), prev := ops / 2 } E = visited q E := by
      unfold visited; rw [hpc]; rfl
    have e2 : collectW { q with pc := .work (ops + q.prev - ops / 2), prev := ops / 2 } = 0 := rfl
    have e3 : collectW q = 0 := by unfold collectW; rw [hpc]
    rw [e1, e2, e3, hpc]
    simp only [reqsOf, cachedIds, waitW, List.length_nil]
    omega

theorem step_workEnd (h : Inv I dmax ef k mb E q) (j : Nat) (hpc : q.pc = .work 0) : Goes I dmax R ef k mb E q (prog I mb q j) := by
  have hcnt := h.cnt
  unfold CountOk at hcnt
  rw [hpc] at hcnt
  simp only at hcnt
  unfold prog
  rw [hpc]
  simp only
  refine ⟨{ q with pc := .top }, E, rfl, ?_, .inr ?_⟩
  · refine h.move rfl rfl rfl rfl rfl rfl rfl rfl (.inr ?_) (by rw [hpc]; rfl) hcnt h.beam h.prev (fun _ => by rw [hpc]; exact fun x => x) (fun x => x.elim)
    rw [hpc]; rfl
  · unfold meas
    have e1 : visited { q with pc := .top } E = visited q E := by
      unfold visited; rw [hpc]; rfl
    have e2 : collectW { q with pc := .top } = 0 := rfl
    have e3 : collectW q = 0 := by unfold collectW; rw [hpc]
    rw [e1, e2, e3, hpc]
    simp only [reqsOf, cachedIds, waitW, List.length_nil]
    omega

theorem step_drainEnd (h : Inv I dmax ef k mb E q) (j : Nat) (hpc : q.pc = .drain) (h0 : q.prev = 0) : Goes I dmax R ef k mb E q (prog I mb q j) := by
  have hcnt := h.cnt
  unfold CountOk at hcnt
  rw [hpc] at hcnt
  simp only at hcnt
  unfold prog
  rw [hpc]
  simp only
  rw [if_pos h0]
  refine ⟨{ q with pc := .fin }, E, rfl, ?_, .inr ?_⟩
  · refine h.move rfl rfl rfl rfl rfl rfl rfl rfl (.inr ?_) (by rw [hpc]; rfl) (by show q.ongoing.length + q.prepared.length = 0; omega) h.beam h.prev (fun x => absurd trivial x)
      (fun _ => h.fin (by rw [hpc]; trivial))
    rw [hpc]; rfl
  · unfold meas
    have e1 : visited { q with pc := .fin } E = visited q E := by
      unfold visited; rw [hpc]; rfl
    have e2 : collectW { q with pc := .fin } = 0 := rfl
    have e3 : collectW q = 0 := by unfold collectW; rw [hpc]
    rw [e1, e2, e3, hpc]
    simp only [reqsOf, cachedIds, waitW, List.length_nil]
    omega

/-! ### The steps that process a node -/

theorem step_cached (hI : IOk I dmax R) (hef : 0 < ef) (hk : 0 < k) (h : Inv I dmax ef k mb E q) (j : Nat) {ops c : Nat} {cs : List Nat}
    (hpc : q.pc = .cached ops (c :: cs)) : Goes I dmax R ef k mb E q (prog I mb q j) := by
  have hcv : c ∈ visited q E := by unfold visited; rw [hpc]; simp [cachedIds]
  have hlt := h.valid c hcv
  obtain ⟨r, hr⟩ := h.cachd c (by rw [hpc]; simp [cachedIds])
  obtain ⟨p, res, a1, a2, a3⟩ := process_spec hI hef hk h hlt
  have hcnt := h.cnt
  unfold CountOk at hcnt
  rw [hpc] at hcnt
  simp only at hcnt
  unfold prog
  rw [hpc]
  simp only
  rw [hr]
  simp only
  rw [hI.cache c r hr, a1]
  have hperm : (visited q E).Perm (visited { q with pool := p, res := res, pc := .cached ops cs } (E ++ [c])) := by
    unfold visited
    rw [hpc]
    rw [List.perm_iff_count]
    intro a
    simp only [cachedIds, List.count_append, List.count_cons, List.count_nil]
    omega
  refine ⟨{ q with pool := p, res := res, pc := .cached ops cs }, E ++ [c], rfl, ?_, .inr ?_⟩
  · exact h.processed a2 a3 rfl rfl rfl rfl rfl rfl rfl rfl hperm (by rw [hpc]; rfl) (by rw [hpc]; exact Iff.rfl) h.slots h.nslots (fun e he => he)
      (by rw [hpc]; intro x hx; exact List.mem_cons_of_mem _ hx) hcnt h.prev (fun x => x.elim)
  · have e2 : collectW { q with pool := p, res := res, pc := .cached ops cs } = 0 := rfl
    have e3 : collectW q = 0 := by unfold collectW; rw [hpc]
    have e4 := a2.cnt
    have e5 := hI.deg c hlt
    unfold meas
    rw [e2, e3, ← hperm.length_eq, hpc]
    simp only [reqsOf, cachedIds, waitW, List.length_nil, List.length_cons]
    generalize (6 * R + 4) * (I.n - (visited q E).length) = x1
    generalize (6 * R + 3) * (0 + q.flying.length) = x2
    generalize (6 * R + 2) * q.done.length = x3
    rw [show q.prepared.length + (cs.length + 1) = (q.prepared.length + cs.length) + 1 by omega, Nat.mul_succ]
    generalize (6 * R + 1) * (q.prepared.length + cs.length) = x4
    omega

theorem step_prepared (hI : IOk I dmax R) (hef : 0 < ef) (hk : 0 < k) (h : Inv I dmax ef k mb E q) (j : Nat) {pc' : Pc} {prev' : Nat}
    {e : Nat × Nat} {ps : List (Nat × Nat)} (hpr : q.prepared = e :: ps) (hca : cachedIds q.pc = []) (hca' : cachedIds pc' = [])
    (hreq : reqsOf pc' = reqsOf q.pc) (hdr : draining pc' ↔ draining q.pc) (hw : waitW pc' = waitW q.pc) (hcw : collectW q = 0)
    (hcw' : ∀ q' : Q α, q'.pc = pc' → collectW q' = 0)
    (hcnt : ∀ q' : Q α, q'.pc = pc' → q'.prev = prev' → q'.ongoing.length + q'.prepared.length + 1 = q.ongoing.length + q.prepared.length → CountOk q')
    (hprev : prev' ≤ mb / 2) (hfin : draining pc' → prev' + 1 ≤ q.prev) : Goes I dmax R ef k mb E q (workOne I q j pc' prev') := by
  have hcv : e.1 ∈ visited q E := by unfold visited; rw [hpr]; simp
  have hlt := h.valid e.1 hcv
  obtain ⟨p, res, a1, a2, a3⟩ := process_spec hI hef hk h hlt
  unfold workOne
  rw [hpr]
  simp only
  rw [show I.nodeIn (q.mem e.2) e.1 = I.row e.1 by unfold Index.row; rw [h.prepPage e (by rw [hpr]; simp)], a1]
  simp only
  have hperm : (visited q E).Perm (visited { q with pool := p, res := res, prepared := ps, free := q.free ++ [e.2], pc := pc', prev := prev' } (E ++ [e.1])) := by
    unfold visited
    rw [hpr, hca]
    simp only
    rw [hca', List.perm_iff_count]
    intro a
    simp only [List.map_cons, List.count_append, List.count_cons, List.count_nil]
    omega
  refine ⟨{ q with pool := p, res := res, prepared := ps, free := q.free ++ [e.2], pc := pc', prev := prev' }, E ++ [e.1], rfl, ?_, .inr ?_⟩
  · refine h.processed a2 a3 rfl rfl rfl rfl rfl rfl rfl rfl hperm hreq hdr ?_ ?_ (fun x hx => by rw [hpr]; exact List.mem_cons_of_mem _ hx)
      (by simp only; rw [hca']; simp) (hcnt _ rfl rfl (by rw [hpr]; simp only [List.length_cons]; omega)) hprev hfin
    · have hsl := h.slots
      rw [hpr] at hsl
      refine (List.Perm.nodup_iff ?_).mp hsl
      rw [List.perm_iff_count]
      intro a
      simp only [List.map_cons, List.count_append, List.count_cons, List.count_nil]
      omega
    · have hns := h.nslots
      rw [hpr] at hns
      simp only [List.length_append, List.length_cons, List.length_nil] at hns ⊢
      omega
  · have e4 := a2.cnt
    have e5 := hI.deg e.1 hlt
    unfold meas
    rw [hcw, hcw' _ rfl, ← hperm.length_eq]
    simp only
    rw [hca, hca', hreq, hw, hpr]
    simp only [List.length_cons, List.length_nil]
    generalize (6 * R + 4) * (I.n - (visited q E).length) = x1
    generalize (6 * R + 3) * ((reqsOf q.pc).length + q.flying.length) = x2
    generalize (6 * R + 2) * q.done.length = x3
    rw [show ps.length + 1 + 0 = (ps.length + 0) + 1 by omega, Nat.mul_succ]
    generalize (6 * R + 1) * (ps.length + 0) = x4
    omega

/-! ### Completions -/

theorem take_spec (cs : List Nat) : ∀ (o p : List (Nat × Nat)), (o.map Prod.fst).Nodup → cs.Nodup → (∀ c ∈ cs, c ∈ o.map Prod.fst) →
    ∃ o' l, take cs o p = some (o', p ++ l) ∧ o.Perm (o' ++ l) ∧ l.map Prod.fst = cs := by
  induction cs with
  | nil => intro o p _ _ _; exact ⟨o, [], by simp [take], by simp, rfl⟩
  | cons c cs ih =>
    intro o p ho hc hsub
    rw [List.nodup_cons] at hc
    obtain ⟨e, he, hec⟩ := List.mem_map.mp (hsub c (by simp))
    have hfind : o.find? (fun e => e.1 == c) = some e := by
      cases hf : o.find? (fun e => e.1 == c) with
      | none =>
        rw [List.find?_eq_none] at hf
        exact absurd (by simpa using hec) (hf e he)
      | some e' =>
        have h1 := List.mem_of_find?_eq_some hf
        have h2 := List.find?_some hf
        simp only [beq_iff_eq] at h2
        rw [inj_of_nodup ho h1 he (by rw [h2, hec])]
    have hperm : o.Perm (e :: o.filter (fun x => x.1 != c)) := by
      obtain ⟨l1, l2, rfl⟩ := List.append_of_mem he
      rw [List.map_append, List.map_cons] at ho
      have h1 : (l1 ++ e :: l2).filter (fun x => x.1 != c) = l1 ++ l2 := by
        rw [List.filter_append, List.filter_cons]
        have g0 : (e.1 != c) = false := by simpa using hec
        rw [g0]
        simp only [Bool.false_eq_true, if_false]
        have hn := List.nodup_append.mp ho
        congr 1
        · rw [List.filter_eq_self]
          intro a ha
          have : a.1 ≠ c := fun hx => hn.2.2 a.1 (List.mem_map.mpr ⟨a, ha, rfl⟩) e.1 (by simp) (by rw [hx, hec])
          simpa using this
        · rw [List.filter_eq_self]
          intro a ha
          have : a.1 ≠ c := fun hx => (List.nodup_cons.mp hn.2.1).1 (List.mem_map.mpr ⟨a, ha, by rw [hx, hec]⟩)
          simpa using this
      rw [h1]
      exact List.perm_middle
    have ho2 := (hperm.map Prod.fst).nodup_iff.mp ho
    rw [List.map_cons, List.nodup_cons] at ho2
    obtain ⟨o', l, k1, k2, k3⟩ := ih (o.filter (fun x => x.1 != c)) (p ++ [e]) ho2.2 hc.2 (by
      intro c' hc'
      have := (hperm.map Prod.fst).mem_iff.mp (hsub c' (by simp [hc']))
      rw [List.map_cons] at this
      rcases List.mem_cons.mp this with h1 | h1
      · rw [h1, hec] at hc'
        exact absurd hc' hc.1
      · exact h1)
    refine ⟨o', e :: l, ?_, ?_, by rw [List.map_cons, k3, hec]⟩
    · unfold take
      rw [hfind]
      simp only
      rw [k1]
      simp
    · exact hperm.trans ((k2.cons e).trans List.perm_middle.symm)

theorem poll_zero {j : Nat} (hz : polled q j = 0) : poll q j = q := by
  unfold poll
  rw [hz]
  simp [take]

theorem poll_spec (h : Inv I dmax ef k mb E q) (j : Nat) : Inv I dmax ef k mb E (poll q j) ∧ meas I R E (poll q j) + polled q j = meas I R E q := by
  obtain ⟨m, hm⟩ : ∃ m, m = polled q j := ⟨_, rfl⟩
  have hml : m ≤ q.done.length := by rw [hm]; unfold polled; omega
  have hk := h.keys
  have hkn := hk.nodup_iff.mp h.okeys
  have hdn : q.done.Nodup := (List.nodup_append.mp (List.nodup_append.mp hkn).2.1).2.1
  have hsub : ∀ c ∈ q.done.take m, c ∈ q.ongoing.map Prod.fst := fun c hc => hk.mem_iff.mpr (by simp [List.mem_of_mem_take hc])
  obtain ⟨o', l, k1, k2, k3⟩ := take_spec (q.done.take m) q.ongoing q.prepared h.okeys (hdn.sublist (List.take_sublist _ _)) hsub
  have hq : poll q j = { q with ongoing := o', prepared := q.prepared ++ l, done := q.done.drop m } := by
    unfold poll
    rw [← hm, k1]
  rw [hq, ← hm]
  have hll : l.length = m := by
    have := congrArg List.length k3
    rw [List.length_map, List.length_take] at this
    omega
  have hvis : (visited q E).Perm (visited { q with ongoing := o', prepared := q.prepared ++ l, done := q.done.drop m } E) := by
    have := (k2.map Prod.fst)
    rw [List.perm_iff_count] at this
    unfold visited
    rw [List.perm_iff_count]
    intro a
    have := this a
    simp only [List.map_append, List.count_append] at this ⊢
    omega
  have hV : ∀ v, v ∈ visited q E ↔ v ∈ visited { q with ongoing := o', prepared := q.prepared ++ l, done := q.done.drop m } E := fun v => hvis.mem_iff
  have hD : ∀ p e, Dealt ef (visited q E) p e → Dealt ef (visited { q with ongoing := o', prepared := q.prepared ++ l, done := q.done.drop m } E) p e := by
    intro p e he
    rcases he with he | he
    · exact .inl ((hV _).mp he)
    · exact .inr he
  have hl1 : ∀ e ∈ l, e ∈ q.ongoing ∧ e.1 ∈ q.done := by
    intro e he
    refine ⟨k2.mem_iff.mpr (by simp [he]), ?_⟩
    have : e.1 ∈ q.done.take m := by rw [← k3]; exact List.mem_map.mpr ⟨e, he, rfl⟩
    exact List.mem_of_mem_take this
  have hlen := k2.length_eq
  rw [List.length_append] at hlen
  refine ⟨⟨h.pool, HRep.congr h.vis hV, hvis.nodup_iff.mp h.nodup, fun v hv => h.valid v ((hV v).mpr hv), fun v hv => h.reach v ((hV v).mpr hv),
    fun e he hc => (hV _).mp (h.chkd e he hc), h.src, ?_, ?_, ?_, ?_, ?_, ?_, h.cachd, ?_, h.beam, h.prev, h.res, fun hd s hs => hD _ _ (h.covS hd s hs),
    fun hd c hc e he => hD _ _ (h.covE hd c hc e he), ?_⟩, ?_⟩
  · have h1 := k2.map Prod.fst
    rw [List.map_append, k3] at h1
    have h2 : q.done = q.done.take m ++ q.done.drop m := (List.take_append_drop m _).symm
    rw [List.perm_iff_count] at h1 hk ⊢
    intro a
    have h3 := h1 a
    have h4 := hk a
    rw [h2] at h4
    simp only [List.count_append] at h3 h4 ⊢
    omega
  · intro e he
    have h1 := h.sub e he
    rcases List.mem_append.mp (k2.mem_iff.mp h1) with h2 | h2
    · exact h2
    · exact absurd (hl1 e h2).2 (h.kdisj he)
  · have hsl := h.slots
    refine (List.Perm.nodup_iff ?_).mp hsl
    have h1 := k2.map Prod.snd
    rw [List.perm_iff_count] at h1 ⊢
    intro a
    have h3 := h1 a
    simp only [List.map_append, List.count_append] at h3 ⊢
    omega
  · have hns := h.nslots
    simp only [List.length_append]
    omega
  · intro e he hd
    exact h.donePage e (k2.mem_iff.mpr (by simp [show e ∈ o' from he])) (List.mem_of_mem_drop hd)
  · intro e he
    rcases List.mem_append.mp he with he | he
    · exact h.prepPage e he
    · exact h.donePage e (hl1 e he).1 (hl1 e he).2
  · have hc := h.cnt
    unfold CountOk at hc ⊢
    simp only [List.length_append]
    revert hc
    split <;> intro hc <;> omega
  · intro hd
    obtain ⟨A, B, e1, e2, e3⟩ := h.fin hd
    have hB : ∀ d, Beaten I.starts I.nbs I.fmax ef A (visited q E) d →
        Beaten I.starts I.nbs I.fmax ef A (visited { q with ongoing := o', prepared := q.prepared ++ l, done := q.done.drop m } E) d := by
      rintro d ⟨P, p1, p2, p3⟩
      exact ⟨P, p1, p2, fun x hx => ⟨(hV _).mp (p3 x hx).1, (p3 x hx).2⟩⟩
    exact ⟨A, B, e1, e2, hvis.nodup_iff.mp e3.nodup, fun v hv => (hV v).mp (e3.sub v hv), fun v hv => e3.reach v ((hV v).mpr hv),
      fun s hs' => (e3.first s hs').imp (fun hx => (hV _).mp hx) (hB _),
      fun x hx e he => (e3.beam x hx e he).imp (fun hx => (hV _).mp hx) (hB _)⟩
  · unfold meas
    rw [← hvis.length_eq]
    have e3 : collectW { q with ongoing := o', prepared := q.prepared ++ l, done := q.done.drop m } = collectW q := rfl
    rw [e3]
    simp only [List.length_append, List.length_drop]
    rw [hll]
    obtain ⟨x, hx⟩ : ∃ x, q.done.length = x + m := ⟨q.done.length - m, by omega⟩
    rw [hx, show x + m - m = x by omega]
    generalize (6 * R + 4) * (I.n - (visited q E).length) = x1
    generalize (6 * R + 3) * ((reqsOf q.pc).length + q.flying.length) = x2
    simp only [Nat.mul_add, Nat.add_mul]
    omega

theorem step_poll (h : Inv I dmax ef k mb E q) (j : Nat) {pc' : Pc} {prev' : Nat} (hpr : q.prepared = []) :
    Goes I dmax R ef k mb E q (workOne I q j pc' prev') := by
  unfold workOne
  rw [hpr]
  simp only
  obtain ⟨h1, h2⟩ := poll_spec (R := R) h j
  by_cases hz : polled q j = 0
  · exact ⟨_, E, rfl, h1, .inl ⟨poll_zero hz, rfl⟩⟩
  · exact ⟨_, E, rfl, h1, .inr (by omega)⟩

theorem ev_complete (h : Inv I dmax ef k mb E q) (i : Nat) : Goes I dmax R ef k mb E q (event I mb q (.complete i)) := by
  unfold event
  simp only
  cases hf : q.flying[i]? with
  | none => exact ⟨q, E, rfl, h, .inl ⟨rfl, rfl⟩⟩
  | some cs =>
    obtain ⟨c, s⟩ := cs
    simp only
    obtain ⟨hil, hie⟩ := List.getElem?_eq_some_iff.mp hf
    have hfl : (c, s) ∈ q.flying := List.mem_of_getElem? hf
    have hon := h.sub (c, s) (.inr hfl)
    have hperm : q.flying.Perm ((c, s) :: q.flying.eraseIdx i) := by
      have := List.getElem_cons_eraseIdx_perm hil
      rw [hie] at this
      exact this.symm
    have hcd := h.kdisj (.inr hfl)
    have hsn := (List.nodup_append.mp h.slots).2.1
    have hson := (List.nodup_append.mp hsn).1
    have hother : ∀ e ∈ q.ongoing, e.2 = s → e = (c, s) := fun e he hes => inj_of_nodup hson he hon hes
    refine ⟨_, E, rfl, ⟨h.pool, h.vis, h.nodup, h.valid, h.reach, h.chkd, h.src, ?_, ?_, h.slots, h.nslots, ?_, ?_, h.cachd, h.cnt, h.beam, h.prev, h.res,
      h.covS, h.covE, h.fin⟩, .inr ?_⟩
    · have hk := h.keys
      have h1 := hperm.map Prod.fst
      rw [List.perm_iff_count] at hk h1 ⊢
      intro a
      have h3 := hk a
      have h4 := h1 a
      simp only [List.map_cons, List.count_append, List.count_cons, List.count_nil] at h3 h4 ⊢
      omega
    · intro e he
      refine h.sub e (he.imp id ?_)
      intro hx
      exact List.mem_of_mem_eraseIdx hx
    · intro e he hd
      simp only
      by_cases hes : e.2 = s
      · rw [if_pos hes, hother e he hes]
      · rw [if_neg hes]
        rcases List.mem_append.mp hd with hd | hd
        · exact h.donePage e he hd
        · rw [List.mem_singleton] at hd
          exact absurd (by rw [inj_of_nodup h.okeys he hon hd]) hes
    · intro e he
      simp only
      have hes : e.2 ≠ s := by
        intro hes
        exact (List.nodup_append.mp hsn).2.2 s (List.mem_map.mpr ⟨(c, s), hon, rfl⟩) e.2 (List.mem_map.mpr ⟨e, he, rfl⟩) hes.symm
      rw [if_neg hes]
      exact h.prepPage e he
    · have hl := hperm.length_eq
      rw [List.length_cons] at hl
      unfold meas
      simp only [List.length_append, List.length_singleton]
      rw [hl]
      have e1 : visited { q with mem := fun t => if t = s then I.dev (I.page c) else q.mem t, flying := q.flying.eraseIdx i, done := q.done ++ [c] } E = visited q E := rfl
      have e2 : collectW { q with mem := fun t => if t = s then I.dev (I.page c) else q.mem t, flying := q.flying.eraseIdx i, done := q.done ++ [c] } = collectW q := rfl
      rw [e1, e2]
      generalize (6 * R + 4) * (I.n - (visited q E).length) = x1
      generalize (6 * R + 1) * (q.prepared.length + (cachedIds q.pc).length) = x2
      generalize (reqsOf q.pc).length = y
      generalize (q.flying.eraseIdx i).length = z
      simp only [Nat.mul_add, Nat.add_mul]
      omega

/-- The events of the positive results: the program steps and reads that succeed. -/
def Normal : Ev → Prop
  | .step _ => True
  | .complete _ => True
  | _ => False

theorem event_spec (hI : IOk I dmax R) (hef : 0 < ef) (hk : 0 < k) (hmb1 : 1 ≤ mb) (hmb : mb ≤ maxEvents) (h : Inv I dmax ef k mb E q) {e : Ev}
    (he : Normal e) : Goes I dmax R ef k mb E q (event I mb q e) := by
  cases e with
  | complete i => exact ev_complete h i
  | failed i => exact he.elim
  | refuse => exact he.elim
  | step j =>
    show Goes I dmax R ef k mb E q (prog I mb q j)
    cases hpc : q.pc with
    | top =>
      cases hn : q.pool.hasNext with
      | true => exact step_top h hmb1 j hpc hn
      | false => exact step_topEnd hI h j hpc hn
    | collect reqs cached =>
      by_cases hgo : q.pool.hasNext = true ∧ reqs.length < q.beam
      · exact step_collect hI h j hpc hgo
      · exact step_submit hmb h j hpc hgo
    | cached ops ids =>
      cases ids with
      | nil => exact step_cachedEnd h j hpc
      | cons c cs => exact step_cached hI hef hk h j hpc
    | work need =>
      cases need with
      | zero => exact step_workEnd h j hpc
      | succ need =>
        have e1 : prog I mb q j = workOne I q j (.work need) q.prev := by unfold prog; rw [hpc]
        rw [e1]
        cases hpr : q.prepared with
        | nil => exact step_poll h j hpr
        | cons e ps =>
          refine step_prepared hI hef hk h j hpr (by rw [hpc]; rfl) rfl (by rw [hpc]; rfl) (by rw [hpc]; exact Iff.rfl) (by rw [hpc]; rfl)
            (by unfold collectW; rw [hpc]) (fun q' hq => by unfold collectW; rw [hq]) ?_ h.prev (fun x => x.elim)
          intro q' h1 h2 h3
          have hc := h.cnt
          unfold CountOk at hc ⊢
          rw [hpc] at hc
          rw [h1]
          simp only at hc ⊢
          omega
    | drain =>
      by_cases h0 : q.prev = 0
      · exact step_drainEnd h j hpc h0
      · have e1 : prog I mb q j = workOne I q j .drain (q.prev - 1) := by unfold prog; rw [hpc]; simp only; rw [if_neg h0]
        rw [e1]
        cases hpr : q.prepared with
        | nil => exact step_poll h j hpr
        | cons e ps =>
          refine step_prepared hI hef hk h j hpr (by rw [hpc]; rfl) rfl (by rw [hpc]) (by rw [hpc]) (by rw [hpc])
            (by unfold collectW; rw [hpc]) (fun q' hq => by unfold collectW; rw [hq]) ?_ (by have := h.prev; omega) (fun _ => by omega)
          intro q' h1 h2 h3
          have hc := h.cnt
          unfold CountOk at hc ⊢
          rw [hpc] at hc
          rw [h1]
          simp only at hc ⊢
          omega
    | fin => exact ⟨q, E, by unfold prog; rw [hpc], h, .inl ⟨rfl, rfl⟩⟩
    | thrown =>
      have hc := h.cnt
      unfold CountOk at hc
      rw [hpc] at hc
      exact hc.elim

end

end Alaya.Laser
