import Verif.Lemmas.LaserInv

namespace Alaya.Laser
open Alaya Alaya.Pools Alaya.Spec Alaya.Hybrid Alaya.Hybrid.Spec Alaya.RSearch Alaya.Laser.Spec

/-- The event leads to a state that satisfies the invariant, and nothing has changed or the measure is smaller. -/
def Goes {α : Type} (I : Index α) (dmax : Int) (R ef k mb : Nat) (E : List Nat) (q : Q α) (r : Option (Q α)) : Prop :=
  ∃ q' E', r = some q' ∧ Inv I dmax ef k mb E' q' ∧ ((q' = q ∧ E' = E) ∨ meas I R E' q' < meas I R E q)

theorem inj_of_nodup {α β : Type} {f : α → β} {l : List α} (h : (l.map f).Nodup) {a b : α} (ha : a ∈ l) (hb : b ∈ l) (hab : f a = f b) : a = b := by
  induction l with
  | nil => cases ha
  | cons x l ih =>
    rw [List.map_cons, List.nodup_cons] at h
    rcases List.mem_cons.mp ha with ha | ha <;> rcases List.mem_cons.mp hb with hb | hb
    · rw [ha, hb]
    · exact absurd (List.mem_map.mpr ⟨b, hb, by rw [← hab, ha]⟩) h.1
    · exact absurd (List.mem_map.mpr ⟨a, ha, by rw [hab, hb]⟩) h.1
    · exact ih h.2 ha hb

section
variable {α : Type} {I : Index α} {dmax : Int} {R ef k mb : Nat} {E : List Nat} {q : Q α}

theorem Inv.okeys (h : Inv I dmax ef k mb E q) : (q.ongoing.map Prod.fst).Nodup :=
  (List.nodup_append.mp (List.nodup_append.mp h.nodup).2.1).1

theorem Inv.kdisj (h : Inv I dmax ef k mb E q) {e : Nat × Nat} (he : e ∈ reqsOf q.pc ∨ e ∈ q.flying) : e.1 ∉ q.done := by
  have h1 := h.keys.nodup_iff.mp h.okeys
  rw [← List.append_assoc] at h1
  intro hd
  refine (List.nodup_append.mp h1).2.2 e.1 ?_ e.1 hd rfl
  rw [List.mem_append, List.mem_map, List.mem_map]
  exact he.imp (fun x => ⟨e, x, rfl⟩) (fun x => ⟨e, x, rfl⟩)

/-! ### The pool is popped -/

theorem Inv.entReach (h : Inv I dmax ef k mb E q) {e : Nat × Int} (he : e ∈ q.pool.ents) : Reach I.starts I.nbs (getId e.1) := by
  have h1 : bare e ∈ offers I.starts I.nbs I.fmax E := h.src.subset (List.mem_map.mpr ⟨e, he, rfl⟩)
  unfold offers at h1
  rcases List.mem_append.mp h1 with h1 | h1
  · obtain ⟨s, h2, h3⟩ := List.mem_map.mp h1
    have : s = getId e.1 := congrArg Prod.fst h3
    rw [← this]
    exact .start h2
  · obtain ⟨c, h2, h3⟩ := List.mem_flatMap.mp h1
    exact .step (h.reach c (List.mem_append_left _ h2)) h3

/-- What a pop does; `V'` are the nodes visited afterwards. -/
structure PopOk (I : Index α) (dmax : Int) (ef : Nat) (E V : List Nat) (p p' : SPool) (c : Nat) : Prop where
  lt : c < I.n
  pool : PInv dmax I.n ef p'
  reach : Reach I.starts I.nbs c
  chkd : ∀ V' : List Nat, (∀ v ∈ V, v ∈ V') → c ∈ V' → ∀ e ∈ p'.ents, chk e = true → getId e.1 ∈ V'
  src : (p'.ents.map bare).Subperm (offers I.starts I.nbs I.fmax E)
  dealt : ∀ V' : List Nat, (∀ v ∈ V, v ∈ V') → c ∈ V' → ∀ e, Dealt ef V p e → Dealt ef V' p' e
  cnt : p'.open_ + 1 = p.open_

theorem Inv.pop (hI : IOk I dmax R) (h : Inv I dmax ef k mb E q) (hn : q.pool.hasNext = true) :
    ∃ c p', q.pool.pop = some (p', c) ∧ PopOk I dmax ef E (visited q E) q.pool p' c := by
  obtain ⟨e, p', e1, e2, e3, e4⟩ := h.pool.pop hI.small hn
  have hs := hI.small
  have hid : getId e.1 = e.1 := getId_small (by omega)
  refine ⟨e.1, p', e1, e2, e3, ?_, ?_, ?_, ?_, e4.cnt⟩
  · rw [← hid]; exact h.entReach e4.mem
  · intro V' h1 h2 y hy hch
    rcases e4.sub y hy with hy | hy
    · exact h1 _ (h.chkd y hy hch)
    · rw [hy]
      show getId (setChecked e.1) ∈ V'
      rw [getId_set (by omega)]; exact h2
  · rw [e4.same]; exact h.src
  · intro V' h1 h2 y hy
    rcases hy with hy | hy | hy
    · exact .inl (h1 _ hy)
    · rcases e4.keep y hy with rfl | hy
      · exact .inl h2
      · exact .inr (.inl hy)
    · exact .inr (.inr (e4.full _ hy))

theorem collectW_le (q : Q α) : collectW q ≤ 5 := by
  unfold collectW
  split
  · split <;> omega
  · omega

theorem step_collect (hI : IOk I dmax R) (h : Inv I dmax ef k mb E q) {reqs : List (Nat × Nat)} {cached : List Nat} (j : Nat)
    (hpc : q.pc = .collect reqs cached) (hgo : q.pool.hasNext = true ∧ reqs.length < q.beam) : Goes I dmax R ef k mb E q (prog I mb q j) := by
  obtain ⟨c, p', e1, e2⟩ := h.pop hI hgo.1
  have hcw : collectW q = 0 := by unfold collectW; rw [hpc]; simp only; rw [if_pos hgo]
  have hvl := h.vlen
  have hcnt := h.cnt
  have hbeam := h.beam
  have hprev := h.prev
  have hns := h.nslots
  unfold prog
  rw [hpc]
  simp only
  rw [if_pos hgo, e1]
  simp only
  rw [vis_get hI.small h.vis e2.lt]
  by_cases hvv : c ∈ visited q E
  · rw [decide_eq_true hvv]
    refine ⟨{ q with pool := p' }, E, by rw [← hpc], ?_, .inr ?_⟩
    · exact ⟨e2.pool, h.vis, h.nodup, h.valid, h.reach, e2.chkd _ (fun _ x => x) hvv, e2.src, h.keys, h.sub, h.slots, h.nslots, h.donePage,
        h.prepPage, h.cachd, h.cnt, h.beam, h.prev, h.res, fun hd s hs => e2.dealt _ (fun _ x => x) hvv _ (h.covS hd s hs),
        fun hd x hx e he => e2.dealt _ (fun _ x => x) hvv _ (h.covE hd x hx e he), fun hd => by change draining q.pc at hd; rw [hpc] at hd; exact hd.elim⟩
    · have h5 := collectW_le { q with pool := p' }
      have := e2.cnt
      unfold meas
      change (6 * R + 4) * (I.n - (visited q E).length) + 6 * p'.open_ + (6 * R + 3) * ((reqsOf q.pc).length + q.flying.length)
        + (6 * R + 2) * q.done.length + (6 * R + 1) * (q.prepared.length + (cachedIds q.pc).length) + waitW q.pc + collectW { q with pool := p' } < _
      omega
  · rw [decide_eq_false hvv]
    simp only
    obtain ⟨vis', s1, s2⟩ := vis_set hI.small h.vis e2.lt
    rw [s1]
    simp only
    -- what holds for every state with `c` added
    have key : ∀ q' : Q α, q'.pool = p' → q'.vis = vis' → q'.res = q.res → q'.mem = q.mem → q'.prepared = q.prepared → q'.flying = q.flying →
        q'.done = q.done → q'.beam = q.beam → q'.prev = q.prev → (visited q E ++ [c]).Perm (visited q' E) →
        (q'.ongoing.map Prod.fst).Perm ((reqsOf q'.pc).map Prod.fst ++ (q'.flying.map Prod.fst ++ q'.done)) →
        (∀ e, e ∈ reqsOf q'.pc ∨ e ∈ q'.flying → e ∈ q'.ongoing) →
        (q'.free ++ (q'.ongoing.map Prod.snd ++ q'.prepared.map Prod.snd)).Nodup →
        q'.free.length + q'.ongoing.length + q'.prepared.length = 2 * mb →
        (∀ e ∈ q'.ongoing, e ∈ q.ongoing ∨ e.1 = c) → (∀ x ∈ cachedIds q'.pc, ∃ r, I.cache x = some r) → CountOk q' →
        ¬ draining q'.pc → Inv I dmax ef k mb E q' := by
      intro q' h1 h2 h3 h4 h5 h6 h7 h8 h9 hp hk hsb hsl hn' hon hca hct hdr
      have hsub : ∀ v ∈ visited q E, v ∈ visited q' E := fun v hv => hp.mem_iff.mp (List.mem_append_left _ hv)
      have hc' : c ∈ visited q' E := hp.mem_iff.mp (by simp)
      have hinv : ∀ v ∈ visited q' E, v ∈ visited q E ∨ v = c := by
        intro v hv
        have := hp.mem_iff.mpr hv
        simpa using this
      have hcd : c ∉ q.done := by
        intro hcd
        have : c ∈ q.ongoing.map Prod.fst := h.keys.mem_iff.mpr (by simp [hcd])
        exact hvv (by unfold visited; simp only [List.mem_append]; exact .inr (.inl this))
      have hnd : ¬ draining q.pc := by rw [hpc]; exact fun hd => hd
      refine ⟨by rw [h1]; exact e2.pool, by rw [h2]; exact HRep.congr s2 (fun v => hp.mem_iff), ?_, ?_, ?_, by rw [h1]; exact e2.chkd _ hsub hc',
        by rw [h1]; exact e2.src, hk, hsb, hsl, hn', ?_, by rw [h4, h5]; exact h.prepPage, hca, hct, by rw [h8]; exact h.beam, by rw [h9]; exact h.prev,
        by rw [h3]; exact h.res, fun _ s hs => by rw [h1]; exact e2.dealt _ hsub hc' _ (h.covS hnd s hs),
        fun _ x hx e he => by rw [h1]; exact e2.dealt _ hsub hc' _ (h.covE hnd x hx e he), fun hd => absurd hd hdr⟩
      · refine hp.nodup_iff.mp ?_
        rw [List.nodup_append]
        refine ⟨h.nodup, by simp, ?_⟩
        intro a ha b hb hab
        rw [List.mem_singleton] at hb
        rw [hab, hb] at ha
        exact hvv ha
      · intro v hv
        rcases hinv v hv with hv | rfl
        · exact h.valid v hv
        · exact e2.lt
      · intro v hv
        rcases hinv v hv with hv | rfl
        · exact h.reach v hv
        · exact e2.reach
      · intro e he hd
        rw [h7] at hd
        rcases hon e he with he | he
        · rw [h4]; exact h.donePage e he hd
        · rw [he] at hd; exact absurd hd hcd
    have hlen' : ∀ q' : Q α, Inv I dmax ef k mb E q' → (visited q E ++ [c]).Perm (visited q' E) → (visited q' E).length = (visited q E).length + 1 ∧ (visited q E).length + 1 ≤ I.n := by
      intro q' hq hp
      have h1 := hp.length_eq
      have h2 := hq.vlen
      rw [List.length_append] at h1
      simp only [List.length_singleton] at h1
      omega
    unfold CountOk at hcnt
    rw [hpc] at hcnt
    simp only at hcnt
    cases hcache : I.cache c with
    | some r =>
      simp only
      have hp : (visited q E ++ [c]).Perm (visited { q with pool := p', vis := vis', pc := .collect reqs (cached ++ [c]) } E) := by
        unfold visited
        rw [hpc]
        simp only [cachedIds, List.append_assoc]
        exact List.Perm.refl _
      have hinv := key { q with pool := p', vis := vis', pc := .collect reqs (cached ++ [c]) } rfl rfl rfl rfl rfl rfl rfl rfl rfl hp
        (by have := h.keys; rw [hpc] at this; exact this) (by have := h.sub; rw [hpc] at this; exact this) h.slots h.nslots (fun e he => .inl he)
        (by
          intro x hx
          rcases List.mem_append.mp hx with hx | hx
          · exact h.cachd x (by rw [hpc]; exact hx)
          · rw [List.mem_singleton] at hx; rw [hx]; exact ⟨r, hcache⟩)
        hcnt (fun hd => hd)
      refine ⟨_, E, rfl, hinv, .inr ?_⟩
      obtain ⟨l1, l2⟩ := hlen' _ hinv hp
      have h5 := collectW_le { q with pool := p', vis := vis', pc := .collect reqs (cached ++ [c]) }
      have h6 := e2.cnt
      unfold meas
      rw [l1, hcw, hpc]
      generalize collectW { q with pool := p', vis := vis', pc := .collect reqs (cached ++ [c]) } = w at h5 ⊢
      simp only [reqsOf, cachedIds, waitW, List.length_append, List.length_singleton]
      have l3 : I.n - (visited q E).length = (I.n - ((visited q E).length + 1)) + 1 := by omega
      rw [l3]
      generalize I.n - ((visited q E).length + 1) = x
      simp only [Nat.mul_add, Nat.add_mul]
      omega
    | none =>
      simp only
      cases hfree : q.free with
      | nil =>
        rw [hfree] at hns
        simp at hns
        omega
      | cons s free =>
        simp only
        have hcon : c ∉ q.ongoing.map Prod.fst := fun hx => hvv (by unfold visited; simp only [List.mem_append]; exact .inr (.inl hx))
        have hfil : q.ongoing.filter (fun x => x.1 != c) = q.ongoing := by
          rw [List.filter_eq_self]
          intro a ha
          have : a.1 ≠ c := fun hx => hcon (List.mem_map.mpr ⟨a, ha, hx⟩)
          simpa using this
        rw [hfil]
        have hp : (visited q E ++ [c]).Perm
            (visited { q with pool := p', vis := vis', free := free, ongoing := (c, s) :: q.ongoing, pc := .collect (reqs ++ [(c, s)]) cached } E) := by
          unfold visited
          rw [hpc]
          simp only [cachedIds, List.map_cons]
          rw [List.perm_iff_count]
          intro a
          simp only [List.count_append, List.count_cons, List.count_nil]
          omega
        have hinv := key { q with pool := p', vis := vis', free := free, ongoing := (c, s) :: q.ongoing, pc := .collect (reqs ++ [(c, s)]) cached }
          rfl rfl rfl rfl rfl rfl rfl rfl rfl hp
          (by
            have hk := h.keys
            rw [hpc] at hk
            rw [List.perm_iff_count] at hk ⊢
            intro a
            have := hk a
            simp only [reqsOf, List.map_cons, List.map_append, List.map_nil, List.count_append, List.count_cons, List.count_nil] at this ⊢
            omega)
          (by
            intro e he
            have hsb := h.sub e
            rw [hpc] at hsb
            simp only [reqsOf, List.mem_append, List.mem_singleton] at he hsb
            simp only [List.mem_cons]
            tauto)
          (by
            have hsl := h.slots
            rw [hfree] at hsl
            refine (List.Perm.nodup_iff ?_).mp hsl
            rw [List.perm_iff_count]
            intro a
            simp only [List.map_cons, List.count_append, List.count_cons, List.cons_append]
            omega)
          (by rw [hfree] at hns; simp only [List.length_cons] at hns ⊢; omega)
          (by
            intro e he
            rcases List.mem_cons.mp he with rfl | he
            · exact .inr rfl
            · exact .inl he)
          (by have := h.cachd; rw [hpc] at this; exact this)
          (by
            show ((c, s) :: q.ongoing).length + q.prepared.length = q.prev + (reqs ++ [(c, s)]).length ∧ (reqs ++ [(c, s)]).length ≤ q.beam
            simp only [List.length_cons, List.length_append, List.length_nil]
            omega)
          (fun hd => hd)
        refine ⟨_, E, rfl, hinv, .inr ?_⟩
        obtain ⟨l1, l2⟩ := hlen' _ hinv hp
        have h5 := collectW_le { q with pool := p', vis := vis', free := free, ongoing := (c, s) :: q.ongoing, pc := .collect (reqs ++ [(c, s)]) cached }
        have h6 := e2.cnt
        unfold meas
        rw [l1, hcw, hpc]
        generalize collectW { q with pool := p', vis := vis', free := free, ongoing := (c, s) :: q.ongoing, pc := .collect (reqs ++ [(c, s)]) cached } = w at h5 ⊢
        simp only [reqsOf, cachedIds, waitW, List.length_append, List.length_singleton]
        have l3 : I.n - (visited q E).length = (I.n - ((visited q E).length + 1)) + 1 := by omega
        rw [l3]
        generalize I.n - ((visited q E).length + 1) = x
        simp only [Nat.mul_add, Nat.add_mul]
        omega

end

end Alaya.Laser
