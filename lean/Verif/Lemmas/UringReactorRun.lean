import Verif.Lemmas.UringReactor
import Verif.Spec.UringReactor

/-! Executions of the shared ring. -/
namespace Alaya.UringReactor
open Alaya Alaya.Spec

theorem ended_of {v : Wave} (h : v.phase.isOver = true) : Ended v := by
  cases hp : v.phase with
  | over r => exact ⟨r, hp⟩
  | _ => rw [hp] at h; cases h

theorem isOver_of {v : Wave} (h : Ended v) : v.phase.isOver = true := by
  obtain ⟨r, h⟩ := h; rw [h]; rfl

/-! ### A wave that has ended stays as it is -/

theorem final_step {R : Ring} {s s' : State} {e : Ev} {w : Nat} {v : Wave} (hv : s.waves[w]? = some v) (ho : Ended v) (t : Trans R s e s') :
    s'.waves[w]? = some v := by
  have key : ∀ {u : Nat} {y x : Wave}, s.waves[u]? = some y → y.phase.isOver = false → (s.waves.set u x)[w]? = some v := by
    intro u y x hu hy
    by_cases e : u = w
    · subst e
      rw [hv] at hu
      cases hu
      rw [isOver_of ho] at hy; cases hy
    · rw [List.getElem?_set_ne e]; exact hv
  cases t with
  | start sizes old hl =>
    show (s.waves ++ _)[w]? = _
    rw [List.getElem?_append_left]
    · exact hv
    · rcases Nat.lt_or_ge w s.waves.length with h' | h'
      · exact h'
      · rw [List.getElem?_eq_none h'] at hv; cases hv
  | eintr hv' hp hf => exact hv
  | complete r hk => exact hv
  | take hr hq => exact hv
  | store hr hv' ha => exact key hv' ha
  | tally hr hv' ha => exact key hv' ha
  | finish hr hv' ha => exact key hv' ha
  | refused hv' hp ho' hx => exact key hv' (by rw [hp]; rfl)
  | lock hv' hp ho' hx => exact key hv' (by rw [hp]; rfl)
  | prep hv' hp hi hc => exact key hv' (by rw [hp]; rfl)
  | full hv' hp hi hc => exact key hv' (by rw [hp]; rfl)
  | prepared hv' hp hi => exact key hv' (by rw [hp]; rfl)
  | took hv' hp hf hj hq => exact key hv' (by rw [hp]; rfl)
  | again hv' hp hf hs => exact key hv' (by rw [hp]; rfl)
  | gaveUp hv' hp hf hr => exact key hv' (by rw [hp]; rfl)
  | account hv' hp => exact key hv' (by rw [hp]; rfl)
  | unlock hv' hp hf => exact key hv' (by rw [hp]; rfl)
  | deduct hv' hp => exact key hv' (by rw [hp]; rfl)
  | poll hv' hp hr => exact key hv' (by rw [hp]; rfl)

theorem final_run {R : Ring} {es : List Ev} {s s' : State} {w : Nat} {v : Wave} (hv : s.waves[w]? = some v) (ho : Ended v)
    (hr : State.run R es s = .ok s') : s'.waves[w]? = some v :=
  run_ind (P := fun s => s.waves[w]? = some v) (fun _ _ _ h t => final_step h ho t) es s s' hv hr

/-! ### Completions and results -/

/-- The completions the ring has got. -/
def State.got (s : State) : List (Tok × Int) := s.cq ++ s.reapAt 0 ++ s.fin

theorem got_step {R : Ring} {s s' : State} {e : Ev} (t : Trans R s e s') (x : Tok × Int) :
    x ∈ s'.got ↔ x ∈ s.got ∨ ∃ p, e = .complete p x.2 ∧ s.kernel[p]? = some x.1 := by
  have same : ∀ s' : State, s'.cq = s.cq → s'.reap = s.reap → s'.fin = s.fin → (∀ p r, e ≠ .complete p r) →
      (x ∈ s'.got ↔ x ∈ s.got ∨ ∃ p, e = .complete p x.2 ∧ s.kernel[p]? = some x.1) := by
    intro s' h1 h2 h3 h4
    have : s'.got = s.got := by unfold State.got State.reapAt; rw [h1, h2, h3]
    rw [this]
    exact ⟨.inl, fun h => h.elim id (fun ⟨p, e, _⟩ => absurd e (h4 _ _))⟩
  cases t with
  | start sizes old hl => exact same _ rfl rfl rfl (by simp)
  | eintr hv hp hf => exact same _ rfl rfl rfl (by simp)
  | refused hv hp ho' hx => exact same _ rfl rfl rfl (by simp)
  | lock hv hp ho' hx => exact same _ rfl rfl rfl (by simp)
  | prep hv hp hi hc => exact same _ rfl rfl rfl (by simp)
  | full hv hp hi hc => exact same _ rfl rfl rfl (by simp)
  | prepared hv hp hi => exact same _ rfl rfl rfl (by simp)
  | took hv hp hf hj hq => exact same _ rfl rfl rfl (by simp)
  | again hv hp hf hs => exact same _ rfl rfl rfl (by simp)
  | gaveUp hv hp hf hr => exact same _ rfl rfl rfl (by simp)
  | account hv hp => exact same _ rfl rfl rfl (by simp)
  | unlock hv hp hf => exact same _ rfl rfl rfl (by simp)
  | deduct hv hp => exact same _ rfl rfl rfl (by simp)
  | poll hv hp hr => exact same _ rfl rfl rfl (by simp)
  | @complete p t r hk =>
    show x ∈ (s.cq ++ [(t, r)]) ++ s.reapAt 0 ++ s.fin ↔ _
    unfold State.got
    simp only [List.mem_append, List.mem_singleton, Ev.complete.injEq]
    constructor
    · rintro (((h | rfl) | h) | h)
      · exact .inl (.inl (.inl h))
      · exact .inr ⟨p, ⟨rfl, rfl⟩, hk⟩
      · exact .inl (.inl (.inr h))
      · exact .inl (.inr h)
    · rintro (((h | h) | h) | ⟨q, ⟨rfl, rfl⟩, hq⟩)
      · exact .inl (.inl (.inl h))
      · exact .inl (.inr h)
      · exact .inr h
      · rw [hk] at hq
        exact .inl (.inl (.inr (by cases x; cases hq; rfl)))
  | @take t r rest hr hq =>
    have h0 : s.reapAt 0 = [] := by unfold State.reapAt; rw [hr]
    show x ∈ rest ++ [(t, r)] ++ s.fin ↔ _
    unfold State.got
    rw [h0, hq]
    simp only [List.mem_append, List.mem_singleton, List.mem_cons, List.not_mem_nil, or_false]
    constructor
    · rintro ((h | h) | h)
      · exact .inl (.inl (.inr h))
      · exact .inl (.inl (.inl h))
      · exact .inl (.inr h)
    · rintro (((h | h) | h) | ⟨q, h, -⟩)
      · exact .inl (.inr h)
      · exact .inl (.inl h)
      · exact .inr h
      · cases h
  | @store t r v hr hv ha =>
    have h0 : s.reapAt 0 = [(t, r)] := by unfold State.reapAt; rw [hr]; rfl
    show x ∈ s.cq ++ [(t, r)] ++ s.fin ↔ _
    unfold State.got
    rw [h0]
    exact ⟨.inl, fun h => h.elim id (fun ⟨p, e, _⟩ => by cases e)⟩
  | @tally t r v hr hv ha =>
    have h0 : s.reapAt 0 = [(t, r)] := by unfold State.reapAt; rw [hr]; rfl
    show x ∈ s.cq ++ [(t, r)] ++ s.fin ↔ _
    unfold State.got
    rw [h0]
    exact ⟨.inl, fun h => h.elim id (fun ⟨p, e, _⟩ => by cases e)⟩
  | @finish t r v hr hv ha =>
    have h0 : s.reapAt 0 = [(t, r)] := by unfold State.reapAt; rw [hr]; rfl
    show x ∈ s.cq ++ [] ++ (s.fin ++ [(t, r)]) ↔ _
    unfold State.got
    rw [h0]
    simp only [List.mem_append, List.mem_singleton, List.not_mem_nil, or_false]
    constructor
    · rintro (h | h | h)
      · exact .inl (.inl (.inl h))
      · exact .inl (.inr h)
      · exact .inl (.inl (.inr h))
    · rintro (((h | h) | h) | ⟨p, e, _⟩)
      · exact .inl h
      · exact .inr (.inr h)
      · exact .inr (.inl h)
      · cases e

theorem snoc_ind {α : Type} {P : List α → Prop} (h0 : P []) (h1 : ∀ l a, P l → P (l ++ [a])) (l : List α) : P l := by
  have : ∀ l : List α, P l.reverse := by
    intro l
    induction l with
    | nil => exact h0
    | cons a l ih => rw [List.reverse_cons]; exact h1 _ _ ih
  have := this l.reverse
  rwa [List.reverse_reverse] at this

theorem run_snoc {R : Ring} {es : List Ev} {e : Ev} {s s' : State} (h : State.run R (es ++ [e]) s = .ok s') :
    ∃ m, State.run R es s = .ok m ∧ m.step R e = .ok s' := by
  rw [run_append] at h
  split at h
  · next m hm =>
    refine ⟨m, hm, ?_⟩
    unfold State.run at h
    split at h
    · next x hx => rw [hx]; exact h
    · next x hx => exact absurd h (hx s')
  · next x hx => exact absurd h (hx s')

theorem got_iff {R : Ring} (es : List Ev) : ∀ s, State.run R es .init = .ok s → ∀ x : Tok × Int, x ∈ s.got ↔ Delivered R es x.1 x.2 := by
  induction es using snoc_ind with
  | h0 =>
    intro s hs x
    cases hs
    constructor
    · intro h; cases h
    · rintro ⟨es1, p, es2, m, h, -⟩
      have := congrArg List.length h
      simp at this
  | h1 es e ih =>
    intro s' hs x
    obtain ⟨s, h1, h2⟩ := run_snoc hs
    rw [got_step (trans_of_step h2), ih s h1]
    constructor
    · rintro (⟨es1, p, es2, m, rfl, h3, h4⟩ | ⟨p, rfl, h4⟩)
      · exact ⟨es1, p, es2 ++ [e], m, by simp, h3, h4⟩
      · exact ⟨es, p, [], s, rfl, h1, h4⟩
    · rintro ⟨es1, p, es2, m, h3, h4, h5⟩
      rcases List.eq_nil_or_concat es2 with rfl | ⟨es2', e', rfl⟩
      · obtain ⟨h6, h7⟩ := List.append_inj' h3 rfl
        cases h7
        subst h6
        rw [h1] at h4
        cases h4
        exact .inr ⟨p, rfl, h5⟩
      · rw [List.concat_eq_append, ← List.cons_append, ← List.append_assoc] at h3
        obtain ⟨h6, -⟩ := List.append_inj' h3 rfl
        exact .inl ⟨es1, p, es2', m, h6, h4, h5⟩

theorem toks_got (s : State) : s.toks.Perm (s.kernel ++ s.got.map Prod.fst) := by
  have : s.reapTok = (s.reapAt 0).map Prod.fst := by
    unfold State.reapTok State.reapAt
    cases s.reap with
    | none => rfl
    | some x => obtain ⟨t, r, k⟩ := x; simp
  unfold State.toks State.got
  rw [this]
  simp only [List.map_append, List.append_assoc]
  exact .refl _

theorem Inv.got_unique {R : Ring} {s : State} (h : Inv R s) {t : Tok} {r r' : Int} (h1 : (t, r) ∈ s.got) (h2 : (t, r') ∈ s.got) : r = r' := by
  have hn : (s.got.map Prod.fst).Nodup := (List.nodup_append.mp ((toks_got s).nodup h.T.nodup)).2.1
  generalize s.got = l at hn h1 h2
  induction l with
  | nil => cases h1
  | cons a l ih =>
    simp only [List.map_cons, List.nodup_cons] at hn
    rcases List.mem_cons.mp h1 with e1 | h1 <;> rcases List.mem_cons.mp h2 with e2 | h2
    · rw [← e1] at e2; exact (Prod.mk.inj e2).2.symm
    · exact absurd (by rw [← e1]; exact List.mem_map.mpr ⟨_, h2, rfl⟩) hn.1
    · exact absurd (by rw [← e2]; exact List.mem_map.mpr ⟨_, h1, rfl⟩) hn.1
    · exact ih hn.2 h1 h2

/-- The reads of a wave that has ended have been dispatched. -/
theorem Inv.over_fin {R : Ring} {s : State} (h : Inv R s) {w : Nat} {v : Wave} (hv : s.waves[w]? = some v) (ho : Ended v) {t : Tok} (hw : t.w = w)
    (ht : t ∈ s.toks) : ∃ r, (t, r) ∈ s.fin ∧ v.res[t.i]? = some r := by
  have : t ∈ s.fin.map Prod.fst := by
    apply Decidable.byContradiction
    intro hf
    obtain ⟨y, hy, ha⟩ := not_over h.S h.T h.C ht hf
    rw [hw, hv] at hy
    cases hy
    rw [isOver_of ho] at ha; cases ha
  obtain ⟨p, hp, rfl⟩ := List.mem_map.mp this
  exact ⟨p.2, hp, (h.C.1 w v hv).res p (List.mem_append_left _ hp) hw⟩

theorem Inv.over_idle {R : Ring} {s : State} (h : Inv R s) {w : Nat} {v : Wave} (hv : s.waves[w]? = some v) (ho : Ended v) : ¬ Busy s w := by
  have key : ∀ t : Tok, t.w = w → t ∈ s.toks → t ∈ s.fin.map Prod.fst := by
    intro t hw ht
    obtain ⟨r, hr, -⟩ := h.over_fin hv ho hw ht
    exact List.mem_map.mpr ⟨_, hr, rfl⟩
  have hn := h.T.nodup
  unfold State.toks at hn
  have hd := (List.nodup_append.mp hn).2.2
  rintro (⟨t, ht, hw⟩ | ⟨p, hp, hw⟩ | ⟨t, r, k, hr, hw⟩)
  · exact hd t (by simp [ht]) t (key t hw (by unfold State.toks; simp [ht])) rfl
  · have hm : p.1 ∈ s.cq.map Prod.fst := List.mem_map.mpr ⟨p, hp, rfl⟩
    exact hd p.1 (List.mem_append_left _ (List.mem_append_right _ hm)) p.1
      (key p.1 hw (by unfold State.toks; exact List.mem_append_left _ (List.mem_append_left _ (List.mem_append_right _ hm)))) rfl
  · have hm : t ∈ s.reapTok := by unfold State.reapTok; rw [hr]; simp
    exact hd t (List.mem_append_right _ hm) t (key t hw (reap_toks hr)) rfl

theorem tot_over {v : Wave} (ho : Ended v) : v.tot = v.submitted := by
  obtain ⟨r, hr⟩ := ho; unfold Wave.tot; rw [hr]

theorem nodup_of_map {α β : Type} {f : α → β} : ∀ {l : List α}, (l.map f).Nodup → l.Nodup
  | [], _ => List.nodup_nil
  | a :: l, h => by
    simp only [List.map_cons, List.nodup_cons] at h
    exact List.nodup_cons.mpr ⟨fun hm => h.1 (List.mem_map.mpr ⟨a, hm, rfl⟩), nodup_of_map h.2⟩

/-- The completions of a wave that has ended regularly, position by position. -/
theorem Inv.fin_perm {R : Ring} {s : State} (h : Inv R s) {w : Nat} {v : Wave} (hv : s.waves[w]? = some v) {f : Nat} (ho : v.phase = .over (some f)) :
    (s.fin.filter (fun p => p.1.w = w)).Perm ((List.range v.sizes.length).map (fun i => (⟨w, i⟩, (v.res[i]?).getD 0))) := by
  have hE : Ended v := ⟨_, ho⟩
  have hs := h.S.each w v hv
  unfold SW at hs
  rw [ho] at hs
  have hsub := hs.2.1 (by simp)
  have hfn : s.fin.Nodup := by
    have hn := h.T.nodup
    unfold State.toks at hn
    have := (List.nodup_append.mp hn).2.1
    exact nodup_of_map this
  refine (List.perm_ext_iff_of_nodup (hfn.filter _) ?_).mpr (fun p => ?_)
  · refine List.Pairwise.map _ (fun a b hne e => hne ?_) List.nodup_range
    injection e with e _
    injection e
  · rw [List.mem_filter, List.mem_map]
    simp only [decide_eq_true_eq, List.mem_range]
    constructor
    · rintro ⟨hp, hw⟩
      refine ⟨p.1.i, ?_, ?_⟩
      · have := (h.T.mem p.1).mp (fin_toks hp)
        rw [hw, tot_at hv, tot_over hE] at this
        omega
      · rw [(h.C.1 w v hv).res p (List.mem_append_left _ hp) hw, ← hw]
        rfl
    · rintro ⟨i, hi, rfl⟩
      have ht : (⟨w, i⟩ : Tok) ∈ s.toks := (h.T.mem _).mpr (by
        show i < s.tot w
        rw [tot_at hv, tot_over hE]; omega)
      obtain ⟨r, hr, hr'⟩ := h.over_fin hv hE rfl ht
      rw [hr']
      exact ⟨hr, rfl⟩

/-! ### Reads the kernel has been given -/

theorem tot_mono {R : Ring} {s s' : State} {e : Ev} (t : Trans R s e s') (u : Nat) : s.tot u ≤ s'.tot u := by
  have eq : ∀ {s' : State} {w : Nat} {v x : Wave}, s.waves[w]? = some v → s'.waves = s.waves.set w x → v.tot ≤ x.tot → s.tot u ≤ s'.tot u := by
    intro s' w v x hv hw hx
    rw [tot_put hv hw]
    split
    · next e => subst e; rw [tot_at hv]; exact hx
    · exact Nat.le_refl _
  cases t with
  | start sizes old hl =>
    unfold State.tot
    show _ ≤ (match (s.waves ++ _)[u]? with | some v => v.tot | none => 0)
    rcases Nat.lt_or_ge u s.waves.length with hw | hw
    · rw [List.getElem?_append_left hw]; exact Nat.le_refl _
    · rw [List.getElem?_eq_none hw]; exact Nat.zero_le _
  | eintr hv hp hf => exact Nat.le_refl _
  | complete r hk => exact Nat.le_refl _
  | take hr hq => exact Nat.le_refl _
  | store hr hv ha => exact eq hv rfl (Nat.le_refl _)
  | tally hr hv ha => exact eq hv rfl (Nat.le_refl _)
  | finish hr hv ha => exact eq hv rfl (Nat.le_refl _)
  | refused hv hp ho' hx => exact eq hv rfl (by simp [Wave.tot, hp])
  | lock hv hp ho' hx => exact eq hv rfl (by simp [Wave.tot, hp])
  | prep hv hp hi hc => exact eq hv rfl (by simp [Wave.tot, hp])
  | full hv hp hi hc => exact eq hv rfl (by simp [Wave.tot, hp])
  | prepared hv hp hi => exact eq hv rfl (by simp [Wave.tot, hp])
  | took hv hp hf hj hq => exact eq hv rfl (by simp [Wave.tot, hp])
  | again hv hp hf hs => exact eq hv rfl (by simp [Wave.tot, hp])
  | gaveUp hv hp hf hr => exact eq hv rfl (by simp [Wave.tot, hp])
  | account hv hp => exact eq hv rfl (by simp [Wave.tot, hp]; omega)
  | @unlock w v c f sp hv hp hf =>
    refine eq hv rfl ?_
    unfold Wave.tot
    rw [hp]
    by_cases hl : v.submitted + f < v.sizes.length
    · simp only [if_pos hl]; exact Nat.le_refl _
    · simp only [if_neg hl]; exact Nat.le_refl _
  | deduct hv hp => exact eq hv rfl (by simp [Wave.tot, hp])
  | poll hv hp hr => exact eq hv rfl (by simp [Wave.tot, hp])

theorem toks_run {R : Ring} (hd : 0 < R.depth) {es : List Ev} {s s' : State} (h : Inv R s) (hr : State.run R es s = .ok s') {t : Tok}
    (ht : t ∈ s.toks) : t ∈ s'.toks :=
  (run_ind (P := fun x => Inv R x ∧ t ∈ x.toks) (fun _ _ _ ha st => ⟨ha.1.trans hd st, ((ha.1.trans hd st).T.mem t).mpr
    (Nat.lt_of_lt_of_le ((ha.1.T.mem t).mp ha.2) (tot_mono st t.w))⟩) es s s' ⟨h, ht⟩ hr).2

/-! ### Something can always be done -/

theorem Inv.owner_phase {R : Ring} {s : State} (h : Inv R s) {w : Nat} (ho : s.owner = some w) :
    ∃ v, s.waves[w]? = some v ∧ ((∃ c i, v.phase = .prep c i) ∨ (∃ c f sp, v.phase = .flush c f sp) ∨ ∃ c f sp j, v.phase = .account c f sp j) := by
  obtain ⟨⟨v, hv⟩, -⟩ := h.S.held w ho
  refine ⟨v, hv, ?_⟩
  have hs := h.S.each w v hv
  unfold SW at hs
  split at hs
  · exact absurd ho hs.2
  · next c i hp => exact .inl ⟨c, i, hp⟩
  · next c f sp hp => exact .inr (.inl ⟨c, f, sp, hp⟩)
  · next c f sp j hp => exact .inr (.inr ⟨c, f, sp, j, hp⟩)
  · exact absurd ho hs.2.2
  · exact absurd ho hs.1
  · exact absurd ho hs.1

def CanMove (R : Ring) (s : State) : Prop := ∃ e s', forward e = true ∧ s.step R e = .ok s'

theorem Inv.owner_moves {R : Ring} {s : State} (h : Inv R s) {w : Nat} (ho : s.owner = some w) : CanMove R s := by
  obtain ⟨v, hv, hp⟩ := h.owner_phase ho
  have hs := h.S.each w v hv
  unfold SW at hs
  rcases hp with ⟨c, i, hp⟩ | ⟨c, f, sp, hp⟩ | ⟨c, f, sp, j, hp⟩ <;> rw [hp] at hs
  · refine ⟨.prep w, ?_⟩
    simp only [State.step, wave_at hv, State.prep, hp]
    split
    · split <;> exact ⟨_, rfl, rfl⟩
    · exact ⟨_, rfl, rfl⟩
  · by_cases hf : f < c
    · refine ⟨.submit w (.took 1), ?_⟩
      simp only [State.step, wave_at hv, State.submit, hp, if_pos hf]
      rw [if_pos ⟨by decide, by rw [hs.2.2.2.2.2.2, toksFrom_length]; omega⟩]
      exact ⟨_, rfl, rfl⟩
    · refine ⟨.unlock w, ?_⟩
      simp only [State.step, wave_at hv, State.unlock, hp, if_neg hf]
      exact ⟨_, rfl, rfl⟩
  · refine ⟨.account w, ?_⟩
    simp only [State.step, wave_at hv, State.account, hp]
    exact ⟨_, rfl, rfl⟩

theorem Inv.ring_moves {R : Ring} {s : State} (h : Inv R s) (hb : s.kernel ≠ [] ∨ s.cq ≠ [] ∨ s.reap ≠ none) : CanMove R s := by
  cases hr : s.reap with
  | some x =>
    obtain ⟨t, r, k⟩ := x
    have hk := h.C.2 t r k hr
    obtain ⟨v, hv, ha⟩ := h.alive hr
    have : k = 0 ∨ k = 1 ∨ k = 2 := by omega
    rcases this with rfl | rfl | rfl
    · refine ⟨.store, ?_⟩
      simp only [State.step, State.store, hr, frame_alive hv ha]
      exact ⟨_, rfl, rfl⟩
    · refine ⟨.tally, ?_⟩
      simp only [State.step, State.tally, hr, frame_alive hv ha]
      exact ⟨_, rfl, rfl⟩
    · refine ⟨.finish, ?_⟩
      simp only [State.step, State.finish, hr, frame_alive hv ha]
      exact ⟨_, rfl, rfl⟩
  | none =>
    cases hq : s.cq with
    | cons x rest =>
      refine ⟨.take, ?_⟩
      simp only [State.step, State.take, hr, hq]
      exact ⟨_, rfl, rfl⟩
    | nil =>
      cases hk : s.kernel with
      | cons t ts =>
        refine ⟨.complete 0 0, ?_⟩
        simp only [State.step, State.complete, hk, List.getElem?_cons_zero]
        exact ⟨_, rfl, rfl⟩
      | nil => rcases hb with hb | hb | hb <;> contradiction

theorem Inv.moves {R : Ring} {s : State} (h : Inv R s) {w : Nat} {v : Wave} (hv : s.waves[w]? = some v) (hn : ¬ Ended v) : CanMove R s := by
  cases ho : s.owner with
  | some u => exact h.owner_moves ho
  | none =>
    have hs := h.S.each w v hv
    unfold SW at hs
    cases hp : v.phase with
    | ready =>
      refine ⟨.lock w, ?_⟩
      simp only [State.step, wave_at hv, State.lock]
      rw [if_neg (by rw [hp, ho]; simp)]
      split <;> exact ⟨_, rfl, rfl⟩
    | prep c i => rw [hp, ho] at hs; cases hs.1
    | flush c f sp => rw [hp, ho] at hs; cases hs.1
    | account c f sp j => rw [hp, ho] at hs; cases hs.1
    | short =>
      refine ⟨.deduct w, ?_⟩
      simp only [State.step, wave_at hv, State.deduct, hp]
      exact ⟨_, rfl, rfl⟩
    | over r => exact absurd ⟨r, hp⟩ hn
    | poll b =>
      by_cases hz : v.remaining = 0
      · refine ⟨.poll w, ?_⟩
        simp only [State.step, wave_at hv, State.poll, hp, if_pos hz]
        exact ⟨_, rfl, rfl⟩
      · refine h.ring_moves (Decidable.byContradiction (fun hx => hz ?_))
        have h1 : s.kernel = [] := Decidable.byContradiction (fun e => hx (.inl e))
        have h2 : s.cq = [] := Decidable.byContradiction (fun e => hx (.inr (.inl e)))
        have h3 : s.reap = none := Decidable.byContradiction (fun e => hx (.inr (.inr e)))
        have hc := h.T.cnt w
        have ht : s.toks = s.fin.map Prod.fst := by unfold State.toks State.reapTok; rw [h1, h2, h3]; rfl
        rw [ht, tot_at hv] at hc
        have hrem := (h.C.1 w v hv).rem
        rw [hc] at hrem
        unfold Wave.tot Wave.given at hrem
        rw [hp] at hs hrem
        cases b
        · have := hs.2.1 rfl
          simp only at hrem
          omega
        · have := hs.2.2 rfl
          simp only at hrem
          omega

/-! ### Not for ever -/

def Wave.left (v : Wave) : Nat :=
  match v.phase with
  | .ready => 3000 * (v.sizes.length - v.submitted) + 5
  | .prep c i => 3000 * (v.sizes.length - v.submitted - c) + 2000 * c + (c - i) + 5
  | .flush c f sp => 3000 * (v.sizes.length - v.submitted - c) + 10 * (c - f) + (1024 - sp) + 5
  | .account c f sp j => 3000 * (v.sizes.length - v.submitted - c) + 10 * (c - f - j) + (1024 - sp) + 6
  | .short => 2
  | .poll _ => 1
  | .over _ => 0

def State.left (s : State) : Nat :=
  5 * s.kernel.length + 4 * s.cq.length + (match s.reap with | some (_, _, k) => 3 - k | none => 0) + (s.waves.map Wave.left).sum

theorem sum_set {l : List Wave} : ∀ {w : Nat} {v : Wave} (x : Wave), l[w]? = some v →
    ((l.set w x).map Wave.left).sum + v.left = (l.map Wave.left).sum + x.left := by
  induction l with
  | nil => intro w v x h; simp at h
  | cons a l ih =>
    intro w v x h
    cases w with
    | zero =>
      simp only [List.getElem?_cons_zero, Option.some.injEq] at h
      subst h
      simp only [List.set_cons_zero, List.map_cons, List.sum_cons]
      omega
    | succ w =>
      simp only [List.getElem?_cons_succ] at h
      have := ih x h
      simp only [List.set_cons_succ, List.map_cons, List.sum_cons]
      omega

theorem left_wave {s s' : State} {w : Nat} {v x : Wave} (hv : s.waves[w]? = some v) (hw : s'.waves = s.waves.set w x) (h1 : s'.kernel = s.kernel)
    (h2 : s'.cq = s.cq) (h3 : s'.reap = s.reap) (hx : x.left < v.left) : s'.left < s.left := by
  unfold State.left
  rw [h1, h2, h3, hw]
  have := sum_set x hv
  omega

theorem left_frame {s s' : State} {w : Nat} {v x : Wave} (hv : s.waves[w]? = some v) (hw : s'.waves = s.waves.set w x) (h1 : s'.kernel = s.kernel)
    (h2 : s'.cq = s.cq) (hx : x.left = v.left) {t t' : Tok} {r r' : Int} {k : Nat} (hr : s.reap = some (t, r, k)) (hk : k ≤ 2)
    (hr' : s'.reap = none ∨ s'.reap = some (t', r', k + 1)) : s'.left < s.left := by
  unfold State.left
  rw [h1, h2, hr, hw]
  have := sum_set x hv
  rcases hr' with h | h <;> rw [h] <;> simp only <;> omega

theorem Inv.left_lt {R : Ring} (hd : 0 < R.depth) {s s' : State} {e : Ev} (h : Inv R s) (t : Trans R s e s') (hf : forward e = true) : s'.left < s.left := by
  have hs : ∀ {w : Nat} {v : Wave}, s.waves[w]? = some v → SW R s w v := fun hv => h.S.each _ _ hv
  cases t with
  | start sizes old hl => cases hf
  | eintr hv hp hf' => cases hf
  | refused hv hp ho' hx => exact left_wave hv rfl rfl rfl rfl (by simp only [Wave.left, hp]; omega)
  | @lock w v hv hp ho' hx =>
    have := hs hv; unfold SW at this; rw [hp] at this
    refine left_wave hv rfl rfl rfl rfl ?_
    simp only [Wave.left, hp]
    omega
  | prep hv hp hi hc => exact left_wave hv rfl rfl rfl rfl (by simp only [Wave.left, hp]; omega)
  | full hv hp hi hc => exact left_wave hv rfl rfl rfl rfl (by simp only [Wave.left, hp]; omega)
  | @prepared w v c i hv hp hi =>
    have := hs hv; unfold SW at this; rw [hp] at this
    refine left_wave hv rfl rfl rfl rfl ?_
    simp only [Wave.left, hp]
    omega
  | @took w v c f sp j hv hp hf' hj hq =>
    have := hs hv; unfold SW at this; rw [hp] at this
    have hl : j ≤ c - f := by rw [this.2.2.2.2.2.2, toksFrom_length] at hq; exact hq
    have h1 := sum_set { v with phase := .account c f sp j } hv
    simp only [State.left, State.put, List.length_append, List.length_take, Nat.min_eq_left hq]
    simp only [Wave.left, hp] at h1
    omega
  | again hv hp hf' hs' => exact left_wave hv rfl rfl rfl rfl (by simp only [Wave.left, hp, retries] at hs' ⊢; omega)
  | gaveUp hv hp hf' hr => exact left_wave hv rfl rfl rfl rfl (by simp only [Wave.left, hp]; omega)
  | account hv hp => exact left_wave hv rfl rfl rfl rfl (by simp only [Wave.left, hp]; omega)
  | @unlock w v c f sp hv hp hf' =>
    have := hs hv; unfold SW at this; rw [hp] at this
    refine left_wave hv rfl rfl rfl rfl ?_
    obtain ⟨a1, a2, a3, a4, a5, a6, a7⟩ := this
    simp only [retries] at a6
    unfold Wave.left
    rw [hp]
    by_cases hl : v.submitted + f < v.sizes.length
    · simp only [if_pos hl]; omega
    · simp only [if_neg hl]; omega
  | deduct hv hp => exact left_wave hv rfl rfl rfl rfl (by simp only [Wave.left, hp]; omega)
  | poll hv hp hr => exact left_wave hv rfl rfl rfl rfl (by simp only [Wave.left, hp]; omega)
  | @complete p t r hk =>
    have := (erase_perm s.kernel p t hk).length_eq
    simp only [State.left, List.length_append, List.length_cons, List.length_nil] at this ⊢
    omega
  | @take t r rest hr hq =>
    simp only [State.left, hr, hq, List.length_cons]
    omega
  | @store t r v hr hv ha => exact left_frame hv rfl rfl rfl rfl hr (by decide) (.inr rfl)
  | @tally t r v hr hv ha => exact left_frame hv rfl rfl rfl rfl hr (by decide) (.inr rfl)
  | @finish t r v hr hv ha => exact left_frame (t' := t) (r' := r) hv rfl rfl rfl rfl hr (by decide) (.inl rfl)

theorem Inv.run_le {R : Ring} (hd : 0 < R.depth) : ∀ (es : List Ev) (s s' : State), Inv R s → (∀ e ∈ es, forward e = true) →
    State.run R es s = .ok s' → es.length + s'.left ≤ s.left
  | [], s, s', h, hf, hr => by cases hr; simp
  | e :: es, s, s', h, hf, hr => by
    unfold State.run at hr
    split at hr
    · next m hm =>
      have t := trans_of_step hm
      have h1 := Inv.run_le hd es m s' (h.trans hd t) (fun e he => hf e (List.mem_cons_of_mem _ he)) hr
      have h2 := h.left_lt hd t (hf e List.mem_cons_self)
      simp only [List.length_cons]
      omega
    · next x hm => exact absurd hr (hm s')

/-! ### Poison -/

/-- What a poisoned ring keeps. -/
structure Dead (s0 s : State) : Prop where
  poisoned : s.poisoned = true
  kernel : ∀ t ∈ s.kernel, t ∈ s0.kernel
  later : ∀ (w : Nat) (v : Wave), s.waves[w]? = some v → v.submitted = 0 ∨ ∃ v0, s0.waves[w]? = some v0 ∧ v0.submitted = v.submitted ∧ v0.sizes = v.sizes

theorem Dead.step {R : Ring} {s0 s s' : State} {e : Ev} (hI : Inv R s) (h : Dead s0 s) (t : Trans R s e s') : Dead s0 s' := by
  have noOwner : s.owner = none := by
    cases ho : s.owner with
    | none => rfl
    | some w => exact absurd (hI.S.held w ho).2 (by rw [h.poisoned]; simp)
  have own : ∀ {w : Nat} {v : Wave}, s.waves[w]? = some v → ∀ {c i f sp j : Nat}, (v.phase = .prep c i ∨ v.phase = .flush c f sp ∨ v.phase = .account c f sp j) →
      False := by
    intro w v hv c i f sp j hp
    have h0 := hI.S.each _ _ hv
    unfold SW at h0
    rcases hp with hp | hp | hp <;> rw [hp, noOwner] at h0 <;> cases h0.1
  have keep : ∀ {s' : State} {w : Nat} {v x : Wave}, s.waves[w]? = some v → s'.waves = s.waves.set w x → x.submitted = v.submitted → x.sizes = v.sizes →
      s'.poisoned = s.poisoned → s'.kernel = s.kernel → Dead s0 s' := by
    intro s' w v x hv hw h1 h2 h3 h4
    refine ⟨by rw [h3]; exact h.poisoned, by rw [h4]; exact h.kernel, fun u y hu => ?_⟩
    rw [hw] at hu
    rcases getPut hv hu with ⟨rfl, rfl⟩ | ⟨-, hu⟩
    · rw [h1, h2]; exact h.later _ _ hv
    · exact h.later u y hu
  cases t with
  | start sizes old hl =>
    refine ⟨h.poisoned, h.kernel, fun w v hv => ?_⟩
    change (s.waves ++ _)[w]? = _ at hv
    rcases Nat.lt_or_ge w s.waves.length with hw | hw
    · rw [List.getElem?_append_left hw] at hv
      exact h.later w v hv
    · rw [List.getElem?_append_right hw] at hv
      have hz : w - s.waves.length = 0 := by
        rcases Nat.eq_zero_or_pos (w - s.waves.length) with hz | hz
        · exact hz
        · rw [List.getElem?_eq_none (by simp only [List.length_singleton]; omega)] at hv; cases hv
      rw [hz] at hv
      simp only [List.getElem?_cons_zero, Option.some.injEq] at hv
      exact .inl (by rw [← hv])
  | eintr hv hp hf => exact h
  | refused hv hp ho' hx => exact keep hv rfl rfl rfl rfl rfl
  | lock hv hp ho' hx => rw [h.poisoned] at hx; cases hx
  | prep hv hp hi hc => exact (own hv (f := 0) (sp := 0) (j := 0) (.inl hp)).elim
  | full hv hp hi hc => exact (own hv (f := 0) (sp := 0) (j := 0) (.inl hp)).elim
  | prepared hv hp hi => exact (own hv (f := 0) (sp := 0) (j := 0) (.inl hp)).elim
  | took hv hp hf hj hq => exact (own hv (i := 0) (j := 0) (.inr (.inl hp))).elim
  | again hv hp hf hs => exact (own hv (i := 0) (j := 0) (.inr (.inl hp))).elim
  | gaveUp hv hp hf hr => exact (own hv (i := 0) (j := 0) (.inr (.inl hp))).elim
  | account hv hp => exact (own hv (i := 0) (.inr (.inr hp))).elim
  | unlock hv hp hf => exact (own hv (i := 0) (j := 0) (.inr (.inl hp))).elim
  | deduct hv hp => exact keep hv rfl rfl rfl rfl rfl
  | poll hv hp hr => exact keep hv rfl rfl rfl rfl rfl
  | @complete p t r hk =>
    exact ⟨h.poisoned, fun t ht => h.kernel t (List.mem_of_mem_eraseIdx ht), h.later⟩
  | take hr hq => exact ⟨h.poisoned, h.kernel, h.later⟩
  | store hr hv ha => exact keep hv rfl rfl rfl rfl rfl
  | tally hr hv ha => exact keep hv rfl rfl rfl rfl rfl
  | finish hr hv ha => exact keep hv rfl rfl rfl rfl rfl

/-! ### Without failures of the kernel -/

def Wave.spins (v : Wave) : Nat :=
  match v.phase with
  | .flush _ _ sp => sp
  | .account _ _ sp _ => sp
  | _ => 0

structure Calm (s : State) (k : Nat) : Prop where
  poisoned : s.poisoned = false
  spins : ∀ (w : Nat) (v : Wave), s.waves[w]? = some v → v.spins ≤ k

theorem Calm.step {R : Ring} (hcap : R.depth ≤ R.cap) {s s' : State} {e : Ev} {k : Nat} (hI : Inv R s) (h : Calm s k) (t : Trans R s e s')
    (hh : hardFail e = false) (hk : transient e = true → k + 1 < retries) : Calm s' (if transient e then k + 1 else k) := by
  have keep : ∀ {s' : State} {w : Nat} {v x : Wave}, s.waves[w]? = some v → s'.waves = s.waves.set w x → x.spins ≤ v.spins →
      s'.poisoned = s.poisoned → Calm s' k := by
    intro s' w v x hv hw h1 h3
    refine ⟨by rw [h3]; exact h.poisoned, fun u y hu => ?_⟩
    rw [hw] at hu
    rcases getPut hv hu with ⟨rfl, rfl⟩ | ⟨-, hu⟩
    · exact Nat.le_trans h1 (h.spins _ _ hv)
    · exact h.spins u y hu
  cases t with
  | start sizes old hl =>
    refine ⟨h.poisoned, fun w v hv => ?_⟩
    change (s.waves ++ _)[w]? = _ at hv
    rcases Nat.lt_or_ge w s.waves.length with hw | hw
    · rw [List.getElem?_append_left hw] at hv
      exact h.spins w v hv
    · rw [List.getElem?_append_right hw] at hv
      have hz : w - s.waves.length = 0 := by
        rcases Nat.eq_zero_or_pos (w - s.waves.length) with hz | hz
        · exact hz
        · rw [List.getElem?_eq_none (by simp only [List.length_singleton]; omega)] at hv; cases hv
      rw [hz] at hv
      simp only [List.getElem?_cons_zero, Option.some.injEq] at hv
      rw [← hv]
      unfold Wave.spins
      by_cases hs : sizes = []
      · simp [hs]
      · simp [hs]
  | eintr hv hp hf => exact h
  | refused hv hp ho' hx => exact keep hv rfl (by simp [Wave.spins]) rfl
  | lock hv hp ho' hx => exact keep hv rfl (by simp [Wave.spins]) rfl
  | prep hv hp hi hc => exact keep hv rfl (by simp [Wave.spins]) rfl
  | @full w v c i hv hp hi hc =>
    have := hI.S.each _ _ hv
    unfold SW at this
    rw [hp] at this
    rw [this.2.2.2.2.2, toksFrom_length] at hc
    omega
  | prepared hv hp hi => exact keep hv rfl (by simp [Wave.spins]) rfl
  | took hv hp hf hj hq => exact keep hv rfl (by simp [Wave.spins, hp]) rfl
  | @again w v c f sp hv hp hf hs =>
    have h0 := h.spins _ _ hv
    unfold Wave.spins at h0
    rw [hp] at h0
    refine ⟨h.poisoned, fun u y hu => ?_⟩
    rcases getPut hv hu with ⟨rfl, rfl⟩ | ⟨-, hu⟩
    · exact Nat.succ_le_succ h0
    · exact Nat.le_trans (h.spins u y hu) (Nat.le_succ _)
  | @gaveUp w v c f sp r hv hp hf hr =>
    have h0 := h.spins _ _ hv
    unfold Wave.spins at h0
    rw [hp] at h0
    rcases hr with rfl | ⟨rfl, hr⟩
    · cases hh
    · have := hk rfl
      simp only at h0
      omega
  | account hv hp => exact keep hv rfl (by simp [Wave.spins, hp]) rfl
  | @unlock w v c f sp hv hp hf =>
    refine keep hv rfl ?_ rfl
    unfold Wave.spins
    by_cases hl : v.submitted + f < v.sizes.length
    · simp only [if_pos hl]; exact Nat.zero_le _
    · simp only [if_neg hl]; exact Nat.zero_le _
  | deduct hv hp => exact keep hv rfl (by simp [Wave.spins]) rfl
  | poll hv hp hr => exact keep hv rfl (by simp [Wave.spins]) rfl
  | complete r hk => exact ⟨h.poisoned, h.spins⟩
  | take hr hq => exact ⟨h.poisoned, h.spins⟩
  | store hr hv ha => exact keep hv rfl (by simp [Wave.spins]) rfl
  | tally hr hv ha => exact keep hv rfl (by simp [Wave.spins]) rfl
  | finish hr hv ha => exact keep hv rfl (by simp [Wave.spins]) rfl

end Alaya.UringReactor
