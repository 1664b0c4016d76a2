import Verif.Lemmas.ThreadReaderRun

/-! Careful callers: no undefined behaviour, and calls end. -/
namespace Alaya.ThreadReader

/-! ### Contexts in use are live -/

structure Refs (s : State) : Prop where
  held : ∀ c, Held s c → Live s c
  waiting : ∀ c, Waiting s c → Live s c

theorem Refs.init : Refs State.init := by
  refine ⟨fun c h => ?_, fun c h => ?_⟩
  · rcases h with ⟨j, hj, _⟩ | ⟨w, x, hw, _⟩
    · simp [State.init] at hj
    · simp [State.init] at hw
  · obtain ⟨k, v, hk, _⟩ := h; simp [State.init] at hk

theorem live_putC {s : State} {c d : Nat} {x y : Ctx} (hx : s.ctxs[c]? = some x) (h : Live s d)
    (hy : d = c → y.alive = true ∧ y.active = true) : Live (s.putC c y) d := by
  obtain ⟨z, hz, ha⟩ := h
  by_cases e : d = c
  · subst e
    exact ⟨y, by unfold State.putC; exact List.getElem?_set_self (lt_of_some hx), hy rfl⟩
  · exact ⟨z, by unfold State.putC; simp only; rw [List.getElem?_set_ne (Ne.symm e)]; exact hz, ha⟩

/-- A step of a worker that works for the contexts it worked for before. -/
theorem held_putW {s : State} {w : Nat} {x y : Worker} (hw : s.workers[w]? = some x) {c : Nat} (hy : y.holds c → Held s c)
    (h : Held (s.putW w y) c) : Held s c := by
  rcases h with h | ⟨u, z, hu, hz⟩
  · exact .inl h
  · rcases get_set_cases hw hu with ⟨rfl, rfl⟩ | ⟨_, hu⟩
    · exact hy hz
    · exact .inr ⟨u, z, hu, hz⟩

theorem Refs.putW {s : State} (h : Refs s) {w : Nat} {x y : Worker} (hw : s.workers[w]? = some x) (hy : ∀ c, y.holds c → Held s c) :
    Refs (s.putW w y) :=
  ⟨fun c hc => h.held c (held_putW hw (hy c) hc), h.waiting⟩

theorem waiting_putK {s : State} {k : Nat} {v y : Call} (hk : s.calls[k]? = some v) (hv : v.over = false) (hc : y.c = v.c) {c : Nat}
    (h : Waiting (s.putK k y) c) : Waiting s c := by
  obtain ⟨u, z, hu, hz, ho⟩ := h
  rcases get_set_cases hk hu with ⟨rfl, rfl⟩ | ⟨_, hu⟩
  · exact ⟨u, v, hk, hc ▸ hz, hv⟩
  · exact ⟨u, z, hu, hz, ho⟩

theorem Refs.step {s s' : State} {e : Ev} {o : List Obs} (h : Refs s) (hc : Careful s e) (ht : Trans s e s' o) : Refs s' := by
  cases ht with
  | «open» hp hn =>
    rename_i n
    refine ⟨fun c hh => ?_, h.waiting⟩
    rcases hh with hh | ⟨w, x, hw, hx⟩
    · exact h.held c (.inl hh)
    · simp only [List.getElem?_replicate] at hw
      split at hw
      · cases hw; exact absurd hx (by simp [Worker.holds])
      · cases hw
  | register _ =>
    rename_i t _
    have up : ∀ c, Live s c → Live { s with ctxs := s.ctxs ++ [⟨t, [], true, true⟩] } c := by
      intro c ⟨x, hx, ha⟩
      exact ⟨x, by simp only; rw [List.getElem?_append_left (lt_of_some hx)]; exact hx, ha⟩
    exact ⟨fun c hh => up c (h.held c hh), fun c hh => up c (h.waiting c hh)⟩
  | mark hx ha hac =>
    refine ⟨fun d hh => ?_, fun d hh => ?_⟩
    · exact live_putC hx (h.held d hh) (fun e => absurd (e ▸ hh) hc.1)
    · exact live_putC hx (h.waiting d hh) (fun e => absurd (e ▸ hh) hc.2)
  | free hx ha hac =>
    rename_i c x
    have no : ¬ Live s c := by
      rintro ⟨y, hy, _, hya⟩
      rw [hx] at hy; cases hy; rw [hac] at hya; cases hya
    refine ⟨fun d hh => ?_, fun d hh => ?_⟩
    · exact live_putC hx (h.held d hh) (fun e => absurd (e ▸ h.held d hh) no)
    · exact live_putC hx (h.waiting d hh) (fun e => absurd (e ▸ h.waiting d hh) no)
  | submit hcl hp hl =>
    rename_i c rs
    refine ⟨fun d hh => ?_, h.waiting⟩
    rcases hh with ⟨j, hj, hjc⟩ | hh
    · simp only [List.mem_append, List.mem_map] at hj
      rcases hj with hj | ⟨r, _, rfl⟩
      · exact h.held d (.inl ⟨j, hj, hjc⟩)
      · exact hjc ▸ hc.1
    · exact h.held d (.inr hh)
  | poll hx ha hl ht =>
    refine ⟨fun d hh => ?_, fun d hh => ?_⟩
    · refine live_putC hx (h.held d hh) (fun e => ?_)
      subst e; have hl := (h.held d hh).kept _ hx; exact hl
    · refine live_putC hx (h.waiting d hh) (fun e => ?_)
      subst e; have hl := (h.waiting d hh).kept _ hx; exact hl
  | get hcl =>
    refine ⟨h.held, fun d hh => ?_⟩
    obtain ⟨k, v, hk, hv, ho⟩ := hh
    by_cases hlt : k < s.calls.length
    · simp only at hk
      rw [List.getElem?_append_left hlt] at hk
      exact h.waiting d ⟨k, v, hk, hv, ho⟩
    · simp only at hk
      rw [List.getElem?_append_right (by omega)] at hk
      by_cases h0 : k - s.calls.length = 0
      · rw [h0] at hk; simp at hk; subst hk; exact hv ▸ hc
      · rw [List.getElem?_eq_none (by simp; omega)] at hk; cases hk
  | collect hv ho hn hx ha he =>
    rename_i k p v x ev
    refine ⟨fun d hh => ?_, fun d hh => ?_⟩
    · have := h.held d hh
      exact live_putC (s := s) hx this (fun e => by subst e; have hl := this.kept _ hx; exact hl)
    · have : Live s d := h.waiting d (waiting_putK (s := s) (y := { v with out := v.out ++ [ev] }) hv ho rfl hh)
      exact live_putC (s := s) hx this (fun e => by subst e; have hl := this.kept _ hx; exact hl)
  | ret hv ho hn =>
    exact ⟨h.held, fun d hh => h.waiting d (waiting_putK hv ho (by rfl) hh)⟩
  | stop _ => exact ⟨h.held, h.waiting⟩
  | finish hp hg =>
    refine ⟨fun d hh => ?_, fun d hh => absurd hh (hc d)⟩
    rcases hh with ⟨j, hj, _⟩ | ⟨w, x, hw, _⟩
    · simp at hj
    · simp at hw
  | take hw hq =>
    rename_i w p j
    refine ⟨fun d hh => ?_, h.waiting⟩
    rcases hh with ⟨i, hi, hic⟩ | hh
    · exact h.held d (.inl ⟨i, List.mem_of_mem_eraseIdx hi, hic⟩)
    · exact h.held d (held_putW (s := s) (y := .busy j) hw (fun hd => .inl ⟨j, List.mem_of_getElem? hq, hd⟩) (.inr hh))
  | miss hw => exact h.putW hw (fun c hc => absurd hc (by simp [Worker.holds]))
  | look hw => exact h.putW hw (fun c hc => by split at hc <;> exact absurd hc (by simp [Worker.holds]))
  | pread hw hf => exact h.putW hw (fun c hc => .inr ⟨_, _, hw, hc⟩)
  | active hw hx ha =>
    refine h.putW hw (fun c hc => ?_)
    split at hc
    · exact .inr ⟨_, _, hw, hc⟩
    · exact absurd hc (by simp [Worker.holds])
  | push hw hx ha =>
    rename_i w j r x
    have h1 : Refs (s.putW w (.wake j.c)) := h.putW hw (fun c hc => .inr ⟨_, _, hw, hc⟩)
    refine ⟨fun d hh => ?_, fun d hh => ?_⟩
    · have : Live s d := h1.held d hh
      exact live_putC (s := s) hx this (fun e => by subst e; have hl := this.kept _ hx; exact hl)
    · have : Live s d := h1.waiting d hh
      exact live_putC (s := s) hx this (fun e => by subst e; have hl := this.kept _ hx; exact hl)
  | wake hw hx ha => exact h.putW hw (fun c hc => absurd hc (by simp [Worker.holds]))

theorem live_get {s : State} {c : Nat} (h : Live s c) : ∃ x, s.ctxs[c]? = some x ∧ x.alive = true ∧ x.active = true := h

theorem no_ub {s : State} {e : Ev} (hb : Base s) (h : Refs s) (hc : Careful s e) : step s e ≠ .ub := by
  intro hu
  cases e <;> simp only [step] at hu
  case «open» n => unfold State.openFile at hu; split at hu <;> cases hu
  case register t => unfold State.register at hu; split at hu <;> cases hu
  case mark c =>
    unfold State.mark at hu
    split at hu
    · split at hu <;> cases hu
    · cases hu
  case free c =>
    unfold State.free at hu
    split at hu
    · split at hu <;> cases hu
    · cases hu
  case submit c rs =>
    unfold State.submit at hu
    split at hu
    · cases hu
    · split at hu
      · rename_i hp; exact hc.2 hp
      · cases hu
      · split at hu <;> cases hu
  case poll c m ps =>
    obtain ⟨x, hx, ha, _⟩ := hc
    unfold State.poll at hu
    rw [hx] at hu
    simp only [ha, if_true] at hu
    split at hu
    · cases hu
    · split at hu <;> cases hu
  case get c n => unfold State.get at hu; split at hu <;> cases hu
  case collect k p =>
    unfold State.collect at hu
    split at hu
    · cases hu
    · rename_i v hv
      split at hu
      · cases hu
      · rename_i hcond
        have ho : v.over = false := by
          cases hh : v.over
          · rfl
          · exact absurd (.inl hh) hcond
        obtain ⟨x, hx, ha, _⟩ := h.waiting v.c ⟨k, v, hv, rfl, ho⟩
        rw [hx] at hu
        simp only [ha, if_true] at hu
        split at hu <;> cases hu
  case ret k =>
    unfold State.ret at hu
    split at hu
    · cases hu
    · split at hu <;> cases hu
  case stop => unfold State.stopAll at hu; split at hu <;> cases hu
  case finish => unfold State.finish at hu; split at hu <;> cases hu
  case take w p => unfold State.take at hu; split at hu <;> cases hu
  case miss w => unfold State.miss at hu; split at hu <;> cases hu
  case look w => unfold State.look at hu; split at hu <;> cases hu
  case pread w r =>
    unfold State.pread at hu
    split at hu
    · rename_i j hw
      have : s.fd = true := hb.fd (fun e => by rw [e] at hw; cases hw)
      rw [this] at hu; simp at hu
    · cases hu
  case active w =>
    unfold State.active at hu
    split at hu
    · rename_i j r hw
      obtain ⟨x, hx, ha, _⟩ := h.held j.c (.inr ⟨w, _, hw, rfl⟩)
      rw [hx] at hu
      simp [ha] at hu
    · cases hu
  case push w =>
    unfold State.push at hu
    split at hu
    · rename_i j r hw
      obtain ⟨x, hx, ha, _⟩ := h.held j.c (.inr ⟨w, _, hw, rfl⟩)
      rw [hx] at hu
      simp [ha] at hu
    · cases hu
  case wake w =>
    unfold State.wake at hu
    split at hu
    · rename_i c hw
      obtain ⟨x, hx, ha, _⟩ := h.held c (.inr ⟨w, _, hw, rfl⟩)
      rw [hx] at hu
      simp [ha] at hu
    · cases hu

theorem careful_run {s : State} {es : List Ev} (hb : Base s) (h : Refs s) (hc : CarefulRun s es) :
    run s es ≠ some none ∧ ∀ s' t, run s es = some (some (s', t)) → Refs s' := by
  induction es generalizing s with
  | nil =>
    refine ⟨by simp [run], fun s' t hr => ?_⟩
    simp only [run, Option.some.injEq, Prod.mk.injEq] at hr
    exact hr.1 ▸ h
  | cons e es ih =>
    obtain ⟨hc1, hc2⟩ := hc
    unfold run
    cases hs : step s e with
    | no => simp
    | ub => exact absurd hs (no_ub hb h hc1)
    | throw => rw [hs] at hc2; simp only at hc2 ⊢; exact ih hb h hc2
    | ok s1 o =>
      rw [hs] at hc2
      simp only at hc2 ⊢
      have ht := trans_of_step hs
      obtain ⟨h1, h2⟩ := ih (hb.step ht) (h.step hc1 ht) hc2
      cases hr : run s1 es with
      | none => simp
      | some r =>
        cases r with
        | none => exact absurd hr h1
        | some p =>
          simp only [Option.some.injEq, Prod.mk.injEq, reduceCtorEq, ne_eq, not_false_eq_true, true_and]
          rintro s' t ⟨rfl, rfl⟩
          exact h2 p.1 p.2 hr

end Alaya.ThreadReader
