import Verif.Model.CoroGate

/-!
C48 — the suspending object pool.  Specification: a conserved set of objects, each in one place, and a first-come-first-served queue.
-/

namespace Alaya.CoroGate

/-- The object an event adds. -/
def addedBy : Ev → List Nat
  | .add o => [o]
  | _ => []

/-- The coroutine an event parks: an acquire that got nothing. -/
def parkedBy (s : Sys) : Ev → List Nat
  | .acquire c => if s.gate.free = [] then [c] else []
  | _ => []

/-- The coroutine an event serves: `s'` hands it an object that `s` did not hand it. -/
def servedBy (s s' : Sys) : Ev → List Nat
  | .release _ _ => (s'.handed.take (s'.handed.length - s.handed.length)).map (·.1)
  | _ => []

/-- Schedules from the empty gate, with the objects added, the coroutines parked and the coroutines served so far, in order. -/
inductive Reach : Sys → List Nat → List Nat → List Nat → Prop
  | init : Reach Sys.init [] [] []
  | step {s s' : Sys} {a r v : List Nat} {e : Ev} : Reach s a r v → s.allowed a e → s.step e = some s' →
      Reach s' (a ++ addedBy e) (r ++ parkedBy s e) (v ++ servedBy s s' e)

/-- All objects, wherever they are. -/
def Sys.objs (s : Sys) : List Nat := s.gate.free ++ (s.held ++ (s.handed ++ (s.ready ++ s.lost))).map (·.2)

/-- All suspended coroutines. -/
def Sys.suspended (s : Sys) : List Nat := s.gate.waiters ++ (s.handed ++ (s.ready ++ s.lost)).map (·.1)

structure Inv (s : Sys) (a r v : List Nat) : Prop where
  objs : ∀ o, s.objs.count o = a.count o
  nodup : a.Nodup
  susp : s.suspended.Nodup
  co : s.gate.waiters = [] ∨ s.gate.free = []
  fifo : r = v ++ s.gate.waiters

theorem not_suspended {s : Sys} {c : Nat} (h : s.running c) : c ∉ s.suspended := by
  unfold Sys.suspended
  obtain ⟨h1, h2, h3, h4⟩ := h
  simp only [List.mem_append, List.map_append]
  rintro (h | h | h | h)
  · exact h1 h
  · exact h2 h
  · exact h3 h
  · exact h4 h

theorem count_map_erase {α : Type} [BEq α] [LawfulBEq α] (f : α → Nat) (x : α) : ∀ (l : List α) (o : Nat), x ∈ l →
    (l.map f).count o = ((l.erase x).map f).count o + (if f x = o then 1 else 0) := by
  intro l o hx
  have hp : (l.map f).Perm ((x :: l.erase x).map f) := (List.perm_cons_erase hx).map f
  rw [hp.count_eq o, List.map_cons, List.count_cons]
  simp only [beq_iff_eq]

theorem perm_suspended_move {w h h' r r' l l' : List (Nat × Nat)} {ws : List Nat} (hp : (h ++ (r ++ l)).Perm (h' ++ (r' ++ l'))) :
    (ws ++ (h ++ (r ++ l)).map (·.1)).Nodup → (ws ++ (h' ++ (r' ++ l')).map (·.1)).Nodup :=
  fun hn => ((hp.map _).append_left ws).nodup_iff.1 hn

theorem inv_step {s s' : Sys} {a r v : List Nat} {e : Ev} (h : Inv s a r v) (ha : s.allowed a e) (hs : s.step e = some s') :
    Inv s' (a ++ addedBy e) (r ++ parkedBy s e) (v ++ servedBy s s' e) := by
  obtain ⟨h1, h2, h3, h4, h5⟩ := h
  cases e with
  | add o =>
    obtain ⟨a1, a2⟩ := ha
    injection hs with hs
    subst hs
    refine ⟨?_, ?_, h3, Or.inl a2, ?_⟩
    · intro x
      have := h1 x
      unfold Sys.objs Gate.add at *
      simp only [addedBy, List.count_append, List.count_cons, List.count_nil, List.cons_append] at *
      omega
    · exact List.nodup_append.2 ⟨h2, by simp [addedBy], by intro x hx y hy e; simp only [addedBy, List.mem_singleton] at hy; subst hy; subst e; exact a1 hx⟩
    · simp only [parkedBy, servedBy, List.append_nil]; exact h5
  | acquire c =>
    have hns := not_suspended ha
    unfold Sys.step Gate.acquire at hs
    cases hf : s.gate.free with
    | nil =>
      rw [hf] at hs
      simp only at hs
      injection hs with hs
      subst hs
      refine ⟨?_, by simpa [addedBy] using h2, ?_, Or.inr rfl, ?_⟩
      · intro x
        have := h1 x
        unfold Sys.objs at *
        rw [hf] at this
        simpa [addedBy] using this
      · unfold Sys.suspended at *
        simp only at *
        rw [List.append_assoc]
        refine (List.Perm.nodup_iff ?_).2 (List.nodup_cons.2 ⟨hns, h3⟩)
        exact List.perm_middle
      · simp only [parkedBy, servedBy, hf, if_pos, List.append_nil, h5, List.append_assoc]
    | cons o rest =>
      rw [hf] at hs
      simp only at hs
      injection hs with hs
      subst hs
      refine ⟨?_, by simpa [addedBy] using h2, h3, ?_, ?_⟩
      · intro x
        have := h1 x
        unfold Sys.objs at *
        rw [hf] at this
        simp only [addedBy, List.append_nil, List.count_append, List.count_cons, List.cons_append, List.map_cons] at *
        omega
      · rcases h4 with h4 | h4
        · exact Or.inl h4
        · rw [hf] at h4; cases h4
      · simp only [parkedBy, servedBy, hf, List.append_nil]
        simpa using h5
  | release c o =>
    have hns := not_suspended ha
    unfold Sys.step at hs
    simp only at hs
    by_cases hm : (c, o) ∈ s.held
    · rw [if_pos hm] at hs
      unfold Gate.release at hs
      cases hw : s.gate.waiters with
      | nil =>
        rw [hw] at hs
        simp only at hs
        injection hs with hs
        subst hs
        refine ⟨?_, by simpa [addedBy] using h2, ?_, Or.inl rfl, ?_⟩
        · intro x
          have := h1 x
          have he := count_map_erase (fun p : Nat × Nat => p.2) (c, o) s.held x hm
          unfold Sys.objs at *
          simp only [addedBy, List.append_nil, List.count_append, List.count_cons, List.cons_append, List.map_append, beq_iff_eq] at *
          omega
        · unfold Sys.suspended at *
          rw [hw] at h3
          exact h3
        · simp only [parkedBy, servedBy, List.append_nil, Nat.sub_self, List.take_zero, List.map_nil]
          rw [hw, List.append_nil] at h5
          exact h5
      | cons w rest =>
        rw [hw] at hs
        simp only at hs
        injection hs with hs
        subst hs
        refine ⟨?_, by simpa [addedBy] using h2, ?_, ?_, ?_⟩
        · intro x
          have := h1 x
          have he := count_map_erase (fun p : Nat × Nat => p.2) (c, o) s.held x hm
          unfold Sys.objs at *
          simp only [addedBy, List.append_nil, List.count_append, List.count_cons, List.cons_append, List.map_append, List.map_cons, beq_iff_eq] at *
          omega
        · unfold Sys.suspended at *
          rw [hw] at h3
          simp only [List.map_cons, List.cons_append] at *
          exact (List.perm_middle.nodup_iff).2 h3
        · rcases h4 with h4 | h4
          · rw [hw] at h4; cases h4
          · exact Or.inr h4
        · simp only [parkedBy, servedBy, List.append_nil, List.length_cons]
          rw [show s.handed.length + 1 - s.handed.length = 1 by omega, h5, hw]
          simp
    · rw [if_neg hm] at hs; cases hs
  | resume c o =>
    unfold Sys.step at hs
    simp only at hs
    by_cases hm : (c, o) ∈ s.handed
    · rw [if_pos hm] at hs
      injection hs with hs
      subst hs
      refine ⟨?_, by simpa [addedBy] using h2, ?_, h4, by simpa [parkedBy, servedBy] using h5⟩
      · intro x
        have := h1 x
        have he := count_map_erase (fun p : Nat × Nat => p.2) (c, o) s.handed x hm
        unfold Sys.objs at *
        simp only [addedBy, List.append_nil, List.count_append, List.count_cons, List.cons_append, List.map_append, List.map_cons, beq_iff_eq] at *
        omega
      · unfold Sys.suspended at *
        refine perm_suspended_move (w := []) ?_ h3
        exact ((List.perm_cons_erase hm).append_right _).trans (List.perm_middle.symm)
    · rw [if_neg hm] at hs; cases hs
  | reject c o =>
    unfold Sys.step at hs
    simp only at hs
    by_cases hm : (c, o) ∈ s.handed
    · rw [if_pos hm] at hs
      injection hs with hs
      subst hs
      refine ⟨?_, by simpa [addedBy] using h2, ?_, h4, by simpa [parkedBy, servedBy] using h5⟩
      · intro x
        have := h1 x
        have he := count_map_erase (fun p : Nat × Nat => p.2) (c, o) s.handed x hm
        unfold Sys.objs at *
        simp only [addedBy, List.append_nil, List.count_append, List.count_cons, List.cons_append, List.map_append, List.map_cons, beq_iff_eq] at *
        omega
      · unfold Sys.suspended at *
        refine perm_suspended_move (w := []) ?_ h3
        refine ((List.perm_cons_erase hm).append_right _).trans ?_
        refine (List.perm_middle.symm).trans (List.Perm.append_left _ ?_)
        exact List.perm_middle.symm
    · rw [if_neg hm] at hs; cases hs
  | run c o =>
    unfold Sys.step at hs
    simp only at hs
    by_cases hm : (c, o) ∈ s.ready
    · rw [if_pos hm] at hs
      injection hs with hs
      subst hs
      refine ⟨?_, by simpa [addedBy] using h2, ?_, h4, by simpa [parkedBy, servedBy] using h5⟩
      · intro x
        have := h1 x
        have he := count_map_erase (fun p : Nat × Nat => p.2) (c, o) s.ready x hm
        unfold Sys.objs at *
        simp only [addedBy, List.append_nil, List.count_append, List.count_cons, List.cons_append, List.map_append, List.map_cons, beq_iff_eq] at *
        omega
      · unfold Sys.suspended at *
        refine h3.sublist (List.Sublist.append (List.Sublist.refl _) (List.Sublist.map _ ?_))
        exact List.Sublist.append (List.Sublist.refl _) (List.Sublist.append List.erase_sublist (List.Sublist.refl _))
    · rw [if_neg hm] at hs; cases hs

theorem reach_inv {s : Sys} {a r v : List Nat} (h : Reach s a r v) : Inv s a r v := by
  induction h with
  | init => exact ⟨fun _ => rfl, List.nodup_nil, List.nodup_nil, Or.inl rfl, rfl⟩
  | step _ ha hs ih => exact inv_step ih ha hs

/-- Nothing is lost or duplicated: the places of the objects make up exactly the objects added, each once. -/
theorem C48_conserved {s : Sys} {a r v : List Nat} (h : Reach s a r v) :
    (s.gate.free ++ (s.held ++ (s.handed ++ (s.ready ++ s.lost))).map (·.2)).Perm a ∧ a.Nodup := by
  have hi := reach_inv h
  exact ⟨List.perm_iff_count.2 hi.objs, hi.nodup⟩

/-- No two coroutines hold one object, and a held object is not on the free list. -/
theorem C48_exclusive {s : Sys} {a r v : List Nat} (h : Reach s a r v) {c o : Nat} (hc : (c, o) ∈ s.held) :
    (∀ d, (d, o) ∈ s.held → d = c) ∧ s.held.count (c, o) = 1 ∧ o ∉ s.gate.free ∧ o ∉ s.handed.map (·.2) ∧ o ∉ s.ready.map (·.2) := by
  obtain ⟨hp, hn⟩ := C48_conserved h
  have hnd := hp.nodup_iff.2 hn
  obtain ⟨-, n2, n3⟩ := List.nodup_append.1 hnd
  rw [List.map_append] at n2
  obtain ⟨m1, -, m3⟩ := List.nodup_append.1 n2
  have ho : o ∈ s.held.map (·.2) := List.mem_map.2 ⟨_, hc, rfl⟩
  have huniq : ∀ l : List (Nat × Nat), (l.map (·.2)).Nodup → ∀ x ∈ l, ∀ y ∈ l, x.2 = y.2 → x = y := by
    intro l
    induction l with
    | nil => intro _ x hx; cases hx
    | cons z rest ih =>
      intro hz x hx y hy e
      rw [List.map_cons, List.nodup_cons] at hz
      rcases List.mem_cons.1 hx with hx1 | hx1 <;> rcases List.mem_cons.1 hy with hy1 | hy1
      · rw [hx1, hy1]
      · exact absurd (List.mem_map.2 ⟨y, hy1, by rw [← hx1]; exact e.symm⟩) hz.1
      · exact absurd (List.mem_map.2 ⟨x, hx1, by rw [← hy1]; exact e⟩) hz.1
      · exact ih hz.2 x hx1 y hy1 e
  have hcount : s.held.count (c, o) = 1 := by
    have hge : 0 < s.held.count (c, o) := List.count_pos_iff.2 hc
    have hle : s.held.count (c, o) ≤ (s.held.map (·.2)).count o := by
      have := List.count_le_count_map (f := fun p : Nat × Nat => p.2) (l := s.held) (x := (c, o))
      exact this
    have := List.nodup_iff_count.1 m1 o
    omega
  refine ⟨?_, hcount, ?_, ?_, ?_⟩
  · intro d hd
    have := huniq _ m1 _ hd _ hc rfl
    injection this
  · intro hf
    exact n3 o hf o (by rw [List.map_append]; exact List.mem_append_left _ ho) rfl
  · intro hf
    exact m3 o ho o (by rw [List.map_append]; exact List.mem_append_left _ hf) rfl
  · intro hf
    refine m3 o ho o ?_ rfl
    rw [List.map_append, List.map_append]
    exact List.mem_append_right _ (List.mem_append_left _ hf)

/-- A parked waiter and a free object never coexist; and each suspended coroutine is suspended once. -/
theorem C48_no_lost_wakeup {s : Sys} {a r v : List Nat} (h : Reach s a r v) :
    (s.gate.waiters = [] ∨ s.gate.free = []) ∧ (s.gate.waiters ++ (s.handed ++ (s.ready ++ s.lost)).map (·.1)).Nodup :=
  ⟨(reach_inv h).co, (reach_inv h).susp⟩

/-- First come, first served: the coroutines that had to wait are served in the order in which they came. -/
theorem C48_fifo {s : Sys} {a r v : List Nat} (h : Reach s a r v) : r = v ++ s.gate.waiters := (reach_inv h).fifo

/-- Number of releases in a list of events. -/
def releases (es : List Ev) : Nat := (es.filter (fun e => match e with | .release _ _ => true | _ => false)).length

/-- Continuing a schedule. -/
inductive More : Sys → List Nat → List Ev → Sys → Prop
  | refl {s : Sys} {a : List Nat} : More s a [] s
  | step {s s' s'' : Sys} {a : List Nat} {e : Ev} {es : List Ev} : s.allowed a e → s.step e = some s' → More s' (a ++ addedBy e) es s'' →
      More s a (e :: es) s''

/-- A waiter at position `i` is off the queue (it has an object) after `i + 1` further releases, whatever else happens. -/
theorem C48_served_in_time {s s' : Sys} {a r v : List Nat} (h : Reach s a r v) {i w : Nat} (hw : s.gate.waiters[i]? = some w) {es : List Ev}
    (hm : More s a es s') (hr : i < releases es) :
    ∃ (s1 s2 : Sys) (e : Ev) (o : Nat), s1.gate.waiters.head? = some w ∧ s1.step e = some s2 ∧ (w, o) ∈ s2.handed := by
  induction hm generalizing i r v with
  | refl => simp [releases] at hr
  | step ha hs _ ih =>
    rename_i s s1 s2 a e es _
    have hre := Reach.step h ha hs
    have keep : ∀ (hrr : i < releases es) (hwq : s1.gate.waiters[i]? = some w), _ := fun hrr hwq => ih hre hwq hrr
    cases e with
    | add o =>
      injection hs with hs'
      refine keep (by simpa [releases] using hr) ?_
      subst hs'
      exact hw
    | acquire c =>
      refine keep (by simpa [releases] using hr) ?_
      unfold Sys.step Gate.acquire at hs
      cases hf : s.gate.free with
      | nil =>
        rw [hf] at hs
        injection hs with hs'
        subst hs'
        simp only
        rw [List.getElem?_append_left (List.getElem?_eq_some_iff.1 hw).1]
        exact hw
      | cons o rest => rw [hf] at hs; injection hs with hs'; subst hs'; exact hw
    | resume c o =>
      refine keep (by simpa [releases] using hr) ?_
      unfold Sys.step at hs
      simp only at hs
      split at hs
      · injection hs with hs'; subst hs'; exact hw
      · cases hs
    | reject c o =>
      refine keep (by simpa [releases] using hr) ?_
      unfold Sys.step at hs
      simp only at hs
      split at hs
      · injection hs with hs'; subst hs'; exact hw
      · cases hs
    | run c o =>
      refine keep (by simpa [releases] using hr) ?_
      unfold Sys.step at hs
      simp only at hs
      split at hs
      · injection hs with hs'; subst hs'; exact hw
      · cases hs
    | release c o =>
      have hs0 := hs
      unfold Sys.step at hs
      simp only at hs
      split at hs
      · unfold Gate.release at hs
        cases hq : s.gate.waiters with
        | nil => rw [hq] at hw; simp at hw
        | cons x rest =>
          rw [hq] at hs hw
          simp only at hs
          injection hs with hs'
          cases i with
          | zero =>
            simp only [List.getElem?_cons_zero, Option.some.injEq] at hw
            subst hw
            refine ⟨s, s1, .release c o, o, by rw [hq]; rfl, hs0, ?_⟩
            rw [← hs']
            exact List.mem_cons_self
          | succ i =>
            simp only [List.getElem?_cons_succ] at hw
            refine ih hre (i := i) ?_ ?_
            · rw [← hs']; exact hw
            · have : releases (Ev.release c o :: es) = releases es + 1 := by simp [releases]
              omega
      · cases hs

/-- Coroutines that return their object before asking for another one cannot deadlock: while someone waits and objects exist, and no resume was
rejected, some coroutine can release an object or some hand-over can proceed. -/
theorem C48_no_deadlock {s : Sys} {a r v : List Nat} (h : Reach s a r v) (hl : s.lost = []) (ha : a ≠ [])
    (hd : ∀ c, c ∈ s.gate.waiters ++ (s.handed ++ s.ready).map (·.1) → c ∉ s.held.map (·.1)) (hw : s.gate.waiters ≠ []) :
    (∃ c o, s.running c ∧ (s.step (.release c o)).isSome) ∨ (∃ c o, (s.step (.resume c o)).isSome) ∨ (∃ c o, (s.step (.run c o)).isSome) := by
  have hi := reach_inv h
  have hf : s.gate.free = [] := by
    rcases hi.co with h | h
    · exact absurd h hw
    · exact h
  have hp := (C48_conserved h).1
  rw [hf, hl, List.nil_append, List.append_nil] at hp
  cases hh : s.held with
  | cons x rest =>
    obtain ⟨c, o⟩ := x
    refine Or.inl ⟨c, o, ?_, ?_⟩
    · have : c ∈ s.held.map (·.1) := by rw [hh]; simp
      have hd' := fun hc => hd c hc this
      rw [List.map_append] at hd'
      refine ⟨fun hc => hd' (List.mem_append_left _ hc), fun hc => hd' (List.mem_append_right _ (List.mem_append_left _ hc)),
        fun hc => hd' (List.mem_append_right _ (List.mem_append_right _ hc)), by rw [hl]; simp⟩
    · unfold Sys.step
      simp only
      rw [if_pos (by rw [hh]; exact List.mem_cons_self)]
      unfold Gate.release
      cases s.gate.waiters <;> rfl
  | nil =>
    cases hha : s.handed with
    | cons x rest =>
      obtain ⟨c, o⟩ := x
      refine Or.inr (Or.inl ⟨c, o, ?_⟩)
      unfold Sys.step
      simp only
      rw [if_pos (by rw [hha]; exact List.mem_cons_self)]
      rfl
    | nil =>
      cases hr : s.ready with
      | cons x rest =>
        obtain ⟨c, o⟩ := x
        refine Or.inr (Or.inr ⟨c, o, ?_⟩)
        unfold Sys.step
        simp only
        rw [if_pos (by rw [hr]; exact List.mem_cons_self)]
        rfl
      | nil =>
        rw [hh, hha, hr] at hp
        exact absurd (List.perm_nil.1 hp.symm) ha

/-- `add` while a coroutine is parked (the documentation restricts it to the set-up phase) does not wake it: a free object and a waiter coexist. -/
theorem C48_add_while_parked : ∃ s s' : Sys, Reach s [] [1] [] ∧ s.step (.add 0) = some s' ∧ s'.gate.waiters ≠ [] ∧ s'.gate.free ≠ [] :=
  ⟨⟨⟨[], [1]⟩, [], [], [], []⟩, _, Reach.step (e := .acquire 1) .init ⟨by simp [Sys.init], by simp [Sys.init], by simp [Sys.init], by simp [Sys.init]⟩ rfl,
    rfl, by simp [Gate.add], by simp [Gate.add]⟩

/-- Non-vacuous: one object, coroutine 1 takes it, coroutine 2 waits, 1 releases, 2 is handed the object, resumed and holds it. -/
example : Reach ⟨⟨[], []⟩, [(2, 0)], [], [], []⟩ [0] [2] [2] := by
  have h1 : Reach ⟨⟨[0], []⟩, [], [], [], []⟩ [0] [] [] := Reach.step (e := .add 0) .init ⟨by simp, rfl⟩ rfl
  have h2 : Reach ⟨⟨[], []⟩, [(1, 0)], [], [], []⟩ [0] [] [] := Reach.step (e := .acquire 1) h1 (by simp [Sys.allowed, Sys.running]) rfl
  have h3 : Reach ⟨⟨[], [2]⟩, [(1, 0)], [], [], []⟩ [0] [2] [] := Reach.step (e := .acquire 2) h2 (by simp [Sys.allowed, Sys.running]) rfl
  have h4 : Reach ⟨⟨[], []⟩, [], [(2, 0)], [], []⟩ [0] [2] [2] := Reach.step (e := .release 1 0) h3 (by simp [Sys.allowed, Sys.running]) rfl
  have h5 : Reach ⟨⟨[], []⟩, [], [], [(2, 0)], []⟩ [0] [2] [2] := Reach.step (e := .resume 2 0) h4 trivial rfl
  exact Reach.step (e := .run 2 0) h5 trivial rfl

end Alaya.CoroGate
