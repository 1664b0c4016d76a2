import Mathlib.Data.List.Nodup
import Mathlib.Data.List.Perm.Basic
import Verif.Model.UringAsync

/-!
# C110: every asynchronous read that was accepted has its callback run once, with its own result

Model: Model/UringAsync.lean.  What fails is in C110Limits.lean.
-/

namespace Alaya.UAsync

/-- No submission fails. -/
def Act.fine : Act → Prop
  | .read ans => ans ≠ none
  | .kernel _ _ => True

def Op.fine : Op → Prop
  | .act a => a.fine
  | .check r => ∀ l ∈ r, ∀ a ∈ l, a.fine
  | .drain w => ∀ l, some l ∈ w → ∀ a ∈ l, a.fine

/-- Accepted reads whose callback has not run. -/
def waiting (s : St) : List Nat := s.sq ++ s.flight ++ s.cq.map Prod.fst

/-- The invariant; `k` callbacks were run by a `check_completion` that has not yet returned. -/
structure Inv (s : St) (k : Nat) : Prop where
  perm : (s.ran.map Prod.fst ++ waiting s).Perm s.accepted
  live : s.live.Perm (waiting s)
  nodup : s.accepted.Nodup
  lt : ∀ c ∈ s.accepted, c < s.next
  stray : s.stray = false
  said : s.ran ++ s.cq = s.said
  count : s.count = s.live.length + k

theorem inv_act {s : St} {k : Nat} (h : Inv s k) (a : Act) (ha : a.fine) : Inv (act s a) k := by
  cases a with
  | read ans =>
    cases ans with
    | none => exact absurd rfl ha
    | some n =>
      simp only [act, submitRead]
      split
      · have hp := h.perm
        have hl := h.live
        have hc := h.count
        have hw : (List.drop n (s.sq ++ [s.next]) ++ (s.flight ++ List.take n (s.sq ++ [s.next])) ++ s.cq.map Prod.fst).Perm
            (s.next :: waiting s) := by
          have e : (List.take n (s.sq ++ [s.next]) ++ List.drop n (s.sq ++ [s.next])) = s.sq ++ [s.next] := List.take_append_drop ..
          rw [List.perm_iff_count]
          intro x
          have e' := congrArg (List.count x) e
          simp only [List.count_append, List.count_cons, List.count_nil, waiting] at e' ⊢
          omega
        refine ⟨?_, ?_, ?_, ?_, h.stray, h.said, ?_⟩
        · refine (List.Perm.append_left _ hw).trans ?_
          refine List.perm_middle.trans ?_
          exact (List.Perm.cons _ hp).trans (List.perm_append_singleton _ _).symm
        · exact (List.Perm.cons _ hl).trans hw.symm
        · rw [List.nodup_append]
          refine ⟨h.nodup, by simp, ?_⟩
          intro a ha b hb
          simp at hb
          have := h.lt a ha
          omega
        · intro c hc'
          simp only [List.mem_append, List.mem_singleton] at hc'
          rcases hc' with hc' | hc'
          · have := h.lt c hc'; show c < s.next + 1; omega
          · show c < s.next + 1; omega
        · simp only [List.length_cons]; push_cast; omega
      · exact h
  | kernel c r =>
    simp only [act]
    split
    · rename_i hc
      have hw : (s.sq ++ s.flight.erase c ++ (s.cq ++ [(c, r)]).map Prod.fst).Perm (waiting s) := by
        rw [List.perm_iff_count]
        intro x
        have e := (List.perm_cons_erase hc).count_eq x
        simp only [waiting, List.map_append, List.map_cons, List.map_nil, List.count_append, List.count_cons, List.count_nil] at e ⊢
        omega
      exact ⟨(List.Perm.append_left _ hw).trans h.perm, h.live.trans hw.symm, h.nodup, h.lt, h.stray, by
        show s.ran ++ (s.cq ++ [(c, r)]) = s.said ++ [(c, r)]
        rw [← List.append_assoc, h.said], h.count⟩
    · exact h

theorem inv_acts (l : List Act) : ∀ {s : St} {k : Nat}, Inv s k → (∀ a ∈ l, a.fine) → Inv (l.foldl act s) k := by
  induction l with
  | nil => intro s k h _; exact h
  | cons a t ih =>
    intro s k h hl
    exact ih (inv_act h a (hl a (by simp))) fun b hb => hl b (by simp [hb])

theorem inv_pop {s : St} {k : Nat} (h : Inv s k) {x : Nat × Int} {t : List (Nat × Int)} (hx : s.cq = x :: t) : Inv (pop s x t) (k + 1) := by
  have hm : x.1 ∈ s.live := h.live.mem_iff.mpr (by simp [waiting, hx])
  have hlen := List.length_erase_of_mem hm
  have hpos := List.length_pos_of_mem hm
  refine ⟨?_, ?_, h.nodup, h.lt, ?_, ?_, ?_⟩
  · refine List.Perm.trans ?_ h.perm
    rw [List.perm_iff_count]
    intro y
    simp only [pop, waiting, hx, List.map_append, List.map_cons, List.map_nil, List.count_append, List.count_cons, List.count_nil]
    omega
  · rw [List.perm_iff_count]
    intro y
    have e := (List.perm_cons_erase hm).count_eq y
    have e2 := h.live.count_eq y
    simp only [pop, waiting, hx, List.map_cons, List.count_append, List.count_cons] at e e2 ⊢
    omega
  · simp [pop, h.stray, hm]
  · have := h.said
    rw [hx] at this
    simp [pop, ← this]
  · have := h.count
    simp only [pop, hlen]
    push_cast
    omega

theorem popAll_spec (l : List (Nat × Int)) : ∀ {s : St} {k : Nat}, Inv s k → s.cq = l →
    Inv (popAll l s) (k + l.length) ∧ (popAll l s).cq = [] ∧ (popAll l s).ran.length = s.ran.length + l.length := by
  induction l with
  | nil => intro s k h e; exact ⟨h, e, rfl⟩
  | cons x t ih =>
    intro s k h e
    obtain ⟨h1, h2, h3⟩ := ih (inv_pop h e) rfl
    simp only [popAll, List.length_cons]
    refine ⟨?_, h2, ?_⟩
    · rw [show k + (t.length + 1) = k + 1 + t.length by omega]; exact h1
    · rw [h3]; simp [pop]; omega

theorem ran_act (s : St) (a : Act) : (act s a).ran = s.ran := by
  cases a with
  | read ans =>
    simp only [act, submitRead]
    split
    · cases ans <;> rfl
    · rfl
  | kernel c r => simp only [act]; split <;> rfl

theorem ran_acts (l : List Act) : ∀ s : St, (l.foldl act s).ran = s.ran := by
  induction l with
  | nil => intro s; rfl
  | cons a t ih => intro s; exact (ih _).trans (ran_act s a)

theorem checkLoop_spec (rounds : List (List Act)) : ∀ {s : St} {n : Nat}, Inv s n → (∀ l ∈ rounds, ∀ a ∈ l, a.fine) →
    Inv (checkLoop rounds n s).1 (checkLoop rounds n s).2 ∧ (checkLoop rounds n s).1.cq = [] ∧
      (checkLoop rounds n s).1.ran.length + n = s.ran.length + (checkLoop rounds n s).2 := by
  induction rounds with
  | nil =>
    intro s n h _
    obtain ⟨h1, h2, h3⟩ := popAll_spec s.cq h rfl
    exact ⟨h1, h2, by simp only [checkLoop]; omega⟩
  | cons a t ih =>
    intro s n h hf
    simp only [checkLoop]
    split
    · rename_i e; exact ⟨h, e, rfl⟩
    · rename_i x r e
      obtain ⟨h1, h2, h3⟩ := ih (inv_acts a (inv_pop h e) (hf a (by simp))) fun l hl => hf l (by simp [hl])
      refine ⟨h1, h2, ?_⟩
      rw [ran_acts] at h3
      have e3 : (pop s x r).ran.length = s.ran.length + 1 := by simp [pop]
      omega

theorem check_spec (rounds : List (List Act)) {s : St} (h : Inv s 0) (hf : ∀ l ∈ rounds, ∀ a ∈ l, a.fine) :
    Inv (check rounds s).1 0 ∧ (check rounds s).1.cq = [] ∧ (check rounds s).1.ran.length = s.ran.length + (check rounds s).2 := by
  unfold check
  split
  · rename_i hc
    refine ⟨h, ?_, rfl⟩
    have := h.count
    have hl := h.live.length_eq
    simp only [waiting, List.length_append, List.length_map] at hl
    show s.cq = []
    exact List.length_eq_zero_iff.mp (by omega)
  · obtain ⟨h1, h2, h3⟩ := checkLoop_spec rounds h hf
    refine ⟨⟨h1.perm, h1.live, h1.nodup, h1.lt, h1.stray, h1.said, ?_⟩, h2, by simpa using h3⟩
    have := h1.count
    show (checkLoop rounds 0 s).1.count - ((checkLoop rounds 0 s).2 : Int) = _
    simp only [this]
    push_cast
    omega

theorem drain_spec (w : List (Option (List Act))) : ∀ {s : St}, Inv s 0 → (∀ l, some l ∈ w → ∀ a ∈ l, a.fine) → Inv (drain w s) 0 := by
  induction w with
  | nil => intro s h _; exact h
  | cons a t ih =>
    intro s h hf
    have hf' : ∀ l, some l ∈ t → ∀ a ∈ l, a.fine := fun l hl => hf l (by simp [hl])
    simp only [drain]
    split
    · exact h
    · cases a with
      | none => exact h
      | some l =>
        have hl := hf l (by simp)
        dsimp only
        split
        · exact ih (inv_acts l h hl) hf'
        · rename_i x r e
          have h1 := inv_acts l (inv_pop h e) hl
          refine ih ⟨h1.perm, h1.live, h1.nodup, h1.lt, h1.stray, h1.said, ?_⟩ hf'
          have := h1.count
          simp only [this]
          push_cast
          omega

theorem inv_step {s : St} (h : Inv s 0) (o : Op) (ho : o.fine) : Inv (step s o) 0 := by
  cases o with
  | act a => exact inv_act h a ho
  | check r => exact (check_spec r h ho).1
  | drain w => exact drain_spec w h ho

theorem inv_run (entries : Nat) (ops : List Op) (hf : ∀ o ∈ ops, o.fine) : Inv (run entries ops) 0 := by
  have : ∀ (l : List Op) (s : St), Inv s 0 → (∀ o ∈ l, o.fine) → Inv (l.foldl step s) 0 := by
    intro l
    induction l with
    | nil => intro s h _; exact h
    | cons o t ih => intro s h hl; exact ih _ (inv_step h o (hl o (by simp))) fun b hb => hl b (by simp [hb])
  exact this ops _ ⟨by simp [waiting], by simp [waiting], by simp, by simp, rfl, rfl, by simp⟩ hf

/-- At every moment: callbacks run only for accepted reads, none twice, in the order of the completions and with the results the kernel gave; no freed
context is used; the counter is the number of accepted reads whose callback has not run. -/
theorem C110_once (entries : Nat) (ops : List Op) (hf : ∀ o ∈ ops, o.fine) :
    ((run entries ops).ran.map Prod.fst).Nodup ∧ (∀ x ∈ (run entries ops).ran, x.1 ∈ (run entries ops).accepted) ∧
      (run entries ops).ran <+: (run entries ops).said ∧ (run entries ops).stray = false ∧
      (run entries ops).count = (run entries ops).accepted.length - (run entries ops).ran.length := by
  have h := inv_run entries ops hf
  have hn := h.perm.nodup_iff.mpr h.nodup
  refine ⟨(List.nodup_append.mp hn).1, ?_, ⟨_, h.said⟩, h.stray, ?_⟩
  · intro x hx
    exact h.perm.mem_iff.mp (List.mem_append_left _ (List.mem_map_of_mem hx))
  · have h1 := h.perm.length_eq
    have h2 := h.live.length_eq
    have h3 := h.count
    simp only [List.length_append, List.length_map] at h1
    omega

/-- `check_completion` returns the number of callbacks it ran, and leaves no completed read without its callback, also not one that a callback
submitted. -/
theorem C110_check (entries : Nat) (ops : List Op) (hf : ∀ o ∈ ops, o.fine) (rounds : List (List Act)) (hr : ∀ l ∈ rounds, ∀ a ∈ l, a.fine) :
    (check rounds (run entries ops)).1.ran.length = (run entries ops).ran.length + (check rounds (run entries ops)).2 ∧
      (check rounds (run entries ops)).1.ran = (check rounds (run entries ops)).1.said := by
  obtain ⟨h1, h2, h3⟩ := check_spec rounds (inv_run entries ops hf) hr
  refine ⟨h3, ?_⟩
  have := h1.said
  rwa [h2, List.append_nil] at this

/-- When the counter is 0, which is what `drain_pending` waits for unless a wait fails, the callback of every accepted read has run, once, and every
context has been freed. -/
theorem C110_drained (entries : Nat) (ops : List Op) (hf : ∀ o ∈ ops, o.fine) (h0 : (run entries ops).count = 0) :
    ((run entries ops).ran.map Prod.fst).Perm (run entries ops).accepted ∧ (run entries ops).live = [] := by
  have h := inv_run entries ops hf
  have h3 := h.count
  have hl : (run entries ops).live = [] := List.length_eq_zero_iff.mp (by omega)
  have hw : waiting (run entries ops) = [] := by
    have := h.live
    rw [hl] at this
    exact this.nil_eq.symm
  have hp := h.perm
  rw [hw, List.append_nil] at hp
  exact ⟨hp, hl⟩

theorem drain_count (n : Nat) : ∀ s : St, s.cq.length = n → s.count = n → (drain (List.replicate n (some [])) s).count = 0 := by
  induction n with
  | zero => intro s _ hc; simpa [drain] using hc
  | succ n ih =>
    intro s hn hc
    simp only [List.replicate_succ, drain]
    rw [if_neg (by rw [hc]; push_cast; omega)]
    match hq : s.cq with
    | [] => simp [hq] at hn
    | x :: t =>
      simp only [List.foldl_nil]
      refine ih _ ?_ ?_
      · simp only [pop]; rw [hq] at hn; simpa using hn
      · simp only [pop, hc]; push_cast; omega

/-- `drain_pending` runs every callback that is still to run, if the reads have completed: one wait for each of them is enough. -/
theorem C110_drain (entries : Nat) (ops : List Op) (hf : ∀ o ∈ ops, o.fine) (h1 : (run entries ops).sq = []) (h2 : (run entries ops).flight = []) :
    ((drain (List.replicate (run entries ops).cq.length (some [])) (run entries ops)).ran.map Prod.fst).Perm (run entries ops).accepted := by
  have h := inv_run entries ops hf
  have hl := h.live.length_eq
  have hc := h.count
  simp only [waiting, h1, h2, List.nil_append, List.length_map] at hl
  have h0 := drain_count (run entries ops).cq.length (run entries ops) rfl (by omega)
  have e : drain (List.replicate (run entries ops).cq.length (some [])) (run entries ops) =
      run entries (ops ++ [.drain (List.replicate (run entries ops).cq.length (some []))]) := by
    simp [run, List.foldl_append, step]
  have ea : ∀ (n : Nat) (s : St), (drain (List.replicate n (some [])) s).accepted = s.accepted := by
    intro n
    induction n with
    | zero => intro s; rfl
    | succ n ih =>
      intro s
      simp only [List.replicate_succ, drain]
      split
      · rfl
      · split <;> simp [ih, pop]
  rw [← ea (run entries ops).cq.length (run entries ops)]
  rw [e] at h0 ⊢
  refine (C110_drained entries _ ?_ h0).1
  intro o ho
  simp only [List.mem_append, List.mem_singleton] at ho
  rcases ho with ho | ho
  · exact hf o ho
  · subst ho
    intro l hl a ha
    have := List.eq_of_mem_replicate hl
    simp at this
    simp [this] at ha

/-- Two reads, completed in the other order; the first callback submits a third read, which completes during it. -/
def three : List Op := [.act (.read (some 1)), .act (.read (some 1)), .act (.kernel 1 4096), .act (.kernel 0 (-5)),
  .check [[.read (some 1), .kernel 2 512]]]

example : ∀ o ∈ three, o.fine := by simp [three, Op.fine, Act.fine]
example : (run 4 three).ran = [(1, 4096), (0, -5), (2, 512)] ∧ (run 4 three).count = 0 ∧ (run 4 three).accepted = [0, 1, 2] := by decide +kernel
example : (check [[.read (some 1), .kernel 2 512]] (run 4 (three.take 4))).2 = 3 := by decide +kernel
/-- `drain_pending` with one read under way, which completes during the first wait. -/
example : (run 4 [.act (.read (some 1)), .drain [some [.kernel 0 7], some []]]).ran = [(0, 7)] := by decide +kernel

/-- The state before the last `check_completion` above meets the hypotheses of `C110_drain`. -/
example : (run 4 (three.take 4)).sq = [] ∧ (run 4 (three.take 4)).flight = [] ∧ (run 4 (three.take 4)).cq.length = 2 := by decide +kernel

end Alaya.UAsync
