import Verif.Lemmas.ThreadPool

/-! Progress: under a fair schedule a counting client gets to the end of the destructor. -/
namespace Alaya.Pool
open Alaya.Sched (tot tot_set tot_ge tot_zero tot_pos)

def Wk.weight : Wk → Nat
  | .lock => 1
  | .sleep => 1
  | .run _ => 3
  | .fin => 2
  | .gone => 0

def cost : List Cmd → Nat
  | [] => 4
  | .enqueue _ :: c => 5 + cost c
  | _ :: c => 1 + cost c

def Cl.weight : Cl → Nat
  | .at c => cost c
  | .notify c => cost c + 1
  | .sleep _ c => 1 + cost c
  | .notifyAll => 2
  | .join => 1
  | .done => 0

def St.left (s : St) : Nat := 3 * s.queue.length + tot Wk.weight s.ws + s.cl.weight

/-- Nothing but waking up, going to sleep and looking again. -/
structure Idle (s s' : St) : Prop where
  queue : s'.queue = s.queue
  stop : s'.stop = s.stop
  completed : s'.completed = s.completed
  len : s'.ws.length = s.ws.length
  ws : ∀ (w : Nat) (k : Wk), s.ws[w]? = some k → s'.ws[w]? = some k ∨ k = .sleep ∨ (k = .lock ∧ s.queue = [] ∧ s.stop = false)
  cl : s'.cl = s.cl ∨ (∃ n c, s.cl = .sleep n c) ∨ ∃ n c, s.cl = .at (.wait n :: c) ∧ s.completed ≠ n

theorem Idle.refl (s : St) : Idle s s := ⟨rfl, rfl, rfl, rfl, fun _ _ h => .inl h, .inl rfl⟩

theorem Idle.set {s : St} {w : Nat} {k k' : Wk} (hk : s.ws[w]? = some k) (h : k = .sleep ∨ (k = .lock ∧ s.queue = [] ∧ s.stop = false)) :
    Idle s { s with ws := s.ws.set w k' } := by
  refine ⟨rfl, rfl, rfl, by simp, fun v x hx => ?_, .inl rfl⟩
  by_cases e : v = w
  · subst e
    rw [hk] at hx
    cases hx
    exact .inr h
  · simp only
    rw [List.getElem?_set_ne (Ne.symm e)]
    exact .inl hx

theorem woken_weight (c : Cl) : c.woken.weight = c.weight := by cases c <;> rfl

theorem work_left (s : St) (w : Nat) : (s.work w).left < s.left ∨ ((s.work w).left = s.left ∧ Idle s (s.work w)) := by
  unfold St.work
  cases hk : s.ws[w]? with
  | none => exact .inr ⟨rfl, .refl s⟩
  | some k =>
    cases k with
    | gone => exact .inr ⟨rfl, .refl s⟩
    | sleep => exact .inr ⟨rfl, .refl s⟩
    | lock =>
      simp only
      cases hq : s.queue with
      | cons t q =>
        left
        have := tot_set_of Wk.weight (y := .run t) hk
        simp only [Wk.weight] at this
        simp only [St.left, hq, List.length_cons]
        omega
      | nil =>
        cases hs : s.stop with
        | true =>
          left
          have := tot_set_of Wk.weight (y := .gone) hk
          simp only [Wk.weight] at this
          simp only [St.left, hq, if_true]
          omega
        | false =>
          right
          have := tot_set_of Wk.weight (y := .sleep) hk
          simp only [Wk.weight] at this
          refine ⟨by simp [St.left, hq]; omega, ?_⟩
          have := Idle.set (k' := .sleep) hk (.inr ⟨rfl, hq, hs⟩)
          rw [hq, hs] at this
          exact this
    | run t =>
      left
      have := tot_set_of Wk.weight (y := .fin) hk
      simp only [Wk.weight] at this
      simp only [St.left]
      omega
    | fin =>
      left
      have := tot_set_of Wk.weight (y := .lock) hk
      simp only [Wk.weight] at this
      simp only [St.left, woken_weight]
      omega

theorem client_left (s : St) (pick : Nat) :
    (s.client pick).left < s.left ∨ ((s.client pick).left = s.left ∧ Idle s (s.client pick)) := by
  unfold St.client
  split
  · rename_i t rest hc
    left; simp only [St.left, hc, Cl.weight, cost, List.length_append, List.length_singleton]; omega
  · rename_i n rest hc
    split
    · left; simp only [St.left, hc, Cl.weight, cost]; omega
    · rename_i hn
      right
      exact ⟨by simp only [St.left, hc, Cl.weight, cost], rfl, rfl, rfl, rfl, fun _ _ h => .inl h, .inr (.inr ⟨n, rest, hc, hn⟩)⟩
  · rename_i rest hc
    left; simp only [St.left, hc, Cl.weight, cost]; omega
  · rename_i hc
    left; simp only [St.left, hc, Cl.weight, cost]; omega
  · rename_i rest hc
    left; simp only [St.left, hc, Cl.weight]
    rw [(wakeOne_spec pick s.ws).1.tot rfl]; omega
  · exact .inr ⟨rfl, .refl s⟩
  · rename_i hc
    left; simp only [St.left, hc, Cl.weight]
    rw [(wakeAll_woken s.ws).tot rfl]; omega
  · rename_i hc
    split
    · left; simp only [St.left, hc, Cl.weight]; omega
    · exact .inr ⟨rfl, .refl s⟩
  · exact .inr ⟨rfl, .refl s⟩

theorem step_left (s : St) (a : Act) : (step s a).left < s.left ∨ ((step s a).left = s.left ∧ Idle s (step s a)) := by
  cases a with
  | work w => exact work_left s w
  | client pick => exact client_left s pick
  | spurious w =>
    right
    simp only [Pool.step]
    split
    · rename_i hk
      refine ⟨?_, Idle.set hk (.inl rfl)⟩
      have := tot_set_of Wk.weight (y := .lock) hk
      simp only [Wk.weight] at this
      simp only [St.left]; omega
    · exact ⟨rfl, .refl s⟩
  | spuriousClient =>
    right
    simp only [Pool.step]
    refine ⟨by simp only [St.left, woken_weight], rfl, rfl, rfl, rfl, fun _ _ h => .inl h, ?_⟩
    cases hc : s.cl with
    | sleep n c => exact .inr (.inl ⟨n, c, rfl⟩)
    | _ => exact .inl rfl

/-- Thread `some w` is worker `w`, `none` is the client: its next move gets something done. -/
def Hot (s : St) : Option Nat → Prop
  | some w => ∃ k, s.ws[w]? = some k ∧ ((∃ t, k = .run t) ∨ k = .fin ∨ (k = .lock ∧ (s.queue ≠ [] ∨ s.stop = true)))
  | none => match s.cl with
    | .at (.wait n :: _) => s.completed = n
    | .sleep _ _ => False
    | .join => ∀ k ∈ s.ws, k = .gone
    | .done => False
    | _ => True

/-- Actions of a thread. -/
def Act.of : Act → Option Nat → Bool
  | .work w, some v => w == v
  | .client _, none => true
  | _, _ => false

theorem hot_self {s : St} {g : Option Nat} (h : Hot s g) {a : Act} (ha : a.of g = true) : (step s a).left < s.left := by
  cases g with
  | some w =>
    cases a with
    | work v =>
      simp only [Act.of, beq_iff_eq] at ha
      subst ha
      obtain ⟨k, hk, hh⟩ := h
      simp only [Pool.step, St.work, hk]
      rcases hh with ⟨t, rfl⟩ | rfl | ⟨rfl, hh⟩
      · have := tot_set_of Wk.weight (y := .fin) hk
        simp only [Wk.weight] at this
        simp only [St.left]
        omega
      · have := tot_set_of Wk.weight (y := .lock) hk
        simp only [Wk.weight] at this
        simp only [St.left, woken_weight]
        omega
      · simp only
        cases hq : s.queue with
        | cons t q =>
          have := tot_set_of Wk.weight (y := .run t) hk
          simp only [Wk.weight] at this
          simp only [St.left, hq, List.length_cons]
          omega
        | nil =>
          rcases hh with hh | hh
          · exact absurd hq hh
          · have := tot_set_of Wk.weight (y := .gone) hk
            simp only [Wk.weight] at this
            simp only [St.left, hq, hh, if_true]
            omega
    | _ => cases ha
  | none =>
    cases a with
    | client pick =>
      rcases step_left s (.client pick) with h1 | ⟨h1, h2⟩
      · exact h1
      · exfalso
        simp only [Pool.step, St.client] at h1
        simp only [Hot] at h
        split at h
        · rename_i n rest hc
          simp only [hc, if_pos h, St.left, Cl.weight, cost] at h1
          omega
        · exact h
        · rename_i hc
          have : s.ws.all (· == .gone) = true := by
            rw [List.all_eq_true]
            intro k hk
            simpa using h k hk
          simp only [hc, if_pos this, St.left, Cl.weight] at h1
          omega
        · exact h
        · split at h1
          · rename_i hc
            simp only [St.left, hc, Cl.weight, cost, List.length_append, List.length_singleton] at h1; omega
          · simp_all
          · rename_i hc
            simp only [St.left, hc, Cl.weight, cost] at h1; omega
          · rename_i hc
            simp only [St.left, hc, Cl.weight, cost] at h1; omega
          · rename_i hc
            simp only [St.left, hc, Cl.weight] at h1
            rw [(wakeOne_spec pick s.ws).1.tot rfl] at h1; omega
          · simp_all
          · rename_i hc
            simp only [St.left, hc, Cl.weight] at h1
            rw [(wakeAll_woken s.ws).tot rfl] at h1; omega
          · simp_all
          · simp_all
    | _ => cases ha

theorem hot_stable {s s' : St} (h : Idle s s') {g : Option Nat} (hg : Hot s g) : Hot s' g := by
  cases g with
  | some w =>
    obtain ⟨k, hk, hh⟩ := hg
    rcases h.ws w k hk with h1 | rfl | ⟨rfl, h1, h2⟩
    · exact ⟨k, h1, by rw [h.queue, h.stop]; exact hh⟩
    · simp at hh
    · simp [h1, h2] at hh
  | none =>
    have hcl : s'.cl = s.cl := by
      rcases h.cl with h1 | ⟨n, c, h1⟩ | ⟨n, c, h1, h2⟩
      · exact h1
      · simp only [Hot, h1] at hg
      · simp only [Hot, h1] at hg
        exact absurd hg h2
    have hgone : (∀ k ∈ s.ws, k = .gone) → ∀ k ∈ s'.ws, k = .gone := by
      intro ha k hk
      obtain ⟨w, hw⟩ := List.mem_iff_getElem?.1 hk
      have hlt : w < s.ws.length := by rw [← h.len]; exact (List.getElem?_eq_some_iff.1 hw).1
      have he : s.ws[w]? = some .gone := by
        rw [List.getElem?_eq_getElem hlt, ha _ (List.getElem_mem hlt)]
      rcases h.ws w _ he with h1 | h1 | ⟨h1, _⟩
      · rw [hw] at h1; cases h1; rfl
      · cases h1
      · cases h1
    simp only [Hot, hcl, h.completed] at hg ⊢
    split at hg
    · exact hg
    · exact hg.elim
    · exact hgone hg
    · exact hg.elim
    · trivial

theorem Inv.someHot {all : List Nat} {s : St} (h : Inv all s) (hw : s.ws ≠ []) (hd : s.cl ≠ .done) :
    ∃ g, Hot s g ∧ ∀ w, g = some w → w < s.ws.length := by
  have hclient : Hot s none → ∃ g, Hot s g ∧ ∀ w, g = some w → w < s.ws.length := fun hh => ⟨none, hh, by intro w e; cases e⟩
  have hworker : ∀ w : Nat, Hot s (some w) → ∃ g, Hot s g ∧ ∀ w, g = some w → w < s.ws.length := by
    intro w hh
    refine ⟨some w, hh, ?_⟩
    intro v e
    cases e
    obtain ⟨k, hk, _⟩ := hh
    exact (List.getElem?_eq_some_iff.1 hk).1
  by_cases hb : tot Wk.busy s.ws = 0
  · -- no worker has a task
    have hidle : ∀ (w : Nat) (k : Wk), s.ws[w]? = some k → k.awake → k = .lock := by
      intro w k hk ha
      have h0 := (tot_zero Wk.busy s.ws).1 hb k (List.mem_of_getElem? hk)
      cases k <;> simp_all [Wk.busy, Wk.awake]
    by_cases hq : s.queue = []
    · have key : s.stop = false → ∃ g, Hot s g ∧ ∀ w, g = some w → w < s.ws.length := by
        intro hs
        apply hclient
        obtain ⟨m, b, h1, h2, h3⟩ := h.count
        have hst := h.stop
        simp only [Hot]
        cases hc : s.cl with
        | «at» c =>
          cases c with
          | nil => trivial
          | cons x c =>
            cases x with
            | wait n =>
              rw [hc] at h1
              simp only [Cl.rest, Counted] at h1
              simp only
              rw [h1.1, ← h2, hq, hb]; rfl
            | _ => trivial
        | notify c => trivial
        | sleep n c =>
          rw [hc] at h1
          simp only [Cl.rest, Counted] at h1
          have := h.asleep n c hc
          rw [hq, hb] at h2
          simp at h2
          omega
        | notifyAll => trivial
        | join => rw [hc, hs] at hst; cases hst
        | done => exact absurd hc hd
      cases hs : s.stop with
      | false => exact key hs
      | true =>
        by_cases hl : ∃ w : Nat, s.ws[w]? = some .lock
        · obtain ⟨w, hl⟩ := hl
          exact hworker w ⟨_, hl, .inr (.inr ⟨rfl, .inr hs⟩)⟩
        · apply hclient
          have hst := h.stop
          rw [hs] at hst
          simp only [Hot]
          cases hc : s.cl with
          | notifyAll => trivial
          | join =>
            simp only
            intro k hk
            obtain ⟨w, hw'⟩ := List.mem_iff_getElem?.1 hk
            have h0 := (tot_zero Wk.busy s.ws).1 hb k hk
            cases k with
            | gone => rfl
            | lock => exact absurd ⟨w, hw'⟩ hl
            | sleep => exact absurd hw' (h.woken (.inl hc) w)
            | run t => cases h0
            | fin => cases h0
          | done => exact absurd hc hd
          | «at» c => rw [hc] at hst; cases hst
          | notify c => rw [hc] at hst; cases hst
          | sleep n c => rw [hc] at hst; cases hst
    · rcases h.awake hw hq with ⟨w, k, hk, ha⟩ | ⟨c, hc⟩
      · have := hidle w k hk ha
        subst this
        exact hworker w ⟨_, hk, .inr (.inr ⟨rfl, .inl hq⟩)⟩
      · apply hclient
        simp only [Hot, hc]
  · obtain ⟨k, hk, hk'⟩ := tot_pos (f := Wk.busy) (l := s.ws) (by omega)
    obtain ⟨w, hw'⟩ := List.mem_iff_getElem?.1 hk
    cases k with
    | run t => exact hworker w ⟨_, hw', .inl ⟨t, rfl⟩⟩
    | fin => exact hworker w ⟨_, hw', .inr (.inl rfl)⟩
    | _ => simp [Wk.busy] at hk'

/-- Every thread gets to move again and again. -/
def Fair (workers : Nat) (f : Nat → Act) : Prop :=
  (∀ w, w < workers → ∀ j, ∃ i, j ≤ i ∧ f i = .work w) ∧ ∀ j, ∃ i pick, j ≤ i ∧ f i = .client pick

theorem Fair.of {workers : Nat} {f : Nat → Act} (h : Fair workers f) {g : Option Nat} (hg : ∀ w, g = some w → w < workers) (j : Nat) :
    ∃ d, (f (j + d)).of g = true := by
  cases g with
  | none =>
    obtain ⟨i, pick, hi, e⟩ := h.2 j
    exact ⟨i - j, by rw [Nat.add_sub_cancel' hi, e]; rfl⟩
  | some w =>
    obtain ⟨i, hi, e⟩ := h.1 w (hg w rfl) j
    exact ⟨i - j, by rw [Nat.add_sub_cancel' hi, e]; simp [Act.of]⟩

theorem hot_eventually (s : St) (f : Nat → Act) (g : Option Nat) : ∀ d j, Hot (after s f j) g → (f (j + d)).of g = true →
    ∃ i, j < i ∧ (after s f i).left < (after s f j).left := by
  intro d
  induction d with
  | zero => intro j hh hf; exact ⟨j + 1, by omega, hot_self hh hf⟩
  | succ d ih =>
    intro j hh hf
    rcases step_left (after s f j) (f j) with h1 | ⟨h1, h2⟩
    · exact ⟨j + 1, by omega, h1⟩
    · obtain ⟨i, hi, hlt⟩ := ih (j + 1) (hot_stable h2 hh) (by rw [show j + 1 + d = j + (d + 1) from by omega]; exact hf)
      refine ⟨i, by omega, ?_⟩
      rw [← h1]
      exact hlt

theorem step_len (s : St) (a : Act) : (step s a).ws.length = s.ws.length := by
  cases a with
  | work w =>
    simp only [Pool.step, St.work]
    split
    · split <;> simp
    · simp
    · simp
    · rfl
  | client pick =>
    simp only [Pool.step, St.client]
    split <;> try split
    all_goals first
      | rfl
      | exact (wakeOne_spec pick s.ws).1.len
      | exact (wakeAll_woken s.ws).len
  | spurious w =>
    simp only [Pool.step]
    split <;> simp
  | spuriousClient => rfl

theorem after_len (s : St) (f : Nat → Act) : ∀ j, (after s f j).ws.length = s.ws.length
  | 0 => rfl
  | j + 1 => by rw [after, step_len, after_len s f j]

theorem finishes {all : List Nat} {s : St} (h : Inv all s) (hw : s.ws ≠ []) {f : Nat → Act} (hf : Fair s.ws.length f) :
    ∀ m j, (after s f j).left = m → ∃ i, (after s f i).cl = .done := by
  intro m
  induction m using Nat.strongRecOn with
  | ind m ih =>
    intro j hm
    by_cases hd : (after s f j).cl = .done
    · exact ⟨j, hd⟩
    · have hlen := after_len s f j
      have hw' : (after s f j).ws ≠ [] := by
        intro e
        rw [e] at hlen
        exact hw (List.length_eq_zero_iff.1 hlen.symm)
      obtain ⟨g, hh, hg⟩ := (h.after f j).someHot hw' hd
      rw [hlen] at hg
      obtain ⟨d, hd'⟩ := hf.of hg j
      obtain ⟨i, _, hlt⟩ := hot_eventually s f g d j hh hd'
      exact ih _ (by omega) i rfl

end Alaya.Pool
