import Verif.Spec.ThreadReader

/-! Counting reads and events of the thread-pool reader. -/
namespace Alaya.ThreadReader

/-! ### Sums -/

def tot {α : Type} (g : α → Nat) (l : List α) : Nat := (l.map g).sum

theorem tot_append {α : Type} (g : α → Nat) (l m : List α) : tot g (l ++ m) = tot g l + tot g m := by simp [tot]

theorem tot_nil {α : Type} (g : α → Nat) : tot g [] = 0 := rfl

theorem tot_cons {α : Type} (g : α → Nat) (a : α) (l : List α) : tot g (a :: l) = g a + tot g l := by simp [tot]

theorem tot_set {α : Type} (g : α → Nat) {l : List α} {i : Nat} {x : α} (y : α) (h : l[i]? = some x) :
    tot g (l.set i y) + g x = tot g l + g y := by
  induction l generalizing i with
  | nil => simp at h
  | cons a l ih =>
    cases i with
    | zero => simp at h; subst h; simp [tot_cons]; omega
    | succ i => simp at h; simp only [List.set_cons_succ, tot_cons]; have := ih h; omega

theorem tot_zero {α : Type} (g : α → Nat) {l : List α} (h : ∀ x ∈ l, g x = 0) : tot g l = 0 := by
  induction l with
  | nil => rfl
  | cons a l ih => rw [tot_cons, h a (by simp), ih (fun x hx => h x (by simp [hx]))]

theorem tot_pos {α : Type} {g : α → Nat} {l : List α} (h : 0 < tot g l) : ∃ (i : Nat) (x : α), l[i]? = some x ∧ 0 < g x := by
  induction l with
  | nil => simp [tot] at h
  | cons a l ih =>
    rw [tot_cons] at h
    by_cases ha : 0 < g a
    · exact ⟨0, a, by simp, ha⟩
    · obtain ⟨i, x, hi, hx⟩ := ih (by omega)
      exact ⟨i + 1, x, by simpa using hi, hx⟩

theorem le_tot {α : Type} (g : α → Nat) {l : List α} {i : Nat} {x : α} (h : l[i]? = some x) : g x ≤ tot g l := by
  induction l generalizing i with
  | nil => simp at h
  | cons a l ih =>
    rw [tot_cons]
    cases i with
    | zero => simp at h; subst h; omega
    | succ i => simp at h; have := ih h; omega

theorem count_eraseIdx' {α : Type} [BEq α] [LawfulBEq α] (a : α) {l : List α} {p : Nat} {x : α} (h : l[p]? = some x) :
    (l.eraseIdx p).count a + (if x == a then 1 else 0) = l.count a := by
  induction l generalizing p with
  | nil => simp at h
  | cons b l ih =>
    cases p with
    | zero => simp at h; subst h; simp [List.count_cons]
    | succ p => simp at h; simp only [List.eraseIdx_cons_succ, List.count_cons]; have := ih h; omega

theorem length_eraseIdx' {α : Type} {l : List α} {p : Nat} {x : α} (h : l[p]? = some x) : (l.eraseIdx p).length + 1 = l.length := by
  have hp : p < l.length := by
    rcases Nat.lt_or_ge p l.length with h' | h'
    · exact h'
    · rw [List.getElem?_eq_none h'] at h; cases h
  rw [List.length_eraseIdx_of_lt hp]; omega

theorem takeAll_count (a : Event) {l : List Event} {ps : List Nat} {o rest : List Event} (h : takeAll l ps = some (o, rest)) :
    o.count a + rest.count a = l.count a := by
  induction ps generalizing l o rest with
  | nil => simp [takeAll] at h; obtain ⟨rfl, rfl⟩ := h; simp
  | cons p ps ih =>
    unfold takeAll at h
    cases hl : l[p]? with
    | none => rw [hl] at h; cases h
    | some e =>
      rw [hl] at h
      simp only [Option.map_eq_some_iff] at h
      obtain ⟨⟨o', rest'⟩, h', he⟩ := h
      simp only [Prod.mk.injEq] at he
      obtain ⟨rfl, rfl⟩ := he
      have := ih h'
      have := count_eraseIdx' a hl
      rw [List.count_cons]; omega

theorem takeAll_length {l : List Event} {ps : List Nat} {o rest : List Event} (h : takeAll l ps = some (o, rest)) :
    o.length = ps.length ∧ o.length + rest.length = l.length := by
  induction ps generalizing l o rest with
  | nil => simp [takeAll] at h; obtain ⟨rfl, rfl⟩ := h; simp
  | cons p ps ih =>
    unfold takeAll at h
    cases hl : l[p]? with
    | none => rw [hl] at h; cases h
    | some e =>
      rw [hl] at h
      simp only [Option.map_eq_some_iff] at h
      obtain ⟨⟨o', rest'⟩, h', he⟩ := h
      simp only [Prod.mk.injEq] at he
      obtain ⟨rfl, rfl⟩ := he
      have := ih h'
      have := length_eraseIdx' hl
      simp; omega

/-! ### Where reads and events are -/

def Worker.reads (c : Nat) (r : Read) : Worker → Nat
  | .busy j => if j = ⟨c, r⟩ then 1 else 0
  | _ => 0

def Worker.reports (c : Nat) (e : Event) : Worker → Nat
  | .got j r => if j.c = c ∧ report (j.read, r) = e then 1 else 0
  | .push j r => if j.c = c ∧ report (j.read, r) = e then 1 else 0
  | _ => 0

def Call.has (c : Nat) (e : Event) (v : Call) : Nat := if v.c = c ∧ v.over = false then v.out.count e else 0

def State.comp (s : State) (c : Nat) : List Event :=
  match s.ctxs[c]? with
  | some x => x.completions
  | none => []

/-- Reads of a context not yet performed. -/
def State.todo (s : State) (c : Nat) (r : Read) : Nat := s.queue.count ⟨c, r⟩ + tot (Worker.reads c r) s.workers

/-- Events of a context not yet handed out. -/
def State.undelivered (s : State) (c : Nat) (e : Event) : Nat :=
  tot (Worker.reports c e) s.workers + (s.comp c).count e + tot (Call.has c e) s.calls

/-- The context does not exist yet, or is live. -/
def Kept (s : State) (c : Nat) : Prop := ∀ x, s.ctxs[c]? = some x → x.alive = true ∧ x.active = true

theorem Live.kept {s : State} {c : Nat} (h : Live s c) : Kept s c := by
  intro x hx
  obtain ⟨y, hy, h1⟩ := h
  rw [hy] at hx; cases hx; exact h1

theorem lt_of_some {α : Type} {l : List α} {i : Nat} {x : α} (h : l[i]? = some x) : i < l.length := by
  rcases Nat.lt_or_ge i l.length with h' | h'
  · exact h'
  · rw [List.getElem?_eq_none h'] at h; cases h

theorem get_set_cases {α : Type} {l : List α} {i j : Nat} {x y z : α} (h : l[i]? = some x) (hj : (l.set i y)[j]? = some z) :
    (j = i ∧ z = y) ∨ (j ≠ i ∧ l[j]? = some z) := by
  by_cases e : j = i
  · subst e
    rw [List.getElem?_set_self (lt_of_some h)] at hj
    exact .inl ⟨rfl, (Option.some.inj hj).symm⟩
  · rw [List.getElem?_set_ne (Ne.symm e)] at hj
    exact .inr ⟨e, hj⟩

theorem comp_putC {s : State} {c d : Nat} {x y : Ctx} (h : s.ctxs[c]? = some x) :
    (s.putC c y).comp d = if d = c then y.completions else s.comp d := by
  unfold State.comp State.putC
  simp only
  by_cases e : d = c
  · subst e; rw [List.getElem?_set_self (lt_of_some h)]; simp
  · rw [List.getElem?_set_ne (Ne.symm e)]; simp [e]

theorem comp_of {s : State} {c : Nat} {x : Ctx} (h : s.ctxs[c]? = some x) : s.comp c = x.completions := by
  unfold State.comp; rw [h]

/-! ### The observations of one action -/

theorem submittedTo_append (c : Nat) (a b : List Obs) : submittedTo c (a ++ b) = submittedTo c a ++ submittedTo c b := by
  simp [submittedTo]

theorem performedFor_append (c : Nat) (a b : List Obs) : performedFor c (a ++ b) = performedFor c a ++ performedFor c b := by
  simp [performedFor]

theorem handedTo_append (c : Nat) (a b : List Obs) : handedTo c (a ++ b) = handedTo c a ++ handedTo c b := by
  simp [handedTo]

theorem submittedTo_submitted (c d : Nat) (rs : List Read) :
    submittedTo c (rs.map (Obs.submitted d)) = if d = c then rs else [] := by
  induction rs with
  | nil => simp [submittedTo]
  | cons r rs ih =>
    unfold submittedTo at ih ⊢
    rw [List.map_cons, List.filterMap_cons, ih]
    by_cases e : d = c <;> simp [e]

theorem handedTo_handed (c d : Nat) (es : List Event) : handedTo c (es.map (Obs.handed d)) = if d = c then es else [] := by
  induction es with
  | nil => simp [handedTo]
  | cons r rs ih =>
    unfold handedTo at ih ⊢
    rw [List.map_cons, List.filterMap_cons, ih]
    by_cases e : d = c <;> simp [e]

theorem performedFor_submitted (c d : Nat) (rs : List Read) : performedFor c (rs.map (Obs.submitted d)) = [] := by
  simp [performedFor, List.filterMap_map]
theorem performedFor_handed (c d : Nat) (es : List Event) : performedFor c (es.map (Obs.handed d)) = [] := by
  simp [performedFor, List.filterMap_map]
theorem submittedTo_handed (c d : Nat) (es : List Event) : submittedTo c (es.map (Obs.handed d)) = [] := by
  simp [submittedTo, List.filterMap_map]
theorem handedTo_submitted (c d : Nat) (rs : List Read) : handedTo c (rs.map (Obs.submitted d)) = [] := by
  simp [handedTo, List.filterMap_map]

theorem count_jobs (c d : Nat) (r : Read) (rs : List Read) :
    (rs.map (Job.mk d)).count ⟨c, r⟩ = if d = c then rs.count r else 0 := by
  induction rs with
  | nil => simp
  | cons x rs ih =>
    rw [List.map_cons, List.count_cons, ih]
    by_cases e : d = c
    · subst e; simp [List.count_cons]
    · simp [e]

/-! ### The possible actions -/

inductive Trans (s : State) : Ev → State → List Obs → Prop where
  | «open» {n : Nat} : s.phase = .closed → 0 < n →
      Trans s (.open n) { s with phase := .opened, fd := true, stop := false, workers := List.replicate n .idle } []
  | register {t : Nat} : (∀ x ∈ s.ctxs, x.alive = true → x.owner ≠ t) → Trans s (.register t) { s with ctxs := s.ctxs ++ [⟨t, [], true, true⟩] } []
  | mark {c : Nat} {x : Ctx} : s.ctxs[c]? = some x → x.alive = true → x.active = true →
      Trans s (.mark c) (s.putC c { x with active := false }) []
  | free {c : Nat} {x : Ctx} : s.ctxs[c]? = some x → x.alive = true → x.active = false →
      Trans s (.free c) (s.putC c { x with alive := false, completions := [] }) []
  | submit {c : Nat} {rs : List Read} : c < s.ctxs.length → s.phase = .opened → rs.length ≤ maxEvents →
      Trans s (.submit c rs) { s with queue := s.queue ++ rs.map (Job.mk c) } (rs.map (Obs.submitted c))
  | poll {c m : Nat} {ps : List Nat} {x : Ctx} {o rest : List Event} : s.ctxs[c]? = some x → x.alive = true → ps.length ≤ m →
      takeAll x.completions ps = some (o, rest) →
      Trans s (.poll c m ps) (s.putC c { x with completions := rest }) (o.map (Obs.handed c))
  | get {c n : Nat} : c < s.ctxs.length → Trans s (.get c n) { s with calls := s.calls ++ [⟨c, n, [], false⟩] } []
  | collect {k p : Nat} {v : Call} {x : Ctx} {e : Event} : s.calls[k]? = some v → v.over = false → v.out.length < v.n →
      s.ctxs[v.c]? = some x → x.alive = true → x.completions[p]? = some e →
      Trans s (.collect k p) ((s.putC v.c { x with completions := x.completions.eraseIdx p }).putK k { v with out := v.out ++ [e] }) []
  | ret {k : Nat} {v : Call} : s.calls[k]? = some v → v.over = false → v.n ≤ v.out.length →
      Trans s (.ret k) (s.putK k { v with over := true }) (v.out.map (Obs.handed v.c))
  | stop : s.phase ≠ .closing → Trans s .stop { s with phase := .closing, stop := true } []
  | finish : s.phase = .closing → (∀ x ∈ s.workers, x = .gone) →
      Trans s .finish { s with phase := .closed, fd := false, queue := [], workers := [], ctxs := s.ctxs.map (fun x => { x with active := false, alive := false, completions := [] }) } []
  | take {w p : Nat} {j : Job} : s.workers[w]? = some .idle → s.queue[p]? = some j →
      Trans s (.take w p) { s.putW w (.busy j) with queue := s.queue.eraseIdx p } []
  | miss {w : Nat} : s.workers[w]? = some .idle → Trans s (.miss w) (s.putW w .miss) []
  | look {w : Nat} : s.workers[w]? = some .miss → Trans s (.look w) (s.putW w (if s.stop then .gone else .idle)) []
  | pread {w : Nat} {j : Job} {r : Int} : s.workers[w]? = some (.busy j) → s.fd = true →
      Trans s (.pread w r) (s.putW w (.got j r)) [.performed j.c j.read r]
  | active {w : Nat} {j : Job} {r : Int} {x : Ctx} : s.workers[w]? = some (.got j r) → s.ctxs[j.c]? = some x → x.alive = true →
      Trans s (.active w) (s.putW w (if x.active then .push j r else .idle)) []
  | push {w : Nat} {j : Job} {r : Int} {x : Ctx} : s.workers[w]? = some (.push j r) → s.ctxs[j.c]? = some x → x.alive = true →
      Trans s (.push w) ((s.putC j.c { x with completions := x.completions ++ [⟨j.read.id, r⟩] }).putW w (.wake j.c)) []
  | wake {w c : Nat} {x : Ctx} : s.workers[w]? = some (.wake c) → s.ctxs[c]? = some x → x.alive = true →
      Trans s (.wake w) (s.putW w .idle) []

theorem trans_of_step {s s' : State} {e : Ev} {o : List Obs} (h : step s e = .ok s' o) : Trans s e s' o := by
  cases e <;> simp only [step] at h
  case «open» n =>
    unfold State.openFile at h
    split at h
    · cases h
    · rename_i hn
      simp only [Res.ok.injEq] at h; obtain ⟨rfl, rfl⟩ := h
      have h1 : s.phase = .closed := Classical.byContradiction (fun h => hn (.inl h))
      have h2 : n ≠ 0 := fun h => hn (.inr h)
      exact .open h1 (Nat.pos_of_ne_zero h2)
  case register t =>
    unfold State.register at h
    split at h
    · cases h
    · rename_i hn
      simp only [Res.ok.injEq] at h; obtain ⟨rfl, rfl⟩ := h
      refine .register (fun x hx ha ho => hn ?_)
      rw [List.any_eq_true]
      exact ⟨x, hx, by simp [ha, ho]⟩
  case mark c =>
    unfold State.mark at h
    split at h
    · rename_i x hx
      split at h
      · rename_i ha
        simp only [Res.ok.injEq] at h; obtain ⟨rfl, rfl⟩ := h
        exact .mark hx ha.1 ha.2
      · cases h
    · cases h
  case free c =>
    unfold State.free at h
    split at h
    · rename_i x hx
      split at h
      · rename_i ha
        simp only [Res.ok.injEq] at h; obtain ⟨rfl, rfl⟩ := h
        exact .free hx ha.1 (by simpa using ha.2)
      · cases h
    · cases h
  case submit c rs =>
    unfold State.submit at h
    split at h
    · cases h
    · rename_i hc
      split at h
      · cases h
      · cases h
      · rename_i hp
        split at h
        · cases h
        · simp only [Res.ok.injEq] at h; obtain ⟨rfl, rfl⟩ := h
          exact .submit (by omega) hp (by omega)
  case poll c m ps =>
    unfold State.poll at h
    split at h
    · cases h
    · split at h
      · cases h
      · rename_i x hx
        split at h
        · rename_i ha
          split at h
          · cases h
          · rename_i o' rest ht
            simp only [Res.ok.injEq] at h; obtain ⟨rfl, rfl⟩ := h
            exact .poll hx ha (by omega) ht
        · cases h
  case get c n =>
    unfold State.get at h
    split at h
    · cases h
    · simp only [Res.ok.injEq] at h; obtain ⟨rfl, rfl⟩ := h
      exact .get (by omega)
  case collect k p =>
    unfold State.collect at h
    split at h
    · cases h
    · rename_i v hv
      split at h
      · cases h
      · rename_i hc
        split at h
        · cases h
        · rename_i x hx
          split at h
          · rename_i ha
            split at h
            · cases h
            · rename_i e he
              simp only [Res.ok.injEq] at h; obtain ⟨rfl, rfl⟩ := h
              have h1 : v.over = false := by
                cases hh : v.over
                · rfl
                · exact absurd (.inl hh) hc
              have h2 : v.out.length < v.n := Classical.byContradiction (fun h => hc (.inr h))
              exact .collect hv h1 h2 hx ha he
          · cases h
  case ret k =>
    unfold State.ret at h
    split at h
    · cases h
    · rename_i v hv
      split at h
      · cases h
      · rename_i hc
        simp only [Res.ok.injEq] at h; obtain ⟨rfl, rfl⟩ := h
        have h1 : v.over = false := by
          cases hh : v.over
          · rfl
          · exact absurd (.inl hh) hc
        have h2 : ¬ v.out.length < v.n := fun h => hc (.inr h)
        exact .ret hv h1 (by omega)
  case stop =>
    unfold State.stopAll at h
    split at h
    · cases h
    · rename_i hp
      simp only [Res.ok.injEq] at h; obtain ⟨rfl, rfl⟩ := h
      exact .stop hp
  case finish =>
    unfold State.finish at h
    split at h
    · rename_i hp
      simp only [Res.ok.injEq] at h; obtain ⟨rfl, rfl⟩ := h
      exact .finish hp.1 (by simpa using hp.2)
    · cases h
  case take w p =>
    unfold State.take at h
    split at h
    · rename_i j hw hj
      simp only [Res.ok.injEq] at h; obtain ⟨rfl, rfl⟩ := h
      exact .take hw hj
    · cases h
  case miss w =>
    unfold State.miss at h
    split at h
    · rename_i hw
      simp only [Res.ok.injEq] at h; obtain ⟨rfl, rfl⟩ := h
      exact .miss hw
    · cases h
  case look w =>
    unfold State.look at h
    split at h
    · rename_i hw
      simp only [Res.ok.injEq] at h; obtain ⟨rfl, rfl⟩ := h
      exact .look hw
    · cases h
  case pread w r =>
    unfold State.pread at h
    split at h
    · rename_i j hw
      split at h
      · rename_i hf
        simp only [Res.ok.injEq] at h; obtain ⟨rfl, rfl⟩ := h
        exact .pread hw hf
      · cases h
    · cases h
  case active w =>
    unfold State.active at h
    split at h
    · rename_i j r hw
      split at h
      · cases h
      · rename_i x hx
        split at h
        · rename_i ha
          simp only [Res.ok.injEq] at h; obtain ⟨rfl, rfl⟩ := h
          exact .active hw hx ha
        · cases h
    · cases h
  case push w =>
    unfold State.push at h
    split at h
    · rename_i j r hw
      split at h
      · cases h
      · rename_i x hx
        split at h
        · rename_i ha
          simp only [Res.ok.injEq] at h; obtain ⟨rfl, rfl⟩ := h
          exact .push hw hx ha
        · cases h
    · cases h
  case wake w =>
    unfold State.wake at h
    split at h
    · rename_i c hw
      split at h
      · cases h
      · rename_i x hx
        split at h
        · rename_i ha
          simp only [Res.ok.injEq] at h; obtain ⟨rfl, rfl⟩ := h
          exact .wake hw hx ha
        · cases h
    · cases h

end Alaya.ThreadReader
