import Verif.Lemmas.VamanaBuild
import Mathlib.Tactic.ByContra

namespace Alaya.VBuild
open Alaya.Pools Alaya.Spec

/-- A list of neighbours of `v`. -/
structure LOk (c : Cfg) (v : Nat) (l : List Nat) : Prop where
  nd : l.Nodup
  self : v ∉ l
  lt : ∀ u ∈ l, u < c.n

/-- What is still to be given the reverse edge. -/
structure RevOk (c : Cfg) (node : Nat) (rest : List Nat) : Prop where
  lt : node < c.n
  len : rest.length ≤ c.R
  self : node ∉ rest
  rest : ∀ d ∈ rest, d < c.n

def PhOk (c : Cfg) (st : Stage) (sc : Scratch) : Ph → Prop
  | .idle => True
  | .search node pool => st = .link ∧ node < c.n ∧ TInv c (c.dist node) sc pool ∧ (pool = [] → sc.touched = [c.medoid]) ∧
      (pool ≠ [] → c.medoid ∈ pool.map Nbr.id)
  | .rev node rest => st = .link ∧ RevOk c node rest
  | .redo des snap back => des < c.n ∧ snap ≠ [] ∧ des ∉ snap ∧ (∀ u ∈ snap, u < c.n) ∧ (back = none → st = .cleanup) ∧
      ∀ b, back = some b → st = .link ∧ RevOk c b.1 b.2

structure ThrOk (c : Cfg) (st : Stage) (x : Thr) : Prop where
  todo : ∀ v ∈ x.todo, v < c.n
  sc : ScratchOk x.sc
  ph : PhOk c st x.sc x.ph

/-- Nodes a thread has not written yet (first loop). -/
def Mine (x : Thr) (v : Nat) : Prop := v ∈ x.todo ∨ ∃ pool, x.ph = .search v pool

/-- Nodes a thread has not cut yet (second loop). -/
def Mine2 (x : Thr) (v : Nat) : Prop := v ∈ x.todo ∨ ∃ snap, x.ph = .redo v snap none

structure Inv (c : Cfg) (s : State) : Prop where
  glen : s.g.length = c.n
  lists : ∀ v l, s.g[v]? = some l → LOk c v l
  next : s.next ≤ c.n
  thr : ∀ x ∈ s.thr, ThrOk c s.stage x
  written : ∀ v l, v ≠ c.medoid → s.g[v]? = some l → (s.stage = .link → v < s.next ∧ ∀ x ∈ s.thr, ¬ Mine x v) → l ≠ []
  cut : ∀ v l, s.stage ≠ .link → s.g[v]? = some l → (s.stage = .cleanup → v < s.next ∧ ∀ x ∈ s.thr, ¬ Mine2 x v) → l.length ≤ c.R

/-- An optional write. -/
def put (p : Option (Nat × List Nat)) (g : List (List Nat)) : List (List Nat) :=
  match p with
  | none => g
  | some (w, l) => g.set w l

theorem put_length (p : Option (Nat × List Nat)) (g : List (List Nat)) : (put p g).length = g.length := by
  unfold put; split <;> simp

theorem put_get {p : Option (Nat × List Nat)} {g : List (List Nat)} {v : Nat} {l : List Nat} (h : (put p g)[v]? = some l) :
    p = some (v, l) ∨ (g[v]? = some l ∧ ∀ l', p ≠ some (v, l')) := by
  unfold put at h
  split at h
  · exact .inr ⟨h, by simp⟩
  · rename_i w l'
    by_cases hw : w = v
    · subst hw
      have hlt := (List.getElem?_eq_some_iff.mp h).1
      simp only [List.length_set] at hlt
      rw [List.getElem?_set_self hlt] at h
      cases h
      exact .inl rfl
    · rw [List.getElem?_set_ne hw] at h
      refine .inr ⟨h, ?_⟩
      intro l'' e
      cases e
      exact hw rfl

theorem mem_set {α : Type} {l : List α} {t : Nat} {x' y : α} (h : y ∈ l.set t x') : y = x' ∨ ∃ i, i ≠ t ∧ l[i]? = some y := by
  obtain ⟨i, hi⟩ := List.getElem?_of_mem h
  by_cases hit : t = i
  · subst hit
    have hlt := (List.getElem?_eq_some_iff.mp hi).1
    simp only [List.length_set] at hlt
    rw [List.getElem?_set_self hlt] at hi
    cases hi
    exact .inl rfl
  · rw [List.getElem?_set_ne hit] at hi
    exact .inr ⟨i, fun h => hit h.symm, hi⟩

theorem set_mem {α : Type} {l : List α} {t : Nat} {x x' : α} (h : l[t]? = some x) : x' ∈ l.set t x' ∧ ∀ i y, i ≠ t → l[i]? = some y → y ∈ l.set t x' := by
  have hlt := (List.getElem?_eq_some_iff.mp h).1
  constructor
  · exact List.mem_of_getElem? (i := t) (by rw [List.getElem?_set_self hlt])
  · intro i y hi e
    exact List.mem_of_getElem? (i := i) (by rw [List.getElem?_set_ne (Ne.symm hi)]; exact e)

theorem Inv.move {c : Cfg} {s : State} (h : Inv c s) {t : Nat} {x : Thr} (e : s.thr[t]? = some x) (x' : Thr) (p : Option (Nat × List Nat))
    (hx' : ThrOk c s.stage x')
    (hw : ∀ w l, p = some (w, l) → LOk c w l ∧ (l ≠ [] ∨ w = c.medoid) ∧ (s.stage ≠ .link → l.length ≤ c.R))
    (hp1 : s.stage = .link → ∀ v, Mine x v → Mine x' v ∨ ∃ l, p = some (v, l))
    (hp2 : s.stage = .cleanup → ∀ v, Mine2 x v → Mine2 x' v ∨ (∃ l, p = some (v, l)) ∨ ∀ l, s.g[v]? = some l → l.length ≤ c.R) :
    Inv c { s with g := put p s.g, thr := s.thr.set t x' } := by
  have hset := set_mem (x' := x') e
  have hback : ∀ v, (∀ y ∈ s.thr.set t x', ¬ Mine y v) → ∀ y ∈ s.thr, Mine y v → y = x := by
    intro v hno y hy hm
    obtain ⟨i, hi⟩ := List.getElem?_of_mem hy
    by_cases hit : i = t
    · subst hit; rw [e] at hi; cases hi; rfl
    · exact absurd hm (hno y (hset.2 i y hit hi))
  have hback2 : ∀ v, (∀ y ∈ s.thr.set t x', ¬ Mine2 y v) → ∀ y ∈ s.thr, Mine2 y v → y = x := by
    intro v hno y hy hm
    obtain ⟨i, hi⟩ := List.getElem?_of_mem hy
    by_cases hit : i = t
    · subst hit; rw [e] at hi; cases hi; rfl
    · exact absurd hm (hno y (hset.2 i y hit hi))
  refine ⟨by simp only [put_length]; exact h.glen, ?_, h.next, ?_, ?_, ?_⟩
  · intro v l hl
    rcases put_get hl with hp | ⟨hg, _⟩
    · exact (hw v l hp).1
    · exact h.lists v l hg
  · intro y hy
    rcases mem_set hy with rfl | ⟨i, _, hi⟩
    · exact hx'
    · exact h.thr y (List.mem_of_getElem? hi)
  · intro v l hv hl hst
    rcases put_get hl with hp | ⟨hg, hnp⟩
    · rcases (hw v l hp).2.1 with h' | h'
      · exact h'
      · exact absurd h' hv
    · refine h.written v l hv hg (fun hlink => ?_)
      obtain ⟨h1, h2⟩ := hst hlink
      refine ⟨h1, fun y hy hm => ?_⟩
      have := hback v h2 y hy hm
      subst this
      rcases hp1 hlink v hm with h' | ⟨l', h'⟩
      · exact h2 x' hset.1 h'
      · exact hnp l' h'
  · intro v l hnl hl hst
    rcases put_get hl with hp | ⟨hg, hnp⟩
    · exact (hw v l hp).2.2 hnl
    · by_cases hcl : s.stage = .cleanup
      · obtain ⟨h1, h2⟩ := hst hcl
        by_cases hm : Mine2 x v
        · rcases hp2 hcl v hm with h' | ⟨l', h'⟩ | h'
          · exact absurd h' (h2 x' hset.1)
          · exact absurd h' (hnp l')
          · exact h' l hg
        · refine h.cut v l hnl hg (fun _ => ⟨h1, fun y hy hmy => ?_⟩)
          have := hback2 v h2 y hy hmy
          subst this
          exact hm hmy
      · exact h.cut v l hnl hg (fun h' => absurd h' hcl)

/-! ### The measure -/

def Cfg.W (c : Cfg) : Nat := c.n + 2 * c.R + 5

def Ph.w (c : Cfg) : Ph → Nat
  | .idle => 0
  | .search _ pool => (c.n - pool.length) + 2 * c.R + 3
  | .rev _ rest => 2 * rest.length + 1
  | .redo _ _ none => 1
  | .redo _ _ (some b) => 2 * b.2.length + 2

def Thr.w (c : Cfg) (x : Thr) : Nat := x.todo.length * c.W + x.ph.w c

def Stage.w (c : Cfg) : Stage → Nat
  | .link => c.n * (c.W + 1) + 2
  | .cleanup => 1
  | .fin => 0

def State.mu (c : Cfg) (s : State) : Nat := s.stage.w c + (c.n - s.next) * (c.W + 1) + (s.thr.map (Thr.w c)).sum

theorem sum_set {α : Type} (f : α → Nat) : ∀ (l : List α) (t : Nat) (x x' : α), l[t]? = some x →
    ((l.set t x').map f).sum + f x = (l.map f).sum + f x' := by
  intro l
  induction l with
  | nil => intro t x x' h; simp at h
  | cons a l ih =>
    intro t x x' h
    cases t with
    | zero => simp at h; subst h; simp; omega
    | succ t =>
      simp at h
      have := ih t x x' h
      simp only [List.set_cons_succ, List.map_cons, List.sum_cons]
      omega

/-- A step that is allowed: no undefined behaviour, the invariant is kept, the measure falls. -/
def StepOk (c : Cfg) (s : State) (o : Out) : Prop := o ≠ .ub ∧ ∀ s', o = .ok s' → Inv c s' ∧ s'.mu c < s.mu c

theorem StepOk.of {c : Cfg} {s s' : State} (h : Inv c s') (hm : s'.mu c < s.mu c) : StepOk c s (.ok s') :=
  ⟨by simp, by rintro s'' e; cases e; exact ⟨h, hm⟩⟩

theorem mu_move {c : Cfg} {s : State} {t : Nat} {x : Thr} (e : s.thr[t]? = some x) (x' : Thr) (g : List (List Nat)) (h : x'.w c < x.w c) :
    State.mu c { s with g := g, thr := s.thr.set t x' } < s.mu c := by
  have := sum_set (Thr.w c) s.thr t x x' e
  unfold State.mu
  simp only
  omega

theorem start_ok {c : Cfg} (hc : c.Ok) {s : State} (h : Inv c s) {t node : Nat} {rest : List Nat} {sc : Scratch}
    (e : s.thr[t]? = some ⟨node :: rest, .idle, sc⟩) (hst : s.stage = .link) : StepOk c s (s.start c t node rest sc) := by
  have hx := h.thr _ (List.mem_of_getElem? e)
  obtain ⟨s0, s1, e0, e1, h1, h2⟩ := TInv.start hc (c.dist node) hx.sc
  unfold State.start
  rw [e0]
  simp only
  rw [e1]
  refine StepOk.of (h.move e ⟨rest, .search node [], s1⟩ none ?_ (by simp) ?_ (by rw [hst]; simp)) (mu_move e _ s.g ?_)
  · exact ⟨fun v hv => hx.todo v (List.mem_cons_of_mem _ hv), h1.scratch, hst, hx.todo node List.mem_cons_self, h1, fun _ => h2,
      fun h => absurd rfl h⟩
  · intro _ v hm
    left
    rcases hm with hm | ⟨pool, hm⟩
    · rcases List.mem_cons.mp hm with rfl | hm
      · exact .inr ⟨[], rfl⟩
      · exact .inl hm
    · cases hm
  · unfold Thr.w Ph.w Cfg.W
    simp only [List.length_cons, List.length_nil]
    rw [Nat.add_mul]
    omega

theorem expand_ok {c : Cfg} {s : State} (h : Inv c s) {t node : Nat} {pool : List Nbr} {x : Thr}
    (e : s.thr[t]? = some x) (hph : x.ph = .search node pool) (hu : x.sc.pool.hasUnexpanded = true) :
    StepOk c s (s.expand c t x node pool) := by
  have hx := h.thr _ (List.mem_of_getElem? e)
  have hp := hx.ph
  rw [hph] at hp
  obtain ⟨hst, hn, hT, h1, h2⟩ := hp
  obtain ⟨q, nb, e1, hT1, hnb⟩ := hT.expand hu
  unfold State.expand
  rw [e1]
  simp only
  have hlt := hT.tlt _ hnb
  obtain ⟨nbrs, eg⟩ : ∃ l, s.g[nb.id]? = some l := ⟨_, List.getElem?_eq_getElem (by rw [h.glen]; exact hlt)⟩
  rw [eg]
  simp only
  obtain ⟨sc, e2, hT2, h3, h4, h5⟩ := hT1.visitAll nbrs (h.lists _ _ eg).lt
  rw [e2]
  have hmed : c.medoid ∈ (pool ++ [nb]).map Nbr.id := by
    by_cases hpool : pool = []
    · have := h1 hpool
      rw [this] at hnb
      have : nb.id = c.medoid := by simpa using hnb
      rw [hpool]
      simp [this]
    · rw [List.map_append]; exact List.mem_append_left _ (h2 hpool)
  refine StepOk.of (h.move e ⟨x.todo, .search node (pool ++ [nb]), sc⟩ none ?_ (by simp) ?_ (by rw [hst]; simp)) (mu_move e _ s.g ?_)
  · exact ⟨hx.todo, hT2.scratch, hst, hn, hT2, by simp, fun _ => hmed⟩
  · intro _ v hm
    left
    rcases hm with hm | ⟨pool', hm⟩
    · exact .inl hm
    · rw [hph] at hm
      cases hm
      exact .inr ⟨_, rfl⟩
  · have hl := hT1.pool_len
    unfold Thr.w
    simp only [hph, Ph.w, List.length_append, List.length_cons, List.length_nil] at hl ⊢
    omega

theorem own_ok {c : Cfg} (hc : c.Ok) {s : State} (h : Inv c s) {t node : Nat} {pool : List Nbr} {x : Thr}
    (e : s.thr[t]? = some x) (hph : x.ph = .search node pool) (hu : x.sc.pool.hasUnexpanded = false) :
    StepOk c s (s.own c t x node pool) := by
  have hx := h.thr _ (List.mem_of_getElem? e)
  have hp := hx.ph
  rw [hph] at hp
  obtain ⟨hst, hn, hT, h1, h2⟩ := hp
  have hpool : pool ≠ [] := by
    intro hnil
    have hf := hT.full hu
    have ht := h1 hnil
    rw [hnil, ht] at hf
    have := hc.L
    simp at hf
    omega
  obtain ⟨hnd, hsub⟩ := hT.pool_lt
  obtain ⟨l, el, hlen, hself, hln, hsubl, hne⟩ := Cfg.prune_spec hc (loc := node) (pool := pool.filter (fun p => p.id ≠ node))
    (hnd.sublist (List.filter_sublist.map _)) (by intro p hp; simpa using (List.mem_filter.mp hp).2)
  have hlt : ∀ i ∈ l, i < c.n := by
    intro i hi
    obtain ⟨p, hp, rfl⟩ := hsubl i hi
    exact hT.tlt _ (hsub p (List.mem_filter.mp hp).1)
  unfold State.own
  rw [el]
  simp only
  unfold State.write
  rw [if_pos (by rw [h.glen]; exact hn)]
  refine StepOk.of (h.move e ⟨x.todo, .rev node l, x.sc⟩ (some (node, l)) ?_ ?_ ?_ (by rw [hst]; simp)) (mu_move e _ _ ?_)
  · exact ⟨hx.todo, hx.sc, hst, hn, hlen, hself, hlt⟩
  · intro w l' hwl
    cases hwl
    refine ⟨⟨hln, hself, hlt⟩, ?_, fun hnl => absurd hst hnl⟩
    by_cases hm : node = c.medoid
    · exact .inr hm
    · left
      apply hne
      obtain ⟨p, hp, hpe⟩ := List.mem_map.mp (h2 hpool)
      intro hnil
      have : p ∈ pool.filter (fun p => p.id ≠ node) := List.mem_filter.mpr ⟨hp, by simpa [hpe] using fun h => hm h.symm⟩
      rw [hnil] at this
      cases this
  · intro _ v hm
    rcases hm with hm | ⟨pool', hm⟩
    · exact .inl (.inl hm)
    · rw [hph] at hm
      cases hm
      exact .inr ⟨l, rfl⟩
  · unfold Thr.w
    simp only [hph, Ph.w]
    omega

theorem back_ok {c : Cfg} {s : State} (h : Inv c s) {t node des : Nat} {rest : List Nat} {x : Thr}
    (e : s.thr[t]? = some x) (hph : x.ph = .rev node (des :: rest)) : StepOk c s (s.back c t x node des rest) := by
  have hx := h.thr _ (List.mem_of_getElem? e)
  have hp := hx.ph
  rw [hph] at hp
  obtain ⟨hst, hrev⟩ := hp
  have hdes : des < c.n := hrev.rest des List.mem_cons_self
  have hne : node ≠ des := fun h' => hrev.self (h' ▸ List.mem_cons_self)
  have hrev' : RevOk c node rest := ⟨hrev.lt, by have := hrev.len; simp at this; omega, fun h' => hrev.self (List.mem_cons_of_mem _ h'),
    fun d hd => hrev.rest d (List.mem_cons_of_mem _ hd)⟩
  unfold State.back
  obtain ⟨l, eg⟩ : ∃ l, s.g[des]? = some l := ⟨_, List.getElem?_eq_getElem (by rw [h.glen]; exact hdes)⟩
  rw [eg]
  simp only
  have hl := h.lists _ _ eg
  have hmine : ∀ (x' : Thr) (p : Option (Nat × List Nat)), x'.todo = x.todo → s.stage = .link → ∀ v, Mine x v → Mine x' v ∨ ∃ l, p = some (v, l) := by
    intro x' p ht _ v hm
    rcases hm with hm | ⟨pool', hm⟩
    · exact .inl (.inl (ht ▸ hm))
    · rw [hph] at hm; cases hm
  split
  · refine StepOk.of (h.move e ⟨x.todo, .rev node rest, x.sc⟩ none ?_ (by simp) (hmine _ _ rfl) (by rw [hst]; simp)) (mu_move e _ s.g ?_)
    · exact ⟨hx.todo, hx.sc, hst, hrev'⟩
    · unfold Thr.w; simp only [hph, Ph.w, List.length_cons]; omega
  · rename_i hnl
    have happ : LOk c des (l ++ [node]) := by
      refine ⟨List.nodup_append.mpr ⟨hl.nd, by simp, ?_⟩, ?_, ?_⟩
      · intro a ha b hb hab
        have : b = node := by simpa using hb
        subst this; subst hab; exact hnl ha
      · intro hm
        rcases List.mem_append.mp hm with hm | hm
        · exact hl.self hm
        · exact hne (by simpa using hm : des = node).symm
      · intro u hu
        rcases List.mem_append.mp hu with hu | hu
        · exact hl.lt u hu
        · have : u = node := by simpa using hu
          rw [this]; exact hrev.lt
    split
    · unfold State.write
      rw [if_pos (by rw [h.glen]; exact hdes)]
      refine StepOk.of (h.move e ⟨x.todo, .rev node rest, x.sc⟩ (some (des, l ++ [node])) ?_ ?_ (hmine _ _ rfl) (by rw [hst]; simp))
        (mu_move e _ _ ?_)
      · exact ⟨hx.todo, hx.sc, hst, hrev'⟩
      · intro w l' hwl
        cases hwl
        exact ⟨happ, .inl (by simp), fun hnl => absurd hst hnl⟩
      · unfold Thr.w; simp only [hph, Ph.w, List.length_cons]; omega
    · refine StepOk.of (h.move e ⟨x.todo, .redo des (l ++ [node]) (some (node, rest)), x.sc⟩ none ?_ (by simp) (hmine _ _ rfl)
        (by rw [hst]; simp)) (mu_move e _ s.g ?_)
      · refine ⟨hx.todo, hx.sc, hdes, by simp, happ.self, happ.lt, by simp, ?_⟩
        intro b hb
        cases hb
        exact ⟨hst, hrev'⟩
      · unfold Thr.w; simp only [hph, Ph.w, List.length_cons]; omega

theorem redo_ok {c : Cfg} (hc : c.Ok) {s : State} (h : Inv c s) {t des : Nat} {snap : List Nat} {back : Option (Nat × List Nat)} {x : Thr}
    (e : s.thr[t]? = some x) (hph : x.ph = .redo des snap back) : StepOk c s (s.redo c t x des snap back) := by
  have hx := h.thr _ (List.mem_of_getElem? e)
  have hp := hx.ph
  rw [hph] at hp
  obtain ⟨hdes, hsn, hself, hlt, hb1, hb2⟩ := hp
  obtain ⟨p1, p2, p3⟩ := poolOf_spec (c.dist des) des snap [] (by simp) (by simp)
  obtain ⟨l, el, hlen, hlself, hln, hsubl, hne⟩ := Cfg.prune_spec hc (loc := des) p1 p2
  have hpne : poolOf (c.dist des) des snap [] ≠ [] := by
    obtain ⟨a, ha⟩ := List.exists_mem_of_ne_nil _ hsn
    obtain ⟨q, hq, _⟩ := (p3 a).mpr (.inr ⟨ha, fun h' => hself (h' ▸ ha)⟩)
    exact List.ne_nil_of_mem hq
  unfold State.redo
  rw [el]
  simp only
  unfold State.write
  rw [if_pos (by rw [h.glen]; exact hdes)]
  refine StepOk.of (h.move e ⟨x.todo, after back, x.sc⟩ (some (des, l)) ?_ ?_ ?_ ?_) (mu_move e _ _ ?_)
  · refine ⟨hx.todo, hx.sc, ?_⟩
    cases back with
    | none => trivial
    | some b => exact hb2 b rfl
  · intro w l' hwl
    cases hwl
    refine ⟨⟨hln, hlself, ?_⟩, .inl (hne hpne), fun _ => hlen⟩
    intro u hu
    obtain ⟨q, hq, e'⟩ := hsubl u hu
    rcases (p3 u).mp ⟨q, hq, e'⟩ with ⟨_, h', _⟩ | h'
    · cases h'
    · exact hlt u h'.1
  · intro _ v hm
    rcases hm with hm | ⟨pool', hm⟩
    · exact .inl (.inl hm)
    · rw [hph] at hm; cases hm
  · intro _ v hm
    rcases hm with hm | ⟨snap', hm⟩
    · exact .inl (.inl hm)
    · rw [hph] at hm
      cases hm
      exact .inr (.inl ⟨l, rfl⟩)
  · unfold Thr.w
    simp only [hph]
    cases back with
    | none => simp only [after, Ph.w]; omega
    | some b => simp only [after, Ph.w]; omega

theorem run_ok {c : Cfg} (hc : c.Ok) {s : State} (h : Inv c s) (t : Nat) : StepOk c s (s.run c t) := by
  unfold State.run
  split
  · exact ⟨by simp, by simp⟩
  · rename_i x e
    have hx := h.thr _ (List.mem_of_getElem? e)
    split
    · rename_i hph
      split
      · rename_i htodo
        split
        · rename_i hnext
          have hpos : 0 < min c.chunk (c.n - s.next) := by have := hc.chunk; omega
          have hset := set_mem (x' := (⟨List.range' s.next (min c.chunk (c.n - s.next)), .idle, x.sc⟩ : Thr)) e
          have hx0 : x = ⟨[], .idle, x.sc⟩ := by cases x; simp_all
          refine StepOk.of ⟨h.glen, h.lists, ?_, ?_, ?_, ?_⟩ ?_
          · simp only; omega
          · intro y hy
            rcases mem_set hy with rfl | ⟨i, _, hi⟩
            · refine ⟨fun v hv => ?_, hx.sc, trivial⟩
              have := List.mem_range'_1.mp hv
              omega
            · exact h.thr y (List.mem_of_getElem? hi)
          · intro v l hv hl hst
            refine h.written v l hv hl (fun hlink => ?_)
            obtain ⟨h1, h2⟩ := hst hlink
            simp only at h1
            have hnot : v < s.next := by
              have := h2 _ hset.1
              by_contra hge
              exact this (.inl (List.mem_range'_1.mpr ⟨by omega, by omega⟩))
            refine ⟨hnot, fun y hy hm => ?_⟩
            obtain ⟨i, hi⟩ := List.getElem?_of_mem hy
            by_cases hit : i = t
            · subst hit
              rw [e] at hi
              cases hi
              rcases hm with hm | ⟨pool, hm⟩
              · rw [htodo] at hm; cases hm
              · rw [hph] at hm; cases hm
            · exact h2 y (hset.2 i y hit hi) hm
          · intro v l hnl hl hst
            refine h.cut v l hnl hl (fun hcl => ?_)
            obtain ⟨h1, h2⟩ := hst hcl
            simp only at h1
            have hnot : v < s.next := by
              have := h2 _ hset.1
              by_contra hge
              exact this (.inl (List.mem_range'_1.mpr ⟨by omega, by omega⟩))
            refine ⟨hnot, fun y hy hm => ?_⟩
            obtain ⟨i, hi⟩ := List.getElem?_of_mem hy
            by_cases hit : i = t
            · subst hit
              rw [e] at hi
              cases hi
              rcases hm with hm | ⟨pool, hm⟩
              · rw [htodo] at hm; cases hm
              · rw [hph] at hm; cases hm
            · exact h2 y (hset.2 i y hit hi) hm
          · have hs := sum_set (Thr.w c) s.thr t x ⟨List.range' s.next (min c.chunk (c.n - s.next)), .idle, x.sc⟩ e
            have hw0 : x.w c = 0 := by rw [hx0]; simp [Thr.w, Ph.w]
            have hw1 : Thr.w c ⟨List.range' s.next (min c.chunk (c.n - s.next)), .idle, x.sc⟩ = min c.chunk (c.n - s.next) * c.W := by
              simp [Thr.w, Ph.w]
            rw [hw0, hw1] at hs
            unfold State.mu State.thread
            simp only
            rw [Nat.add_zero] at hs
            rw [hs]
            generalize hk : min c.chunk (c.n - s.next) = k at *
            have hsplit : c.n - s.next = (c.n - (s.next + k)) + k := by omega
            have : (c.n - s.next) * (c.W + 1) = (c.n - (s.next + k)) * (c.W + 1) + (k * c.W + k) := by
              rw [hsplit, Nat.add_mul, Nat.mul_add k, Nat.mul_one]
            omega
        · exact ⟨by simp, by simp⟩
      · rename_i node rest htodo
        have hx0 : x = ⟨node :: rest, .idle, x.sc⟩ := by cases x; simp_all
        split
        · rename_i hst
          exact start_ok hc h (by rw [e]; exact congrArg some hx0) hst
        · rename_i hst
          have hn : node < c.n := hx.todo node (by rw [htodo]; exact List.mem_cons_self)
          obtain ⟨l, eg⟩ : ∃ l, s.g[node]? = some l := ⟨_, List.getElem?_eq_getElem (by rw [h.glen]; exact hn)⟩
          rw [eg]
          simp only
          have hl := h.lists _ _ eg
          refine StepOk.of (h.move e ⟨rest, if c.R < l.length then .redo node l none else .idle, x.sc⟩ none ?_ (by simp)
            (by rw [hst]; simp) ?_) (mu_move e _ s.g ?_)
          · refine ⟨fun v hv => hx.todo v (by rw [htodo]; exact List.mem_cons_of_mem _ hv), hx.sc, ?_⟩
            split
            · rename_i hR
              exact ⟨hn, by intro h'; rw [h'] at hR; simp at hR, hl.self, hl.lt, fun _ => hst, by simp⟩
            · trivial
          · intro _ v hm
            rcases hm with hm | ⟨snap, hm⟩
            · rw [htodo] at hm
              rcases List.mem_cons.mp hm with rfl | hm
              · by_cases hR : c.R < l.length
                · left; right
                  exact ⟨l, by simp [hR]⟩
                · right; right
                  intro l' hl'
                  rw [eg] at hl'
                  cases hl'
                  omega
              · exact .inl (.inl hm)
            · rw [hph] at hm; cases hm
          · unfold Thr.w Cfg.W
            rw [htodo, hph]
            simp only [List.length_cons, Nat.add_mul]
            split <;> simp only [Ph.w] <;> omega
        · exact ⟨by simp, by simp⟩
    · rename_i node pool hph
      split
      · rename_i hu
        exact expand_ok h e hph hu
      · rename_i hu
        exact own_ok hc h e hph (by simpa using hu)
    · rename_i node hph
      have hp := hx.ph
      rw [hph] at hp
      refine StepOk.of (h.move e ⟨x.todo, .idle, x.sc⟩ none ⟨hx.todo, hx.sc, trivial⟩ (by simp) ?_ (by rw [hp.1]; simp)) (mu_move e _ s.g ?_)
      · intro _ v hm
        rcases hm with hm | ⟨pool', hm⟩
        · exact .inl (.inl hm)
        · rw [hph] at hm; cases hm
      · unfold Thr.w; simp only [hph, Ph.w, List.length_nil]; omega
    · rename_i node des rest hph
      exact back_ok h e hph
    · rename_i des snap back hph
      exact redo_ok hc h e hph

theorem barrier_ok {c : Cfg} {s : State} (h : Inv c s) : StepOk c s (s.barrier c) := by
  unfold State.barrier
  split
  · rename_i hall
    obtain ⟨hn, hall⟩ := hall
    have hidle : ∀ x ∈ s.thr, x.ph = .idle ∧ x.todo = [] := by
      intro x hx
      simpa using List.all_eq_true.mp hall x hx
    have hmine : ∀ v, ∀ x ∈ s.thr, ¬ Mine x v := by
      intro v x hx hm
      obtain ⟨h1, h2⟩ := hidle x hx
      rcases hm with hm | ⟨p, hm⟩
      · rw [h2] at hm; cases hm
      · rw [h1] at hm; cases hm
    have hmine2 : ∀ v, ∀ x ∈ s.thr, ¬ Mine2 x v := by
      intro v x hx hm
      obtain ⟨h1, h2⟩ := hidle x hx
      rcases hm with hm | ⟨p, hm⟩
      · rw [h2] at hm; cases hm
      · rw [h1] at hm; cases hm
    have hlt : ∀ v l, s.g[v]? = some l → v < s.next := by
      intro v l hl
      have := (List.getElem?_eq_some_iff.mp hl).1
      rw [h.glen] at this
      omega
    have hthr : ∀ st, ∀ x ∈ s.thr, ThrOk c st x := by
      intro st x hx
      have := h.thr x hx
      exact ⟨this.todo, this.sc, by rw [(hidle x hx).1]; trivial⟩
    split
    · rename_i hst
      refine StepOk.of ⟨h.glen, h.lists, Nat.zero_le _, hthr _, ?_, ?_⟩ ?_
      · intro v l hv hl _
        exact h.written v l hv hl (fun _ => ⟨hlt v l hl, hmine v⟩)
      · intro v l _ hl hcl
        exact absurd (hcl rfl).1 (Nat.not_lt_zero _)
      · unfold State.mu
        simp only [hst, Stage.w, Nat.sub_zero]
        omega
    · rename_i hst
      refine StepOk.of ⟨h.glen, h.lists, h.next, hthr _, ?_, ?_⟩ ?_
      · intro v l hv hl _
        exact h.written v l hv hl (fun h' => by rw [hst] at h'; cases h')
      · intro v l _ hl _
        exact h.cut v l (by rw [hst]; simp) hl (fun _ => ⟨hlt v l hl, hmine2 v⟩)
      · unfold State.mu
        simp only [hst, Stage.w]
        omega
    · exact ⟨by simp, by simp⟩
  · exact ⟨by simp, by simp⟩

theorem init_inv (c : Cfg) (threads : Nat) : Inv c (.init c threads) := by
  refine ⟨by simp [State.init], ?_, Nat.zero_le _, ?_, ?_, ?_⟩
  · intro v l hl
    simp only [State.init] at hl
    have := List.mem_of_getElem? hl
    rw [List.eq_of_mem_replicate this]
    exact ⟨List.nodup_nil, by simp, by simp⟩
  · intro x hx
    simp only [State.init] at hx
    rw [List.eq_of_mem_replicate hx]
    refine ⟨by simp, ⟨by simp, ?_⟩, trivial⟩
    intro i hi
    have := List.eq_of_mem_replicate (List.mem_of_getElem? hi)
    cases this
  · intro v l _ _ h
    exact absurd (h rfl).1 (Nat.not_lt_zero _)
  · intro v l h
    exact absurd rfl h

/-- What a state without a further step looks like. -/
theorem stuck_fin {c : Cfg} (hc : c.Ok) {s : State} (h : Inv c s) (ht : s.thr ≠ []) (hs : ∀ a s', s.step c a ≠ .ok s') : s.stage = .fin := by
  have hrun : ∀ t, s.run c t = .blocked := by
    intro t
    cases e : s.run c t with
    | blocked => rfl
    | ub => exact absurd e (run_ok hc h t).1
    | ok s' => exact absurd e (hs (.run t) s')
  have hbar : s.barrier c = .blocked := by
    cases e : s.barrier c with
    | blocked => rfl
    | ub => exact absurd e (barrier_ok h).1
    | ok s' => exact absurd e (hs .barrier s')
  by_contra hst
  have hidle : ∀ x ∈ s.thr, x.ph = .idle ∧ x.todo = [] ∧ c.n ≤ s.next := by
    intro x hx
    obtain ⟨t, e⟩ := List.getElem?_of_mem hx
    have hr := hrun t
    have hu := run_ok hc h t
    unfold State.run at hr
    rw [e] at hr
    simp only at hr
    have hxo := h.thr x hx
    cases hph : x.ph with
    | idle =>
      rw [hph] at hr
      simp only at hr
      cases htodo : x.todo with
      | nil =>
        rw [htodo] at hr
        simp only at hr
        by_cases hn : s.next < c.n
        · rw [if_pos hn] at hr; cases hr
        · exact ⟨rfl, rfl, by omega⟩
      | cons node rest =>
        exfalso
        rw [htodo] at hr
        simp only at hr
        cases hstg : s.stage with
        | link =>
          rw [hstg] at hr
          simp only at hr
          unfold State.start at hr
          split at hr
          · cases hr
          · split at hr <;> cases hr
        | cleanup =>
          rw [hstg] at hr
          simp only at hr
          split at hr <;> cases hr
        | fin => exact hst hstg
    | search node pool =>
      exfalso
      rw [hph] at hr
      simp only at hr
      split at hr
      · unfold State.expand at hr
        split at hr
        · cases hr
        · split at hr
          · cases hr
          · split at hr <;> cases hr
      · unfold State.own at hr
        split at hr
        · cases hr
        · split at hr <;> cases hr
    | rev node rest =>
      exfalso
      rw [hph] at hr
      cases rest with
      | nil => simp at hr
      | cons des rest =>
        simp only at hr
        unfold State.back at hr
        split at hr
        · cases hr
        · split at hr
          · cases hr
          · split at hr
            · split at hr <;> cases hr
            · cases hr
    | redo des snap back =>
      exfalso
      rw [hph] at hr
      simp only at hr
      unfold State.redo at hr
      split at hr
      · cases hr
      · split at hr <;> cases hr
  obtain ⟨x0, hx0⟩ := List.exists_mem_of_ne_nil _ ht
  unfold State.barrier at hbar
  rw [if_pos ⟨(hidle x0 hx0).2.2, List.all_eq_true.mpr (fun x hx => by simpa using ⟨(hidle x hx).1, (hidle x hx).2.1⟩)⟩] at hbar
  cases hstg : s.stage with
  | link => rw [hstg] at hbar; cases hbar
  | cleanup => rw [hstg] at hbar; cases hbar
  | fin => exact hst hstg

end Alaya.VBuild
