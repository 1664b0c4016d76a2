import Verif.Lemmas.VamanaSolo
import Verif.Props.C61
import Verif.Props.C27

/-! C83: building a Vamana graph with any number of threads. -/
namespace Alaya.VBuild
open Alaya.Pools Alaya.Spec

/-- States in which a construction by `threads` threads can be. -/
inductive Reached (c : Cfg) (threads : Nat) : State → Prop where
  | init : Reached c threads (.init c threads)
  | step {s s' : State} {a : Act} : Reached c threads s → s.step c a = .ok s' → Reached c threads s'

theorem step_ok {c : Cfg} (hc : c.Ok) {s : State} (h : Inv c s) (a : Act) : StepOk c s (s.step c a) := by
  cases a with
  | run t => exact run_ok hc h t
  | barrier => exact barrier_ok h

theorem Reached.inv {c : Cfg} (hc : c.Ok) {threads : Nat} {s : State} (h : Reached c threads s) : Inv c s := by
  induction h with
  | init => exact init_inv c threads
  | step _ e ih => exact ((step_ok hc ih _).2 _ e).1

theorem Reached.threads {c : Cfg} {threads : Nat} {s : State} (h : Reached c threads s) : s.thr.length = threads := by
  induction h with
  | init => simp [State.init]
  | step _ e ih =>
    rename_i s s' a _
    cases a with
    | run t =>
      obtain ⟨x, x', p, nx, _, _, rfl⟩ := run_eff e
      simpa using ih
    | barrier =>
      obtain ⟨_, _, h | h⟩ := barrier_eff e
      · rw [h.2]; exact ih
      · rw [h.2]; exact ih

/-- No step of any schedule leaves its arrays, and every pruning ends. -/
theorem C83_safe (c : Cfg) (hc : c.Ok) (threads : Nat) (s : State) (h : Reached c threads s) (a : Act) : s.step c a ≠ .ub :=
  (step_ok hc (h.inv hc) a).1

/-- Every schedule comes to an end, and it is the end of the construction: no deadlock. -/
theorem C83_ends (c : Cfg) (hc : c.Ok) (threads : Nat) (ht : 0 < threads) :
    (¬ ∃ f : Nat → State, f 0 = .init c threads ∧ ∀ k, ∃ a, (f k).step c a = .ok (f (k + 1))) ∧
    ∀ s, Reached c threads s → (∀ a s', s.step c a ≠ .ok s') → s.stage = .fin := by
  constructor
  · rintro ⟨f, h0, hs⟩
    have hr : ∀ k, Reached c threads (f k) := by
      intro k
      induction k with
      | zero => rw [h0]; exact .init
      | succ k ih => obtain ⟨a, e⟩ := hs k; exact .step ih e
    have hlt : ∀ k, (f (k + 1)).mu c < (f k).mu c := by
      intro k
      obtain ⟨a, e⟩ := hs k
      exact ((step_ok hc ((hr k).inv hc) a).2 _ e).2
    have key : ∀ x, ∀ k, (f k).mu c = x → False := by
      intro x
      induction x using Nat.strongRecOn with
      | _ x ih =>
        intro k hk
        exact ih _ (hk ▸ hlt k) (k + 1) rfl
    exact key _ 0 rfl
  · intro s h hs
    refine stuck_fin hc (h.inv hc) ?_ hs
    intro hnil
    have := h.threads
    rw [hnil] at this
    simp at this
    omega

/-- The graph after any schedule: one list per vector; neighbours exist, are distinct, are not the node itself, and are at most `R`; every
node but the entry point has one. -/
theorem C83_graph (c : Cfg) (hc : c.Ok) (threads : Nat) (s : State) (h : Reached c threads s) (hf : s.stage = .fin) :
    s.g.length = c.n ∧ ∀ (v : Nat) (l : List Nat), s.g[v]? = some l →
      l.Nodup ∧ v ∉ l ∧ (∀ u ∈ l, u < c.n) ∧ l.length ≤ c.R ∧ (v ≠ c.medoid → l ≠ []) := by
  have hi := h.inv hc
  refine ⟨hi.glen, fun v l hl => ?_⟩
  have ho := hi.lists v l hl
  exact ⟨ho.nd, ho.self, ho.lt, hi.cut v l (by rw [hf]; simp) hl (by rw [hf]; simp), fun hv => hi.written v l hv hl (by rw [hf]; simp)⟩

/-- If the entry point has a neighbour, too, the file written is read back as this graph. -/
theorem C83_file (c : Cfg) (hc : c.Ok) (threads : Nat) (s : State) (h : Reached c threads s) (hf : s.stage = .fin)
    (hn : c.n < 2 ^ 32) (hR : c.R < 2 ^ 32) (hm : s.g[c.medoid]? ≠ some [])
    (hsz : (Alaya.Vamana.saveGraph s.g c.R c.medoid 0).length < 2 ^ 64) :
    Alaya.Vamana.readGraph (Alaya.Vamana.saveGraph s.g c.R c.medoid 0) = some ⟨c.R, c.medoid, s.g⟩ := by
  obtain ⟨hlen, hg⟩ := C83_graph c hc threads s h hf
  have hmed := hc.n
  refine Alaya.Vamana.C61_load_save s.g c.R c.medoid ⟨by omega, by omega, hc.R, hR, by omega, ?_, ?_⟩ hsz
  · intro i a ha
    obtain ⟨_, _, _, h4, h5⟩ := hg i a ha
    refine ⟨List.length_pos_iff.mpr ?_, h4⟩
    by_cases hi : i = c.medoid
    · rintro rfl
      rw [hi] at ha
      exact hm ha
    · exact h5 hi
  · intro i a ha x hx
    obtain ⟨_, h2, h3, _, _⟩ := hg i a ha
    exact ⟨by rw [hlen]; exact h3 x hx, fun e => h2 (e ▸ hx)⟩

/-- If it has none, the file written is rejected. -/
theorem C83_file_rejected (c : Cfg) (hc : c.Ok) (threads : Nat) (s : State) (h : Reached c threads s) (hf : s.stage = .fin)
    (hn : c.n < 2 ^ 32) (hR : c.R < 2 ^ 32) (hm : s.g[c.medoid]? = some []) :
    Alaya.Vamana.readGraph (Alaya.Vamana.saveGraph s.g c.R c.medoid 0) = none := by
  obtain ⟨_, hg⟩ := C83_graph c hc threads s h hf
  refine Alaya.Vamana.C61_empty_list_rejected _ _ _ ?_ (List.mem_of_getElem? hm)
  intro a ha
  obtain ⟨i, hi⟩ := List.getElem?_of_mem ha
  obtain ⟨_, _, h3, h4, _⟩ := hg i a hi
  exact ⟨by omega, fun x hx => by have := h3 x hx; omega⟩

/-- With one thread, at least two vectors and a candidate list of at least two, the entry point always has a neighbour. -/
theorem C83_one_thread (c : Cfg) (hc : c.Ok) (hn : 2 ≤ c.n) (hL : 2 ≤ c.L) (hsl : 0 < c.slack) (s : State) (h : Reached c 1 s)
    (hf : s.stage = .fin) : ∀ (v : Nat) (l : List Nat), s.g[v]? = some l → l ≠ [] := by
  have hs : Solo c s := by
    clear hf
    induction h with
    | init => exact solo_init
    | step hr e ih => exact solo_step hc hn hL hsl (hr.inv hc) ih e
  obtain ⟨_, hg⟩ := C83_graph c hc 1 s h hf
  intro v l hl
  by_cases hv : v = c.medoid
  · obtain ⟨x, _, ⟨l', h1, h2, _⟩ | ⟨h', _⟩ | ⟨h', _⟩⟩ := hs
    · rw [hv, h1] at hl; cases hl; exact h2
    · rw [hf] at h'; cases h'
    · rw [hf] at h'; cases h'
  · exact (hg v l hl).2.2.2.2 hv

/-- Searching the graph of any schedule ends and returns distinct vectors, sorted, with their distances, each of them reachable from the
entry point. -/
theorem C83_search (c : Cfg) (hc : c.Ok) (threads : Nat) (s : State) (h : Reached c threads s) (hf : s.stage = .fin) (q : Nat → Int)
    (topK list : Nat) (hk : 0 < topK) (hl : topK ≤ list) :
    ∃ sc hits, search s.g c.medoid q topK list c.n ⟨List.replicate c.n false, [], NPQ.new list⟩ = some (some (sc, hits)) ∧
      hits.length ≤ topK ∧ (hits.map Prod.fst).Nodup ∧ hits.Pairwise (fun a b => a.2 < b.2 ∨ (a.2 = b.2 ∧ a.1 ≤ b.1)) ∧
      ∀ x ∈ hits, x.1 < c.n ∧ x.2 = q x.1 ∧ Reach s.g c.medoid x.1 := by
  obtain ⟨hlen, hg⟩ := C83_graph c hc threads s h hf
  have hgo : GraphOk s.g := by
    intro nbrs hn m hm
    obtain ⟨i, hi⟩ := List.getElem?_of_mem hn
    rw [hlen]
    exact (hg i nbrs hi).2.2.1 m hm
  have hso : ScratchOk ⟨List.replicate c.n false, [], NPQ.new list⟩ := by
    refine ⟨by simp, ?_⟩
    intro i hi
    have := List.eq_of_mem_replicate (List.mem_of_getElem? hi)
    cases this
  obtain ⟨sc, hits, e, _, h1, h2, h3, h4⟩ := C27_search_sound s.g hgo c.medoid (by rw [hlen]; exact hc.n) q topK list hk hl _ hso
  refine ⟨sc, hits, by have := e 0; rwa [hlen] at this, h1, h2, h3, fun x hx => ?_⟩
  obtain ⟨r, d⟩ := h4 x hx
  refine ⟨?_, d, r⟩
  have : ∀ m, Reach s.g c.medoid m → m < c.n := by
    intro m hr
    induction hr with
    | start => exact hc.n
    | step _ hu hm _ => exact (hg _ _ hu).2.2.1 _ hm
  exact this _ r

/-! ### The entry point -/

theorem localBest_spec (d : Nat → Int) : ∀ (l : List Nat) (b : Option Int × Nat), (∀ x, b.1 = some x → x = d b.2) →
    (∀ x, (localBest d l b).1 = some x → x = d (localBest d l b).2) ∧
    (localBest d l b = b ∨ (localBest d l b).2 ∈ l) ∧
    (∀ i ∈ l, ∃ x, (localBest d l b).1 = some x ∧ x ≤ d i) ∧
    (∀ x, b.1 = some x → ∃ y, (localBest d l b).1 = some y ∧ y ≤ x) := by
  intro l
  induction l with
  | nil => intro b h; exact ⟨h, .inl rfl, by simp, fun x hx => ⟨x, hx, Int.le_refl _⟩⟩
  | cons i l ih =>
    intro b h
    unfold localBest
    by_cases hb : b.1.all (d i < ·) = true
    · rw [if_pos hb]
      obtain ⟨k1, k2, k3, k4⟩ := ih (some (d i), i) (by intro x hx; cases hx; rfl)
      refine ⟨k1, .inr ?_, ?_, ?_⟩
      · rcases k2 with k2 | k2
        · rw [k2]; exact List.mem_cons_self
        · exact List.mem_cons_of_mem _ k2
      · intro j hj
        rcases List.mem_cons.mp hj with rfl | hj
        · exact k4 _ rfl
        · exact k3 j hj
      · intro x hx
        obtain ⟨y, hy, hle⟩ := k4 _ rfl
        rw [hx] at hb
        have hb : d i < x := by simpa using hb
        exact ⟨y, hy, by omega⟩
    · rw [if_neg hb]
      obtain ⟨k1, k2, k3, k4⟩ := ih b h
      refine ⟨k1, k2.imp id (List.mem_cons_of_mem _), ?_, k4⟩
      intro j hj
      rcases List.mem_cons.mp hj with rfl | hj
      · cases hx : b.1 with
        | none => rw [hx] at hb; exact absurd rfl hb
        | some x =>
          obtain ⟨y, hy, hle⟩ := k4 x hx
          rw [hx] at hb
          have hb : ¬ d j < x := by simpa using hb
          exact ⟨y, hy, by omega⟩
      · exact k3 j hj

theorem fold_spec (d : Nat → Int) : ∀ (parts : List (List Nat)) (b : Option Int × Nat), (∀ x, b.1 = some x → x = d b.2) →
    let r := (parts.map (fun p => localBest d p (none, 0))).foldl critical b
    (∀ x, r.1 = some x → x = d r.2) ∧ (r = b ∨ ∃ p ∈ parts, r.2 ∈ p) ∧ (∀ p ∈ parts, ∀ i ∈ p, ∃ x, r.1 = some x ∧ x ≤ d i) ∧
    (∀ x, b.1 = some x → ∃ y, r.1 = some y ∧ y ≤ x) := by
  intro parts
  induction parts with
  | nil => intro b h; exact ⟨h, .inl rfl, by simp, fun x hx => ⟨x, hx, Int.le_refl _⟩⟩
  | cons p parts ih =>
    intro b h
    obtain ⟨m1, m2, m3, m4⟩ := localBest_spec d p (none, 0) (by simp)
    simp only [List.map_cons, List.foldl_cons]
    have hb' : ∀ x, (critical b (localBest d p (none, 0))).1 = some x → x = d (critical b (localBest d p (none, 0))).2 := by
      intro x hx
      unfold critical at hx ⊢
      split at hx
      · exact h x hx
      · split at hx
        · rename_i hc; rw [if_pos hc]; exact m1 x hx
        · rename_i hc; rw [if_neg hc]; exact h x hx
    obtain ⟨k1, k2, k3, k4⟩ := ih _ hb'
    have hmem : critical b (localBest d p (none, 0)) = b ∨ (critical b (localBest d p (none, 0))).2 ∈ p := by
      unfold critical
      split
      · exact .inl rfl
      · rename_i x hx
        split
        · rcases m2 with m2 | m2
          · rw [m2] at hx; cases hx
          · exact .inr m2
        · exact .inl rfl
    have hlow : (∀ i ∈ p, ∃ x, (critical b (localBest d p (none, 0))).1 = some x ∧ x ≤ d i) ∧
        ∀ x, b.1 = some x → ∃ y, (critical b (localBest d p (none, 0))).1 = some y ∧ y ≤ x := by
      unfold critical
      split
      · rename_i hx
        refine ⟨fun i hi => ?_, fun x hx => ⟨x, hx, Int.le_refl _⟩⟩
        obtain ⟨x, hx', _⟩ := m3 i hi
        rw [hx] at hx'; cases hx'
      · rename_i z hz
        split
        · rename_i hc
          refine ⟨m3, fun x hx => ⟨z, hz, ?_⟩⟩
          rw [hx] at hc
          have hc : z < x := by simpa using hc
          omega
        · rename_i hc
          refine ⟨fun i hi => ?_, fun x hx => ⟨x, hx, Int.le_refl _⟩⟩
          obtain ⟨x, hx', hle⟩ := m3 i hi
          rw [hz] at hx'
          cases hx'
          cases hbx : b.1 with
          | none => rw [hbx] at hc; exact absurd rfl hc
          | some y =>
            rw [hbx] at hc
            have hc : ¬ z < y := by simpa using hc
            exact ⟨y, rfl, by omega⟩
    refine ⟨k1, ?_, ?_, ?_⟩
    · rcases k2 with k2 | ⟨q, hq, hm⟩
      · rcases hmem with h' | h'
        · exact .inl (k2.trans h')
        · exact .inr ⟨p, List.mem_cons_self, by rw [k2]; exact h'⟩
      · exact .inr ⟨q, List.mem_cons_of_mem _ hq, hm⟩
    · intro q hq i hi
      rcases List.mem_cons.mp hq with rfl | hq
      · obtain ⟨x, hx, hle⟩ := hlow.1 i hi
        obtain ⟨y, hy, hle'⟩ := k4 x hx
        exact ⟨y, hy, by omega⟩
      · exact k3 q hq i hi
    · intro x hx
      obtain ⟨y, hy, hle⟩ := hlow.2 x hx
      obtain ⟨z, hz, hle'⟩ := k4 y hy
      exact ⟨z, hz, by omega⟩

/-- Whatever the division of the vectors among the threads and the order in which they finish, the entry point is a vector that is nearest
to the centroid. -/
theorem C83_medoid (d : Nat → Int) (parts : List (List Nat)) (n : Nat) (hn : 0 < n) (hp : ∀ i, i < n ↔ ∃ p ∈ parts, i ∈ p) :
    medoidOf d parts < n ∧ ∀ i, i < n → d (medoidOf d parts) ≤ d i := by
  obtain ⟨k1, k2, k3, _⟩ := fold_spec d parts (none, 0) (by simp)
  unfold medoidOf
  constructor
  · rcases k2 with k2 | h
    · rw [k2]; exact hn
    · exact (hp _).mpr h
  · intro i hi
    obtain ⟨p, hpm, hip⟩ := (hp i).mp hi
    obtain ⟨x, hx, hle⟩ := k3 p hpm i hip
    rw [← k1 x hx]
    exact hle

/-- But which one depends on the order in which the threads finish. -/
theorem C83_medoid_order_refuted : ¬ ∀ (d : Nat → Int) (p q : List Nat), medoidOf d [p, q] = medoidOf d [q, p] := by
  intro h
  exact absurd (h (fun _ => 3) [0, 1] [2, 3]) (by decide)

example : (∀ i, i < 4 ↔ ∃ p ∈ [[2, 3], [0, 1]], i ∈ p) := by
  intro i
  simp only [List.mem_cons, List.not_mem_nil, or_false, exists_eq_or_imp, exists_eq_left]
  omega

/-! ### What does not hold -/

/-- Every execution can be continued to the end; what all steps keep holds there. -/
theorem finish {c : Cfg} (hc : c.Ok) {threads : Nat} (ht : 0 < threads) (P : State → Prop)
    (hP : ∀ s s' a, Inv c s → P s → s.step c a = .ok s' → P s') : ∀ (k : Nat) (s : State), s.mu c = k → Reached c threads s → P s →
    ∃ s', Reached c threads s' ∧ s'.stage = .fin ∧ P s' := by
  intro k
  induction k using Nat.strongRecOn with
  | _ k ih =>
    intro s hk hr hp
    by_cases hst : s.stage = .fin
    · exact ⟨s, hr, hst, hp⟩
    · obtain ⟨a, s', e⟩ : ∃ a s', s.step c a = .ok s' := by
        by_contra hno
        exact hst ((C83_ends c hc threads ht).2 s hr (fun a s' e => hno ⟨a, s', e⟩))
      exact ih _ (hk ▸ ((step_ok hc (hr.inv hc) a).2 _ e).2) s' rfl (.step hr e) (hP s s' a (hr.inv hc) hp e)

theorem Reached.runs {c : Cfg} {threads t : Nat} {s s' : State} (hr : Reached c threads s)
    (h : Relation.ReflTransGen (fun a b => a.run c t = .ok b) s s') : Reached c threads s' := by
  induction h with
  | refl => exact hr
  | tail _ e ih => exact .step (a := .run t) ih e

/-- Two threads, one vector more than one thread takes at a time, and that last one the entry point: the other thread gives it its reverse
edges between its search and its write, which overwrites them.  Then it has no neighbour: the file written is rejected, and a search in the
graph finds only the entry point.  (`chunk` is 2048 in the code.) -/
theorem C83_medoid_lost_refuted (c : Cfg) (hc : c.Ok) (hn : c.n = c.chunk + 1) (hm : c.medoid = c.chunk) (hn32 : c.n < 2 ^ 32)
    (hR32 : c.R < 2 ^ 32) :
    ∃ s, Reached c 2 s ∧ s.stage = .fin ∧ s.g[c.medoid]? = some [] ∧
      Alaya.Vamana.readGraph (Alaya.Vamana.saveGraph s.g c.R c.medoid 0) = none ∧ ∀ m, Reach s.g c.medoid m → m = c.medoid := by
  have hch := hc.chunk
  have hmn := hc.n
  let z : Scratch := ⟨List.replicate c.n false, [], NPQ.new c.L⟩
  have hz : ScratchOk z := by
    refine ⟨by simp [z], ?_⟩
    intro i hi
    have := List.eq_of_mem_replicate (List.mem_of_getElem? hi)
    cases this
  have r0 : Reached c 2 (.init c 2) := .init
  -- both threads take their vectors
  have e1 : (State.init c 2).step c (.run 0) = .ok ⟨.link, c.chunk, List.replicate c.n [], [⟨List.range' 0 c.chunk, .idle, z⟩, ⟨[], .idle, z⟩]⟩ := by
    have h1 : min c.chunk (c.n - 0) = c.chunk := by omega
    simp [State.step, State.run, State.init, State.thread, List.replicate, z, hn]
  have r1 := Reached.step r0 e1
  have e2 : State.step c ⟨.link, c.chunk, List.replicate c.n [], [⟨List.range' 0 c.chunk, .idle, z⟩, ⟨[], .idle, z⟩]⟩ (.run 1) =
      .ok ⟨.link, c.n, List.replicate c.n [], [⟨List.range' 0 c.chunk, .idle, z⟩, ⟨[c.medoid], .idle, z⟩]⟩ := by
    have h1 : min c.chunk 1 = 1 := by omega
    have h2 : c.chunk < c.n := by omega
    simp [State.step, State.run, State.thread, h1, hn, hm]
  have r2 := Reached.step r1 e2
  -- the second searches from its own vector
  obtain ⟨z0, z1, f0, f1, hT, ht1⟩ := TInv.start hc (c.dist c.medoid) hz
  have e3 : State.step c ⟨.link, c.n, List.replicate c.n [], [⟨List.range' 0 c.chunk, .idle, z⟩, ⟨[c.medoid], .idle, z⟩]⟩ (.run 1) =
      .ok ⟨.link, c.n, List.replicate c.n [], [⟨List.range' 0 c.chunk, .idle, z⟩, ⟨[], .search c.medoid [], z1⟩]⟩ := by
    simp [State.step, State.run, State.start, State.thread, f0, f1]
  have r3 := Reached.step r2 e3
  have hu : z1.pool.hasUnexpanded = true := by
    by_contra hno
    have := hT.full (by simpa using hno)
    rw [ht1] at this
    have hl := hc.L
    simp only [List.length_cons, List.length_nil] at this
    omega
  obtain ⟨q, nb, eq, hT1, hnb⟩ := hT.expand hu
  have hid : nb.id = c.medoid := by rw [ht1] at hnb; simpa using hnb
  have e4 : State.step c ⟨.link, c.n, List.replicate c.n [], [⟨List.range' 0 c.chunk, .idle, z⟩, ⟨[], .search c.medoid [], z1⟩]⟩ (.run 1) =
      .ok ⟨.link, c.n, List.replicate c.n [], [⟨List.range' 0 c.chunk, .idle, z⟩, ⟨[], .search c.medoid [nb], { z1 with pool := q }⟩]⟩ := by
    simp [State.step, State.run, State.expand, State.thread, hu, eq, hid, hmn, Scratch.visitAll]
  have r4 := Reached.step r3 e4
  have hu' : q.hasUnexpanded = false := by
    by_contra hno
    obtain ⟨q', nb', _, hT2, hnb'⟩ := hT1.expand (by simpa using hno)
    have hid' : nb'.id = c.medoid := by simp only [ht1] at hnb'; simpa using hnb'
    have := hT2.pool_lt.1
    simp [hid, hid'] at this
  -- the first does all its work
  obtain ⟨s5, hruns, i5, st5, n5, l5, o5, x, ex, xph, xtodo⟩ := drain hc 0 _ _ rfl (r4.inv hc) rfl rfl (by simp)
  have r5 := r4.runs hruns
  have o51 := o5 1 (by omega)
  simp only [List.getElem?_cons_succ, List.getElem?_cons_zero] at o51
  have hthr : s5.thr = [x, ⟨[], .search c.medoid [nb], { z1 with pool := q }⟩] := by
    simp only [List.length_cons, List.length_nil] at l5
    apply List.ext_getElem?
    intro i
    match i with
    | 0 => rw [ex]; rfl
    | 1 => rw [o51]; rfl
    | i + 2 => rw [List.getElem?_eq_none (by omega), List.getElem?_eq_none (by simp)]
  obtain ⟨stg, nx, g5, th⟩ := s5
  simp only at st5 n5 hthr i5
  subst st5 n5 hthr
  have hg5 : g5.length = c.n := i5.glen
  have hgm : c.medoid < g5.length := by omega
  -- the second writes
  have e6 : State.step c ⟨.link, c.n, g5, [x, ⟨[], .search c.medoid [nb], { z1 with pool := q }⟩]⟩ (.run 1) =
      .ok ⟨.link, c.n, g5.set c.medoid [], [x, ⟨[], .rev c.medoid [], { z1 with pool := q }⟩]⟩ := by
    simp [State.step, State.run, State.own, State.write, State.thread, hu', hid, Cfg.prune, prune_none, hgm]
  have r6 := Reached.step r5 e6
  have e7 : State.step c ⟨.link, c.n, g5.set c.medoid [], [x, ⟨[], .rev c.medoid [], { z1 with pool := q }⟩]⟩ (.run 1) =
      .ok ⟨.link, c.n, g5.set c.medoid [], [x, ⟨[], .idle, { z1 with pool := q }⟩]⟩ := by
    simp [State.step, State.run, State.thread]
  have r7 := Reached.step r6 e7
  have e8 : State.step c ⟨.link, c.n, g5.set c.medoid [], [x, ⟨[], .idle, { z1 with pool := q }⟩]⟩ .barrier =
      .ok ⟨.cleanup, 0, g5.set c.medoid [], [x, ⟨[], .idle, { z1 with pool := q }⟩]⟩ := by
    simp [State.step, State.barrier, xph, xtodo]
  have r8 := Reached.step r7 e8
  obtain ⟨s, hr, hf, hP⟩ := finish hc (threads := 2) (by omega)
    (fun s => s.stage ≠ .link ∧ s.g[c.medoid]? = some [] ∧ (∀ x ∈ s.thr, ∀ snap back, x.ph ≠ .redo c.medoid snap back) ∧
      (∀ x ∈ s.thr, ∀ v r, x.ph ≠ .rev v r) ∧ (∀ x ∈ s.thr, ∀ v r, x.ph ≠ .search v r) ∧
      (∀ x ∈ s.thr, ∀ des snap b, x.ph ≠ .redo des snap (some b)))
    (fun s s' a _ hp e => empty_stays hp.1 hp.2.1 hp.2.2.1 hp.2.2.2.1 hp.2.2.2.2.1 hp.2.2.2.2.2 e) _ _ rfl r8
    (by
      refine ⟨by simp, by rw [List.getElem?_set_self hgm], ?_, ?_, ?_, ?_⟩ <;>
      · intro y hy
        simp at hy
        rcases hy with rfl | rfl <;> simp [xph])
  refine ⟨s, hr, hf, hP.2.1, C83_file_rejected c hc 2 s hr hf hn32 hR32 hP.2.1, ?_⟩
  intro m hreach
  induction hreach with
  | start => rfl
  | step _ hu hmem ih =>
    rw [ih, hP.2.1] at hu
    cases hu
    cases hmem

/-! Concrete data: vectors on a line; `alpha` = 1.2, the quotient rounded down (robust_prune.hpp:175-177). -/

def lineUpd (pos : Nat → Int) (old : F32) (j i : Nbr) : F32 :=
  if (pos j.id - pos i.id) * (pos j.id - pos i.id) = 0 then F32.big
  else
    let r := F32.num (j.dist * 2 ^ 149 / ((pos j.id - pos i.id) * (pos j.id - pos i.id)))
    if F32.gt r old then r else old

def line (pos : List Int) (R L medoid : Nat) : Cfg :=
  ⟨pos.length, R, L, 500, .num (roundF32 (2 ^ 149 * 10066330)), 13 * R / 10, 2048, lineUpd (fun i => pos.getD i 0),
    fun a b => (pos.getD a 0 - pos.getD b 0) * (pos.getD a 0 - pos.getD b 0), medoid⟩

/-- One thread, to the end. -/
def solo (c : Cfg) : Nat → State → State
  | 0, s => s
  | k + 1, s =>
    match s.step c (.run 0) with
    | .ok s' => solo c k s'
    | _ =>
      match s.step c .barrier with
      | .ok s' => solo c k s'
      | _ => s

theorem solo_reached {c : Cfg} {threads : Nat} : ∀ (k : Nat) (s : State), Reached c threads s → Reached c threads (solo c k s) := by
  intro k
  induction k with
  | zero => intro s h; exact h
  | succ k ih =>
    intro s h
    unfold solo
    split
    · rename_i s' e; exact ih s' (.step h e)
    · split
      · rename_i s' e; exact ih s' (.step h e)
      · exact h

theorem line_ok (pos : List Int) (R L medoid : Nat) (h1 : medoid < pos.length) (h2 : 0 < R) (h3 : 0 < L) : (line pos R L medoid).Ok :=
  ⟨h1, h2, h3, (by decide : 0 < 500), (by decide : 0 < 2048),
    (by decide +kernel : F32.le F32.one (.num (roundF32 (2 ^ 149 * 10066330))) = true),
    (by decide +kernel : F32.gt F32.big (.num (roundF32 (2 ^ 149 * 10066330))) = true)⟩

/-- The entry point the constructor computes (times the number of vectors, to stay in the integers). -/
def lineMedoid (pos : List Int) : Nat :=
  medoidOf (fun i => ((pos.length : Int) * pos.getD i 0 - pos.foldl (· + ·) 0) * ((pos.length : Int) * pos.getD i 0 - pos.foldl (· + ·) 0))
    [List.range pos.length]

/-- L = R = 1, which the checks of the parameters allow: the entry point, inserted last, has no neighbour; the file is rejected. -/
theorem C83_list_one_refuted : lineMedoid [0, 4, 2] = 2 ∧ (line [0, 4, 2] 1 1 2).Ok ∧ ∃ s, Reached (line [0, 4, 2] 1 1 2) 1 s ∧ s.stage = .fin ∧
    s.g[2]? = some [] ∧ Alaya.Vamana.readGraph (Alaya.Vamana.saveGraph s.g 1 2 0) = none := by
  have hr := solo_reached 60 _ (Reached.init (c := line [0, 4, 2] 1 1 2) (threads := 1))
  have hf : (solo (line [0, 4, 2] 1 1 2) 60 (.init (line [0, 4, 2] 1 1 2) 1)).stage = .fin := by decide +kernel
  have hg : (solo (line [0, 4, 2] 1 1 2) 60 (.init (line [0, 4, 2] 1 1 2) 1)).g[2]? = some [] := by decide +kernel
  have hok := line_ok [0, 4, 2] 1 1 2 (by decide) (by decide) (by decide)
  exact ⟨by decide +kernel, hok, _, hr, hf, hg, C83_file_rejected _ hok 1 _ hr hf (by decide) (by decide) hg⟩

theorem not_reached {g : List (List Nat)} {start m : Nat} (S : List Nat) (h0 : start ∈ S) (hm : m ∉ S)
    (hc : ∀ u ∈ S, ∀ l, g[u]? = some l → ∀ x ∈ l, x ∈ S) : ¬ Reach g start m := by
  intro hr
  have : ∀ x, Reach g start x → x ∈ S := by
    intro x hx
    induction hx with
    | start => exact h0
    | step _ hu hmem ih => exact hc _ ih _ hu _ hmem
  exact hm (this m hr)

/-- Not every vector can be found from the entry point: three different vectors with R = L = 2, and six equal ones with R = 4, L = 8, where
four are lost. -/
theorem C83_reach_refuted :
    (lineMedoid [2, 0, 1] = 2 ∧ (line [2, 0, 1] 2 2 2).Ok ∧ ∃ s, Reached (line [2, 0, 1] 2 2 2) 1 s ∧ s.stage = .fin ∧ ¬ Reach s.g 2 1) ∧
    (lineMedoid [0, 0, 0, 0, 0, 0] = 0 ∧ (line [0, 0, 0, 0, 0, 0] 4 8 0).Ok ∧
      ∃ s, Reached (line [0, 0, 0, 0, 0, 0] 4 8 0) 1 s ∧ s.stage = .fin ∧ ∀ m ∈ [2, 3, 4, 5], ¬ Reach s.g 0 m) := by
  constructor
  · have hr := solo_reached 80 _ (Reached.init (c := line [2, 0, 1] 2 2 2) (threads := 1))
    have hf : solo (line [2, 0, 1] 2 2 2) 80 (.init (line [2, 0, 1] 2 2 2) 1) = solo (line [2, 0, 1] 2 2 2) 80 (.init (line [2, 0, 1] 2 2 2) 1) ∧
        (solo (line [2, 0, 1] 2 2 2) 80 (.init (line [2, 0, 1] 2 2 2) 1)).stage = .fin ∧
        (solo (line [2, 0, 1] 2 2 2) 80 (.init (line [2, 0, 1] 2 2 2) 1)).g = [[2], [2], [0]] := by decide +kernel
    refine ⟨by decide +kernel, line_ok _ _ _ _ (by decide) (by decide) (by decide), _, hr, hf.2.1, ?_⟩
    rw [hf.2.2]
    refine not_reached [2, 0] (by decide) (by decide) ?_
    intro u hu l hl x hx
    simp at hu
    rcases hu with rfl | rfl <;> simp at hl <;> subst hl <;> simp at hx <;> simp [hx]
  · have hr := solo_reached 120 _ (Reached.init (c := line [0, 0, 0, 0, 0, 0] 4 8 0) (threads := 1))
    have hf : (solo (line [0, 0, 0, 0, 0, 0] 4 8 0) 120 (.init (line [0, 0, 0, 0, 0, 0] 4 8 0) 1)).stage = .fin ∧
        (solo (line [0, 0, 0, 0, 0, 0] 4 8 0) 120 (.init (line [0, 0, 0, 0, 0, 0] 4 8 0) 1)).g = [[1], [0], [0], [0], [0], [0]] := by
      decide +kernel
    refine ⟨by decide +kernel, line_ok _ _ _ _ (by decide) (by decide) (by decide), _, hr, hf.1, ?_⟩
    rw [hf.2]
    intro m hm
    refine not_reached [0, 1] (by decide) ?_ ?_
    · intro h; revert m; decide
    · intro u hu l hl x hx
      simp at hu
      rcases hu with rfl | rfl <;> simp at hl <;> subst hl <;> simp at hx <;> simp [hx]

/-- 2049 vectors, the last one alone in the middle. -/
example : (line (List.replicate 1024 0 ++ List.replicate 1024 2 ++ [1]) 64 128 2048).Ok ∧
    (line (List.replicate 1024 0 ++ List.replicate 1024 2 ++ [1]) 64 128 2048).n =
      (line (List.replicate 1024 0 ++ List.replicate 1024 2 ++ [1]) 64 128 2048).chunk + 1 := by
  have h : (List.replicate 1024 (0 : Int) ++ List.replicate 1024 2 ++ [1]).length = 2049 := by
    rw [List.length_append, List.length_append, List.length_replicate, List.length_replicate]; rfl
  exact ⟨line_ok _ _ _ _ (by rw [h]; decide) (by decide) (by decide), h⟩

end Alaya.VBuild
