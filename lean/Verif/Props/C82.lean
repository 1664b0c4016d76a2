import Verif.Lemmas.HnswBuild
import Verif.Spec.Hnsw
import Verif.Props.C67

/-! C82: the construction of the HNSW graph by any number of threads. -/
namespace Alaya.Hnsw
open Alaya.MemSearch Alaya.MemSearch.Spec Alaya.Hnsw.Spec

/-- What a scheduler may choose: queues return one of their largest entries. -/
def ActOk : Act → Prop
  | .begin _ _ => True
  | .run _ pk => PickOk pk

/-- States in which a construction can be. -/
inductive Reached (c : Cfg) : State → Prop where
  | init : Reached c (.init c)
  | step {s s' : State} {a : Act} : Reached c s → ActOk a → s.step c a = .ok s' → Reached c s'

theorem Reached.inv {c : Cfg} (hm : 0 < c.m) {s : State} (h : Reached c s) : Inv c s := by
  induction h with
  | init => exact init_inv c
  | step _ ha e ih =>
    rename_i s s' a _
    cases a with
    | begin label level => exact ((begin_ok ih label level).2 _ e).1
    | run i pk => exact ((run_ok ih hm ha i).2 _ e).1

/-- The first of the largest entries. -/
def firstMax : Pick := fun l => l.foldl (fun a b => if a.1 < b.1 then b else a) (l.headD (0, 0))

theorem foldMax_spec : ∀ (l : List Cand) (a : Cand), (l.foldl (fun a b => if a.1 < b.1 then b else a) a = a ∨
      l.foldl (fun a b => if a.1 < b.1 then b else a) a ∈ l) ∧ a.1 ≤ (l.foldl (fun a b => if a.1 < b.1 then b else a) a).1 ∧
    ∀ x ∈ l, x.1 ≤ (l.foldl (fun a b => if a.1 < b.1 then b else a) a).1 := by
  intro l
  induction l with
  | nil => intro a; exact ⟨.inl rfl, Int.le_refl _, by simp⟩
  | cons b l ih =>
    intro a
    simp only [List.foldl_cons]
    split
    · rename_i hab
      obtain ⟨k1, k2, k3⟩ := ih b
      refine ⟨.inr ?_, by omega, ?_⟩
      · rcases k1 with k1 | k1
        · rw [k1]; exact List.mem_cons_self
        · exact List.mem_cons_of_mem _ k1
      · intro x hx
        rcases List.mem_cons.mp hx with rfl | hx
        · exact k2
        · exact k3 x hx
    · rename_i hab
      obtain ⟨k1, k2, k3⟩ := ih a
      refine ⟨k1.imp id (List.mem_cons_of_mem _), k2, ?_⟩
      intro x hx
      rcases List.mem_cons.mp hx with rfl | hx
      · omega
      · exact k3 x hx

theorem firstMax_ok : PickOk firstMax := by
  intro l hl
  obtain ⟨k1, _, k3⟩ := foldMax_spec l (l.headD (0, 0))
  refine ⟨?_, k3⟩
  unfold firstMax
  rcases k1 with k1 | k1
  · rw [k1]
    cases l with
    | nil => exact absurd rfl hl
    | cons a l => exact List.mem_cons_self
  · exact k1

/-- No step of any schedule leaves its arrays. -/
theorem C82_safe (c : Cfg) (hm : 0 < c.m) (s : State) (h : Reached c s) (a : Act) (ha : ActOk a) : s.step c a ≠ .ub := by
  cases a with
  | begin label level => exact (begin_ok (h.inv hm) label level).1
  | run i pk => exact (run_ok (h.inv hm) hm ha i).1

/-- No deadlock: if an insertion has begun and is not over, one of those that have begun can go on; if all that have begun are over, the
next can begin (label 0 first). -/
theorem C82_no_deadlock (c : Cfg) (hm : 0 < c.m) (s : State) (h : Reached c s) :
    ((∃ x ∈ s.nodes, x.ph ≠ .done) → ∀ pk, PickOk pk → ∃ i s', s.step c (.run i pk) = .ok s') ∧
    ((∀ x ∈ s.nodes, x.ph = .done) → ∀ label ∈ s.todo, (label = 0 ∨ 0 ∉ s.todo) → ∀ level, ∃ s', s.step c (.begin label level) = .ok s') := by
  have hi := h.inv hm
  constructor
  · rintro ⟨x, hx, hd⟩ pk hpk
    obtain ⟨j, hj⟩ := List.getElem?_of_mem hx
    obtain ⟨i, hb⟩ := some_runs hi hm hpk j x hj hd
    have hu := (run_ok hi hm hpk i).1
    refine ⟨i, ?_⟩
    show ∃ s', s.run c pk i = .ok s'
    cases e : s.run c pk i with
    | blocked => exact absurd e hb
    | ub => exact absurd e hu
    | ok s' => exact ⟨s', rfl⟩
  · intro hall label hl hz level
    have hu := (begin_ok hi label level).1
    show ∃ s', s.begin c label level = .ok s'
    have hzero : ¬ (label ≠ 0 ∧ ¬ s.nodes.any (fun x => x.label = 0 ∧ x.ph = .done) = true) := by
      rintro ⟨h0, hno⟩
      rcases hz with hz | hz
      · exact h0 hz
      · have hlt := hi.base.lt label (List.mem_append_right _ hl)
        have := hi.base.all 0 (by omega)
        rcases List.mem_append.mp this with h1 | h1
        · obtain ⟨x, hx, e⟩ := List.mem_map.mp h1
          exact hno (List.any_eq_true.mpr ⟨x, hx, by simpa using ⟨e, hall x hx⟩⟩)
        · exact hz h1
    have hlock : ¬ s.nodes.any (fun x => x.label % 65536 = label % 65536 ∧ x.ph ≠ .done) = true := by
      intro hany
      obtain ⟨x, hx, e⟩ := List.any_eq_true.mp hany
      have e : x.label % 65536 = label % 65536 ∧ ¬ x.ph = .done := by simpa using e
      exact e.2 (hall x hx)
    unfold State.begin at hu ⊢
    rw [if_neg (by simpa using hl), if_neg hzero, if_neg hlock] at hu ⊢
    split
    · exact ⟨_, rfl⟩
    · rename_i hn
      rw [if_neg hn] at hu
      split
      · rename_i hc
        rw [if_pos hc] at hu
        exact absurd rfl hu
      · exact ⟨_, rfl⟩

/-- There is no infinite execution: every schedule comes to its end, and there (C82_no_deadlock) all insertions are over. -/
theorem C82_ends (c : Cfg) (hm : 0 < c.m) :
    (¬ ∃ f : Nat → State, f 0 = .init c ∧ ∀ k, ∃ a, ActOk a ∧ (f k).step c a = .ok (f (k + 1))) ∧
    ∀ s, Reached c s → (∀ a, ActOk a → ∀ s', s.step c a ≠ .ok s') → s.finished := by
  constructor
  · rintro ⟨f, h0, hs⟩
    have hr : ∀ k, Reached c (f k) := by
      intro k
      induction k with
      | zero => rw [h0]; exact .init
      | succ k ih => obtain ⟨a, ha, e⟩ := hs k; exact .step ih ha e
    have hlt : ∀ k, Lt ((f (k + 1)).mu c) ((f k).mu c) := by
      intro k
      obtain ⟨a, ha, e⟩ := hs k
      have hi := (hr k).inv hm
      cases a with
      | begin label level => exact ((begin_ok hi label level).2 _ e).2
      | run i pk => exact ((run_ok hi hm ha i).2 _ e).2
    have key : ∀ x, ∀ k, (f k).mu c = x → False := by
      intro x
      induction x using Lt.wf.induction with
      | _ x ih =>
        intro k hk
        exact ih _ (hk ▸ hlt k) (k + 1) rfl
    exact key _ 0 rfl
  · intro s h hstuck
    obtain ⟨h1, h2⟩ := C82_no_deadlock c hm s h
    have hdone : ∀ x ∈ s.nodes, x.ph = .done := by
      intro x hx
      by_contra hd
      obtain ⟨i, s', e⟩ := h1 ⟨x, hx, hd⟩ firstMax firstMax_ok
      exact hstuck (.run i firstMax) firstMax_ok s' e
    refine ⟨?_, hdone⟩
    by_contra hne
    obtain ⟨label, hl⟩ := List.exists_mem_of_ne_nil _ hne
    by_cases h0 : 0 ∈ s.todo
    · obtain ⟨s', e⟩ := h2 hdone 0 h0 (.inl rfl) 0
      exact hstuck (.begin 0 0) trivial s' e
    · obtain ⟨s', e⟩ := h2 hdone label hl (.inr h0) 0
      exact hstuck (.begin label 0) trivial s' e

/-- The graph handed over after any schedule: every vector has a row of valid, distinct neighbours; upper layers lead only to nodes that
exist on that layer; the entry point is on the highest layer. -/
theorem C82_graph (c : Cfg) (r capacity : Nat) (hm : c.m = r / 2) (hr : 2 ≤ r) (hn : 0 < c.n) (hcap : c.n ≤ capacity) (s : State)
    (h : Reached c s) (hf : s.finished) :
    ∃ g o, s.build c 4 r capacity = some g ∧ g.overlay = some o ∧ g.eps = [] ∧ g.rows.length = capacity ∧ o.maxNbrs = r ∧
      Layered c.n r o.ep g.rows o.levels o.lists := by
  have hi := h.inv (by omega : 0 < c.m)
  have hr2 : c.m * 2 ≤ r := by omega
  have hlen := finished_length hi hf
  obtain ⟨rows, e1, e2, e3⟩ := collect_spec (f := s.row0 c 4 r) (l := List.range c.n)
    (fun a ha => by obtain ⟨ids, e, _⟩ := row0_spec hi hf hr2 (List.mem_range.mp ha); exact ⟨_, e⟩)
  obtain ⟨lists, f1, f2, f3⟩ := collect_spec (f := fun i => (s.nodes[s.lookup i]?).bind (fun x => s.blocks c 4 r x x.level)) (l := List.range c.n)
    (fun a ha => by
      obtain ⟨x, ex, hx⟩ := lookup_spec hi hf (List.mem_range.mp ha)
      obtain ⟨bs, e, _⟩ := blocks_spec hi hf hr2 ex hx x.level (Nat.le_refl _)
      exact ⟨bs, by rw [ex]; exact e⟩)
  have hdone : ∀ (j : Nat) (y : Node), s.nodes[j]? = some y → y.cls = 2 := fun j y ey => by
    unfold Node.cls; rw [hf.2 y (List.mem_of_getElem? ey)]
  obtain ⟨e, he⟩ : ∃ e, s.ent = some e := by
    cases hc : s.ent with
    | some e => exact ⟨e, rfl⟩
    | none =>
      obtain ⟨y, ey⟩ : ∃ y, s.nodes[0]? = some y := ⟨_, List.getElem?_eq_getElem (by omega)⟩
      exact absurd (hdone 0 y ey) ((hi.glob.noent hc).2.2 y (List.mem_of_getElem? ey)).2
  obtain ⟨x, ex, _, hmax⟩ := hi.glob.ent e he
  have hle : s.label e = x.label := by unfold State.label; rw [ex]; rfl
  have hlev : ∀ i, i < c.n → ∃ y, s.nodes[s.lookup i]? = some y ∧ y.label = i ∧
      ((List.range c.n).map (fun i => ((s.nodes[s.lookup i]?).map Node.level).getD 0) ++ List.replicate (capacity - c.n) 0)[i]? = some y.level := by
    intro i hin
    obtain ⟨y, ey, hy⟩ := lookup_spec hi hf hin
    refine ⟨y, ey, hy, ?_⟩
    rw [List.getElem?_append_left (by simpa using hin), List.getElem?_map, List.getElem?_range hin]
    simp [ey]
  refine ⟨_, _, by unfold State.build; rw [e1]; simp only [he]; rw [f1], rfl, rfl, ?_, rfl, ⟨?_, ?_, ?_⟩⟩
  · simp only [List.length_append, e2, List.length_range, List.length_replicate]
    omega
  · intro i hin
    obtain ⟨ids, a1, a2, a3⟩ := row0_spec hi hf hr2 hin
    refine ⟨rowOf r ids, ids, ?_, ⟨rfl, by have := a2.len; omega, a2.nd, a2.self, a2.lt⟩, a3⟩
    simp only
    rw [List.getElem?_append_left (by rw [e2]; simpa using hin), e3 i i (List.getElem?_range hin)]
    exact a1
  · intro i hin
    obtain ⟨y, ey, hy, hyl⟩ := hlev i hin
    obtain ⟨bs, b1, b2, b3⟩ := blocks_spec hi hf hr2 ey hy y.level (Nat.le_refl _)
    refine ⟨y.level, bs, hyl, ?_, b2, ?_⟩
    · simp only
      rw [List.getElem?_append_left (by rw [f2]; simpa using hin), f3 i i (List.getElem?_range hin), ey]
      exact b1
    · intro k hk1 hk2
      obtain ⟨ids, d1, d2, d3⟩ := block_spec hi hf hr2 ey hy hk1 hk2
      have hb := b3 k hk1 hk2
      rw [d1] at hb
      injection hb with hb
      refine ⟨ids, ⟨hb, by have := d2.len; omega, d2.nd, d2.self, d2.lt⟩, by have := d2.len; omega, fun v hv => ?_⟩
      obtain ⟨z, ez, hz⟩ := d3 v hv
      obtain ⟨z', ez', _, hz'⟩ := hlev v (d2.lt v hv)
      rw [ez] at ez'
      cases ez'
      exact ⟨z.level, hz', hz⟩
  · have hxn : x.label < c.n := label_lt hi hf ex
    simp only [hle]
    refine ⟨hxn, ?_⟩
    obtain ⟨y, ey, hy, hyl⟩ := hlev x.label hxn
    have := label_inj hi ey ex hy
    rw [this, ex] at ey
    cases ey
    refine ⟨x.level, hyl, fun i lv' hin hlv => ?_⟩
    obtain ⟨z, ez, _, hzl⟩ := hlev i hin
    rw [hzl] at hlv
    cases hlv
    obtain ⟨M, hM, hle⟩ := hi.glob.over _ z ez (hdone _ z ez)
    rw [hmax] at hM
    cases hM
    exact hle

/-- So the graph is one on which the search (C67) works: every search after a construction by any schedule ends, stays inside the arrays
and returns distinct vectors with their distances, nearest first. -/
theorem C82_search (c : Cfg) (r capacity : Nat) (hm : c.m = r / 2) (hr : 2 ≤ r) (hn : 0 < c.n) (hcap : c.n ≤ capacity)
    (hsmall : c.n ≤ 2147483648) (s : State) (h : Reached c s) (hf : s.finished) :
    ∃ g, s.build c 4 r capacity = some g ∧ ∀ (dist : Nat → Int) (topk ef : Nat), 0 < ef → topk ≤ ef →
      ∃ S out, Seeds g c.n dist S ∧ (∀ extra, solo g c.n dist topk ef (c.n + 1 + extra) = some (some out)) ∧ Sound g.rows S dist topk out ∧
        out.length = topk := by
  obtain ⟨g, o, e1, e2, e3, e4, e5, hL⟩ := C82_graph c r capacity hm hr hn hcap s h hf
  have hno : ∀ v, v < c.n → v ≠ noId := by intro v hv; unfold noId; omega
  have tw : ∀ {i : Nat} {row ids : List Nat}, Slots c.n r i row ids → row.takeWhile (· ≠ noId) = ids := by
    intro i row ids hs
    rw [hs.eq]
    exact rowOf_takeWhile (r := r) (fun v hv => hno v (hs.node v hv))
  refine ⟨g, e1, fun dist topk ef hef hk => C67_search_sound g c.n ⟨by omega, hsmall, ?_, by rw [e3]; simp, ?_⟩ dist topk ef hef hk⟩
  · intro u hu v hv
    obtain ⟨row, ids, a1, a2, _⟩ := hL.base u hu
    unfold nbrs at hv
    rw [a1] at hv
    have ht := tw a2
    unfold noId at ht
    rw [Option.getD_some, ht] at hv
    exact a2.node v hv
  · intro o' ho
    rw [e2] at ho
    cases ho
    refine ⟨hL.entry.1, ?_, ?_⟩
    · intro i hin
      obtain ⟨lv, l, a1, a2, a3, _⟩ := hL.upper i hin
      exact ⟨lv, l, a1, a2, by rw [e5]; omega⟩
    · intro i lv level blk hin hlv h1 h2 hb v hv
      obtain ⟨lv0, l, a1, a2, a3, a4⟩ := hL.upper i hin
      rw [a1] at hlv
      cases hlv
      obtain ⟨ids, b1, _, b3⟩ := a4 level h1 h2
      unfold Overlay.block at hb
      rw [a2] at hb
      simp only [e5] at hb
      split at hb
      · injection hb with hb
        rw [← hb, tw b1] at hv
        exact ⟨b1.node v hv, b3 v hv⟩
      · cases hb

/-! ### The lists of visited nodes -/

/-- A visited list after some uses: `get_free_visited_list`, then any marks. -/
inductive VUse (n : Nat) : VList → Prop where
  | new (mass : List (BitVec 16)) : mass.length = n → VUse n (VList.new mass)
  | use {v : VList} (ids : List Nat) : VUse n v → VUse n (ids.foldl VList.mark v.reset)

theorem mark_len (v : VList) (ids : List Nat) : (ids.foldl VList.mark v).mass.length = v.mass.length ∧ (ids.foldl VList.mark v).cur = v.cur := by
  induction ids generalizing v with
  | nil => exact ⟨rfl, rfl⟩
  | cons i ids ih =>
    obtain ⟨h1, h2⟩ := ih (v.mark i)
    exact ⟨by rw [List.foldl_cons, h1]; simp [VList.mark], by rw [List.foldl_cons, h2]; rfl⟩

theorem mark_get (v : VList) (ids : List Nat) (k : Nat) (x : BitVec 16) : (ids.foldl VList.mark v).mass[k]? = some x →
    (k ∈ ids ∧ x = v.cur) ∨ (k ∉ ids ∧ v.mass[k]? = some x) := by
  induction ids generalizing v with
  | nil => intro h; exact .inr ⟨by simp, h⟩
  | cons i ids ih =>
    intro h
    rw [List.foldl_cons] at h
    rcases ih (v.mark i) h with ⟨h1, h2⟩ | ⟨h1, h2⟩
    · exact .inl ⟨List.mem_cons_of_mem _ h1, h2⟩
    · by_cases hk : k = i
      · subst hk
        left
        refine ⟨List.mem_cons_self, ?_⟩
        simp only [VList.mark] at h2
        have hlt := (List.getElem?_eq_some_iff.mp h2).1
        simp only [List.length_set] at hlt
        rw [List.getElem?_set_self hlt] at h2
        exact (Option.some.inj h2).symm
      · right
        refine ⟨by simp [hk, h1], ?_⟩
        simp only [VList.mark] at h2
        rw [List.getElem?_set_ne (Ne.symm hk)] at h2
        exact h2

/-- Whatever the array held at first and however often a list has been used (the tag has 16 bits and wraps around), a list that has just
been taken and in which `ids` were marked shows exactly those as visited. -/
theorem C82_visited (n : Nat) (v : VList) (h : VUse n v) (ids : List Nat) (k : Nat) (hk : k < n) :
    (ids.foldl VList.mark v.reset).marked k = true ↔ k ∈ ids := by
  have hreset : ∀ v : VList, (v.cur = -1 ∨ ∀ x ∈ v.mass, x.toNat ≤ v.cur.toNat) → ∀ x ∈ v.reset.mass, x.toNat < v.reset.cur.toNat := by
    intro v hv x hx
    unfold VList.reset at hx ⊢
    split at hx
    · rename_i h0
      rw [if_pos h0]
      obtain ⟨y, _, e⟩ := List.mem_map.mp hx
      rw [← e]
      exact (by decide : (0 : BitVec 16).toNat < (1 : BitVec 16).toNat)
    · rename_i h0
      rw [if_neg h0]
      have hlt : v.cur.toNat + 1 < 65536 := by
        by_contra hge
        apply h0
        apply BitVec.eq_of_toNat_eq
        have := v.cur.isLt
        rw [BitVec.toNat_add]
        have : v.cur.toNat = 65535 := by omega
        rw [this]
        rfl
      rcases hv with hv | hv
      · rw [hv] at h0; exact absurd (by decide) h0
      · have := hv x hx
        show x.toNat < (v.cur + 1).toNat
        rw [BitVec.toNat_add]
        have e1 : (1 : BitVec 16).toNat = 1 := rfl
        rw [e1, Nat.mod_eq_of_lt (by omega)]
        omega
  have hinv : ∀ v : VList, VUse n v → v.mass.length = n ∧ (v.cur = -1 ∨ ∀ x ∈ v.mass, x.toNat ≤ v.cur.toNat) := by
    intro v hv
    induction hv with
    | new mass hl => exact ⟨hl, .inl rfl⟩
    | use ids _ ih =>
      rename_i v _
      obtain ⟨m1, m2⟩ := mark_len v.reset ids
      refine ⟨?_, .inr fun x hx => ?_⟩
      · rw [m1, ← ih.1]
        unfold VList.reset
        split <;> simp
      · rw [m2]
        obtain ⟨j, hj⟩ := List.getElem?_of_mem hx
        rcases mark_get _ _ _ _ hj with ⟨_, h2⟩ | ⟨_, h2⟩
        · rw [h2]; exact Nat.le_refl _
        · exact Nat.le_of_lt (hreset v ih.2 x (List.mem_of_getElem? h2))
  obtain ⟨i1, i2⟩ := hinv v h
  obtain ⟨m1, m2⟩ := mark_len v.reset ids
  have hl : v.reset.mass.length = n := by
    rw [← i1]; unfold VList.reset; split <;> simp
  obtain ⟨x, ex⟩ : ∃ x, (ids.foldl VList.mark v.reset).mass[k]? = some x := ⟨_, List.getElem?_eq_getElem (by omega)⟩
  unfold VList.marked
  rw [ex, m2]
  simp only [Option.some.injEq, decide_eq_true_eq]
  rcases mark_get _ _ _ _ ex with ⟨h1, h2⟩ | ⟨h1, h2⟩
  · simp [h1, h2]
  · have := hreset v i2 x (List.mem_of_getElem? h2)
    constructor
    · intro e; rw [e] at this; omega
    · intro e; exact absurd e h1


/-! ### Concrete constructions -/

/-- The thread that inserts node `i` runs alone for `k` steps or until it has to wait or is done. -/
def drive (c : Cfg) (pk : Pick) : Nat → State → Nat → State
  | 0, s, _ => s
  | k + 1, s, i =>
    match s.run c pk i with
    | .ok s' => drive c pk k s' i
    | _ => s

/-- A call of `add_point`, followed by at most `k` steps of its thread. -/
def insert (c : Cfg) (pk : Pick) (k : Nat) (s : State) (e : Nat × Nat) : State :=
  match s.begin c e.1 e.2 with
  | .ok s' => drive c pk k s' (s'.nodes.length - 1)
  | _ => s

theorem drive_reached {c : Cfg} {pk : Pick} (hpk : PickOk pk) (k : Nat) (s : State) (i : Nat) (h : Reached c s) : Reached c (drive c pk k s i) := by
  induction k generalizing s with
  | zero => exact h
  | succ k ih =>
    unfold drive
    split
    · rename_i s' e
      exact ih s' (.step (a := .run i pk) h hpk e)
    · exact h

theorem insert_reached {c : Cfg} {pk : Pick} (hpk : PickOk pk) (k : Nat) (s : State) (e : Nat × Nat) (h : Reached c s) :
    Reached c (insert c pk k s e) := by
  unfold insert
  split
  · rename_i s' e'
    exact drive_reached hpk _ _ _ (.step (a := .begin e.1 e.2) h trivial e')
  · exact h

theorem inserts_reached {c : Cfg} {pk : Pick} (hpk : PickOk pk) (k : Nat) (es : List (Nat × Nat)) (s : State) (h : Reached c s) :
    Reached c (es.foldl (insert c pk k) s) := by
  induction es generalizing s with
  | nil => exact h
  | cons e es ih => exact ih _ (insert_reached hpk k s e h)

/-- Squared distance of points of the plane. -/
def planeDist (pts : List (Int × Int)) (a b : Nat) : Int :=
  let p := (pts[a]?).getD (0, 0)
  let q := (pts[b]?).getD (0, 0)
  (p.1 - q.1) * (p.1 - q.1) + (p.2 - q.2) * (p.2 - q.2)

/-- Six different points, four neighbours per node, `ef_construction` 200. -/
def six : Cfg := ⟨6, 2, 200, planeDist [(2, 1), (0, 9), (5, 3), (8, 6), (6, 0), (4, 2)]⟩

def sixEnd : State := ([0, 1, 2, 3, 4, 5].map (fun i => (i, 0))).foldl (insert six firstMax 100) (.init six)

/-- "Every vector can be found": false. One thread inserts six different points; the search for point 4 with `ef` above the number of
points returns the five others and not point 4, the only one at distance 0, because no list mentions it. -/
theorem C82_found_refuted : ∃ c s g, Reached c s ∧ s.finished ∧ c.m = 4 / 2 ∧ s.build c 4 4 6 = some g ∧ c.n = 6 ∧
    (∀ i, i < 6 → ∀ j, j < 6 → c.dist i j = 0 → i = j) ∧ (∀ i, i < 6 → 4 ∉ nbrs g.rows i) ∧
    solo g 6 (c.dist 4) 6 100 7 = some (some [(5, some 8), (2, some 10), (0, some 17), (3, some 40), (1, some 117), (4294967295, none)]) := by
  refine ⟨six, sixEnd, (sixEnd.build six 4 4 6).getD ⟨[], [], none⟩, inserts_reached firstMax_ok 100 _ _ .init, by decide +kernel, rfl,
    by decide +kernel, rfl, by decide +kernel, by decide +kernel, by decide +kernel⟩

/-- Two threads insert points 1 and 2 at the same time with levels 1 and 0; then point 3. -/
def four : Cfg := ⟨4, 2, 8, planeDist [(0, 0), (3, 0), (3, 1), (9, 9)]⟩

/-- The schedule of the two threads; steps that would have to wait are skipped. -/
def fourEnd : State :=
  let s := [(0, 0), (1, 1)].foldl (insert four firstMax 2) (.init four)
  let s := insert four firstMax 3 s (2, 0)
  let s := [1, 2, 1, 2, 2, 1, 1, 2, 1, 1, 2, 2, 1, 2, 2, 2].foldl (fun s i => drive four firstMax 1 s i) s
  let s := insert four firstMax 100 s (3, 0)
  drive four firstMax 100 s 2

example : Reached four fourEnd ∧ fourEnd.finished ∧ ∃ g, fourEnd.build four 4 4 4 = some g ∧
    g.rows.map (fun row => row.takeWhile (· ≠ 4294967295)) = [[1], [0, 3, 2], [1], [1]] := by
  refine ⟨drive_reached firstMax_ok _ _ _ (insert_reached firstMax_ok _ _ _ ?_), by decide +kernel,
    (fourEnd.build four 4 4 4).getD ⟨[], [], none⟩, by decide +kernel, by decide +kernel⟩
  have key : ∀ (l : List Nat) (s : State), Reached four s → Reached four (l.foldl (fun s i => drive four firstMax 1 s i) s) := by
    intro l
    induction l with
    | nil => intro s h; exact h
    | cons a l ih => intro s h; exact ih _ (drive_reached firstMax_ok _ _ _ h)
  exact key _ _ (insert_reached firstMax_ok _ _ _ (inserts_reached firstMax_ok _ _ _ .init))

/-- "The graph is that of the lists, whatever the width of the ids": false. With ids of 8 bytes the lists are read as words of 4 bytes,
and node 0 gets itself as its only neighbour instead of node 1. -/
theorem C82_wide_refuted : ∃ c s g g', Reached c s ∧ s.finished ∧ c.m = 4 / 2 ∧ s.build c 4 4 4 = some g ∧ s.build c 8 4 4 = some g' ∧
    g.rows[0]? = some [1, 2 ^ 32 - 1, 2 ^ 32 - 1, 2 ^ 32 - 1] ∧ g'.rows[0]? = some [0, 2 ^ 64 - 1, 2 ^ 64 - 1, 2 ^ 64 - 1] := by
  refine ⟨four, [(0, 0), (1, 1), (2, 0), (3, 0)].foldl (insert four firstMax 100) (.init four),
    (([(0, 0), (1, 1), (2, 0), (3, 0)].foldl (insert four firstMax 100) (.init four)).build four 4 4 4).getD ⟨[], [], none⟩,
    (([(0, 0), (1, 1), (2, 0), (3, 0)].foldl (insert four firstMax 100) (.init four)).build four 8 4 4).getD ⟨[], [], none⟩,
    inserts_reached firstMax_ok 100 _ _ .init, by decide +kernel, rfl, by decide +kernel, by decide +kernel, by decide +kernel,
    by decide +kernel⟩

/-- "A maximum of one neighbour works": false. `max_nbrs / 2` is 0 then, no neighbour is selected, and the last of none is read. -/
theorem C82_one_neighbour_refuted : ∃ c s a, c.m = 1 / 2 ∧ Reached c s ∧ ActOk a ∧ s.step c a = .ub := by
  refine ⟨⟨2, 0, 8, planeDist [(0, 0), (3, 0)]⟩, [(0, 0), (1, 0)].foldl (insert _ firstMax 100) (.init _), .run 1 firstMax, rfl,
    inserts_reached firstMax_ok 100 _ _ .init, firstMax_ok, by decide +kernel⟩

/-- A visited list whose tag wraps around. -/
example : ((⟨65535#16, [7, 1, 65535]⟩ : VList).reset).marked 1 = false ∧ (((⟨65535#16, [7, 1, 65535]⟩ : VList).reset).mark 1).marked 1 = true := by
  decide

example : VUse 3 (VList.new [7, 0, 65535]) := .new _ rfl

end Alaya.Hnsw
