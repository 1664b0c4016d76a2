import Verif.Lemmas.HnswList

/-! The invariant of the HNSW construction under any schedule. -/
namespace Alaya.Hnsw

/-- The lists of other nodes at level `l` may contain the node. -/
def Linked (x : Node) (l : Nat) : Prop :=
  l ≤ x.level ∧ match x.ph with
    | .done => True
    | .link lv _ _ => lv ≤ l
    | .search lv _ => lv < l
    | _ => False

def State.Lk (s : State) (j l : Nat) : Prop := ∃ x, s.nodes[j]? = some x ∧ Linked x l

def State.Dn (s : State) (j : Nat) : Prop := ∃ x, s.nodes[j]? = some x ∧ x.ph = .done

def State.DnL (s : State) (j l : Nat) : Prop := ∃ x, s.nodes[j]? = some x ∧ x.ph = .done ∧ l ≤ x.level

/-- The first node has a neighbour. -/
def State.firstHas (s : State) : Prop := ∃ x L, s.nodes[0]? = some x ∧ x.links[0]? = some L ∧ L ≠ []

/-- A list at level `l` of node `i`. -/
structure ListOk (c : Cfg) (s : State) (i l : Nat) (L : List Nat) : Prop where
  nd : L.Nodup
  self : i ∉ L
  len : L.length ≤ c.cap l
  lk : ∀ y ∈ L, s.Lk y l

/-- The locals of the insertion of node `i`. -/
def PhOk (c : Cfg) (s : State) (i : Nat) (x : Node) : Prop :=
  match x.ph with
  | .descend lv u d => x.level < lv ∧ d = s.dist c i u ∧ s.Lk u lv
  | .search lv st => lv ≤ x.level ∧ SOk (s.dist c i) (fun v => s.Lk v lv) s.Dn c.ef st
  | .link lv rest nxt => lv ≤ x.level ∧ rest.Nodup ∧ s.DnL nxt lv ∧
      (∀ y ∈ rest, s.DnL y lv ∧ ∀ z L, s.nodes[y]? = some z → z.links[lv]? = some L → i ∉ L) ∧
      (i ≠ 0 → lv = 0 → 0 ∈ rest ∨ s.firstHas)
  | .done => i ≠ 0 → s.firstHas
  | _ => True

structure NodeOk (c : Cfg) (s : State) (i : Nat) (x : Node) : Prop where
  len : x.links.length = x.level + 1
  list : ∀ l L, x.links[l]? = some L → ListOk c s i l L
  ne : i ≠ 0 → Linked x 0 → ∀ L, x.links[0]? = some L → L ≠ []
  ph : PhOk c s i x

/-- 0: waits for `global_`, 1: at work, 2: over. -/
def Node.cls (x : Node) : Nat :=
  match x.ph with
  | .wait => 0
  | .done => 2
  | _ => 1

structure GlobOk (s : State) : Prop where
  ent : ∀ e, s.ent = some e → ∃ x, s.nodes[e]? = some x ∧ x.cls = 2 ∧ s.maxl = some x.level
  noent : s.ent = none → s.maxl = none ∧ s.nodes.length ≤ 1 ∧ ∀ x ∈ s.nodes, x.label = 0 ∧ x.cls ≠ 2
  holder : ∀ i, s.glob = some i → ∃ x, s.nodes[i]? = some x ∧ x.cls = 1 ∧ x.ml = s.maxl ∧ x.ml.all (· < x.level)
  other : ∀ i x, s.nodes[i]? = some x → x.cls = 1 → s.glob ≠ some i →
    ∃ ml M, x.ml = some ml ∧ s.maxl = some M ∧ x.level ≤ ml ∧ ml ≤ M
  over : ∀ (i : Nat) x, s.nodes[i]? = some x → x.cls = 2 → ∃ M, s.maxl = some M ∧ x.level ≤ M

structure BaseOk (c : Cfg) (s : State) : Prop where
  nd : (s.nodes.map Node.label ++ s.todo).Nodup
  lt : ∀ l ∈ s.nodes.map Node.label ++ s.todo, l < c.n
  all : ∀ l, l < c.n → l ∈ s.nodes.map Node.label ++ s.todo
  zero : s.nodes ≠ [] → 0 ∈ s.nodes.map Node.label

structure Inv (c : Cfg) (s : State) : Prop where
  base : BaseOk c s
  node : ∀ i x, s.nodes[i]? = some x → NodeOk c s i x
  glob : GlobOk s

theorem BaseOk.length {c : Cfg} {s : State} (h : BaseOk c s) : s.nodes.length + s.todo.length = c.n := by
  have h1 : (s.nodes.map Node.label ++ s.todo).Perm (List.range c.n) := by
    rw [List.perm_ext_iff_of_nodup h.nd List.nodup_range]
    intro a
    rw [List.mem_range]
    exact ⟨h.lt a, h.all a⟩
  have := h1.length_eq
  simpa using this

theorem Linked.level {x : Node} {l : Nat} (h : Linked x l) : l ≤ x.level := h.1

theorem State.Dn.free {s : State} {j : Nat} (h : s.Dn j) : s.free j = true := by
  obtain ⟨x, e, hx⟩ := h
  unfold State.free
  rw [e]
  simp [hx]

theorem State.Lk.lt {s : State} {j l : Nat} (h : s.Lk j l) : j < s.nodes.length := by
  obtain ⟨x, e, _⟩ := h
  exact (List.getElem?_eq_some_iff.mp e).1

theorem State.Lk.dn {s : State} {j l : Nat} (h : s.Lk j l) (hf : s.free j = true) : s.DnL j l := by
  obtain ⟨x, e, hx⟩ := h
  refine ⟨x, e, ?_, hx.1⟩
  unfold State.free at hf
  rw [e] at hf
  simpa using hf

theorem State.DnL.dn {s : State} {j l : Nat} (h : s.DnL j l) : s.Dn j := by
  obtain ⟨x, e, hx, _⟩ := h
  exact ⟨x, e, hx⟩

theorem State.DnL.lk {s : State} {j l l' : Nat} (h : s.DnL j l) (hl : l' ≤ l) : s.Lk j l' := by
  obtain ⟨x, e, hx, hle⟩ := h
  refine ⟨x, e, by omega, ?_⟩
  rw [hx]
  trivial

/-- Reading the list of a node that is linked at the level succeeds. -/
theorem Inv.read {c : Cfg} {s : State} (h : Inv c s) {j l : Nat} (hl : s.Lk j l) :
    ∃ L x, s.nodes[j]? = some x ∧ x.links[l]? = some L ∧ s.read j l = some L ∧ ListOk c s j l L := by
  obtain ⟨x, e, hx⟩ := hl
  have hn := h.node j x e
  have hlt : l < x.links.length := by rw [hn.len]; have := hx.1; omega
  obtain ⟨L, eL⟩ : ∃ L, x.links[l]? = some L := ⟨_, List.getElem?_eq_getElem hlt⟩
  have hL := hn.list l L eL
  refine ⟨L, x, e, eL, ?_, hL⟩
  unfold State.read
  rw [e]
  simp only [eL]
  rw [if_pos]
  rw [List.all_eq_true]
  intro y hy
  simpa using (hL.lk y hy).lt

/-! ### How the parts survive a step -/

/-- What a step of node `i` keeps for the others. -/
structure Ext (s s' : State) : Prop where
  keep : ∀ (j : Nat) x, s.nodes[j]? = some x → ∃ x', s'.nodes[j]? = some x' ∧ x'.label = x.label ∧ x'.level = x.level ∧
    (∀ l, Linked x l → Linked x' l) ∧ (x.ph = .done → x'.ph = .done)
  first : s.firstHas → s'.firstHas

theorem Ext.lk {s s' : State} (h : Ext s s') {j l : Nat} (hl : s.Lk j l) : s'.Lk j l := by
  obtain ⟨x, e, hx⟩ := hl
  obtain ⟨x', e', _, _, h3, _⟩ := h.keep j x e
  exact ⟨x', e', h3 l hx⟩

theorem Ext.dn {s s' : State} (h : Ext s s') {j : Nat} (hl : s.Dn j) : s'.Dn j := by
  obtain ⟨x, e, hx⟩ := hl
  obtain ⟨x', e', _, _, _, h4⟩ := h.keep j x e
  exact ⟨x', e', h4 hx⟩

theorem Ext.dnl {s s' : State} (h : Ext s s') {j l : Nat} (hl : s.DnL j l) : s'.DnL j l := by
  obtain ⟨x, e, hx, hle⟩ := hl
  obtain ⟨x', e', _, h2, _, h4⟩ := h.keep j x e
  exact ⟨x', e', h4 hx, by omega⟩

theorem Ext.label {s s' : State} (h : Ext s s') {j : Nat} (hj : j < s.nodes.length) : s'.label j = s.label j := by
  obtain ⟨x', e', h1, _⟩ := h.keep j _ (List.getElem?_eq_getElem hj)
  unfold State.label
  rw [e', List.getElem?_eq_getElem hj]
  simpa using h1

theorem Ext.dist {c : Cfg} {s s' : State} (h : Ext s s') {i j : Nat} (hi : i < s.nodes.length) (hj : j < s.nodes.length) :
    s'.dist c i j = s.dist c i j := by
  unfold State.dist
  rw [h.label hi, h.label hj]

theorem ListOk.ext {c : Cfg} {s s' : State} (h : Ext s s') {i l : Nat} {L : List Nat} (hL : ListOk c s i l L) : ListOk c s' i l L :=
  ⟨hL.nd, hL.self, hL.len, fun y hy => h.lk (hL.lk y hy)⟩

/-- A node whose own entry a step changed at most in its lists. -/
theorem NodeOk.ext {c : Cfg} {s s' : State} (h : Ext s s') {i j : Nat} (hij : j ≠ i) {x x' : Node} (hx : NodeOk c s j x)
    (hjx : s.nodes[j]? = some x) (hlev : x'.level = x.level) (hph : x'.ph = x.ph) (hlen : x'.links.length = x.links.length)
    (hlist : ∀ l L', x'.links[l]? = some L' → x.links[l]? = some L' ∨ (ListOk c s' j l L' ∧ L' ≠ []))
    (hadd : ∀ (y : Nat) (z z' : Node), s.nodes[y]? = some z → z.ph = .done → s'.nodes[y]? = some z' →
      ∀ (l : Nat) (L' : List Nat), z'.links[l]? = some L' → ∃ L : List Nat, z.links[l]? = some L ∧ ∀ v ∈ L', v ∈ L ∨ v = i) :
    NodeOk c s' j x' := by
  have hlt : j < s.nodes.length := (List.getElem?_eq_some_iff.mp hjx).1
  refine ⟨by rw [hlen, hlev]; exact hx.len, ?_, ?_, ?_⟩
  · intro l L' e
    rcases hlist l L' e with h1 | h1
    · exact (hx.list l L' h1).ext h
    · exact h1.1
  · intro hj0 hl L' e
    rcases hlist 0 L' e with h1 | h1
    · refine hx.ne hj0 ?_ L' h1
      unfold Linked at hl ⊢
      rw [hph, hlev] at hl
      exact hl
    · exact h1.2
  · have hp := hx.ph
    unfold PhOk at hp ⊢
    rw [hph, hlev]
    cases hc : x.ph with
    | wait => trivial
    | enter => trivial
    | done => rw [hc] at hp; exact fun h0 => h.first (hp h0)
    | descend lv u d =>
      rw [hc] at hp
      obtain ⟨h1, h2, h3⟩ := hp
      exact ⟨h1, by rw [h.dist hlt h3.lt]; exact h2, h.lk h3⟩
    | search lv st =>
      rw [hc] at hp
      obtain ⟨h1, h2⟩ := hp
      exact ⟨h1, h2.mono (fun v => h.lk) (fun v => h.dn) (fun v hv => (h.dist hlt hv.lt).symm)⟩
    | link lv rest nxt =>
      rw [hc] at hp
      obtain ⟨h1, h2, h3, h4, h5⟩ := hp
      refine ⟨h1, h2, h.dnl h3, fun y hy => ⟨h.dnl (h4 y hy).1, ?_⟩, fun a b => (h5 a b).imp id h.first⟩
      intro z' L' ez eL hin
      obtain ⟨⟨z, e, hz, _⟩, hno⟩ := h4 y hy
      obtain ⟨L, eL0, hL⟩ := hadd y z z' e hz ez lv L' eL
      rcases hL j hin with h6 | h6
      · exact hno z L e eL0 h6
      · exact hij h6

/-- A step that changes only the entry of node `i`, not its label and level. -/
theorem Ext.set {s s' : State} {i : Nat} {x x' : Node} (hi : s.nodes[i]? = some x) (hn : s'.nodes = s.nodes.set i x')
    (hlab : x'.label = x.label) (hlev : x'.level = x.level) (hlk : ∀ l, Linked x l → Linked x' l)
    (hdn : x.ph = .done → x'.ph = .done) (hl : ∀ L, x.links[0]? = some L → L ≠ [] → ∃ L', x'.links[0]? = some L' ∧ L' ≠ []) : Ext s s' := by
  have hlt : i < s.nodes.length := (List.getElem?_eq_some_iff.mp hi).1
  refine ⟨fun j y hy => ?_, ?_⟩
  · by_cases hj : j = i
    · subst hj
      rw [hi] at hy
      cases hy
      exact ⟨x', by rw [hn, List.getElem?_set_self hlt], hlab, hlev, hlk, hdn⟩
    · exact ⟨y, by rw [hn, List.getElem?_set_ne (Ne.symm hj)]; exact hy, rfl, rfl, fun _ h => h, fun h => h⟩
  · rintro ⟨y, L, e1, e2, e3⟩
    by_cases h0 : i = 0
    · subst h0
      rw [hi] at e1
      cases e1
      obtain ⟨L', e4, e5⟩ := hl L e2 e3
      exact ⟨x', L', by rw [hn, List.getElem?_set_self hlt], e4, e5⟩
    · exact ⟨y, L, by rw [hn, List.getElem?_set_ne h0]; exact e1, e2, e3⟩

theorem nodes_set {s s' : State} {i : Nat} {x : Node} (hn : s'.nodes = s.nodes.set i x) {j : Nat} (h : j ≠ i) :
    s'.nodes[j]? = s.nodes[j]? := by
  rw [hn, List.getElem?_set_ne (Ne.symm h)]

theorem BaseOk.of_eq {c : Cfg} {s s' : State} (h : BaseOk c s) (hl : s'.nodes.map Node.label = s.nodes.map Node.label)
    (ht : s'.todo = s.todo) : BaseOk c s' := by
  refine ⟨by rw [hl, ht]; exact h.nd, by rw [hl, ht]; exact h.lt, by rw [hl, ht]; exact h.all, fun hne => ?_⟩
  rw [hl]
  refine h.zero (fun he => hne ?_)
  rw [he] at hl
  simpa using hl

theorem map_set_same {α β : Type} (f : α → β) {l : List α} {i : Nat} {a b : α} (h : l[i]? = some a) (hf : f b = f a) :
    (l.set i b).map f = l.map f := by
  rw [List.map_set, hf]
  apply List.ext_getElem?
  intro j
  by_cases hj : j = i
  · subst hj
    have hlt : j < (l.map f).length := by
      rw [List.length_map]; exact (List.getElem?_eq_some_iff.mp h).1
    rw [List.getElem?_set_self hlt, List.getElem?_map, h]
    rfl
  · rw [List.getElem?_set_ne (Ne.symm hj)]

/-- One entry changed: the invariant of the nodes. -/
theorem Inv.set {c : Cfg} {s s' : State} (h : Inv c s) {i : Nat} {x x' : Node} (hi : s.nodes[i]? = some x)
    (hn : s'.nodes = s.nodes.set i x') (ht : s'.todo = s.todo) (hact : x.ph ≠ .done)
    (hlab : x'.label = x.label) (hlev : x'.level = x.level) (hlk : ∀ l, Linked x l → Linked x' l)
    (hl : ∀ L, x.links[0]? = some L → L ≠ [] → ∃ L', x'.links[0]? = some L' ∧ L' ≠ []) (hg : GlobOk s')
    (hnode : Ext s s' → NodeOk c s' i x') : Inv c s' ∧ Ext s s' := by
  have hlt : i < s.nodes.length := (List.getElem?_eq_some_iff.mp hi).1
  have hext : Ext s s' := Ext.set hi hn hlab hlev hlk (fun hd => absurd hd hact) hl
  refine ⟨⟨h.base.of_eq (by rw [hn]; exact map_set_same _ hi hlab) ht, fun j y hy => ?_, hg⟩, hext⟩
  by_cases hj : j = i
  · subst hj
    rw [hn, List.getElem?_set_self hlt] at hy
    cases hy
    exact hnode hext
  · have hy0 : s.nodes[j]? = some y := by rw [← nodes_set hn hj]; exact hy
    refine NodeOk.ext hext hj (h.node j y hy0) hy0 rfl rfl rfl (fun l L' e => .inl e) ?_
    intro z w w' ew hwd ew' l L' e
    have hz : z ≠ i := by
      intro hzi
      subst hzi
      rw [hi] at ew
      cases ew
      exact hact hwd
    rw [nodes_set hn hz, ew] at ew'
    cases ew'
    exact ⟨L', e, fun v hv => .inl hv⟩

theorem GlobOk.same {s s' : State} (h : GlobOk s) (hl : s'.nodes.map (fun x => (x.label, x.level, x.ml, x.cls)) =
    s.nodes.map (fun x => (x.label, x.level, x.ml, x.cls))) (h1 : s'.glob = s.glob) (h2 : s'.ent = s.ent) (h3 : s'.maxl = s.maxl) :
    GlobOk s' := by
  have key : ∀ j : Nat, (s'.nodes[j]?).map (fun x : Node => (x.label, x.level, x.ml, x.cls)) = (s.nodes[j]?).map (fun x : Node => (x.label, x.level, x.ml, x.cls)) := by
    intro j
    rw [← List.getElem?_map, ← List.getElem?_map, hl]
  have fwd : ∀ (j : Nat) x, s.nodes[j]? = some x → ∃ x', s'.nodes[j]? = some x' ∧ x'.label = x.label ∧ x'.level = x.level ∧ x'.ml = x.ml ∧ x'.cls = x.cls := by
    intro j x e
    have := key j
    rw [e] at this
    obtain ⟨x', e', h'⟩ := Option.map_eq_some_iff.mp this
    simp only [Prod.mk.injEq] at h'
    exact ⟨x', e', h'⟩
  have bwd : ∀ (j : Nat) x', s'.nodes[j]? = some x' → ∃ x, s.nodes[j]? = some x ∧ x'.label = x.label ∧ x'.level = x.level ∧ x'.ml = x.ml ∧ x'.cls = x.cls := by
    intro j x' e
    have := (key j).symm
    rw [e] at this
    obtain ⟨x, e', h'⟩ := Option.map_eq_some_iff.mp this
    simp only [Prod.mk.injEq] at h'
    exact ⟨x, e', h'.1.symm, h'.2.1.symm, h'.2.2.1.symm, h'.2.2.2.symm⟩
  have hlen : s'.nodes.length = s.nodes.length := by simpa using congrArg List.length hl
  refine ⟨?_, ?_, ?_, ?_, ?_⟩
  · intro e he
    rw [h2] at he
    obtain ⟨x, a, b, d⟩ := h.ent e he
    obtain ⟨x', a', b1, b2, b3, b4⟩ := fwd e x a
    exact ⟨x', a', by rw [b4]; exact b, by rw [h3, b2]; exact d⟩
  · intro he
    rw [h2] at he
    obtain ⟨a, b, d⟩ := h.noent he
    refine ⟨by rw [h3]; exact a, by omega, fun x' hx' => ?_⟩
    obtain ⟨j, hj⟩ := List.getElem?_of_mem hx'
    obtain ⟨x, a', b1, b2, b3, b4⟩ := bwd j x' hj
    have := d x (List.mem_of_getElem? a')
    rw [b1, b4]
    exact this
  · intro i hi
    rw [h1] at hi
    obtain ⟨x, a, b, d, e⟩ := h.holder i hi
    obtain ⟨x', a', b1, b2, b3, b4⟩ := fwd i x a
    exact ⟨x', a', by rw [b4]; exact b, by rw [b3, h3]; exact d, by rw [b3, b2]; exact e⟩
  · intro i x' hi hc hg
    obtain ⟨x, a', b1, b2, b3, b4⟩ := bwd i x' hi
    rw [h1] at hg
    rw [b4] at hc
    rw [b3, b2, h3]
    exact h.other i x a' hc hg
  · intro i x' hi hc
    obtain ⟨x, a', b1, b2, b3, b4⟩ := bwd i x' hi
    rw [b4] at hc
    rw [b2, h3]
    exact h.over i x a' hc

end Alaya.Hnsw
