import Verif.Lemmas.NsgBuild

/-
C73: the NSG builder.  From any kNN graph, any distances and any random draws, a graph that `build_graph` returns has one row per vector with
at most `max_nbrs` ids of vectors in front and nothing behind them, and its entry point is a vector; linking ends when there are at least
`ef_construction` vectors; the depth-first search marks exactly the vectors that can be reached; the edges added afterwards take none away.
Refuted: that the builder ends (with fewer vectors than `ef_construction`, default 200, or when linking fills every row, it never does), that
every vector can be reached from the entry point of the result, and that vectors can be inserted into the index afterwards.
-/
namespace Alaya.Nsg

/-! ### The returned graph -/

/-- The shape of a returned graph, row by row. -/
theorem C73_rows_partial (e : Env) (hs : Sorts e.srt) (hR : 0 < e.R) (hn : 0 < e.n) (fuel : Nat) (knng g : G) (ep : Nat)
    (h : build e fuel knng = some (g, ep)) :
    ep < e.n ∧ g.length = e.n ∧ ∀ i, i < e.n → ∃ L : List Nat,
      (∀ j, g.at i j = L[j]?) ∧ L.length ≤ e.R ∧ ∀ x ∈ L, x < e.n := by
  unfold build at h
  split at h
  · cases h
  · rename_i ep0 he
    split at h
    · cases h
    · rename_i g1 h1
      split at h
      · cases h
      · rename_i g2 h2
        split at h
        · cases h
        · rename_i g3 h3
          cases h
          have hk1 := linkUp_spec hs hR hn e.n h1
          obtain ⟨g2', hr, hk2⟩ := reverseAll_spec hs hR e.n (Nat.le_refl _) hk1
          rw [h2] at hr; cases hr
          obtain ⟨hc1, hc2, hc3⟩ := compact_spec hk2
          rw [hc1] at h3
          obtain ⟨hk3, _⟩ := treeGrow_spec hs hn fuel 1 hk2 ⟨hc2, hc3⟩ h3
          refine ⟨?_, hk3.1, ?_⟩
          · unfold entry at he
            split at he
            · cases he
            · rename_i s hsr
              have := (search_spec hn hsr).1.pool
              cases hp : s.pool with
              | nil => rw [hp] at he; cases he
              | cons p ps =>
                rw [hp] at he
                cases he
                exact this p (by rw [hp]; simp)
          · intro i hi
            obtain ⟨L, r1, r2, r3⟩ := hk3.row hi
            refine ⟨L, ?_, r2, r3⟩
            intro j
            unfold G.at
            rw [r1, List.getD_eq_getElem?_getD]
            by_cases hj : j < L.length
            · rw [List.getElem?_append_left (by simpa using hj), List.getElem?_map, List.getElem?_eq_getElem hj]; rfl
            · rw [List.getElem?_append_right (by simpa using hj), List.getElem?_eq_none (l := L) (by omega), List.getElem?_replicate]
              split <;> rfl

/-- With enough vectors and a generator that keeps producing every residue, finding the entry point and linking end, and the reverse links
never leave a row. -/
theorem C73_link_terminates (e : Env) (hs : Sorts e.srt) (hR : 0 < e.R) (h2 : 2 ≤ e.ef) (hef : e.ef ≤ e.n) (hf : Fair e.n e.gen) (knng : G) :
    ∃ fuel ep g g', entry e fuel knng = some ep ∧ linkUp e fuel knng ep e.n = some g ∧ reverseAll e e.n g = some g' ∧
      GraphOk e.n e.R g' := by
  have hn : 0 < e.n := by omega
  obtain ⟨f1, s, h1⟩ := search_ends hn hef hf e.center knng e.width (e.rng 0 % e.n)
  have hl := (search_spec hn h1).2
  obtain ⟨p, ps, hp⟩ : ∃ p ps, s.pool = p :: ps := by
    cases hp : s.pool with
    | nil => rw [hp] at hl; simp at hl; omega
    | cons p ps => exact ⟨p, ps, rfl⟩
  obtain ⟨f2, g, h3⟩ := linkUp_ends hs hn h2 hef hf knng p.id e.n
  obtain ⟨g', h4, h5⟩ := reverseAll_spec hs hR e.n (Nat.le_refl _) (linkUp_spec hs hR hn e.n h3)
  refine ⟨f1 + f2, p.id, g, g', ?_, ?_, h4, h5⟩
  · unfold entry
    rw [search_mono h1 f2]
    simp [hp]
  · rw [Nat.add_comm]; exact linkUp_mono f1 e.n h3

/-- The depth-first search from an unvisited start ends and marks exactly the vectors that can be reached; its count is one short. -/
theorem C73_dfs (n R : Nat) (g : G) (hg : GraphOk n R g) (root : Nat) (hr : root < n) :
    ∃ fuel vis cnt, dfs g fuel (List.replicate n false) root 0 = some (vis, cnt) ∧ (∀ x, vis.has x = true ↔ Reach g root x) ∧
      cnt + 1 = vis.count true := by
  have hlen : (Vis.mark (List.replicate n false) root).length = n := by rw [mark_length]; simp
  obtain ⟨⟨vis, cnt⟩, hd⟩ := dfsLoop_ends g (R := R) (2 * unvis (Vis.mark (List.replicate n false) root) + 2) [root]
    (Vis.mark (List.replicate n false) root) 0 (by rw [hlen]; exact hg) (by simp)
  have hd' : dfs g (2 * unvis (Vis.mark (List.replicate n false) root) + 2) (List.replicate n false) root 0 = some (vis, cnt) := by
    unfold dfs
    rw [has_false]
    exact hd
  obtain ⟨h1, h2, h3⟩ := dfs_reach hg hr hd'
  refine ⟨_, vis, cnt, hd', h2, ?_⟩
  have : vis.count true + vis.count false = vis.length := by
    clear h1 h2 h3 hd hd'
    induction vis with
    | nil => rfl
    | cons a v ih => cases a <;> simp <;> omega
  unfold unvis at h3
  omega

/-- What the linked graph reaches from a vector, the returned graph reaches as well. -/
theorem C73_keeps (e : Env) (hs : Sorts e.srt) (hR : 0 < e.R) (hn : 0 < e.n) (fuel : Nat) (knng g : G) (ep : Nat)
    (h : build e fuel knng = some (g, ep)) :
    ∃ g1 g2, linkUp e fuel knng ep e.n = some g1 ∧ reverseAll e e.n g1 = some g2 ∧ ∀ a b, Reach g2 a b → Reach g a b := by
  unfold build at h
  split at h
  · cases h
  · rename_i ep0 he
    split at h
    · cases h
    · rename_i g1 h1
      split at h
      · cases h
      · rename_i g2 h2
        split at h
        · cases h
        · rename_i g3 h3
          cases h
          have hk1 := linkUp_spec hs hR hn e.n h1
          obtain ⟨g2', hr, hk2⟩ := reverseAll_spec hs hR e.n (Nat.le_refl _) hk1
          rw [h2] at hr; cases hr
          obtain ⟨hc1, hc2, hc3⟩ := compact_spec hk2
          rw [hc1] at h3
          obtain ⟨_, hk4⟩ := treeGrow_spec hs hn fuel 1 hk2 ⟨hc2, hc3⟩ h3
          exact ⟨g1, g2, h1, h2, fun a b hab => hab.mono hk4⟩

/-! ### The builder need not end -/

/-- Fewer vectors than `ef_construction`: the search for the entry point fills its pool with random ids that are not in it yet, and there
are not enough of them.  No amount of work is enough. -/
theorem C73_small_refuted (e : Env) (hn : 0 < e.n) (hef : e.n < e.ef) (knng : G)
    (hd : ∀ i j x, knng.at (e.rng 0 % e.n) i = some x → knng.at (e.rng 0 % e.n) j = some x → i = j) (fuel : Nat) :
    build e fuel knng = none := by
  unfold build entry
  rw [search_endless e hn hef e.center knng e.width _ hd fuel]

theorem treeGrow_full {e : Env} (hs : Sorts e.srt) (hn : 0 < e.n) {g : G} {deg : List Nat} (hg : GraphOk e.n e.R g)
    (hd : ∀ i, i < e.n → deg.getD i 0 = e.R) {ep : Nat} (hep : ep < e.n) (fuel k t : Nat) :
    treeGrow e fuel ep k t g deg (List.replicate e.n false) ep 0 = none := by
  cases k with
  | zero => rfl
  | succ k =>
    unfold treeGrow
    cases hdf : dfs g fuel (List.replicate e.n false) ep 0 with
    | none => rfl
    | some r =>
      obtain ⟨vis, cnt⟩ := r
      obtain ⟨h1, h2, h3⟩ := dfs_reach hg hep hdf
      simp only
      rw [if_neg (by omega)]
      have ha : attach e fuel ep t g deg vis = none := by
        unfold attach
        split
        · rfl
        · rename_i id hid
          split
          · rfl
          · rename_i s hsr
            have hsk := (search_spec hn hsr).1
            have hdr : drawNode e vis deg id fuel t = none := by
              apply drawNode_none hn
              intro x hx _ hlt
              rw [hd x hx] at hlt; omega
            cases hfind : (e.srt s.full).find? (fun p => decide (deg.getD p.1 0 < e.R ∧ p.1 ≠ id)) with
            | none => simp only [hdr]
            | some p =>
              exfalso
              have hp1 := List.find?_some hfind
              have hp2 := hsk.full p ((hs _).mem_iff.1 (List.mem_of_find?_eq_some hfind))
              have := (of_decide_eq_true hp1).1
              rw [hd p.1 hp2] at this; omega
      rw [ha]

/-- Linking fills every row: the count of the first depth-first search is one short, so a further edge is looked for, and no vector has room
for it.  No amount of work is enough. -/
theorem C73_full_refuted (e : Env) (hs : Sorts e.srt) (hR : 0 < e.R) (hn : 0 < e.n) (knng : G) (fuel0 ep : Nat) (g g' : G)
    (he : entry e fuel0 knng = some ep) (hl : linkUp e fuel0 knng ep e.n = some g) (hr : reverseAll e e.n g = some g')
    (hfull : ∀ row ∈ g', none ∉ row) (fuel : Nat) : build e fuel knng = none := by
  have hmono : ∀ {f ep' : Nat} (x : Nat), entry e f knng = some ep' → entry e (f + x) knng = some ep' := by
    intro f ep' x h
    unfold entry at h ⊢
    split at h
    · cases h
    · rename_i s hsr
      rw [search_mono hsr x]; exact h
  have hep : ep < e.n := by
    unfold entry at he
    split at he
    · cases he
    · rename_i s hsr
      have := (search_spec hn hsr).1.pool
      cases hp : s.pool with
      | nil => rw [hp] at he; cases he
      | cons p ps =>
        rw [hp] at he
        cases he
        exact this p (by rw [hp]; simp)
  have hk1 := linkUp_spec hs hR hn e.n hl
  obtain ⟨g2', hr', hk2⟩ := reverseAll_spec hs hR e.n (Nat.le_refl _) hk1
  rw [hr] at hr'; cases hr'
  obtain ⟨hc1, hc2, hc3⟩ := compact_spec hk2
  unfold build
  split
  · rfl
  · rename_i ep1 h1
    have := hmono fuel0 h1
    rw [Nat.add_comm, hmono fuel he] at this
    cases this
    split
    · rfl
    · rename_i g1 h2
      have := linkUp_mono fuel0 e.n h2
      rw [Nat.add_comm, linkUp_mono fuel e.n hl] at this
      cases this
      rw [hr]
      simp only
      rw [treeGrow_full hs hn (by rw [hc1]; exact hk2) ?_ hep]
      intro i hi
      rw [hc3]
      obtain ⟨L, r1, r2, r3⟩ := hk2.row hi
      rw [r1, ids_row]
      by_contra hne
      have hm : g'.getD i [] ∈ g' := by
        have : i < g'.length := by rw [hk2.1]; exact hi
        rw [List.getD_eq_getElem?_getD, List.getElem?_eq_getElem this]
        exact List.getElem_mem this
      apply hfull _ hm
      rw [r1]
      apply List.mem_append_right
      rw [List.mem_replicate]
      exact ⟨by omega, rfl⟩

/-! ### Concrete builds -/

def dot (ps : List (Int × Int)) (i j : Nat) : Int :=
  ((ps.getD i (0, 0)).1 - (ps.getD j (0, 0)).1) ^ 2 + ((ps.getD i (0, 0)).2 - (ps.getD j (0, 0)).2) ^ 2

theorem fair_tail (n : Nat) (l : List Nat) : Fair n (fun t => l.getD t t) := by
  intro x hx j
  refine ⟨n * (j + l.length) + x, ?_, ?_⟩
  · have : j + l.length ≤ n * (j + l.length) := Nat.le_mul_of_pos_left _ (by omega)
    omega
  · have : j + l.length ≤ n * (j + l.length) := Nat.le_mul_of_pos_left _ (by omega)
    show l.getD _ _ % n = x
    rw [List.getD_eq_getElem?_getD, List.getElem?_eq_none (by omega)]
    show (n * (j + l.length) + x) % n = x
    rw [Nat.mul_add_mod, Nat.mod_eq_of_lt hx]

/-- Two pairs of points on a line with one neighbour each. -/
def eFull : Env :=
  { n := 4, R := 1, ef := 2, cut := 101, width := 1, dist := dot [(0, 0), (1, 0), (10, 0), (11, 0)],
    center := fun i => dot [(0, 0), (1, 0), (10, 0), (11, 0)] i 0, gen := fun t => t, rng := fun t => t, srt := isort }

def kFull : G := [[some 1], [some 0], [some 3], [some 2]]

/-- With one neighbour per vector this build never ends. -/
theorem C73_full_case_refuted (fuel : Nat) : build eFull fuel kFull = none := by
  apply C73_full_refuted eFull isort_sorts (by decide) (by decide) kFull 30 0 [[some 1], [some 0], [some 3], [some 2]]
    [[some 1], [some 0], [some 3], [some 2]]
  all_goals decide +kernel

/-- Six points in two clusters with the exact two nearest neighbours of each. -/
def pts : List (Int × Int) := [(2, 2), (21, 1), (0, 5), (25, 4), (4, 1), (21, 0)]

def eReach : Env :=
  { n := 6, R := 2, ef := 2, cut := 102, width := 2, dist := dot pts, center := fun i => dot pts i 0,
    gen := fun t => [1, 2, 4, 5, 3, 2, 0].getD t t, rng := fun t => [3, 4, 0, 3, 3, 0, 2, 3, 4, 2, 3, 5].getD t t, srt := isort }

def kReach : G := [[some 4, some 2], [some 5, some 3], [some 0, some 4], [some 1, some 5], [some 0, some 2], [some 1, some 3]]

def gReach : G := [[some 4, some 2], [some 5, some 3], [some 0, some 1], [some 1, some 1], [some 0, some 1], [some 1, some 1]]

theorem reach_case : build eReach 100 kReach = some (gReach, 1) := by decide +kernel

theorem eReach_fair : Fair eReach.n eReach.gen := fair_tail _ _

/-- Three of the six vectors cannot be reached from the entry point of the returned graph; two rows name the same vector twice. -/
theorem C73_reach_refuted : ∃ (e : Env) (fuel : Nat) (knng g : G) (ep : Nat), Sorts e.srt ∧ 0 < e.R ∧ 2 ≤ e.ef ∧ e.ef ≤ e.n ∧
    Fair e.n e.gen ∧ Fair e.n e.rng ∧ build e fuel knng = some (g, ep) ∧
    (∃ x, x < e.n ∧ ¬ Reach g ep x) ∧ ∃ i x, i < e.n ∧ g.at i 0 = some x ∧ g.at i 1 = some x := by
  refine ⟨eReach, 100, kReach, gReach, 1, isort_sorts, by decide, by decide, by decide, eReach_fair, fair_tail _ _, reach_case,
    ⟨0, by decide, ?_⟩, 3, 1, by decide, by decide, by decide⟩
  intro hr
  have key : ∀ x, Reach gReach 1 x → x = 1 ∨ x = 5 ∨ x = 3 := by
    intro x hx
    induction hx with
    | refl => exact .inl rfl
    | step _ he ih =>
      rcases ih with rfl | rfl | rfl
      all_goals
        simp [Edge, gReach] at he
        omega
  rcases key 0 hr with h | h | h <;> cases h

/-! ### Insertion afterwards -/

theorem fillRows_pos : ∀ (rows : List Bytes) (i : Nat) (s : Seq.Storage) {s' : Seq.Storage}, fillRows s i rows = some s' →
    s'.pos = s.pos ∧ s'.cap = s.cap ∧ s'.bitmap = s.bitmap := by
  intro rows
  induction rows with
  | nil => intro i s s' h; cases h; exact ⟨rfl, rfl, rfl⟩
  | cons row rows ih =>
    intro i s s' h
    unfold fillRows at h
    split at h
    · cases h
    · obtain ⟨h1, h2, h3⟩ := ih _ _ h
      exact ⟨h1, h2, h3⟩

theorem remove_pos {s s' : Seq.Storage} {i : Nat} {r : Option Nat} (h : s.remove i = some (s', r)) :
    s'.pos = s.pos ∧ s'.cap = s.cap ∧ s'.data = s.data ∧ s'.aligned = s.aligned ∧ s'.itemSize = s.itemSize := by
  unfold Seq.Storage.remove at h
  split at h
  · cases h
  · cases h; exact ⟨rfl, rfl, rfl, rfl, rfl⟩
  · split at h
    · cases h
    · cases h; exact ⟨rfl, rfl, rfl, rfl, rfl⟩

theorem insert_pos {s s' : Seq.Storage} {d : Bytes} {r : Option Nat} (hc : s.pos < s.cap) (h : s.insert d = some (s', r)) :
    r = some s.pos ∧ s'.pos = s.pos + 1 ∧ s'.cap = s.cap ∧ s'.aligned = s.aligned ∧ s'.itemSize = s.itemSize ∧
    Seq.memWrite s.data (s.pos * s.aligned) d = some s'.data := by
  unfold Seq.Storage.insert at h
  rw [if_neg (by omega)] at h
  split at h
  · rename_i data bm hd hb
    cases h
    exact ⟨rfl, rfl, rfl, rfl, rfl, hd⟩
  · cases h

/-- One insertion into an index whose graph storage is behind its vector storage: it throws, and the row the graph storage stood at is
overwritten. -/
theorem insertBoth_behind {g sp g' sp' : Seq.Storage} {row vec : Bytes} {r : Option Nat} (hlt : g.pos < sp.pos) (hg : g.pos < g.cap)
    (hs : sp.pos < sp.cap) (h : insertBoth g sp row vec = some (g', sp', r)) :
    r = none ∧ g'.pos = g.pos + 1 ∧ sp'.pos = sp.pos + 1 ∧ g'.cap = g.cap ∧ sp'.cap = sp.cap ∧
    Seq.memWrite g.data (g.pos * g.aligned) row = some g'.data ∧ g'.aligned = g.aligned ∧ g'.itemSize = g.itemSize := by
  unfold insertBoth at h
  split at h
  · cases h
  · rename_i g1 hi
    have := (insert_pos hg hi).1
    cases this
  · rename_i g1 id hi
    obtain ⟨a1, a2, a3, a4, a5, a6⟩ := insert_pos hg hi
    cases a1
    split at h
    · cases h
    · rename_i s1 r1 hj
      obtain ⟨b1, b2, b3, b4, b5, b6⟩ := insert_pos hs hj
      subst b1
      rw [if_neg (by intro he; have := Option.some.inj he; omega)] at h
      simp only at h
      split at h
      · rename_i s2 g2 o hx hy
        cases h
        obtain ⟨⟨s2', o'⟩, hx1, hx2⟩ := Option.map_eq_some_iff.1 hx
        cases hx2
        obtain ⟨c1, c2, c3, c4, c5⟩ := remove_pos hx1
        obtain ⟨d1, d2, d3, d4, d5⟩ := remove_pos hy
        refine ⟨rfl, by omega, by simp only [c1]; omega, by omega, by simp only [c2]; omega, ?_, by rw [d4, a4], by rw [d5, a5]⟩
        rw [d3]; exact a6
      · cases h

/-- Every insertion into such an index throws, however many there are, and the vector storage loses a slot with each of them. -/
theorem C73_insert_refuted (itemSize cap align n : Nat) (fill : UInt8) (rows : List Bytes) (g sp : Seq.Storage) (hn : 0 < n) (hsp : sp.pos = n)
    (hb : fillRows (Seq.init itemSize cap fill align) 0 rows = some g) (news : List (Bytes × Bytes)) (hr1 : n + news.length ≤ sp.cap)
    (hr2 : n + news.length ≤ cap) (g' sp' : Seq.Storage) (rs : List (Option Nat)) (h : insertMany g sp news = some (g', sp', rs)) :
    rs = List.replicate news.length none ∧ sp'.pos = n + news.length := by
  obtain ⟨hp, hc, _⟩ := fillRows_pos _ _ _ hb
  have key : ∀ (news : List (Bytes × Bytes)) (g sp g' sp' : Seq.Storage) (rs : List (Option Nat)), g.pos < sp.pos →
      sp.pos + news.length ≤ sp.cap → sp.pos + news.length ≤ g.cap → insertMany g sp news = some (g', sp', rs) →
      rs = List.replicate news.length none ∧ sp'.pos = sp.pos + news.length := by
    intro news
    induction news with
    | nil => intro g sp g' sp' rs _ _ _ h; cases h; exact ⟨rfl, rfl⟩
    | cons nv rest ih =>
      obtain ⟨row, vec⟩ := nv
      intro g sp g' sp' rs h1 h2 h3 h
      rw [List.length_cons] at h2 h3
      rw [insertMany] at h
      split at h
      · cases h
      · rename_i g1 s1 r hb
        obtain ⟨k1, k2, k3, k4, k5, _⟩ := insertBoth_behind h1 (by omega) (by omega) hb
        split at h
        · cases h
        · rename_i g2 s2 rs2 hm
          cases h
          obtain ⟨i1, i2⟩ := ih g1 s1 _ _ _ (by omega) (by omega) (by omega) hm
          refine ⟨by rw [i1, k1]; rfl, ?_⟩
          rw [i2, k3, List.length_cons]; omega
  have := key news g sp g' sp' rs (by rw [hp, hsp]; exact hn) (by omega) (by rw [hc]; show _ ≤ cap; omega) h
  rw [hsp] at this
  exact this

/-- A graph with rows of four bytes for two vectors of one byte, and room for four. -/
def gIns : Option Seq.Storage := fillRows (Seq.init 4 4 255 4) 0 [[1, 0, 0, 0], [0, 0, 0, 0]]
def sIns : Option Seq.Storage := ((Seq.init 1 4 0 1).run [.insert [7], .insert [9]]).map Prod.fst

/-- The insertion of a third vector throws and leaves its row (its neighbour is vector 0) in the place of the row of vector 0. -/
theorem C73_insert_case_refuted : (gIns.bind fun g => sIns.bind fun sp => (insertMany g sp [([0, 0, 0, 0], [8])]).map fun r =>
    (g.read 0, r.1.read 0, r.2.2, r.2.1.pos)) = some (some [1, 0, 0, 0], some [0, 0, 0, 0], [none], 3) := by decide +kernel

end Alaya.Nsg
