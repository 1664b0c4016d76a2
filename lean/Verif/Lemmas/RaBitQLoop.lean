import Verif.Lemmas.RaBitQSearch
import Verif.Spec.RaBitQSearch

namespace Alaya.RSearch
open Alaya Alaya.Pools Alaya.Spec Alaya.Hybrid Alaya.Hybrid.Spec
open Alaya.RSearch.Spec (offers)

theorem subperm_map {β γ : Type} (f : β → γ) {a b : List β} (h : a.Subperm b) : (a.map f).Subperm (b.map f) := by
  obtain ⟨l, h1, h2⟩ := h
  exact ⟨l.map f, h1.map f, h2.map f⟩

/-! ### The sets -/

/-- The operations are those of a set of ids below `n`, whose content is described by `Rep`. -/
structure VOk {σ : Type} (V : VOps σ) (n : Nat) (Rep : σ → List Nat → Prop) : Prop where
  get : ∀ {s E v}, Rep s E → v < n → V.get s v = some (decide (v ∈ E))
  set : ∀ {s E v}, Rep s E → v < n → ∃ s', V.set s v = some s' ∧ Rep s' (E ++ [v])

/-- The hash set holds exactly the ids of `E`. -/
structure HRep (h : HSet) (E : List Nat) : Prop where
  size : ∃ b, h.table.length = 2 ^ b ∧ h.mask = 2 ^ b - 1
  slot : ∀ (i val : Nat), h.table[i]? = some val → val ≠ emptyId → val ∈ E ∧ val % h.table.length = i
  real : ∀ v ∈ E, v ≠ emptyId
  stl : ∀ v ∈ h.stl, v ∈ E
  mem : ∀ v ∈ E, ∃ val, h.table[v % h.table.length]? = some val ∧ (val = v ∨ (val ≠ emptyId ∧ v ∈ h.stl))

theorem HRep.new (n : Nat) : HRep (HSet.new n) [] := by
  refine ⟨⟨(bitSize n + 4) / 2 + 3, by simp [HSet.new], by simp [HSet.new]⟩, ?_, by simp, by simp [HSet.new], by simp⟩
  intro i val h1 h2
  unfold HSet.new at h1
  simp only at h1
  have := List.mem_of_getElem? h1
  rw [List.mem_replicate] at this
  exact absurd this.2 h2

theorem HRep.hash {h : HSet} {E : List Nat} (hr : HRep h E) (v : Nat) :
    v &&& h.mask = v % h.table.length ∧ v % h.table.length < h.table.length := by
  obtain ⟨b, h1, h2⟩ := hr.size
  have hp : 0 < 2 ^ b := Nat.two_pow_pos b
  rw [h2, h1]
  exact ⟨Nat.and_two_pow_sub_one_eq_mod v b, Nat.mod_lt _ hp⟩

theorem hash_ok {n : Nat} (hn : n ≤ emptyId) : VOk hashOps n HRep where
  get := by
    intro h E v hr hv
    obtain ⟨e1, e2⟩ := hr.hash v
    show HSet.get h v = _
    unfold HSet.get
    rw [e1]
    obtain ⟨val, hval⟩ : ∃ val, h.table[v % h.table.length]? = some val := ⟨_, List.getElem?_eq_getElem e2⟩
    rw [hval]
    simp only
    congr 1
    by_cases hvv : val = v
    · rw [if_pos hvv]
      have := (hr.slot _ _ hval (by omega)).1
      rw [hvv] at this
      simp [this]
    · rw [if_neg hvv]
      rw [Bool.eq_iff_iff]
      simp only [Bool.and_eq_true, decide_eq_true_eq]
      constructor
      · intro ⟨_, b⟩; exact hr.stl v b
      · intro hE
        obtain ⟨val', h1, h2⟩ := hr.mem v hE
        rw [hval] at h1
        cases h1
        rcases h2 with h2 | h2
        · exact absurd h2 hvv
        · exact h2
  set := by
    intro h E v hr hv
    obtain ⟨e1, e2⟩ := hr.hash v
    show ∃ s', HSet.set h v = some s' ∧ HRep s' (E ++ [v])
    unfold HSet.set
    rw [e1]
    obtain ⟨val, hval⟩ : ∃ val, h.table[v % h.table.length]? = some val := ⟨_, List.getElem?_eq_getElem e2⟩
    rw [hval]
    simp only
    refine ⟨_, rfl, ?_⟩
    have hreal : ∀ y ∈ E ++ [v], y ≠ emptyId := by
      intro y hy
      rcases List.mem_append.mp hy with hy | hy
      · exact hr.real y hy
      · rw [List.mem_singleton.mp hy]; omega
    by_cases hvv : val = v
    · rw [if_pos hvv]
      refine ⟨hr.size, fun i y h1 h2 => ⟨by simp [(hr.slot i y h1 h2).1], (hr.slot i y h1 h2).2⟩, hreal, fun y hy => by simp [hr.stl y hy], ?_⟩
      intro y hy
      rcases List.mem_append.mp hy with hy | hy
      · exact hr.mem y hy
      · rw [List.mem_singleton.mp hy]; exact ⟨val, hval, .inl hvv⟩
    · rw [if_neg hvv]
      by_cases hem : val = emptyId
      · rw [if_pos hem]
        refine ⟨by simpa using hr.size, ?_, hreal, fun y hy => by simp [hr.stl y hy], ?_⟩
        · intro i y h1 h2
          simp only [List.length_set] at h1 ⊢
          by_cases hi : i = v % h.table.length
          · subst hi
            rw [List.getElem?_set_self e2] at h1
            cases h1
            exact ⟨by simp, rfl⟩
          · rw [List.getElem?_set_ne (by omega)] at h1
            exact ⟨by simp [(hr.slot i y h1 h2).1], (hr.slot i y h1 h2).2⟩
        · intro y hy
          simp only [List.length_set]
          by_cases hi : y % h.table.length = v % h.table.length
          · rw [hi, List.getElem?_set_self e2]
            refine ⟨v, rfl, ?_⟩
            rcases List.mem_append.mp hy with hy | hy
            · obtain ⟨val', k1, k2⟩ := hr.mem y hy
              rw [hi, hval] at k1
              cases k1
              rcases k2 with k2 | k2
              · exact absurd (k2.symm.trans hem) (hr.real y hy)
              · exact absurd hem k2.1
            · exact .inl (List.mem_singleton.mp hy).symm
          · rw [List.getElem?_set_ne (by omega)]
            rcases List.mem_append.mp hy with hy | hy
            · exact hr.mem y hy
            · exact absurd (by rw [List.mem_singleton.mp hy]) hi
      · rw [if_neg hem]
        refine ⟨hr.size, fun i y h1 h2 => ⟨by simp [(hr.slot i y h1 h2).1], (hr.slot i y h1 h2).2⟩, hreal, ?_, ?_⟩
        · intro y hy
          rcases List.mem_cons.mp hy with rfl | hy
          · simp
          · simp [hr.stl y hy]
        · intro y hy
          rcases List.mem_append.mp hy with hy | hy
          · obtain ⟨w, w1, w2⟩ := hr.mem y hy
            exact ⟨w, w1, w2.imp id (fun hh => ⟨hh.1, by simp [hh.2]⟩)⟩
          · rw [List.mem_singleton.mp hy]; exact ⟨val, hval, .inr ⟨hem, by simp⟩⟩

/-- The bitset holds exactly the ids of `E`. -/
def BRep (n : Nat) (s : List Bool) (E : List Nat) : Prop := s.length = n ∧ ∀ v, v < n → s[v]? = some (decide (v ∈ E))

theorem BRep.new (n : Nat) : BRep n (List.replicate n false) [] :=
  ⟨by simp, fun v hv => by simp [hv]⟩

theorem bit_ok (n : Nat) : VOk bitOps n (BRep n) where
  get := fun h hv => h.2 _ hv
  set := by
    intro s E v h hv
    show ∃ s', (if v < s.length then some (s.set v true) else none) = some s' ∧ _
    rw [if_pos (by rw [h.1]; exact hv)]
    refine ⟨_, rfl, by rw [List.length_set]; exact h.1, ?_⟩
    intro w hw
    by_cases he : w = v
    · subst he
      rw [List.getElem?_set_self (by rw [h.1]; exact hw)]
      simp
    · rw [List.getElem?_set_ne (by omega), h.2 w hw]
      simp [he]

/-! ### The main loop -/

/-- The edges are ids of nodes and the entry point is a node. -/
structure IdxOk (I : Idx) : Prop where
  ep : I.ep < I.rows.length
  small : I.rows.length ≤ 2147483648
  edges : ∀ row ∈ I.rows, ∀ v ∈ row, v < I.rows.length

/-- Edge `i` of `c` leads to `v`. -/
def Edge (I : Idx) (c i v : Nat) : Prop := ∃ row, I.rows[c]? = some row ∧ row[i]? = some v

theorem Edge.lt {I : Idx} (hI : IdxOk I) {c i v : Nat} (h : Edge I c i v) : v < I.rows.length := by
  obtain ⟨row, h1, h2⟩ := h
  exact hI.edges row (List.mem_of_getElem? h1) v (List.mem_of_getElem? h2)

/-- Edge `i` of `c` (to `v`) has been dealt with: `v` has been expanded, waits in the pool or does not belong into it. -/
def Dealt (dmax : Int) (I : Idx) (ef : Nat) (E : List Nat) (p : SPool) (c i v : Nat) : Prop :=
  dmax < I.est c i ∨ v ∈ E ∨ (v, I.est c i) ∈ p.ents ∨ Full ef (I.est c i) p

/-- Where an entry comes from. -/
def Src (d0 : Int) (I : Idx) (E : List Nat) (e : Nat × Int) : Prop :=
  (getId e.1 = I.ep ∧ e.2 = d0) ∨ ∃ c ∈ E, ∃ i, Edge I c i (getId e.1) ∧ e.2 = I.est c i

/-- The state of the pool when the nodes `E` have been expanded, except for edges of the last one. -/
structure LInv (d0 dmax : Int) (I : Idx) (ef : Nat) (E : List Nat) (p : SPool) : Prop where
  pool : PInv dmax I.rows.length ef p
  nodup : E.Nodup
  valid : ∀ v ∈ E, v < I.rows.length
  chkd : ∀ e ∈ p.ents, chk e = true → getId e.1 ∈ E
  src : ∀ e ∈ p.ents, Src d0 I E e

theorem scan_spec {σ : Type} {V : VOps σ} {d0 dmax : Int} {I : Idx} {Rep : σ → List Nat → Prop} (hI : IdxOk I) (hV : VOk V I.rows.length Rep)
    {ef : Nat} (hef : 0 < ef) {c : Nat} {vis : σ} {E : List Nat} (hvis : Rep vis E) (hc : c ∈ E) (nbs : List Nat) : ∀ (i : Nat) (p : SPool),
    LInv d0 dmax I ef E p → (∀ j v, nbs[j]? = some v → Edge I c (i + j) v) →
    ∃ p', scan V dmax I c vis i nbs p = some p' ∧ LInv d0 dmax I ef E p' ∧
      (∀ D, Full ef D p → Full ef D p') ∧ (∀ e ∈ p.ents, e ∈ p'.ents ∨ Full ef e.2 p') ∧
      (∀ j v, nbs[j]? = some v → Dealt dmax I ef E p' c (i + j) v) ∧ p'.open_ ≤ p.open_ + nbs.length ∧
      (p'.ents.map bare).Subperm ((nbs.zipIdx i).map (fun x => (x.1, I.est c x.2)) ++ p.ents.map bare) := by
  induction nbs with
  | nil => intro i p h _; exact ⟨p, rfl, h, fun _ hD => hD, fun e he => .inl he, by simp, by simp, by simpa using List.Subperm.refl _⟩
  | cons nb nbs ih =>
    intro i p h hrow
    have hnb : nb < I.rows.length := (hrow 0 nb rfl).lt hI
    obtain ⟨full, g1, g2, g3⟩ := h.pool.isFull hef (I.est c i)
    have hget := hV.get hvis hnb
    have hrow' : ∀ j v, nbs[j]? = some v → Edge I c (i + 1 + j) v := by
      intro j v hj
      have := hrow (j + 1) v (by simpa using hj)
      rwa [show i + (j + 1) = i + 1 + j by omega] at this
    -- the pool after this edge
    obtain ⟨p1, k1, k2, k3, k4, k5, k6, k7⟩ : ∃ p1, scan V dmax I c vis i (nb :: nbs) p = scan V dmax I c vis (i + 1) nbs p1 ∧
        LInv d0 dmax I ef E p1 ∧ (∀ D, Full ef D p → Full ef D p1) ∧ (∀ e ∈ p.ents, e ∈ p1.ents ∨ Full ef e.2 p1) ∧
        Dealt dmax I ef E p1 c i nb ∧ p1.open_ ≤ p.open_ + 1 ∧ (p1.ents.map bare).Subperm ((nb, I.est c i) :: p.ents.map bare) := by
      conv => congr; ext p1; lhs; lhs; unfold scan
      rw [g1, hget]
      simp only
      by_cases hskip : (full || decide (nb ∈ E)) = true
      · rw [if_pos hskip]
        refine ⟨p, rfl, h, fun _ hD => hD, fun e he => .inl he, ?_, by omega, (List.sublist_cons_self _ _).subperm⟩
        rcases Bool.or_eq_true_iff.mp hskip with hf | hs
        · rcases g2 hf with hd | hd
          · exact .inl hd
          · exact .inr (.inr (.inr hd))
        · exact .inr (.inl (by simpa using hs))
      · rw [if_neg hskip]
        have hff : full = false := by
          cases full with
          | false => rfl
          | true => exact absurd rfl hskip
        rw [hff] at g1
        obtain ⟨p1, m1, m2, m3⟩ := h.pool.insert hef hI.small hnb g1
        rw [m1]
        simp only
        have hx : ∃ x, p1.nextId = some x ∧ x < I.rows.length := by
          have hlt := m3.next
          obtain ⟨e, he⟩ : ∃ e, p1.data[p1.cur]? = some e :=
            ⟨_, List.getElem?_eq_getElem (by have := m2.dlen; have := m2.size; omega)⟩
          have hee : p1.ents[p1.cur]? = some e := by rw [m2.get hlt, he]
          refine ⟨e.1, by unfold SPool.nextId; rw [he]; rfl, (m2.ids e (List.mem_of_getElem? hee)).2 (m2.cur.2.2 e hee)⟩
        obtain ⟨x, hx1, hx2⟩ := hx
        rw [hx1]
        simp only
        rw [if_pos hx2]
        have hsm : nb < 2147483648 := by have := hI.small; omega
        refine ⟨p1, rfl, ⟨m2, h.nodup, h.valid, ?_, ?_⟩, m3.full, fun e he => m3.keep e (.inl he), ?_, m3.cnt, ?_⟩
        · intro e he hch
          rcases m3.sub e he with he | rfl
          · exact h.chkd e he hch
          · rw [chk_small hsm] at hch; cases hch
        · intro e he
          rcases m3.sub e he with he | rfl
          · exact h.src e he
          · right
            exact ⟨c, hc, i, by simpa [getId_small hsm] using hrow 0 nb rfl, rfl⟩
        · rcases m3.keep (nb, I.est c i) (.inr rfl) with hk | hk
          · exact .inr (.inr (.inl hk))
          · exact .inr (.inr (.inr hk))
        · have := subperm_map bare m3.many
          rw [List.map_cons] at this
          rwa [show bare (nb, I.est c i) = (nb, I.est c i) by unfold bare; rw [getId_small (by show nb < _; omega)]] at this
    obtain ⟨p2, q1, q2, q3, q4, q5, q6, q7⟩ := ih (i + 1) p1 k2 hrow'
    refine ⟨p2, by rw [k1, q1], q2, fun D hD => q3 D (k3 D hD), ?_, ?_, by simp; omega, ?_⟩
    · intro e he
      rcases k4 e he with he | he
      · exact q4 e he
      · exact .inr (q3 _ he)
    · intro j v hj
      cases j with
      | zero =>
        have : nb = v := by simpa using hj
        subst this
        show Dealt dmax I ef E p2 c i nb
        rcases k5 with hd | hd | hd | hd
        · exact .inl hd
        · exact .inr (.inl hd)
        · rcases q4 _ hd with hd | hd
          · exact .inr (.inr (.inl hd))
          · exact .inr (.inr (.inr hd))
        · exact .inr (.inr (.inr (q3 _ hd)))
      | succ j =>
        have := q5 j v (by simpa using hj)
        rwa [show i + (j + 1) = i + 1 + j by omega]
    · rw [List.zipIdx_cons, List.map_cons]
      refine q7.trans ((((List.subperm_append_left _).mpr k7)).trans ?_)
      exact (List.perm_middle).subperm

/-- The state between two rounds. -/
structure SInv {σ : Type} (d0 dmax : Int) (I : Idx) (ef : Nat) (Rep : σ → List Nat → Prop) (E : List Nat) (s : St σ) : Prop where
  lin : LInv d0 dmax I ef E s.pool
  vis : Rep s.vis E
  cov : ∀ c ∈ E, ∀ i v, Edge I c i v → Dealt dmax I ef E s.pool c i v
  reach : ∀ v ∈ E, RSearch.Spec.Reach I.rows I.ep v
  many : (s.pool.ents.map bare).Subperm (offers I.rows I.est d0 I.ep E)
  ent : I.ep ∈ E ∨ (E = [] ∧ s.pool.hasNext = true ∧ ∀ e ∈ s.pool.ents, e = (I.ep, d0))

/-- What bounds the number of rounds: `D` is the greatest degree. -/
def meas {σ : Type} (I : Idx) (D : Nat) (E : List Nat) (s : St σ) : Nat := (D + 1) * (I.rows.length - E.length) + s.pool.open_

theorem nodup_lt_length {n : Nat} {l : List Nat} (h : l.Nodup) (hv : ∀ v ∈ l, v < n) : l.length ≤ n := by
  have := nodup_subset_length (l2 := List.range n) h (fun v hv' => List.mem_range.mpr (hv v hv'))
  simpa using this

theorem step_spec {σ : Type} {V : VOps σ} {d0 dmax : Int} {I : Idx} {Rep : σ → List Nat → Prop} (hI : IdxOk I) (hV : VOk V I.rows.length Rep)
    {ef D : Nat} (hef : 0 < ef) (hD : ∀ row ∈ I.rows, row.length ≤ D) {E : List Nat} {s : St σ} (h : SInv d0 dmax I ef Rep E s)
    (hn : s.pool.hasNext = true) :
    ∃ s' r, step V dmax I s = some (s', r) ∧
      ((r = none ∧ SInv d0 dmax I ef Rep E s' ∧ meas I D E s' < meas I D E s) ∨
        ∃ c, r = some c ∧ SInv d0 dmax I ef Rep (E ++ [c]) s' ∧ meas I D (E ++ [c]) s' < meas I D E s) := by
  obtain ⟨e, p, e1, e2, e3, e4⟩ := h.lin.pool.pop hI.small hn
  have hsm : e.1 < 2147483648 := by have := hI.small; omega
  have hget := hV.get h.vis e2
  unfold step
  rw [e1]
  simp only
  rw [hget]
  -- facts about the pool after `pop`, for any larger set
  have hchk : ∀ E' : List Nat, (∀ v ∈ E, v ∈ E') → e.1 ∈ E' → ∀ y ∈ p.ents, chk y = true → getId y.1 ∈ E' := by
    intro E' hs hc y hy hch
    rcases e4.sub y hy with hy | rfl
    · exact hs _ (h.lin.chkd y hy hch)
    · rw [getId_set hsm]; exact hc
  have hsrc : ∀ E' : List Nat, (∀ v ∈ E, v ∈ E') → ∀ y ∈ p.ents, Src d0 I E' y := by
    intro E' hs y hy
    have key : ∀ z : Nat × Int, z ∈ s.pool.ents → Src d0 I E' z := by
      intro z hz
      rcases h.lin.src z hz with hh | ⟨c, hc, i, hi⟩
      · exact .inl hh
      · exact .inr ⟨c, hs c hc, i, hi⟩
    rcases e4.sub y hy with hy | rfl
    · exact key y hy
    · have := key e e4.mem
      unfold Src at this ⊢
      simp only [getId_set hsm]
      rwa [getId_small hsm] at this
  have hcov : ∀ E' : List Nat, (∀ v ∈ E, v ∈ E') → e.1 ∈ E' → ∀ c ∈ E, ∀ i v, Edge I c i v → Dealt dmax I ef E' p c i v := by
    intro E' hs hc c hcE i v hed
    rcases h.cov c hcE i v hed with hd | hd | hd | hd
    · exact .inl hd
    · exact .inr (.inl (hs v hd))
    · rcases e4.keep _ hd with hk | hk
      · right; left
        rw [← hk] at hc; exact hc
      · exact .inr (.inr (.inl hk))
    · exact .inr (.inr (.inr (e4.full _ hd)))
  have hcnt := e4.cnt
  by_cases hin : e.1 ∈ E
  · rw [decide_eq_true hin]
    refine ⟨_, _, rfl, .inl ⟨rfl, ⟨⟨e3, h.lin.nodup, h.lin.valid, hchk E (fun v hv => hv) hin, hsrc E (fun v hv => hv)⟩, h.vis,
      hcov E (fun v hv => hv) hin, h.reach, by rw [e4.same]; exact h.many, ?_⟩, ?_⟩⟩
    · rcases h.ent with hh | ⟨hh, -⟩
      · exact .inl hh
      · rw [hh] at hin; cases hin
    · unfold meas
      simp only
      omega
  · rw [decide_eq_false hin]
    obtain ⟨vis', v1, v2⟩ := hV.set h.vis e2
    obtain ⟨row, hrow⟩ : ∃ row, I.rows[e.1]? = some row := ⟨_, List.getElem?_eq_getElem e2⟩
    rw [v1, hrow]
    simp only
    have hs : ∀ v ∈ E, v ∈ E ++ [e.1] := fun v hv => by simp [hv]
    have hl : LInv d0 dmax I ef (E ++ [e.1]) p := by
      refine ⟨e3, ?_, ?_, hchk _ hs (by simp), hsrc _ hs⟩
      · rw [List.nodup_append]
        refine ⟨h.lin.nodup, by simp, ?_⟩
        intro a ha b hb hab
        rw [List.mem_singleton.mp hb] at hab
        rw [hab] at ha
        exact hin ha
      · intro v hv
        rcases List.mem_append.mp hv with hv | hv
        · exact h.lin.valid v hv
        · rw [List.mem_singleton.mp hv]; exact e2
    obtain ⟨p', q1, q2, q3, q4, q5, q6, q7⟩ := scan_spec hI hV hef v2 (c := e.1) (by simp) row 0 p hl
      (fun j v hj => ⟨row, hrow, by simpa using hj⟩)
    rw [q1]
    refine ⟨_, _, rfl, .inr ⟨e.1, rfl, ⟨q2, v2, ?_, ?_, ?_, ?_⟩, ?_⟩⟩
    · intro c hc i v hed
      rcases List.mem_append.mp hc with hc | hc
      · rcases hcov _ hs (by simp) c hc i v hed with hd | hd | hd | hd
        · exact .inl hd
        · exact .inr (.inl hd)
        · rcases q4 _ hd with hd | hd
          · exact .inr (.inr (.inl hd))
          · exact .inr (.inr (.inr hd))
        · exact .inr (.inr (.inr (q3 _ hd)))
      · have : c = e.1 := List.mem_singleton.mp hc
        subst this
        obtain ⟨row', r1, r2⟩ := hed
        rw [hrow] at r1
        cases r1
        have := q5 i v r2
        rwa [Nat.zero_add] at this
    · intro v hv
      rcases List.mem_append.mp hv with hv | hv
      · exact h.reach v hv
      · rw [List.mem_singleton.mp hv]
        rcases h.lin.src e e4.mem with ⟨hh, -⟩ | ⟨c, hc, i, hi, -⟩
        · rw [getId_small hsm] at hh
          rw [hh]; exact .start
        · rw [getId_small hsm] at hi
          exact .step (h.reach c hc) hi
    · rw [e4.same] at q7
      have hg : I.rows.getD e.1 [] = row := by rw [List.getD_eq_getElem?_getD, hrow]; rfl
      refine q7.trans (((List.subperm_append_left _).mpr h.many).trans ?_)
      unfold offers
      rw [List.flatMap_append, List.flatMap_cons, List.flatMap_nil, List.append_nil, hg]
      exact (List.perm_middle.trans (List.Perm.cons _ List.perm_append_comm)).subperm
    · left
      rcases h.ent with hh | ⟨-, -, hh⟩
      · simp [hh]
      · have := hh e e4.mem
        rw [this]; simp
    · unfold meas
      have hlen := nodup_lt_length q2.nodup q2.valid
      have hrl := hD row (List.mem_of_getElem? hrow)
      rw [List.length_append, List.length_singleton] at hlen ⊢
      have : I.rows.length - E.length = (I.rows.length - (E.length + 1)) + 1 := by omega
      rw [this, Nat.mul_add]
      simp only
      omega

theorem start_spec {σ : Type} {d0 dmax : Int} {I : Idx} {Rep : σ → List Nat → Prop} (hI : IdxOk I) {ef : Nat} (hef : 0 < ef) (hd0 : d0 ≤ dmax) {vis : σ}
    (hvis : Rep vis []) : ∃ s, start d0 dmax I ef vis = some s ∧ SInv d0 dmax I ef Rep [] s ∧ s.pool.open_ ≤ 1 := by
  have h0 := PInv.new dmax I.rows.length ef
  have hd : (SPool.new ef).isFull dmax d0 = some false := by
    obtain ⟨b, b1, b2, -⟩ := h0.isFull hef d0
    cases b with
    | false => exact b1
    | true =>
      rcases b2 rfl with hh | hh
      · omega
      · have := hh.1; simp [SPool.new] at this; omega
  obtain ⟨p, e1, e2, e3⟩ := h0.insert hef hI.small hI.ep hd
  have hempty : (SPool.new ef).ents = [] := by simp [SPool.new, SPool.ents]
  have hsub : ∀ e ∈ p.ents, e = (I.ep, d0) := by
    intro e he
    rcases e3.sub e he with he | he
    · rw [hempty] at he; cases he
    · exact he
  have hsm : I.ep < 2147483648 := by have := hI.ep; have := hI.small; omega
  unfold start
  rw [e1]
  refine ⟨_, rfl, ⟨⟨e2, by simp, by simp, ?_, ?_⟩, hvis, by simp, by simp, ?_, .inr ⟨rfl, ?_, hsub⟩⟩, ?_⟩
  · intro e he hch
    rw [hsub e he, chk_small hsm] at hch; cases hch
  · intro e he
    rw [hsub e he]
    exact .inl ⟨getId_small hsm, rfl⟩
  · have := subperm_map bare e3.many
    rw [hempty] at this
    rwa [List.map_cons, List.map_nil, show bare (I.ep, d0) = (I.ep, d0) by unfold bare; rw [getId_small hsm]] at this
  · simp [SPool.hasNext, e3.next]
  · have := e3.cnt
    rw [SPool.open_, SPool.open_, hempty] at this
    simpa [SPool.open_] using this

end Alaya.RSearch
