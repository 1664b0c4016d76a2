import Verif.Model.LaserSearch
import Verif.Spec.LaserSearch
import Verif.Lemmas.RaBitQLoop

namespace Alaya.Laser
open Alaya Alaya.Pools Alaya.Spec Alaya.Hybrid Alaya.Hybrid.Spec Alaya.RSearch Alaya.Laser.Spec

/-! ### The buffers are those of the RaBitQ search when all distances are at most `dmax` -/

theorem isFull_eq {dmax : Int} {p : SPool} (hc : 0 < p.cap) {d : Int} (hd : d ≤ dmax) : isFull p d = p.isFull dmax d := by
  unfold isFull SPool.isFull SBuf.topDist SPool.buf
  simp only
  by_cases h0 : p.size = p.cap
  · have h1 : ¬ p.size = 0 := by omega
    have h2 : ¬ (p.size = 0 ∨ p.cap = 0) := by omega
    rw [if_pos h0, if_neg h1, if_neg h2, if_pos h0]
    cases p.data[p.size - 1]? <;> rfl
  · rw [if_neg h0]
    have hf : decide (d > dmax) = false := by simpa using hd
    by_cases h2 : p.size = 0 ∨ p.cap = 0
    · rw [if_pos h2, Option.map_some, hf]
    · rw [if_neg h2, if_neg h0, Option.map_some, hf]

theorem insert_eq {dmax : Int} {p : SPool} (hc : 0 < p.cap) {v : Nat} {d : Int} (hf : p.isFull dmax d = some false) :
    insert p v d = p.insert dmax v d := by
  unfold insert SPool.insert
  rw [if_neg (show ¬ p.cap = 0 by omega), hf]
  simp only
  cases p.buf.search d with
  | none => rfl
  | some lo => cases insertAt p.data lo p.size (v, d) <;> rfl

theorem resInsert_eq {dmax : Int} {b : SBuf} (hc : 0 < b.cap) {v : Nat} {d : Int} (hd : d ≤ dmax) :
    resInsert b v d = b.insert dmax v d := by
  unfold resInsert SBuf.insert
  rw [isFull_eq (dmax := dmax) hc hd, if_neg (show ¬ b.cap = 0 by omega)]
  unfold SPool.isFull SPool.buf
  simp only
  cases ht : b.topDist dmax with
  | none => rfl
  | some t =>
    simp only [Option.map_some]
    by_cases hdt : d > t
    · rw [if_pos hdt, decide_eq_true hdt]
    · rw [if_neg hdt, decide_eq_false hdt]
      cases b.search d with
      | none => rfl
      | some lo => cases insertAt b.data lo b.size (v, d) <;> rfl

theorem HRep.congr {h : HSet} {E E' : List Nat} (hr : HRep h E) (he : ∀ v, v ∈ E ↔ v ∈ E') : HRep h E' :=
  ⟨hr.size, fun i val h1 h2 => ⟨(he _).mp (hr.slot i val h1 h2).1, (hr.slot i val h1 h2).2⟩, fun v hv => hr.real v ((he v).mpr hv),
    fun v hv => (he v).mp (hr.stl v hv), fun v hv => hr.mem v ((he v).mpr hv)⟩

theorem vis_get {n : Nat} (hn : n ≤ 2147483648) {h : HSet} {E : List Nat} (hr : HRep h E) {v : Nat} (hv : v < n) :
    h.get v = some (decide (v ∈ E)) := (hash_ok (n := n) (by unfold emptyId; omega)).get hr hv

theorem vis_set {n : Nat} (hn : n ≤ 2147483648) {h : HSet} {E : List Nat} (hr : HRep h E) {v : Nat} (hv : v < n) :
    ∃ h', h.set v = some h' ∧ HRep h' (E ++ [v]) := (hash_ok (n := n) (by unfold emptyId; omega)).set hr hv

/-! ### Scanning the neighbours of a node -/

/-- The candidate has been dealt with: visited, waiting in the pool, or the pool is full of candidates that are no worse. -/
def Dealt (ef : Nat) (V : List Nat) (p : SPool) (e : Nat × Int) : Prop := e.1 ∈ V ∨ e ∈ p.ents ∨ Full ef e.2 p

/-- What a scan does with the pool. -/
structure Scanned (dmax : Int) (n ef : Nat) (V : List Nat) (nbs : List (Nat × Int)) (p p' : SPool) : Prop where
  pool : PInv dmax n ef p'
  full : ∀ D, Full ef D p → Full ef D p'
  keep : ∀ e ∈ p.ents, e ∈ p'.ents ∨ Full ef e.2 p'
  dealt : ∀ e ∈ nbs, Dealt ef V p' e
  cnt : p'.open_ ≤ p.open_ + nbs.length
  many : (p'.ents.map bare).Subperm (nbs ++ p.ents.map bare)
  chkd : ∀ e ∈ p'.ents, chk e = true → e ∈ p.ents

theorem Scanned.mono {dmax : Int} {n ef : Nat} {V : List Nat} {nbs : List (Nat × Int)} {p p' : SPool} (h : Scanned dmax n ef V nbs p p')
    {e : Nat × Int} (he : Dealt ef V p e) : Dealt ef V p' e := by
  rcases he with he | he | he
  · exact .inl he
  · exact .inr (h.keep e he)
  · exact .inr (.inr (h.full _ he))

theorem scan_spec {dmax : Int} {n ef : Nat} (hef : 0 < ef) (hn : n ≤ 2147483648) {vis : HSet} {V : List Nat} (hv : HRep vis V)
    (nbs : List (Nat × Int)) : ∀ (p : SPool), PInv dmax n ef p → (∀ e ∈ nbs, e.1 < n ∧ e.2 ≤ dmax) →
    ∃ p', scan vis nbs p = some p' ∧ Scanned dmax n ef V nbs p p' := by
  induction nbs with
  | nil =>
    intro p h _
    exact ⟨p, rfl, h, fun _ hD => hD, fun e he => .inl he, by simp, by simp, by simpa using List.Subperm.refl _, fun e he _ => he⟩
  | cons nb nbs ih =>
    intro p h hnb
    obtain ⟨hb1, hb2⟩ := hnb nb (by simp)
    have hrest : ∀ e ∈ nbs, e.1 < n ∧ e.2 ≤ dmax := fun e he => hnb e (by simp [he])
    have hcap : 0 < p.cap := by rw [h.hcap]; exact hef
    obtain ⟨full, g1, g2, g3⟩ := h.isFull hef nb.2
    have hf := isFull_eq (dmax := dmax) hcap hb2
    rw [g1] at hf
    have skip : Dealt ef V p nb → ∃ p', scan vis nbs p = some p' ∧ Scanned dmax n ef V (nb :: nbs) p p' := by
      intro hd
      obtain ⟨p', a1, a2⟩ := ih p h hrest
      refine ⟨p', a1, a2.pool, a2.full, a2.keep, ?_, by have := a2.cnt; simp; omega, ?_, a2.chkd⟩
      · intro e he
        rcases List.mem_cons.mp he with rfl | he
        · exact a2.mono hd
        · exact a2.dealt e he
      · exact a2.many.trans ((List.sublist_cons_self nb _).subperm)
    unfold scan
    rw [hf]
    cases full with
    | true =>
      simp only
      apply skip
      rcases g2 rfl with hd | hd
      · omega
      · exact .inr (.inr hd)
    | false =>
      simp only
      rw [vis_get hn hv hb1]
      by_cases hvv : nb.1 ∈ V
      · rw [decide_eq_true hvv]
        exact skip (.inl hvv)
      · rw [decide_eq_false hvv]
        simp only
        obtain ⟨p1, m1, m2, m3⟩ := h.insert hef hn hb1 g1
        rw [insert_eq hcap g1, m1]
        simp only
        obtain ⟨p', a1, a2⟩ := ih p1 m2 hrest
        refine ⟨p', a1, a2.pool, fun D hD => a2.full D (m3.full D hD), ?_, ?_, by have := a2.cnt; have := m3.cnt; simp; omega, ?_, ?_⟩
        · intro e he
          rcases m3.keep e (.inl he) with he | he
          · exact a2.keep e he
          · exact .inr (a2.full _ he)
        · intro e he
          rcases List.mem_cons.mp he with rfl | he
          · exact a2.mono (.inr (m3.keep _ (.inr rfl)))
          · exact a2.dealt e he
        · refine a2.many.trans ?_
          have h1 : (p1.ents.map bare).Subperm (nb :: p.ents.map bare) := by
            have := subperm_map bare m3.many
            simp only [List.map_cons] at this
            rwa [show bare (nb.1, nb.2) = nb by simp [bare, getId_small (show nb.1 < 2147483648 by omega)]] at this
          have h2 : (nbs ++ p1.ents.map bare).Subperm (nbs ++ (nb :: p.ents.map bare)) := (List.subperm_append_left nbs).mpr h1
          refine h2.trans (List.Perm.subperm ?_)
          exact List.perm_middle
        · intro e he hch
          rcases m3.sub e (a2.chkd e he hch) with h1 | h1
          · exact h1
          · subst h1
            rw [chk_small (by omega)] at hch
            cases hch

end Alaya.Laser
