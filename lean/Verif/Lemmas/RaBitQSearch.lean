import Mathlib.Tactic.Tauto
import Mathlib.Tactic.ByContra
import Mathlib.Data.List.Perm.Subperm
import Verif.Model.RaBitQSearch
import Verif.Lemmas.HybridSearch
import Verif.Lemmas.LinearPool

namespace Alaya.RSearch
open Alaya Alaya.Pools Alaya.Spec Alaya.Hybrid Alaya.Hybrid.Spec

/-! ### The candidate buffer -/

/-- The entries of the buffer. -/
def SPool.ents (p : SPool) : List (Nat × Int) := p.data.take p.size

def chk (e : Nat × Int) : Bool := isChecked e.1

/-- The number of entries still to be popped. -/
def SPool.open_ (p : SPool) : Nat := p.ents.countP (fun e => !chk e)

theorem chk_small {v : Nat} {d : Int} (h : v < 2147483648) : chk (v, d) = false := by
  unfold chk; rw [isChecked_eq]; simp; omega

theorem chk_set {v : Nat} {d : Int} (h : v < 2147483648) : chk (setChecked v, d) = true := by
  unfold chk; rw [setChecked_eq h, isChecked_eq]; simp; omega

theorem getId_set {v : Nat} (h : v < 2147483648) : getId (setChecked v) = v := by
  rw [setChecked_eq h, getId_eq]; omega

theorem getId_small {v : Nat} (h : v < 2147483648) : getId v = v := by
  rw [getId_eq]; omega

/-- An entry without its flag. -/
def bare (e : Nat × Int) : Nat × Int := (getId e.1, e.2)

structure PInv (dmax : Int) (n cap : Nat) (p : SPool) : Prop where
  hcap : p.cap = cap
  dlen : p.data.length = cap + 1
  size : p.size ≤ cap
  sorted : p.ents.Pairwise (fun a b => a.2 ≤ b.2)
  fin : ∀ e ∈ p.ents, e.2 ≤ dmax
  cur : CurOk chk p.ents p.cur
  ids : ∀ e ∈ p.ents, getId e.1 < n ∧ (chk e = false → e.1 < n)

theorem PInv.elen {dmax : Int} {n cap : Nat} {p : SPool} (h : PInv dmax n cap p) : p.ents.length = p.size := by
  unfold SPool.ents; rw [List.length_take]; have := h.dlen; have := h.size; omega

theorem PInv.new (dmax : Int) (n cap : Nat) : PInv dmax n cap (SPool.new cap) :=
  ⟨rfl, by simp [SPool.new], by simp [SPool.new], by simp [SPool.new, SPool.ents], by simp [SPool.new, SPool.ents],
    ⟨by simp [SPool.new], by simp [SPool.new, SPool.ents], by simp [SPool.new, SPool.ents]⟩, by simp [SPool.new, SPool.ents]⟩

theorem PInv.idx {dmax : Int} {n cap : Nat} {p : SPool} (h : PInv dmax n cap p) :
    ∀ (i j : Nat) (ei ej : Nat × Int), i ≤ j → j < p.size → p.data[i]? = some ei → p.data[j]? = some ej → ei.2 ≤ ej.2 := by
  intro i j ei ej hij hj hi hej
  have hel := h.elen
  by_cases he : i = j
  · subst he; rw [hi] at hej; cases hej; exact Int.le_refl _
  · have hpw := h.sorted
    rw [List.pairwise_iff_getElem] at hpw
    have := hpw i j (by omega) (by omega) (by omega)
    unfold SPool.ents at this
    rw [List.getElem_take, List.getElem_take] at this
    obtain ⟨_, rfl⟩ := List.getElem?_eq_some_iff.mp hi
    obtain ⟨_, rfl⟩ := List.getElem?_eq_some_iff.mp hej
    exact this

theorem PInv.get {dmax : Int} {n cap : Nat} {p : SPool} (_ : PInv dmax n cap p) {i : Nat} (hi : i < p.size) :
    p.ents[i]? = p.data[i]? := by
  unfold SPool.ents; rw [List.getElem?_take, if_pos hi]

theorem PInv.last {dmax : Int} {n cap : Nat} {p : SPool} (h : PInv dmax n cap p) (h0 : 0 < p.size) :
    ∃ last ∈ p.ents, p.data[p.size - 1]? = some last ∧ ∀ y ∈ p.ents, y.2 ≤ last.2 := by
  have hd := h.dlen
  have hs := h.size
  have hle : p.data[p.size - 1]? = some p.data[p.size - 1] := List.getElem?_eq_getElem (by omega)
  refine ⟨_, ?_, hle, ?_⟩
  · have := h.get (i := p.size - 1) (by omega)
    rw [hle] at this
    exact List.mem_of_getElem? this
  · intro y hy
    obtain ⟨i, hi⟩ := List.getElem?_of_mem hy
    have hil := (List.getElem?_eq_some_iff.mp hi).1
    rw [h.elen] at hil
    rw [h.get hil] at hi
    exact h.idx i (p.size - 1) y _ (by omega) (by omega) hi hle

/-- Full of entries not farther than `d`. -/
def Full (cap : Nat) (d : Int) (p : SPool) : Prop := p.size = cap ∧ ∀ e ∈ p.ents, e.2 ≤ d

theorem PInv.isFull {dmax : Int} {n cap : Nat} {p : SPool} (h : PInv dmax n cap p) (hc : 0 < cap) (d : Int) :
    ∃ b, p.isFull dmax d = some b ∧ (b = true → dmax < d ∨ Full cap d p) ∧
      (b = false → d ≤ dmax ∧ (p.size = cap → ∃ e ∈ p.ents, d ≤ e.2 ∧ ∀ y ∈ p.ents, y.2 ≤ e.2)) := by
  have hcap := h.hcap
  unfold SPool.isFull SBuf.topDist SPool.buf
  simp only
  by_cases h0 : p.size = 0 ∨ p.cap = 0
  · rw [if_pos h0]
    refine ⟨_, rfl, ?_, ?_⟩
    · intro hb; left; simpa using hb
    · intro hb; exact ⟨by simpa using hb, by intro hh; omega⟩
  · rw [if_neg h0]
    by_cases hf : p.size = p.cap
    · rw [if_pos hf]
      obtain ⟨last, k1, k2, k3⟩ := h.last (by omega)
      rw [k2]
      refine ⟨_, rfl, ?_, ?_⟩
      · intro hb
        have hb' : last.2 < d := by simpa using hb
        right
        exact ⟨by omega, fun e he => by have := k3 e he; omega⟩
      · intro hb
        have hb' : d ≤ last.2 := by simpa using hb
        have := h.fin last k1
        exact ⟨by omega, fun _ => ⟨last, k1, hb', k3⟩⟩
    · rw [if_neg hf]
      refine ⟨_, rfl, ?_, ?_⟩
      · intro hb; left; simpa using hb
      · intro hb; exact ⟨by simpa using hb, by intro hh; omega⟩

/-- What an insertion that is not refused does. -/
structure Inserted (cap : Nat) (v : Nat) (d : Int) (p p' : SPool) : Prop where
  sub : ∀ e ∈ p'.ents, e ∈ p.ents ∨ e = (v, d)
  keep : ∀ e, (e ∈ p.ents ∨ e = (v, d)) → e ∈ p'.ents ∨ Full cap e.2 p'
  full : ∀ D, Full cap D p → Full cap D p'
  cnt : p'.open_ ≤ p.open_ + 1
  next : p'.cur < p'.size
  many : p'.ents.Subperm ((v, d) :: p.ents)

theorem PInv.insert {dmax : Int} {n cap : Nat} {p : SPool} (h : PInv dmax n cap p) (hc : 0 < cap) (hn : n ≤ 2147483648) {v : Nat} (hv : v < n)
    {d : Int} (hd : p.isFull dmax d = some false) :
    ∃ p', p.insert dmax v d = some p' ∧ PInv dmax n cap p' ∧ Inserted cap v d p p' := by
  obtain ⟨b, hb1, -, hb2⟩ := h.isFull hc d
  rw [hd] at hb1
  cases hb1
  obtain ⟨hdm, htop⟩ := hb2 rfl
  have hcap := h.hcap
  have dlen := h.dlen
  have hsize := h.size
  have hel := h.elen
  unfold SPool.insert
  rw [if_neg (by omega), hd]
  simp only
  obtain ⟨lo, e1, h1, ha, hb⟩ := search_spec (b := p.buf) (d := d) (by show p.size ≤ p.data.length; omega) h.idx
  change lo ≤ p.size at h1
  change ∀ (i : Nat) (e : Nat × Int), i < lo → p.data[i]? = some e → e.2 < d at ha
  change ∀ (i : Nat) (e : Nat × Int), lo ≤ i → i < p.size → p.data[i]? = some e → d ≤ e.2 at hb
  rw [e1]
  simp only
  obtain ⟨d', f1, f2, f3⟩ := insertAt_spec (data := p.data) (lo := lo) (size := p.size) (v, d) h1 (by omega)
  rw [f1]
  simp only
  have hloc : lo < cap := by
    by_cases hf : p.size = cap
    · obtain ⟨e, he, hde, hall⟩ := htop hf
      by_contra hlo
      obtain ⟨i, hi⟩ := List.getElem?_of_mem he
      have hil := (List.getElem?_eq_some_iff.mp hi).1
      rw [hel] at hil
      rw [h.get hil] at hi
      have := ha i e (by omega) hi
      omega
    · omega
  obtain ⟨m, hm⟩ : ∃ m, m = (if p.size < p.cap then p.size + 1 else p.size) := ⟨_, rfl⟩
  rw [← hm]
  have hml : lo < m ∧ m ≤ p.size + 1 ∧ p.size ≤ m ∧ m ≤ cap ∧ m = min cap (p.size + 1) := by rw [hm]; split <;> omega
  obtain ⟨m1, m2, m3, m4, m5⟩ := hml
  have hents : (SPool.mk d' m (if lo < p.cur then lo else p.cur) p.cap).ents = (p.ents.take lo ++ (v, d) :: p.ents.drop lo).take m := f3 m m2
  have hlen : (p.ents.take lo ++ (v, d) :: p.ents.drop lo).length = p.size + 1 := by simp; omega
  have hta : ∀ e ∈ p.ents.take lo, e.2 < d := by
    intro e he
    obtain ⟨k, hk⟩ := List.getElem?_of_mem he
    rw [List.getElem?_take] at hk
    split at hk
    · rw [h.get (by omega)] at hk
      exact ha k e (by omega) hk
    · cases hk
  have htb : ∀ e ∈ p.ents.drop lo, d ≤ e.2 := by
    intro e he
    obtain ⟨k, hk⟩ := List.getElem?_of_mem he
    rw [List.getElem?_drop] at hk
    have hil := (List.getElem?_eq_some_iff.mp hk).1
    rw [hel] at hil
    rw [h.get hil] at hk
    exact hb (lo + k) e (by omega) hil hk
  have hall : (p.ents.take lo ++ (v, d) :: p.ents.drop lo).Pairwise (fun a b => a.2 ≤ b.2) := by
    have hs := h.sorted
    rw [← List.take_append_drop lo p.ents, List.pairwise_append] at hs
    rw [List.pairwise_append, List.pairwise_cons]
    refine ⟨hs.1, ⟨htb, hs.2.1⟩, ?_⟩
    intro a haa b hbb
    rcases List.mem_cons.mp hbb with rfl | hbb
    · have := hta a haa; show a.2 ≤ d; omega
    · exact hs.2.2 a haa b hbb
  have hmem : ∀ e, e ∈ p.ents.take lo ++ (v, d) :: p.ents.drop lo ↔ (e ∈ p.ents ∨ e = (v, d)) := by
    intro e
    have : e ∈ p.ents ↔ e ∈ p.ents.take lo ∨ e ∈ p.ents.drop lo := by
      conv => lhs; rw [← List.take_append_drop lo p.ents]
      rw [List.mem_append]
    rw [this, List.mem_append, List.mem_cons]
    tauto
  have hsub : ∀ e ∈ (p.ents.take lo ++ (v, d) :: p.ents.drop lo).take m, e ∈ p.ents ∨ e = (v, d) :=
    fun e he => (hmem e).mp (List.mem_of_mem_take he)
  have hcur : CurOk chk ((p.ents.take lo ++ (v, d) :: p.ents.drop lo).take m) (if lo < p.cur then lo else p.cur) :=
    h.cur.insert (chk_small (by omega)) (by omega) m1 (by omega) (by omega)
  refine ⟨_, rfl, ⟨hcap, by show d'.length = _; omega, m4, ?_, ?_, ?_, ?_⟩, ?_, ?_, ?_, ?_, ?_, ?_⟩
  · rw [hents]; exact hall.sublist (List.take_sublist _ _)
  · rw [hents]
    intro e he
    rcases hsub e he with he | rfl
    · exact h.fin e he
    · exact hdm
  · rw [hents]; exact hcur
  · rw [hents]
    intro e he
    rcases hsub e he with he | rfl
    · exact h.ids e he
    · exact ⟨by rw [getId_small (by show v < _; omega)]; exact hv, fun _ => hv⟩
  · rw [hents]; exact hsub
  · intro e he
    unfold Full
    rw [hents]
    have he' := (hmem e).mpr he
    rw [← List.take_append_drop m (p.ents.take lo ++ (v, d) :: p.ents.drop lo)] at he' hall
    rcases List.mem_append.mp he' with he' | he'
    · left; exact he'
    · right
      refine ⟨?_, ?_⟩
      · show m = cap
        have := List.length_pos_of_mem he'
        rw [List.length_drop] at this
        omega
      · intro y hy
        exact (List.pairwise_append.mp hall).2.2 y hy e he'
  · intro D hD
    obtain ⟨g1, g2⟩ := hD
    refine ⟨by show m = cap; omega, ?_⟩
    rw [hents]
    intro e he
    rcases hsub e he with he | rfl
    · exact g2 e he
    · obtain ⟨e, he, hde, -⟩ := htop g1
      have := g2 e he
      show d ≤ D
      omega
  · unfold SPool.open_
    rw [hents]
    have e1 : List.countP (fun e => !chk e) ((p.ents.take lo ++ (v, d) :: p.ents.drop lo).take m) ≤
        List.countP (fun e => !chk e) (p.ents.take lo ++ (v, d) :: p.ents.drop lo) := (List.take_sublist _ _).countP_le
    have e2 : List.countP (fun e => !chk e) p.ents =
        List.countP (fun e => !chk e) (p.ents.take lo) + List.countP (fun e => !chk e) (p.ents.drop lo) := by
      conv => lhs; rw [← List.take_append_drop lo p.ents]
      rw [List.countP_append]
    rw [List.countP_append, List.countP_cons] at e1
    split at e1 <;> omega
  · show (if lo < p.cur then lo else p.cur) < m
    split <;> omega
  · rw [hents]
    refine (List.take_sublist _ _).subperm.trans (List.Perm.subperm ?_)
    refine List.perm_middle.trans (List.Perm.cons _ ?_)
    rw [List.take_append_drop]

/-- What `pop` does. -/
structure Popped (cap : Nat) (e : Nat × Int) (p p' : SPool) : Prop where
  mem : e ∈ p.ents
  sub : ∀ y ∈ p'.ents, y ∈ p.ents ∨ y = (setChecked e.1, e.2)
  keep : ∀ y ∈ p.ents, y = e ∨ y ∈ p'.ents
  full : ∀ D, Full cap D p → Full cap D p'
  cnt : p'.open_ + 1 = p.open_
  same : p'.ents.map bare = p.ents.map bare
  chkd : (setChecked e.1, e.2) ∈ p'.ents

theorem PInv.pop {dmax : Int} {n cap : Nat} {p : SPool} (h : PInv dmax n cap p) (hn : n ≤ 2147483648) (hp : p.hasNext = true) :
    ∃ e p', p.pop = some (p', e.1) ∧ e.1 < n ∧ PInv dmax n cap p' ∧ Popped cap e p p' := by
  have hcur : p.cur < p.size := by simpa [SPool.hasNext] using hp
  have dlen := h.dlen
  have hsize := h.size
  have hel := h.elen
  obtain ⟨e, he⟩ : ∃ e, p.data[p.cur]? = some e := ⟨_, List.getElem?_eq_getElem (by omega)⟩
  have hee : p.ents[p.cur]? = some e := by rw [h.get hcur, he]
  have hem : e ∈ p.ents := List.mem_of_getElem? hee
  have hec : chk e = false := h.cur.2.2 e hee
  have hev : e.1 < n := (h.ids e hem).2 hec
  unfold SPool.pop
  rw [he]
  simp only
  have hents : ∀ c, (SPool.mk (p.data.set p.cur (setChecked e.1, e.2)) p.size c p.cap).ents = p.ents.set p.cur (setChecked e.1, e.2) := by
    intro c
    show (p.data.set p.cur _).take p.size = _
    unfold SPool.ents
    rw [List.take_set]
  obtain ⟨c, s1, s2, s3, s4, s5⟩ := skip_spec (data := p.data.set p.cur (setChecked e.1, e.2)) (done := fun x => isChecked x.1)
    (size := p.size) (by rw [List.length_set]; omega) p.size (p.cur + 1) (by omega) (by omega)
  rw [s1]
  simp only
  have hck : chk (setChecked e.1, e.2) = true := chk_set (by omega)
  have hd2 : ∀ i, i < p.size → (p.ents.set p.cur (setChecked e.1, e.2))[i]? = (p.data.set p.cur (setChecked e.1, e.2))[i]? := by
    intro i hi
    rw [← hents 0]
    show ((p.data.set p.cur _).take p.size)[i]? = _
    rw [List.getElem?_take, if_pos hi]
  have hset : ∀ y ∈ p.ents.set p.cur (setChecked e.1, e.2), y ∈ p.ents ∨ y = (setChecked e.1, e.2) := fun y hy => List.mem_or_eq_of_mem_set hy
  have hlt : p.cur < p.ents.length := by omega
  have hel2 : p.ents[p.cur] = e := by rw [List.getElem?_eq_getElem hlt] at hee; exact Option.some.inj hee
  have hsplit : p.ents = p.ents.take p.cur ++ e :: p.ents.drop (p.cur + 1) := by
    conv => lhs; rw [← List.take_append_drop p.cur p.ents, List.drop_eq_getElem_cons hlt, hel2]
  have hset2 : p.ents.set p.cur (setChecked e.1, e.2) = p.ents.take p.cur ++ (setChecked e.1, e.2) :: p.ents.drop (p.cur + 1) := by
    rw [List.set_eq_take_append_cons_drop, if_pos hlt]
  refine ⟨e, _, rfl, hev, ⟨h.hcap, by show (p.data.set _ _).length = _; rw [List.length_set]; exact dlen, hsize, ?_, ?_, ?_, ?_⟩, hem, ?_, ?_, ?_, ?_, ?_, ?_⟩
  · rw [hents, hset2]
    have hs := h.sorted
    rw [hsplit, List.pairwise_append, List.pairwise_cons] at hs
    rw [List.pairwise_append, List.pairwise_cons]
    refine ⟨hs.1, hs.2.1, ?_⟩
    intro a ha b hb
    rcases List.mem_cons.mp hb with rfl | hb
    · exact hs.2.2 a ha e (by simp)
    · exact hs.2.2 a ha b (by simp [hb])
  · rw [hents]
    intro y hy
    rcases hset y hy with hy | rfl
    · exact h.fin y hy
    · exact h.fin e hem
  · rw [hents]
    refine ⟨by rw [List.length_set]; show c ≤ _; omega, ?_, ?_⟩
    · intro i y hi hy
      change i < c at hi
      by_cases hic : i = p.cur
      · subst hic
        rw [List.getElem?_set_self hlt] at hy
        cases hy; exact hck
      · by_cases hlt2 : i < p.cur
        · rw [List.getElem?_set_ne (by omega)] at hy
          exact h.cur.2.1 i y hlt2 hy
        · rw [hd2 i (by omega)] at hy
          exact s4 i y (by omega) hi hy
    · intro y hy
      change (p.ents.set p.cur (setChecked e.1, e.2))[c]? = some y at hy
      have hcl : c < p.size := by
        have := (List.getElem?_eq_some_iff.mp hy).1
        rw [List.length_set] at this; omega
      obtain ⟨y', g1, g2⟩ := s5 hcl
      rw [hd2 c hcl, g1] at hy
      cases hy; exact g2
  · rw [hents]
    intro y hy
    rcases hset y hy with hy | rfl
    · exact h.ids y hy
    · exact ⟨by rw [getId_set (by omega)]; exact hev, fun hc => by rw [hck] at hc; cases hc⟩
  · rw [hents]; exact hset
  · rw [hents]
    intro y hy
    rw [hsplit] at hy
    rw [hset2]
    simp only [List.mem_append, List.mem_cons] at hy ⊢
    tauto
  · intro D hD
    refine ⟨hD.1, ?_⟩
    rw [hents]
    intro y hy
    rcases hset y hy with hy | rfl
    · exact hD.2 y hy
    · exact hD.2 e hem
  · unfold SPool.open_
    rw [hents, hset2]
    conv => rhs; rw [hsplit]
    simp only [List.countP_append, List.countP_cons, hec, hck]
    simp
    omega
  · rw [hents, hset2]
    conv => rhs; rw [hsplit]
    simp only [List.map_append, List.map_cons, bare]
    rw [getId_set (by omega), getId_small (by omega)]
  · rw [hents, hset2]
    simp

end Alaya.RSearch
