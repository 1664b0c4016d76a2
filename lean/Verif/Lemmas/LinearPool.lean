import Verif.Lemmas.Pools

namespace Alaya.Pools
open Spec

theorem setChecked_eq {x : Nat} (h : x < 2147483648) : setChecked x = x + 2147483648 := by
  have := Nat.two_pow_add_eq_or_of_lt (i := 31) (b := x) (by omega) 1
  unfold setChecked
  rw [Nat.or_comm]
  have h2 : (2 : Nat) ^ 31 * 1 = 2147483648 := by decide
  rw [h2] at this
  omega

theorem getId_eq (x : Nat) : getId x = x % 2147483648 := by
  unfold getId
  exact Nat.and_two_pow_sub_one_eq_mod x 31

theorem isChecked_eq (x : Nat) : isChecked x = decide (x / 2147483648 % 2 = 1) := by
  unfold isChecked
  have h1 : x >>> 31 = x / 2147483648 := Nat.shiftRight_eq_div_pow x 31
  rw [h1]
  have h2 : (x / 2147483648) &&& 1 = x / 2147483648 % 2 := Nat.and_one_is_mod _
  rw [h2]
  have h3 : x / 2147483648 % 2 < 2 := Nat.mod_lt _ (by omega)
  generalize x / 2147483648 % 2 = y at *
  rcases (show y = 0 ∨ y = 1 by omega) with h | h <;> subst h <;> rfl

/-- What is stored, without the flag. -/
def view (e : LEntry) : Nat × Int := (getId e.id, e.dist)

def leD (a b : Nat × Int) : Prop := a.2 ≤ b.2

structure LInv (cap : Nat) (p : LinearPool) (off popped : List (Nat × Int)) : Prop where
  hcap : p.cap = cap
  dlen : p.data.length = cap + 1
  size : p.size ≤ cap
  range : ∀ e ∈ p.data.take p.size, e.id < 4294967296
  best : Best leD cap p.entries off
  cur : CurOk (fun e : LEntry => isChecked e.id) (p.data.take p.size) p.cur
  flag : ∀ e ∈ p.data.take p.size, isChecked e.id = true ↔ view e ∈ popped
  pnd : popped.Nodup
  psub : ∀ x ∈ popped, x ∈ off

theorem LInv.new (cap : Nat) : LInv cap (LinearPool.new cap) [] [] := by
  refine ⟨rfl, by simp [LinearPool.new], by simp [LinearPool.new], by simp [LinearPool.new], ?_, ?_, by simp [LinearPool.new], by simp, by simp⟩
  · simpa [LinearPool.entries, LinearPool.new] using Best.nil
  · refine ⟨by simp [LinearPool.new], ?_, ?_⟩
    · intro i e h; simp [LinearPool.new] at h
    · intro e h; simp [LinearPool.new] at h

theorem LInv.entries_len {cap : Nat} {p : LinearPool} {off popped : List (Nat × Int)} (h : LInv cap p off popped) :
    (p.data.take p.size).length = p.size := by
  have h1 := h.dlen; have h2 := h.size; simp; omega

theorem LInv.insert {cap : Nat} {p : LinearPool} {off popped : List (Nat × Int)} (h : LInv cap p off popped)
    (hc : 0 < cap) {u : Nat} {d : Int} (hu : u < 2147483648) (hnew : (u, d) ∉ off) :
    ∃ p' b, p.insert u d = some (p', b) ∧ LInv cap p' (off ++ [(u, d)]) popped := by
  have h0 := h
  obtain ⟨hcap, dlen, hsize, range, best, cur, flag, pnd, psub⟩ := h
  have hel := h0.entries_len
  have hview : p.entries = (p.data.take p.size).map view := rfl
  have hsorted : ∀ (i j : Nat) (ei ej : LEntry), i ≤ j → j < p.size → p.data[i]? = some ei → p.data[j]? = some ej →
      ei.dist ≤ ej.dist := by
    intro i j ei ej hij hj hi hej
    by_cases he : i = j
    · subst he; rw [hi] at hej; cases hej; exact Int.le_refl _
    · have hpw := best.1
      rw [List.pairwise_iff_getElem] at hpw
      have hle : p.entries.length = p.size := by rw [hview, List.length_map, hel]
      have := hpw i j (by omega) (by omega) (by omega)
      have g : ∀ (k : Nat) (ek : LEntry) (hk : k < p.entries.length), p.data[k]? = some ek → p.entries[k] = view ek := by
        intro k ek hk hke
        have : p.entries[k]? = some (view ek) := by
          rw [hview, List.getElem?_map, List.getElem?_take, if_pos (by omega), hke]; rfl
        rw [List.getElem?_eq_getElem hk] at this
        exact Option.some.inj this
      rw [g i ei (by omega) hi, g j ej (by omega) hej] at this
      exact this
  have hmono : ∀ (i j : Nat) (ei ej : LEntry), i ≤ j → j < p.size → p.data[i]? = some ei → p.data[j]? = some ej →
      decide (ei.dist > d) = true → decide (ej.dist > d) = true := by
    intro i j ei ej hij hj hi hej hg
    have := hsorted i j ei ej hij hj hi hej
    simp at hg ⊢; omega
  -- the insertion itself
  have hins : (p.size = cap → ∀ e, p.data[p.size - 1]? = some e → d < e.dist) →
      ∃ p' b, p.place u d = some (p', b) ∧ LInv cap p' (off ++ [(u, d)]) popped := by
    intro hlast
    unfold LinearPool.place
    rcases bsearch_spec (stop := fun _ => false) (size := p.size) (by omega) hmono p.size 0 p.size (by omega) (by omega) (Nat.le_refl _)
      (by intro i e hi; omega) (by intro i e h1 h2; omega) (by omega) with ⟨lo, e1, e2, e3, e4, -⟩ | ⟨-, i, e, -, -, hst, -⟩
    rotate_left
    · cases hst
    rw [e1]
    simp only
    obtain ⟨d', f1, f2, f3⟩ := insertAt_spec (data := p.data) (lo := lo) (size := p.size) ⟨u, d⟩ e2 (by omega)
    rw [f1]
    simp only
    refine ⟨_, _, rfl, ?_⟩
    have hlocap : p.size = cap → lo < p.size := by
      intro hf
      rcases Nat.lt_or_ge lo p.size with hh | hh
      · exact hh
      · exfalso
        have hle : p.data[p.size - 1]? = some p.data[p.size - 1] := List.getElem?_eq_getElem (by omega)
        have a := hlast hf _ hle
        have b := e3 (p.size - 1) _ (by omega) hle
        simp at b; omega
    have hsz : (if p.size < p.cap then p.size + 1 else p.size) = min cap (p.size + 1) := by
      rw [hcap]; split <;> omega
    rw [hsz]
    have htake : d'.take (min cap (p.size + 1)) =
        ((p.data.take p.size).take lo ++ ⟨u, d⟩ :: (p.data.take p.size).drop lo).take (min cap (p.size + 1)) :=
      f3 _ (by omega)
    have hmem : ∀ e ∈ d'.take (min cap (p.size + 1)), e = ⟨u, d⟩ ∨ e ∈ p.data.take p.size := by
      intro e he
      rw [htake] at he
      rcases List.mem_append.mp (List.mem_of_mem_take he) with h' | h'
      · exact Or.inr (List.mem_of_mem_take h')
      · rcases List.mem_cons.mp h' with h' | h'
        · exact Or.inl h'
        · exact Or.inr (List.mem_of_mem_drop h')
    have hcu : isChecked u = false := by rw [isChecked_eq]; simp; omega
    have hgu : getId u = u := by rw [getId_eq]; omega
    refine ⟨hcap, by rw [f2, dlen], Nat.min_le_left _ _, ?_, ?_, ?_, ?_, pnd, ?_⟩
    · intro e he
      rcases hmem e he with rfl | h'
      · show u < _; omega
      · exact range e h'
    · have hb := Best.insert (fun a b c (x : leD a b) (y : leD b c) => Int.le_trans x y) best (lo := lo) (x := (u, d)) (by
          intro e he
          rw [hview, ← List.map_take, List.mem_map] at he
          obtain ⟨e', he', rfl⟩ := he
          obtain ⟨k, hk⟩ := List.getElem?_of_mem he'
          rw [List.getElem?_take] at hk
          split at hk
          · rw [List.getElem?_take] at hk
            split at hk
            · have := e3 k e' (by omega) hk
              simp at this; exact this
            · cases hk
          · cases hk) (by
          intro e he
          rw [hview, ← List.map_drop, List.mem_map] at he
          obtain ⟨e', he', rfl⟩ := he
          obtain ⟨k, hk⟩ := List.getElem?_of_mem he'
          rw [List.getElem?_drop, List.getElem?_take] at hk
          split at hk
          · have := e4 (lo + k) e' (by omega) (by omega) hk
            simp at this
            exact Int.le_of_lt this
          · cases hk)
      have he : LinearPool.entries ⟨d', min cap (p.size + 1), if lo < p.cur then lo else p.cur, p.cap⟩ =
          ((p.entries.take lo ++ (u, d) :: p.entries.drop lo).take cap) := by
        show (d'.take (min cap (p.size + 1))).map view = _
        rw [htake, List.map_take, List.map_append, List.map_cons, List.map_take, List.map_drop, hview]
        have hv : view ⟨u, d⟩ = (u, d) := by simp [view, hgu]
        rw [hv]
        have hl : ((p.data.take p.size).map view).length = p.size := by rw [List.length_map, hel]
        generalize (p.data.take p.size).map view = vs at hl
        rw [show min cap (p.size + 1) = min cap ((vs.take lo ++ (u, d) :: vs.drop lo).length) by
          simp; omega]
        rw [List.take_eq_take_iff]; omega
      rw [he]; exact hb
    · show CurOk _ (d'.take (min cap (p.size + 1))) _
      rw [htake]
      exact CurOk.insert cur hcu (by omega) (by rw [← hel] at hlocap; omega) (by omega) (by omega)
    · intro e he
      rcases hmem e he with rfl | h'
      · show isChecked u = true ↔ (getId u, d) ∈ popped
        rw [hcu, hgu]
        constructor
        · intro h; cases h
        · intro h; exact absurd (psub _ h) hnew
      · exact flag e h'
    · intro x hx; simp [psub x hx]
  unfold LinearPool.insert
  by_cases hf : p.size = p.cap
  · rw [if_pos hf, if_neg (by omega), List.getElem?_eq_getElem (by omega)]
    simp only
    have hle : p.data[p.size - 1]? = some p.data[p.size - 1] := List.getElem?_eq_getElem (by omega)
    generalize hlast : p.data[p.size - 1] = last at *
    by_cases hge : d ≥ last.dist
    · rw [if_pos hge]
      refine ⟨p, false, rfl, hcap, dlen, hsize, range, ?_, cur, flag, pnd, fun x hx => by simp [psub x hx]⟩
      refine Best.refuse best (by rw [hview, List.length_map, hel, hf, hcap]) ?_
      intro e he
      rw [hview, List.mem_map] at he
      obtain ⟨e', he', rfl⟩ := he
      obtain ⟨k, hk⟩ := List.getElem?_of_mem he'
      rw [List.getElem?_take] at hk
      split at hk
      · have := hsorted k (p.size - 1) e' last (by omega) (by omega) hk hle
        show e'.dist ≤ d
        omega
      · cases hk
    · rw [if_neg hge]
      exact hins (fun _ e he => by rw [hle] at he; cases he; omega)
  · rw [if_neg hf]
    exact hins (fun h => absurd (h.trans hcap.symm) hf)

theorem LInv.pop {cap : Nat} {p : LinearPool} {off popped : List (Nat × Int)} (h : LInv cap p off popped)
    (hnd : (off.map Prod.fst).Nodup) (hn : p.hasNext = true) :
    ∃ p' x, p.pop = some (p', x) ∧ LInv cap p' off (popped ++ [x]) ∧ x ∈ p.entries ∧ x ∉ popped ∧
      (∀ y ∈ p.entries, y ∉ popped → x.2 ≤ y.2) ∧ p'.entries = p.entries := by
  have h0 := h
  obtain ⟨hcap, dlen, hsize, range, best, cur, flag, pnd, psub⟩ := h
  have hel := h0.entries_len
  have hview : p.entries = (p.data.take p.size).map view := rfl
  have hcs : p.cur < p.size := by simpa [LinearPool.hasNext] using hn
  unfold LinearPool.pop
  have hce : p.data[p.cur]? = some p.data[p.cur] := List.getElem?_eq_getElem (by omega)
  rw [hce]
  generalize p.data[p.cur] = e at *
  simp only
  have hec : (p.data.take p.size)[p.cur]? = some e := by rw [List.getElem?_take, if_pos hcs, hce]
  have hem : e ∈ p.data.take p.size := List.mem_of_getElem? hec
  have hunc : isChecked e.id = false := cur.2.2 e hec
  have heid : e.id < 2147483648 := by
    have := range e hem
    rw [isChecked_eq] at hunc
    simp at hunc; omega
  have hsc : setChecked e.id = e.id + 2147483648 := setChecked_eq heid
  have hscc : isChecked (setChecked e.id) = true := by rw [hsc, isChecked_eq]; simp; omega
  have hgid : getId (setChecked e.id) = getId e.id := by rw [hsc, getId_eq, getId_eq]; omega
  obtain ⟨c', k1, k2, k3, k4, k5⟩ := skip_spec (data := p.data.set p.cur ⟨setChecked e.id, e.dist⟩)
    (done := fun x => isChecked x.id) (size := p.size) (by simp; omega) (p.size - p.cur) p.cur (Nat.le_refl _) (by omega)
  rw [k1]
  simp only
  have hx : (getId (setChecked e.id), e.dist) = view e := by rw [hgid]; rfl
  rw [hx]
  have hxm : view e ∈ p.entries := by rw [hview]; exact List.mem_map.mpr ⟨e, hem, rfl⟩
  have hxp : view e ∉ popped := by
    intro hh
    have := (flag e hem).mpr hh
    rw [hunc] at this; cases this
  have htake : (p.data.set p.cur ⟨setChecked e.id, e.dist⟩).take p.size =
      (p.data.take p.size).set p.cur ⟨setChecked e.id, e.dist⟩ := by rw [List.take_set]
  have hsame : LinearPool.entries ⟨p.data.set p.cur ⟨setChecked e.id, e.dist⟩, p.size, c', p.cap⟩ = p.entries := by
    show ((p.data.set p.cur ⟨setChecked e.id, e.dist⟩).take p.size).map view = _
    rw [htake, List.map_set, hview]
    apply List.ext_getElem?
    intro i
    rw [List.getElem?_set]
    split
    · rename_i hi
      subst hi
      rw [if_pos (by rw [List.length_map, hel]; exact hcs), List.getElem?_map, hec]
      simp [view, hgid]
    · rfl
  have hids : ∀ a ∈ off, ∀ b ∈ off, a.1 = b.1 → a = b := by
    intro a ha b hb hab
    have := hnd
    rw [List.nodup_iff_pairwise_ne, List.pairwise_map] at this
    by_cases hne : a = b
    · exact hne
    · exfalso
      obtain ⟨i, hi⟩ := List.getElem?_of_mem ha
      obtain ⟨j, hj⟩ := List.getElem?_of_mem hb
      have hil : i < off.length := (List.getElem?_eq_some_iff.mp hi).1
      have hjl : j < off.length := (List.getElem?_eq_some_iff.mp hj).1
      have hia := (List.getElem?_eq_some_iff.mp hi).2
      have hjb := (List.getElem?_eq_some_iff.mp hj).2
      rw [List.pairwise_iff_getElem] at this
      rcases Nat.lt_trichotomy i j with hij | hij | hij
      · exact this i j hil hjl hij (by rw [hia, hjb, hab])
      · subst hij; rw [hi] at hj; exact hne (Option.some.inj hj)
      · exact this j i hjl hil hij (by rw [hia, hjb, hab])
  -- ids in the pool are distinct
  have hpnd : (p.entries.map Prod.fst).Nodup := by
    obtain ⟨_, _, rest, hp, _⟩ := best
    have := (hp.map Prod.fst).nodup_iff.mp hnd
    rw [List.map_append] at this
    exact (List.nodup_append.mp this).1
  have hdist : ∀ (i : Nat) (e' : LEntry), i ≠ p.cur → (p.data.take p.size)[i]? = some e' → view e' ≠ view e := by
    intro i e' hi he' heq
    have a : (p.entries.map Prod.fst)[i]? = some (view e').1 := by
      rw [hview, List.getElem?_map, List.getElem?_map, he']; rfl
    have b : (p.entries.map Prod.fst)[p.cur]? = some (view e').1 := by
      rw [hview, List.getElem?_map, List.getElem?_map, hec, heq]; rfl
    obtain ⟨hil, hia⟩ := List.getElem?_eq_some_iff.mp a
    obtain ⟨hjl, hjb⟩ := List.getElem?_eq_some_iff.mp b
    have hh := List.pairwise_iff_getElem.mp (List.nodup_iff_pairwise_ne.mp hpnd)
    rcases Nat.lt_trichotomy i p.cur with hlt | heq' | hgt
    · exact hh i p.cur hil hjl hlt (hia.trans hjb.symm)
    · exact hi heq'
    · exact hh p.cur i hjl hil hgt (hjb.trans hia.symm)
  refine ⟨_, _, rfl, ⟨hcap, by simpa using dlen, hsize, ?_, ?_, ?_, ?_, ?_, ?_⟩, hxm, hxp, ?_, hsame⟩
  · intro e' he'
    have he'' : e' ∈ (p.data.take p.size).set p.cur ⟨setChecked e.id, e.dist⟩ := by rw [← htake]; exact he'
    rcases List.mem_or_eq_of_mem_set he'' with h' | h'
    · exact range e' h'
    · subst h'; show setChecked e.id < _; omega
  · rw [hsame]; exact best
  · show CurOk _ ((p.data.set p.cur ⟨setChecked e.id, e.dist⟩).take p.size) c'
    refine ⟨by simp; omega, ?_, ?_⟩
    · intro i e' hi he'
      rw [List.getElem?_take, if_pos (by omega)] at he'
      by_cases hic : i < p.cur
      · rw [List.getElem?_set, if_neg (by omega)] at he'
        exact cur.2.1 i e' hic (by rw [List.getElem?_take, if_pos (by omega), he'])
      · exact k4 i e' (by omega) hi he'
    · intro e' he'
      rw [List.getElem?_take] at he'
      split at he'
      · rename_i hlt
        obtain ⟨e'', a, b⟩ := k5 hlt
        rw [a] at he'; cases he'; exact b
      · cases he'
  · intro e' he'
    have he'' : e' ∈ (p.data.take p.size).set p.cur ⟨setChecked e.id, e.dist⟩ := by rw [← htake]; exact he'
    obtain ⟨i, hi⟩ := List.getElem?_of_mem he''
    rw [List.getElem?_set] at hi
    by_cases hic : p.cur = i
    · rw [if_pos hic] at hi
      subst hic
      rw [if_pos (by omega)] at hi
      cases hi
      rw [show (⟨setChecked e.id, e.dist⟩ : LEntry).id = setChecked e.id from rfl, hscc]
      have : view ⟨setChecked e.id, e.dist⟩ = view e := by simp [view, hgid]
      rw [this]; simp
    · rw [if_neg hic] at hi
      have hm := List.mem_of_getElem? hi
      rw [flag e' hm]
      have := hdist i e' (fun h => hic h.symm) hi
      simp [this]
  · rw [List.nodup_append]
    refine ⟨pnd, by simp, ?_⟩
    intro a ha b hb
    simp at hb; subst hb
    intro hab; subst hab; exact hxp ha
  · intro x hx
    rcases List.mem_append.mp hx with h' | h'
    · exact psub x h'
    · simp at h'; subst h'; exact Best.mem best hxm
  · intro y hy hyp
    rw [hview, List.mem_map] at hy
    obtain ⟨e', he', rfl⟩ := hy
    obtain ⟨i, hi⟩ := List.getElem?_of_mem he'
    have hic : p.cur ≤ i := by
      rcases Nat.lt_or_ge i p.cur with hh | hh
      · exact absurd ((flag e' he').mp (cur.2.1 i e' hh hi)) hyp
      · exact hh
    by_cases hie : i = p.cur
    · subst hie; rw [hec] at hi; cases hi; exact Int.le_refl _
    · have hpw := best.1
      rw [List.pairwise_iff_getElem] at hpw
      have hil := (List.getElem?_eq_some_iff.mp hi).1
      have hle : p.entries.length = p.size := by rw [hview, List.length_map, hel]
      have := hpw p.cur i (by omega) (by omega) (by omega)
      have g : ∀ (k : Nat) (ek : LEntry) (hk : k < p.entries.length), (p.data.take p.size)[k]? = some ek → p.entries[k] = view ek := by
        intro k ek hk hke
        have : p.entries[k]? = some (view ek) := by rw [hview, List.getElem?_map, hke]; rfl
        rw [List.getElem?_eq_getElem hk] at this
        exact Option.some.inj this
      rw [g _ _ (by omega) hec, g _ _ (by omega) hi] at this
      exact this

end Alaya.Pools
