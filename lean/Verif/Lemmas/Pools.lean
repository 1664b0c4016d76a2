import Verif.Model.Pools
import Verif.Spec.Best

namespace Alaya.Pools
open Spec

theorem bsearch_spec {α : Type} {data : List α} {gt stop : α → Bool} {size : Nat} (hlen : size ≤ data.length)
    (mono : ∀ (i j : Nat) (ei ej : α), i ≤ j → j < size → data[i]? = some ei → data[j]? = some ej →
      gt ei = true → gt ej = true) :
    ∀ (f l r : Nat), r - l ≤ f → l ≤ r → r ≤ size →
      (∀ (i : Nat) (e : α), i < l → data[i]? = some e → gt e = false) →
      (∀ (i : Nat) (e : α), r ≤ i → i < size → data[i]? = some e → gt e = true) →
      (0 < l → ∃ e, data[l - 1]? = some e ∧ stop e = false) →
      (∃ lo, bsearch data gt stop f l r = some (some lo) ∧ lo ≤ size ∧
        (∀ (i : Nat) (e : α), i < lo → data[i]? = some e → gt e = false) ∧
        (∀ (i : Nat) (e : α), lo ≤ i → i < size → data[i]? = some e → gt e = true) ∧
        (0 < lo → ∃ e, data[lo - 1]? = some e ∧ stop e = false)) ∨
      (bsearch data gt stop f l r = some none ∧
        ∃ (i : Nat) (e : α), i < size ∧ data[i]? = some e ∧ stop e = true ∧ gt e = false) := by
  intro f
  induction f with
  | zero =>
    intro l r h1 h2 h3 hl hr hs
    have : l = r := by omega
    subst this
    exact Or.inl ⟨l, rfl, h3, hl, hr, hs⟩
  | succ f ih =>
    intro l r h1 h2 h3 hl hr hs
    unfold bsearch
    by_cases hlr : l < r
    · rw [if_pos hlr]
      have hm : (l + r) / 2 < data.length := by omega
      have hme : data[(l + r) / 2]? = some data[(l + r) / 2] := List.getElem?_eq_getElem hm
      rw [hme]
      generalize hmid : (l + r) / 2 = m at *
      generalize data[m] = e at *
      simp only
      by_cases hg : gt e = true
      · rw [if_pos hg]
        refine ih l m (by omega) (by omega) (by omega) hl ?_ hs
        intro i ei hi1 hi2 hi3
        exact mono m i e ei hi1 hi2 hme hi3 hg
      · rw [if_neg hg]
        have hgf : gt e = false := by simpa using hg
        by_cases hst : stop e = true
        · rw [if_pos hst]
          exact Or.inr ⟨rfl, m, e, by omega, hme, hst, hgf⟩
        · rw [if_neg hst]
          refine ih (m + 1) r (by omega) (by omega) h3 ?_ hr ?_
          · intro i ei hi1 hi2
            cases hgi : gt ei with
            | false => rfl
            | true => rw [mono i m ei e (by omega) (by omega) hi2 hme hgi] at hgf; cases hgf
          · intro _
            exact ⟨e, by simpa using hme, by simpa using hst⟩
    · rw [if_neg hlr]
      have : l = r := by omega
      subst this
      exact Or.inl ⟨l, rfl, h3, hl, hr, hs⟩

theorem insertAt_spec {α : Type} {data : List α} {lo size : Nat} (x : α) (h1 : lo ≤ size) (h2 : size < data.length) :
    ∃ d', insertAt data lo size x = some d' ∧ d'.length = data.length ∧
      ∀ n, n ≤ size + 1 → d'.take n = ((data.take size).take lo ++ x :: (data.take size).drop lo).take n := by
  unfold insertAt
  rw [if_pos ⟨h1, h2⟩]
  refine ⟨_, rfl, ?_, ?_⟩
  · simp; omega
  · intro n hn
    have e1 : (data.take size).take lo = data.take lo := by rw [List.take_take]; congr 1; omega
    have e2 : (data.take size).drop lo = (data.drop lo).take (size - lo) := by rw [List.drop_take]
    rw [e1, e2]
    have hl : (data.take lo ++ x :: (data.drop lo).take (size - lo)).length = size + 1 := by simp; omega
    have : data.take lo ++ (x :: (data.drop lo).take (size - lo) ++ data.drop (size + 1)) =
        (data.take lo ++ x :: (data.drop lo).take (size - lo)) ++ data.drop (size + 1) := by simp
    rw [this, List.take_append_of_le_length (by omega)]

theorem skip_spec {α : Type} {data : List α} {done : α → Bool} {size : Nat} (hlen : size ≤ data.length) :
    ∀ (f cur : Nat), size - cur ≤ f → cur ≤ size →
      ∃ cur', skip data done size f cur = some cur' ∧ cur ≤ cur' ∧ cur' ≤ size ∧
        (∀ (i : Nat) (e : α), cur ≤ i → i < cur' → data[i]? = some e → done e = true) ∧
        (cur' < size → ∃ e, data[cur']? = some e ∧ done e = false) := by
  intro f
  induction f with
  | zero =>
    intro cur h1 h2
    exact ⟨cur, rfl, Nat.le_refl _, h2, fun i e a b => by omega, fun h => by omega⟩
  | succ f ih =>
    intro cur h1 h2
    unfold skip
    by_cases hc : cur < size
    · rw [if_pos hc, List.getElem?_eq_getElem (by omega)]
      simp only
      by_cases hd : done data[cur] = true
      · rw [if_pos hd]
        obtain ⟨c', e1, e2, e3, e4, e5⟩ := ih (cur + 1) (by omega) (by omega)
        refine ⟨c', e1, by omega, e3, ?_, e5⟩
        intro i e hi1 hi2 hi3
        by_cases hic : i = cur
        · subst hic
          rw [List.getElem?_eq_getElem (by omega)] at hi3
          cases hi3; exact hd
        · exact e4 i e (by omega) hi2 hi3
      · rw [if_neg hd]
        exact ⟨cur, rfl, Nat.le_refl _, h2, fun i e a b => by omega,
          fun h => ⟨_, List.getElem?_eq_getElem (by omega), by simpa using hd⟩⟩
    · rw [if_neg hc]
      exact ⟨cur, rfl, Nat.le_refl _, h2, fun i e a b => by omega, fun h => by omega⟩

/-- The cursor is the first entry that is not done. -/
def CurOk {α : Type} (done : α → Bool) (c : List α) (cur : Nat) : Prop :=
  cur ≤ c.length ∧ (∀ (i : Nat) (e : α), i < cur → c[i]? = some e → done e = true) ∧
    (∀ e, c[cur]? = some e → done e = false)

theorem CurOk.insert {α : Type} {done : α → Bool} {c : List α} {cur lo n : Nat} {x : α} (h : CurOk done c cur)
    (hx : done x = false) (hlo : lo ≤ c.length) (hn : lo < n) (hn2 : n ≤ c.length + 1) (hn3 : c.length ≤ n) :
    CurOk done ((c.take lo ++ x :: c.drop lo).take n) (if lo < cur then lo else cur) := by
  obtain ⟨h1, h2, h3⟩ := h
  have hlen : ((c.take lo ++ x :: c.drop lo).take n).length = n := by simp; omega
  have hget : ∀ i : Nat, i < n → ((c.take lo ++ x :: c.drop lo).take n)[i]? =
      if i < lo then c[i]? else if i = lo then some x else c[i - 1]? := by
    intro i hi
    rw [List.getElem?_take, if_pos hi, List.getElem?_append]
    have : (c.take lo).length = lo := by simp; omega
    rw [this]
    by_cases hil : i < lo
    · rw [if_pos hil, if_pos hil, List.getElem?_take, if_pos hil]
    · rw [if_neg hil, if_neg hil]
      by_cases hie : i = lo
      · subst hie; simp
      · rw [if_neg hie]
        have e : i - lo = (i - lo - 1) + 1 := by omega
        rw [e, List.getElem?_cons_succ, List.getElem?_drop]
        congr 1; omega
  by_cases hlc : lo < cur
  · rw [if_pos hlc]
    refine ⟨by omega, ?_, ?_⟩
    · intro i e hi he
      rw [hget i (by omega), if_pos hi] at he
      exact h2 i e (by omega) he
    · intro e he
      rw [hget lo hn, if_neg (by omega), if_pos rfl] at he
      cases he; exact hx
  · rw [if_neg hlc]
    refine ⟨by omega, ?_, ?_⟩
    · intro i e hi he
      rw [hget i (by omega), if_pos (by omega)] at he
      exact h2 i e (by omega) he
    · intro e he
      have hcn : cur < n := by omega
      rw [hget cur hcn] at he
      split at he
      · exact h3 e he
      · split at he
        · cases he; exact hx
        · omega

theorem Best.insert {α : Type} {le : α → α → Prop} (htr : ∀ a b c, le a b → le b c → le a c) {cap : Nat} {c off : List α}
    (h : Best le cap c off) {lo : Nat} {x : α} (h1 : ∀ e ∈ c.take lo, le e x) (h2 : ∀ e ∈ c.drop lo, le x e) :
    Best le cap ((c.take lo ++ x :: c.drop lo).take cap) (off ++ [x]) := by
  obtain ⟨hs, hl, rest, hp, hr⟩ := h
  have hcs : (c.take lo ++ x :: c.drop lo).Pairwise le := by
    have hs' : (c.take lo ++ c.drop lo).Pairwise le := by rw [List.take_append_drop]; exact hs
    rw [List.pairwise_append] at hs' ⊢
    refine ⟨hs'.1, List.pairwise_cons.mpr ⟨h2, hs'.2.1⟩, ?_⟩
    intro a ha b hb
    rcases List.mem_cons.mp hb with rfl | hb
    · exact h1 a ha
    · exact hs'.2.2 a ha b hb
  have hperm : (c.take lo ++ x :: c.drop lo).Perm (x :: c) := by
    have := List.perm_middle (a := x) (l₁ := c.take lo) (l₂ := c.drop lo)
    rwa [List.take_append_drop] at this
  have hlen : (c.take lo ++ x :: c.drop lo).length = c.length + 1 := hperm.length_eq
  have hpl : off.length = c.length + rest.length := by rw [hp.length_eq]; simp
  generalize hsdef : c.take lo ++ x :: c.drop lo = s at *
  refine ⟨hcs.sublist (List.take_sublist _ _), by simp; omega, s.drop cap ++ rest, ?_, ?_⟩
  · have e : s.take cap ++ (s.drop cap ++ rest) = s ++ rest := by
      rw [← List.append_assoc, List.take_append_drop]
    rw [e]
    refine (hp.append_right [x]).trans ?_
    refine List.Perm.trans ?_ (hperm.symm.append_right rest)
    exact List.perm_append_singleton x (c ++ rest)
  · intro r hrm e he
    rcases List.mem_append.mp hrm with hrm | hrm
    · have hs2 : (s.take cap ++ s.drop cap).Pairwise le := by rw [List.take_append_drop]; exact hcs
      exact (List.pairwise_append.mp hs2).2.2 e he r hrm
    · have hrl : 0 < rest.length := List.length_pos_of_mem hrm
      have hcl : c.length = cap := by omega
      have hes : e ∈ s := List.mem_of_mem_take he
      rcases List.mem_cons.mp (hperm.mem_iff.mp hes) with hex | hec
      · by_cases hd : c.drop lo = []
        · have hlo : c.length ≤ lo := by simpa using hd
          have : s.take cap = c := by
            rw [← hsdef, hd, List.take_of_length_le hlo, ← hcl, List.take_left]
          rw [this] at he
          exact hr r hrm e he
        · obtain ⟨m, hm⟩ := List.exists_mem_of_ne_nil _ hd
          rw [hex]
          exact htr _ _ _ (h2 m hm) (hr r hrm m (List.mem_of_mem_drop hm))
      · exact hr r hrm e hec

theorem Best.refuse {α : Type} {le : α → α → Prop} {cap : Nat} {c off : List α}
    (h : Best le cap c off) {x : α} (hfull : c.length = cap) (h1 : ∀ e ∈ c, le e x) : Best le cap c (off ++ [x]) := by
  obtain ⟨hs, hl, rest, hp, hr⟩ := h
  refine ⟨hs, by simp; omega, rest ++ [x], ?_, ?_⟩
  · rw [← List.append_assoc]; exact hp.append_right [x]
  · intro r hrm e he
    rcases List.mem_append.mp hrm with hrm | hrm
    · exact hr r hrm e he
    · simp at hrm; subst hrm; exact h1 e he

theorem Best.nil {α : Type} {le : α → α → Prop} {cap : Nat} : Best le cap [] [] :=
  ⟨List.Pairwise.nil, by simp, [], by simp, by simp⟩

theorem Best.mem {α : Type} {le : α → α → Prop} {cap : Nat} {c off : List α} (h : Best le cap c off) {e : α} (he : e ∈ c) :
    e ∈ off := by
  obtain ⟨_, _, rest, hp, _⟩ := h
  exact hp.mem_iff.mpr (by simp [he])

end Alaya.Pools
